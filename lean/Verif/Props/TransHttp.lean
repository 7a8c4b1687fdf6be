import Verif.Model.TransHttp
import Verif.Proofs.TunnelAnswer
import Verif.Proofs.WorldAsk
/-! Property C106: where the requests of an HTTP visitor of the tunnel go. -/
namespace Wm.TransHttp
open Wm Wm.Config Wm.Helper

/-- `m` is the last of the mappings with domain `host` -/
def LastOfDomain (ms : List MappingConfig) (host : Text) (m : MappingConfig) : Prop :=
  ∃ pre post, ms = pre ++ m :: post ∧ m.domain = host ∧ ∀ x ∈ post, x.domain ≠ host

theorem pickDomain_snoc (ms : List MappingConfig) (m host) :
    pickDomain (ms ++ [m]) host = if m.domain == host then some m else pickDomain ms host := by
  simp [pickDomain]

theorem pickDomain_some (ms : List MappingConfig) (host : Text) (m : MappingConfig) :
    pickDomain ms host = some m ↔ LastOfDomain ms host m := by
  induction ms using List.reverseRecOn with
  | nil =>
    constructor
    · intro h; cases h
    · rintro ⟨pre, post, h, _⟩; cases pre <;> cases h
  | append_singleton ms x ih =>
    rw [pickDomain_snoc]
    by_cases hx : x.domain = host
    · rw [if_pos (by simpa using hx)]
      constructor
      · intro h; injection h with h; subst h; exact ⟨ms, [], rfl, hx, by simp⟩
      · rintro ⟨pre, post, h, h1, h2⟩
        rcases List.eq_nil_or_concat post with rfl | ⟨l, a, rfl⟩
        · have := List.append_inj' h rfl
          simp at this
          rw [this.2]
        · rw [List.concat_eq_append, ← List.cons_append, ← List.append_assoc] at h
          have := List.append_inj' h rfl
          simp only [List.cons.injEq, and_true] at this
          exact absurd (this.2 ▸ hx) (h2 a (by simp))
    · rw [if_neg (by simpa using hx), ih]
      constructor
      · rintro ⟨pre, post, h, h1, h2⟩
        refine ⟨pre, post ++ [x], by simp [h], h1, ?_⟩
        intro y hy
        rcases List.mem_append.1 hy with hy | hy
        · exact h2 y hy
        · rw [List.mem_singleton.1 hy]; exact hx
      · rintro ⟨pre, post, h, h1, h2⟩
        rcases List.eq_nil_or_concat post with rfl | ⟨l, a, rfl⟩
        · have := List.append_inj' h rfl
          simp at this
          exact absurd (this.2 ▸ h1) hx
        · rw [List.concat_eq_append, ← List.cons_append, ← List.append_assoc] at h
          have := List.append_inj' h rfl
          exact ⟨pre, l, this.1, h1, fun y hy => h2 y (by simp [hy])⟩

theorem pickDomain_none (ms : List MappingConfig) (host : Text) :
    pickDomain ms host = none ↔ ∀ m ∈ ms, m.domain ≠ host := by
  induction ms using List.reverseRecOn with
  | nil => simp [pickDomain]
  | append_singleton ms x ih =>
    rw [pickDomain_snoc]
    by_cases hx : x.domain = host
    · rw [if_pos (by simpa using hx)]
      constructor
      · intro h; cases h
      · intro h; exact absurd hx (h x (by simp))
    · rw [if_neg (by simpa using hx), ih]
      constructor
      · intro h m hm
        rcases List.mem_append.1 hm with hm | hm
        · exact h m hm
        · rw [List.mem_singleton.1 hm]; exact hx
      · intro h m hm; exact h m (by simp [hm])

/-- The rules of a mapping as header rules: each is for the request exactly if it is marked so, and adds, removes, sets if
    missing, or replaces, as it says. -/
def rulesOf (m : MappingConfig) : List HeaderRule :=
  m.headers.map fun h => match h with
    | ⟨.add, p, k, v⟩ => ⟨.add, p, k, v⟩
    | ⟨.del, p, k, v⟩ => ⟨.del, p, k, v⟩
    | ⟨.default, p, k, v⟩ => ⟨.default, p, k, v⟩
    | ⟨.replace, p, k, v⟩ => ⟨.replace, p, k, v⟩

theorem ruleOf_rulesOf (m : MappingConfig) : m.headers.map ruleOf = rulesOf m := by
  refine List.map_congr_left fun h _ => ?_
  obtain ⟨o, p, k, v⟩ := h
  cases o <;> rfl

/-- the request with the mapping's rules for requests applied -/
def ruled (w : Headers) (m : MappingConfig) (req : Request) : Request :=
  { req with headers := rewriteAll w true (rulesOf m) req.headers }

/-- the response with the mapping's rules for responses applied -/
def ruledBack (w : Headers) (m : MappingConfig) (r : Response) : Response :=
  { r with headers := rewriteAll w false (rulesOf m) r.headers }

/-- **C106**, partial (the first request of a connection): if the client has a mapping for the request's host, one stream is
    announced to the client, for this host, and the request goes over it with the header rules of the last mapping for the
    host; the service's answer comes back with the same mapping's rules. If there is no mapping, nothing is announced and the
    visitor gets the notice. Missing: later requests, see below. -/
theorem C106_first_partial (w : Headers) (ms : List MappingConfig) (req : Request) (reply : Reply) :
    (∀ m, LastOfDomain ms (req.host.getD []) m →
      (∀ r, reply = .answer r → ∃ s, operate w ms init req reply = (s, .served (ruledBack w m r)) ∧
        s.trace = [.announced (req.host.getD []), .passed (ruled w m req)]) ∧
      (reply = .nothing → ∃ s, operate w ms init req reply = (s, .notice 200) ∧
        s.trace = [.announced (req.host.getD []), .passed (ruled w m req)])) ∧
    ((∀ m ∈ ms, m.domain ≠ req.host.getD []) → ∃ s, operate w ms init req reply = (s, .notice 200) ∧ s.trace = []) := by
  refine ⟨?_, ?_⟩
  · intro m hm
    rw [← pickDomain_some] at hm
    refine ⟨?_, ?_⟩
    · rintro r rfl
      exact ⟨⟨false, some m, [.announced (req.host.getD []), .passed (ruled w m req)]⟩,
        by simp [operate, init, hm, pass, ruledBack, ruled, ruleOf_rulesOf], rfl⟩
    · rintro rfl
      exact ⟨⟨false, some m, [.announced (req.host.getD []), .passed (ruled w m req)]⟩,
        by simp [operate, init, hm, pass, ruled, ruleOf_rulesOf], rfl⟩
  · intro h
    rw [← pickDomain_none] at h
    exact ⟨⟨false, none, []⟩, by simp [operate, init, h], rfl⟩

/-- the requests handed to the stream -/
def passed (t : List Ev) : List Request := t.filterMap fun | .passed r => some r | _ => none

/-- the streams announced -/
def announced (t : List Ev) : List Text := t.filterMap fun | .announced h => some h | _ => none

theorem pass_fresh (w : Headers) (s : St) (req reply) :
    (pass w s req reply).1.fresh = s.fresh ∧ (pass w s req reply).1.map = s.map := by
  unfold pass
  split
  · exact ⟨rfl, rfl⟩
  · split <;> exact ⟨rfl, rfl⟩

/-- what is passed on while the mapping is fixed -/
theorem run_fixed (w : Headers) (m : MappingConfig) (s : St) (hs : s.fresh = false) (hm : s.map = some m)
    (l : List (List MappingConfig × Request × Reply)) :
    (run w s l).1.trace = s.trace ++ (l.filter (fun x => x.2.2 ≠ .gone)).map (fun x => .passed (ruled w m x.2.1)) ∧
    (run w s l).2 = l.map (fun x => match x.2.2 with
      | .gone => .err
      | .answer r => .served (ruledBack w m r)
      | .nothing => .notice 200) := by
  induction l generalizing s with
  | nil => simp [run]
  | cons x l ih =>
    obtain ⟨ms, req, reply⟩ := x
    have hop : operate w ms s req reply = pass w s req reply := by
      unfold operate
      simp only [hs, Bool.false_eq_true, if_false]
      congr 1
      cases s; simp_all
    simp only [run, hop]
    have hp := pass_fresh w s req reply
    have := ih (pass w s req reply).1 (by rw [hp.1, hs]) (by rw [hp.2, hm])
    rw [this.1, this.2]
    cases reply <;> simp [pass, hm, ruled, ruledBack, ruleOf_rulesOf]

theorem run_dead (w : Headers) (s : St) (hs : s.fresh = false) (hm : s.map = none)
    (l : List (List MappingConfig × Request × Reply)) :
    (run w s l).1.trace = s.trace ∧ ∀ o ∈ (run w s l).2, o = .notice 200 := by
  induction l generalizing s with
  | nil => simp [run]
  | cons x l ih =>
    obtain ⟨ms, req, reply⟩ := x
    have hop : operate w ms s req reply = (s, .notice 200) := by
      unfold operate
      simp only [hs, Bool.false_eq_true, if_false]
      simp only [pass, hm]
      congr 1
      cases s; simp_all
    simp only [run, hop]
    have := ih s hs hm
    refine ⟨this.1, ?_⟩
    intro o ho
    rcases List.mem_cons.1 ho with rfl | ho
    · rfl
    · exact this.2 o ho

theorem run_first (w : Headers) (m : MappingConfig) (ms : List MappingConfig) (req : Request) (reply : Reply)
    (hm : LastOfDomain ms (req.host.getD []) m) (l : List (List MappingConfig × Request × Reply)) :
    let all := (ms, req, reply) :: l
    (run w init all).1.trace = .announced (req.host.getD []) ::
      (all.filter (fun x => x.2.2 ≠ .gone)).map (fun x => .passed (ruled w m x.2.1)) ∧
    (run w init all).2 = all.map (fun x => match x.2.2 with
      | .gone => .err
      | .answer r => .served (ruledBack w m r)
      | .nothing => .notice 200) := by
  rw [← pickDomain_some] at hm
  have h1 : operate w ms init req reply
      = operate w ms ⟨false, some m, [.announced (req.host.getD [])]⟩ req reply := by
    simp [operate, init, hm]
  have h2 := run_fixed w m ⟨false, some m, [.announced (req.host.getD [])]⟩ rfl rfl ((ms, req, reply) :: l)
  have h3 : run w init ((ms, req, reply) :: l)
      = run w ⟨false, some m, [.announced (req.host.getD [])]⟩ ((ms, req, reply) :: l) := by
    simp only [run, h1]
  intro all
  rw [show run w init all = _ from h3]
  exact h2

/-- **C106** fails for later requests: everything a visitor asks for on one connection goes to the service of the host of the
    first request, with its header rules — whatever hosts the later requests name, and whatever mappings there are for them.
    One stream is announced, for the first host, and nothing else. -/
theorem C106_later_requests_fails (w : Headers) (ms : List MappingConfig) (req : Request) (reply : Reply)
    (m : MappingConfig) (hm : LastOfDomain ms (req.host.getD []) m) (l : List (List MappingConfig × Request × Reply))
    (hl : ∀ x ∈ (ms, req, reply) :: l, x.2.2 ≠ .gone) :
    announced (run w init ((ms, req, reply) :: l)).1.trace = [req.host.getD []] ∧
    passed (run w init ((ms, req, reply) :: l)).1.trace = ((ms, req, reply) :: l).map (fun x => ruled w m x.2.1) := by
  obtain ⟨h1, -⟩ := run_first w m ms req reply hm l
  have hf : ((ms, req, reply) :: l).filter (fun x => decide (x.2.2 ≠ .gone)) = (ms, req, reply) :: l :=
    List.filter_eq_self.2 fun x hx => by simpa using hl x hx
  rw [h1, hf]
  constructor
  · simp [announced, List.filterMap_map]
  · have : ∀ l : List (List MappingConfig × Request × Reply),
        l.filterMap (fun x => some (ruled w m x.2.1)) = l.map (fun x => ruled w m x.2.1) := by
      intro l; induction l <;> simp_all
    simp only [passed, List.filterMap_cons, List.filterMap_map, Function.comp_def]
    exact this ((ms, req, reply) :: l)

/-- **C106** fails after a mistake: if the host of the first request has no mapping, no later request of the connection is
    served, whatever host it names: all get the notice. -/
theorem C106_unknown_first_fails (w : Headers) (ms : List MappingConfig) (req : Request) (reply : Reply)
    (hm : ∀ m ∈ ms, m.domain ≠ req.host.getD []) (l : List (List MappingConfig × Request × Reply)) :
    (run w init ((ms, req, reply) :: l)).1.trace = [] ∧
    ∀ o ∈ (run w init ((ms, req, reply) :: l)).2, o = .notice 200 := by
  rw [← pickDomain_none] at hm
  have h1 : operate w ms init req reply = (⟨false, none, []⟩, .notice 200) := by
    simp [operate, init, hm]
  simp only [run, h1]
  have := run_dead w ⟨false, none, []⟩ rfl rfl l
  refine ⟨this.1, ?_⟩
  intro o ho
  rcases List.mem_cons.1 ho with rfl | ho
  · rfl
  · exact this.2 o ho

/-- **C106**, partial (a whole connection): if all requests name the same host, each of them goes over the stream announced for
    this host, in order and once, with the rules of its mapping, and each gets the service's answer to it with the rules
    applied, or the notice if the service gave none. -/
theorem C106_same_host_partial (w : Headers) (host : Text) (m : MappingConfig)
    (l : List (List MappingConfig × Request × Reply)) (hne : l ≠ [])
    (hm : ∀ x ∈ l, LastOfDomain x.1 host m) (hh : ∀ x ∈ l, x.2.1.host.getD [] = host) (hl : ∀ x ∈ l, x.2.2 ≠ .gone) :
    (run w init l).1.trace = .announced host :: l.map (fun x => .passed (ruled w m x.2.1)) ∧
    (run w init l).2 = l.map (fun x => match x.2.2 with
      | .answer r => .served (ruledBack w m r)
      | _ => .notice 200) := by
  cases l with
  | nil => exact absurd rfl hne
  | cons x l =>
    obtain ⟨ms, req, reply⟩ := x
    have hreq := hh _ (List.mem_cons_self ..)
    dsimp only at hreq
    have h := run_first w m ms req reply (by rw [hreq]; exact hm _ (List.mem_cons_self ..)) l
    have hf : ((ms, req, reply) :: l).filter (fun x => decide (x.2.2 ≠ .gone)) = (ms, req, reply) :: l :=
      List.filter_eq_self.2 fun x hx => by simpa using hl x hx
    dsimp only at h
    rw [hf, hreq] at h
    refine ⟨h.1, h.2.trans ?_⟩
    refine List.map_congr_left ?_
    intro x hx
    have := hl x hx
    cases hx2 : x.2.2 with
    | gone => exact absurd hx2 this
    | answer r => rfl
    | nothing => rfl

/-- **C106**, partial (the service): the client connects the stream announced for `host` to the service of the last mapping with
    this domain or name. If no other mapping has the name, this is the mapping whose rules the server applies. -/
theorem C106_service_partial (ms : List MappingConfig) (host : Text) (m : MappingConfig)
    (hm : LastOfDomain (ms.map World.bare) host m) (hname : ∀ x ∈ ms, x.name = host → x.domain = host) :
    ∃ m', Tunnel.LastMatch ms host m' ∧ World.bare m' = m := by
  obtain ⟨pre, post, h, h1, h2⟩ := hm
  obtain ⟨pre', rest, rfl, rfl, hr⟩ := List.map_eq_append_iff.1 h
  obtain ⟨m', post', rfl, rfl, rfl⟩ := List.map_eq_cons_iff.1 hr
  refine ⟨m', ⟨pre', post', rfl, .inl h1, ?_⟩, rfl⟩
  intro x hx
  have hd : x.domain ≠ host := h2 (World.bare x) (List.mem_map_of_mem hx)
  exact ⟨hd, fun hn => hd (hname x (by simp [hx]) hn)⟩

/-- **C106** fails when a mapping's name is another one's domain: the request gets the header rules of the one and goes to the
    service of the other. For all mappings `a`, `b`. -/
theorem C106_other_service_fails (ms : List MappingConfig) (a b : MappingConfig) (hb : b.name = a.domain)
    (hd : b.domain ≠ a.domain) :
    LastOfDomain ((ms ++ [a, b]).map World.bare) a.domain (World.bare a) ∧
    Tunnel.LastMatch (ms ++ [a, b]) a.domain b := by
  refine ⟨⟨ms.map World.bare, [World.bare b], by simp, rfl, ?_⟩, ⟨ms ++ [a], [], by simp, .inr hb, by simp⟩⟩
  intro x hx
  rw [List.mem_singleton.1 hx]
  exact hd

/-- **C106** fails for requests without host, and for modes: such a request goes to the last mapping without domain, though this is
    a mapping for plain TCP (or any other mode). -/
theorem C106_no_host_fails (w : Headers) (ms : List MappingConfig) (m : MappingConfig) (hm : m.domain = [])
    (req : Request) (hr : req.host = none) (r : Response) :
    ∃ s, operate w (ms ++ [m]) init req (.answer r) = (s, .served (ruledBack w m r)) ∧
      s.trace = [.announced [], .passed (ruled w m req)] := by
  have := ((C106_first_partial w (ms ++ [m]) req (.answer r)).1 m
    ⟨ms, [], by simp, by rw [hr]; exact hm, by simp⟩).1 r rfl
  rw [hr] at this
  exact this

/-! concrete cases -/

def plainHeaders : Headers where
  same a b := a == b
  remove k h := h.filter (fun e => !(k == e.1))
  conv _ v := v
  same_refl := by simp
  same_symm a b := by simp [BEq.comm]
  same_trans a b c h1 h2 := by simp_all
  remove_others k h := by simp [List.filter_filter]
  remove_all k h e he := by simpa using (List.mem_filter.1 he).2

def mapA : MappingConfig := ⟨"a".toList, "http".toList, none, "a.x".toList, [⟨.add, true, "k".toList, "v".toList⟩]⟩
def mapB : MappingConfig := ⟨"b".toList, "http".toList, none, "b.x".toList, []⟩
def reqFor (h : String) : Request := ⟨some h.toList, [], [1]⟩

example : LastOfDomain [mapA, mapB] "a.x".toList mapA := ⟨[], [mapB], rfl, rfl, by decide⟩

/-- the second request names another host, for which there is a mapping, and goes to the first one's service -/
example : run plainHeaders init [([mapA, mapB], reqFor "a.x", .answer ⟨200, [], [7]⟩),
      ([mapA, mapB], reqFor "b.x", .answer ⟨200, [], [8]⟩)]
    = (⟨false, some mapA, [.announced "a.x".toList, .passed ⟨some "a.x".toList, [("k".toList, "v".toList)], [1]⟩,
        .passed ⟨some "b.x".toList, [("k".toList, "v".toList)], [1]⟩]⟩,
      [.served ⟨200, [], [7]⟩, .served ⟨200, [], [8]⟩]) := by decide +kernel

/-- the first request names an unknown host -/
example : (run plainHeaders init [([mapA], reqFor "c.x", .nothing), ([mapA], reqFor "a.x", .answer ⟨200, [], [8]⟩)]).2
    = [.notice 200, .notice 200] := by decide +kernel

end Wm.TransHttp
