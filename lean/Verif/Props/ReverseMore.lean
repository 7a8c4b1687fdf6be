import Verif.Props.Reverse
import Mathlib.Tactic.Tauto
/-! Properties C45 (the request reaches its location), C46 (the limit decides) and C96 (the answer of a try list). -/
namespace Wm.Reverse
open Wm Wm.Config Wm.Helper

variable {W : Type}

theorem access_of_admitted {env : Env W} {l : Loc} {req : Req} (h : Admitted env l req.clientIp) :
    access env l req = .pass := by
  unfold access
  split
  · rename_i hs
    cases ht : req.clientIp with
    | none => rfl
    | some t =>
      obtain ⟨ip, hip, ha, hd⟩ := h t ht (by
        rcases Bool.or_eq_true _ _ ▸ hs with hs | hs
        · exact .inr hs
        · exact .inl hs)
      simp only [hip]
      rw [if_neg, if_neg]
      · cases hden : l.deny with
        | none => simp
        | some gs =>
          simp only [Option.elim]
          intro hc
          obtain ⟨g, hg, hgc⟩ := (containsAny_iff gs ip).1 hc
          rw [hd gs hden g hg] at hgc
          cases hgc
      · cases hal : l.allow with
        | none => simp
        | some gs =>
          simp only [Option.elim, Bool.not_eq_true', Bool.not_eq_false]
          exact (containsAny_iff gs ip).2 (ha gs hal)
  · rfl

/-- what the limit of a location says to a request: the decision and the state of the limits afterwards; none is asked
    without a limit or without a client address -/
def asks (env : Env W) (l : Loc) (req : Req) (w : W) : Option (Limit.Decision × W) :=
  match l.limit, req.clientIp with
  | some (zone, burst), some ip => some (env.limit w zone ip burst)
  | _, _ => none

theorem limitStep_asks (env : Env W) (i : Nat) (l : Loc) (req : Req) (s : St W)
    (hlim : ∀ d, asks env l req s.world = some d → d.1 ≠ .refuse) :
    limitStep env i l req s = ({ s with
      world := ((asks env l req s.world).map (·.2)).getD s.world,
      trace := s.trace ++ ((asks env l req s.world).map (fun d => Ev.limited i d.1)).toList }, none) := by
  unfold limitStep
  unfold asks at hlim ⊢
  cases hl : l.limit with
  | none => simp
  | some p =>
    obtain ⟨zone, burst⟩ := p
    cases hcl : req.clientIp with
    | none => simp
    | some ip =>
      rw [hl, hcl] at hlim
      have := hlim _ rfl
      simp [this]

/-- **C45** (the request gets there) If `l` is the first location that accepts the request, has a handler and no try list,
    admits the client's address, and its limit (asked with its zone, the client's address and its burst) does not refuse,
    then exactly its handler gets the request, as it is and once, and the client gets the handler's answer (for a proxied
    location with the header rules applied, see C66). -/
theorem C45_handled (env : Env W) (servers : List Server) (w : W) (cache : List (Rule × Option Text × Option Text))
    (req : Req) (srv : Server) (hsrv : selectServer (req.host.getD []) servers = some srv) (i : Nat) (l : Loc)
    (hfirst : IsFirst env srv.locs req i l) (hnt : l.tryPaths = none) (hk : l.kind ≠ .nothing) (hc : l.key ∉ cache)
    (hadm : Admitted env l req.clientIp) (hlim : ∀ d, asks env l req w = some d → d.1 ≠ .refuse) :
    ∃ s' o w', operate env servers w cache req = some (s', o) ∧
      w' = ((asks env l req w).map (·.2)).getD w ∧
      s'.trace = ((asks env l req w).map (fun d => Ev.limited i d.1)).toList ++ [.handled i req false] ∧
      s'.world = (env.fresh w' i req).2 ∧
      (∀ a, (env.fresh w' i req).1 = some a → l.kind = .plain → o = .resp a) ∧
      (∀ a, (env.fresh w' i req).1 = some a → l.kind = .proxy →
        o = .resp { a with headers := rewriteAll env.hdr false l.headers a.headers }) ∧
      ((env.fresh w' i req).1 = none → o = .err) := by
  have hacc := access_of_admitted hadm
  have hstep := limitStep_asks env i l req ⟨w, cache, [], [], [], req⟩ hlim
  simp only [List.nil_append] at hstep
  unfold operate
  rw [hsrv]
  simp only [dealMatch, findLoc_of_first hfirst, hstep, hacc, hnt]
  generalize hw' : ((asks env l req w).map (·.2)).getD w = w'
  have hcc : cache.contains l.key = false := by simpa using hc
  simp only [handle, hcc, Bool.false_eq_true, if_false, hk]
  cases hf : (env.fresh w' i req).1 with
  | none =>
    refine ⟨_, _, w', rfl, rfl, rfl, rfl, ?_, ?_, fun _ => rfl⟩ <;> intro a h <;> rw [hf] at h <;> cases h
  | some a =>
    simp only
    by_cases hp : l.kind = .proxy
    · rw [if_pos hp]
      refine ⟨_, _, w', rfl, rfl, rfl, rfl, ?_, ?_, ?_⟩
      · intro a' _ hpl; rw [hp] at hpl; cases hpl
      · intro a' h _; rw [hf] at h; injection h with h; rw [h]
      · intro h; rw [hf] at h; cases h
    · rw [if_neg hp]
      refine ⟨_, _, w', rfl, rfl, rfl, rfl, ?_, ?_, ?_⟩
      · intro a' h _; rw [hf] at h; injection h with h; rw [h]
      · intro a' _ hpr; exact absurd hpr hp
      · intro h; rw [hf] at h; cases h

/-- **C46** (the limit decides) If the limit of the first location that accepts the request, asked with its zone, the
    client's address and its burst, refuses, then no handler gets the request and no upstream server hears of it. -/
theorem C46_limit_refuses (env : Env W) (servers : List Server) (w : W) (cache : List (Rule × Option Text × Option Text))
    (req : Req) (srv : Server) (hsrv : selectServer (req.host.getD []) servers = some srv) (i : Nat) (l : Loc)
    (hfirst : IsFirst env srv.locs req i l) (zone ip : Text) (burst : Nat) (hl : l.limit = some (zone, burst))
    (hip : req.clientIp = some ip) (hd : (env.limit w zone ip burst).1 = .refuse) :
    ∃ s' o, operate env servers w cache req = some (s', o) ∧ s'.trace = [.limited i .refuse] ∧
      s'.world = (env.limit w zone ip burst).2 := by
  unfold operate
  rw [hsrv]
  simp only [dealMatch, findLoc_of_first hfirst, limitStep, hl, hip, hd, if_true]
  exact ⟨_, _, rfl, rfl, rfl⟩

/-- **C46** (turned away) If the first location that accepts the request does not let the client's address in, no handler gets the
    request, whatever the location's limit and its try list; and unless the limit refuses first the answer is 503. -/
theorem C46_turned_away (env : Env W) (servers : List Server) (w : W) (cache : List (Rule × Option Text × Option Text))
    (req : Req) (srv : Server) (hsrv : selectServer (req.host.getD []) servers = some srv) (i : Nat) (l : Loc)
    (hfirst : IsFirst env srv.locs req i l) (t : Text) (ht : req.clientIp = some t) (ip : Ip)
    (hip : env.parseIp t = some ip)
    (hrefuse : (∃ gs, l.allow = some gs ∧ ∀ g ∈ gs, g.contains ip = false) ∨
      (∃ gs, l.deny = some gs ∧ ∃ g ∈ gs, g.contains ip = true)) :
    ∃ s' o, operate env servers w cache req = some (s', o) ∧ (∀ j r k, .handled j r k ∉ s'.trace) ∧
      ((∀ zone burst, l.limit = some (zone, burst) → (env.limit w zone t burst).1 ≠ .refuse) → o = .resp ⟨503, []⟩) := by
  have hacc : access env l req = .refuse := access_refuse ht hip hrefuse
  unfold operate
  rw [hsrv]
  cases hl : l.limit with
  | none =>
    simp only [dealMatch, findLoc_of_first hfirst, limitStep, hl, hacc]
    exact ⟨_, _, rfl, by simp, fun _ => rfl⟩
  | some p =>
    obtain ⟨zone, burst⟩ := p
    by_cases hd : (env.limit w zone t burst).1 = .refuse
    · simp only [dealMatch, findLoc_of_first hfirst, limitStep, hl, ht, hd, if_true]
      exact ⟨_, _, rfl, by simp, fun h => absurd hd (h zone burst rfl)⟩
    · simp only [dealMatch, findLoc_of_first hfirst, limitStep, hl, ht, hd, if_false, hacc]
      exact ⟨_, _, rfl, by simp, fun _ => rfl⟩

/-! ### C96: try lists -/

/-- an answer with which a try list is left -/
def Good : Out → Prop
  | .resp r => ¬ (400 ≤ r.status ∧ r.status < 600)
  | .err => False

/-- The paths of a list are requested one after the other, each as a request of its own, and none gives a good answer.
    `answers s r s' o` says that request `r` in state `s` is answered by `o`; `next s v` is the request for entry `v`. -/
inductive AllBad (answers : St W → Req → St W → Out → Prop) (next : St W → Text → Req) :
    St W → List Text → St W → Prop
  | nil (s : St W) : AllBad answers next s [] s
  | cons (s s1 s2 : St W) (v : Text) (vs : List Text) (o : Out) :
    answers s (next s v) s1 o → ¬ Good o → AllBad answers next s1 vs s2 → AllBad answers next s (v :: vs) s2

/-- the request for an entry of a try list: what the attempt before left of the request, with the path the entry gives when
    it is filled in for the original path -/
def entry (env : Env W) (path : Text) (s : St W) (v : Text) : Req :=
  { s.now with path := env.format { s.now with path := path } v }

theorem good_iff (r : Response) : Good (.resp r) ↔ isError r.status = false := by
  simp only [Good, isError, Bool.and_eq_false_iff, decide_eq_false_iff_not]
  omega

theorem tryList_spec (env : Env W) (go : St W → Req → Option (St W × Out)) (req : Req) (fs : Nat) (vs : List Text)
    (s s' : St W) (o : Out) (h : tryList env go req fs vs s = some (s', o)) :
    let answers := fun (a : St W) r b x => go { a with deals := [], now := r } r = some (b, x)
    (∃ pre v post s1, vs = pre ++ v :: post ∧ AllBad answers (entry env req.path) s pre s1 ∧
      answers s1 (entry env req.path s1 v) s' o ∧ Good o) ∨
    (AllBad answers (entry env req.path) s vs s' ∧ o = .resp ⟨fs, []⟩) := by
  intro answers
  induction vs generalizing s with
  | nil =>
    simp only [tryList, Option.some.injEq, Prod.mk.injEq] at h
    obtain ⟨rfl, rfl⟩ := h
    exact .inr ⟨.nil _, rfl⟩
  | cons v vs ih =>
    simp only [tryList] at h
    have extend : ∀ s1 o1, go { s with deals := [], now := entry env req.path s v } (entry env req.path s v) = some (s1, o1) → ¬ Good o1 →
        tryList env go req fs vs s1 = some (s', o) → (∃ pre v' post s1, v :: vs = pre ++ v' :: post ∧
          AllBad answers (entry env req.path) s pre s1 ∧ answers s1 (entry env req.path s1 v') s' o ∧ Good o) ∨
        (AllBad answers (entry env req.path) s (v :: vs) s' ∧ o = .resp ⟨fs, []⟩) := by
      intro s1 o1 hg hb ht
      rcases ih s1 ht with ⟨pre, v', post, s2, e, hall, hans, hgood⟩ | ⟨hall, ho⟩
      · exact .inl ⟨v :: pre, v', post, s2, by rw [e]; rfl, .cons _ s1 _ _ _ o1 hg hb hall, hans, hgood⟩
      · exact .inr ⟨.cons _ s1 _ _ _ o1 hg hb hall, ho⟩
    split at h
    · cases h
    · rename_i s1 r hg
      split at h
      · rename_i hb
        exact extend s1 _ hg (by rw [good_iff, hb]; simp) h
      · rename_i hb
        simp only [Option.some.injEq, Prod.mk.injEq] at h
        obtain ⟨rfl, rfl⟩ := h
        refine .inl ⟨[], v, vs, s, rfl, .nil _, hg, ?_⟩
        rw [good_iff]; simpa using hb
    · rename_i s1 hg
      exact extend s1 _ hg (by simp [Good]) h

/-- **C96** A request whose first matching location has a try list (and lets it pass) is answered by the first path of the
    list that gives an answer without error status, all paths before it having been tried in order; if there is none, by
    the list's status. Each path is requested as a request of its own (`dealMatch`), so with the location that matches it,
    that location's access rules and limit. What is requested is the client's request with the path changed, host and body
    being as the attempt before left them (C171, C172). -/
theorem C96_try_list (env : Env W) (locs : List Loc) (fuel : Nat) (s s' : St W) (req : Req) (o : Out) (i : Nat) (l : Loc)
    (hd : s.deals = []) (hfirst : IsFirst env locs req i l) (list : List Text) (status : Nat)
    (ht : l.tryPaths = some (list, status)) (hadm : Admitted env l req.clientIp)
    (hlim : ∀ d, asks env l req s.world = some d → d.1 ≠ .refuse)
    (hnew : i ∉ s.tryDeals) (h : dealMatch env locs (fuel + 1) s req = some (s', o)) :
    let answers := fun (a : St W) r b x => dealMatch env locs fuel { a with deals := [], now := r } r = some (b, x)
    let s0 := { s with
      world := ((asks env l req s.world).map (·.2)).getD s.world
      deals := []
      tryDeals := i :: s.tryDeals
      trace := s.trace ++ ((asks env l req s.world).map (fun d => Ev.limited i d.1)).toList ++ [.tries i] }
    (∃ pre v post s1, list = pre ++ v :: post ∧ AllBad answers (entry env req.path) s0 pre s1 ∧
      answers s1 (entry env req.path s1 v) s' o ∧ Good o) ∨
    (AllBad answers (entry env req.path) s0 list s' ∧ o = .resp ⟨status, []⟩) := by
  intro answers s0
  have hc : s.tryDeals.contains i = false := by simpa using hnew
  simp only [dealMatch, hd, findLoc_of_first hfirst, limitStep_asks env i l req s hlim, access_of_admitted hadm, ht, hc, Bool.false_eq_true,
    if_false] at h
  exact tryList_spec env _ req status list _ s' o h

/-! concrete cases -/

/-- a world that counts: the limit refuses the zone "f" and passes others, the handler of location 1 answers 404 -/
def countEnv : Env Nat where
  parseIp t := if t = ['x'] then some (.v4 0x0A000001#32) else none
  regex _ := none
  format _ v := v
  hdr := exactHeaders
  limit n zone _ _ := (if zone = ['f'] then .refuse else .ok, n + 1)
  fresh n i _ := (some ⟨if i = 1 then 404 else 200, []⟩, n + 10)
  left _ _ r := (r.host, false)
  reuse n _ _ := (.closed, n)

/-- `C45_handled`: the second location gets the request, its limit was asked -/
example :
    let l : Loc := { plainLoc ['/', 'b'] with limit := some (['z'], 2), allow := some [⟨.v4 0x0A000000#32, 8⟩] }
    (operate countEnv [⟨[], [plainLoc ['/', 'a'], plainLoc ['/', 'c'], l]⟩] 0 [] (demoReq ['/', 'b'] (some ['x']))).map
      (fun x => (x.1.world, x.1.trace.length, x.2)) = some (11, 2, .resp ⟨200, []⟩) := by decide +kernel

/-- `C46_limit_refuses`: a refused request reaches no handler -/
example :
    let l : Loc := { plainLoc ['/', 'b'] with limit := some (['f'], 2) }
    (operate countEnv [⟨[], [l]⟩] 0 [] (demoReq ['/', 'b'] (some ['x']))).map
      (fun x => (x.1.world, x.1.trace.length, x.2)) = some (1, 1, .resp ⟨404, []⟩) := by decide +kernel

/-- `C46_turned_away`: the limit was asked and did not refuse, the address is denied, the try list is not looked at -/
example :
    let l : Loc := { plainLoc ['/', 'b'] with limit := some (['z'], 2), deny := some [⟨.v4 0x0A000000#32, 8⟩],
                                              tryPaths := some ([['/', 'c']], 410) }
    (operate countEnv [⟨[], [plainLoc ['/', 'c'], l]⟩] 0 [] (demoReq ['/', 'b'] (some ['x']))).map
      (fun x => (x.1.world, x.1.trace.length, x.2)) = some (1, 1, .resp ⟨503, []⟩) := by decide +kernel

/-- `C96_try_list`: the first path of the list answers 404, so the second one is used -/
example :
    let a : Loc := { plainLoc ['/', 'a'] with tryPaths := some ([['/', 'b'], ['/', 'c']], 410) }
    (operate countEnv [⟨[], [a, plainLoc ['/', 'b'], plainLoc ['/', 'c']]⟩] 0 [] (demoReq ['/', 'a'] none)).map
      (fun x => (x.1.world, x.1.trace.length, x.2)) = some (20, 3, .resp ⟨200, []⟩) := by decide +kernel

/-- and with the first path alone the status of the list is the answer -/
example :
    let a : Loc := { plainLoc ['/', 'a'] with tryPaths := some ([['/', 'b']], 410) }
    (operate countEnv [⟨[], [a, plainLoc ['/', 'b'], plainLoc ['/', 'c']]⟩] 0 [] (demoReq ['/', 'a'] none)).map
      (fun x => (x.1.world, x.1.trace.length, x.2)) = some (10, 2, .resp ⟨410, []⟩) := by decide +kernel

/-- **C68** (a kept connection) The same over a kept connection of the client to the location's upstream: the request is
    sent over it once and as it is, and the answer is passed on. If the connection breaks after the request was sent, the
    client gets 503; if the upstream's answer cannot be read, an error. (If it was closed before: `C68_closed_fails`.) -/
theorem C68_kept_partial (env : Env W) (servers : List Server) (w : W) (cache : List (Rule × Option Text × Option Text))
    (req : Req) (srv : Server) (hsrv : selectServer (req.host.getD []) servers = some srv) (i : Nat) (l : Loc)
    (hfirst : IsFirst env srv.locs req i l) (hnt : l.tryPaths = none) (hc : l.key ∈ cache)
    (hadm : Admitted env l req.clientIp) (hlim : ∀ d, asks env l req w = some d → d.1 ≠ .refuse) :
    ∃ s' o w', operate env servers w cache req = some (s', o) ∧
      w' = ((asks env l req w).map (·.2)).getD w ∧ s'.world = (env.reuse w' i req).2 ∧
      ((env.reuse w' i req).1 ≠ .closed →
        s'.trace = ((asks env l req w).map (fun d => Ev.limited i d.1)).toList ++ [.handled i req true]) ∧
      (∀ a, (env.reuse w' i req).1 = .answer a → o = .resp a ∧ l.key ∈ s'.cache) ∧
      ((env.reuse w' i req).1 = .gone → o = .resp ⟨503, []⟩ ∧ l.key ∉ s'.cache) ∧
      ((env.reuse w' i req).1 = .failed → o = .err ∧ l.key ∉ s'.cache) := by
  have hacc := access_of_admitted hadm
  have hstep := limitStep_asks env i l req ⟨w, cache, [], [], [], req⟩ hlim
  simp only [List.nil_append] at hstep
  unfold operate
  rw [hsrv]
  simp only [dealMatch, findLoc_of_first hfirst, hstep, hacc, hnt]
  generalize hw' : ((asks env l req w).map (·.2)).getD w = w'
  have hcc : cache.contains l.key = true := by simpa using hc
  simp only [handle, hcc, if_true]
  cases hf : (env.reuse w' i req).1 <;> exact ⟨_, _, w', rfl, rfl, rfl, by simp [hf], by simp [hf], by simp [hf], by simp [hf]⟩

/-- the server is responsible for the host of the request -/
def Named (req : Req) (s : Server) : Prop := s.name = req.host.getD [] ∨ req.host.getD [] = []

theorem locationByReq_iff (env : Env W) (req : Req) (servers : List Server) (l : Loc) :
    locationByReq env req servers = some l ↔
      ∃ pre s post i, servers = pre ++ s :: post ∧ (Named req s ∨ post = []) ∧ IsFirst env s.locs req i l ∧
        ∀ t ∈ pre, Named req t → ∀ l' ∈ t.locs, ¬ Accepts env l'.rule req := by
  induction servers with
  | nil => simp [locationByReq]
  | cons s ss ih =>
    have hfind : ∀ l, s.locs.find? (fun l => l.isMatch env req) = some l ↔ ∃ i, IsFirst env s.locs req i l := by
      intro l
      rw [List.find?_eq_some_iff_getElem]
      constructor
      · rintro ⟨h1, i, hi, h2, h3⟩
        refine ⟨i, by rw [List.getElem?_eq_getElem hi, h2], (isMatch_iff env l req).1 h1, ?_⟩
        intro j l' hj hl' hacc
        have hjl : j < s.locs.length := by omega
        rw [List.getElem?_eq_getElem hjl] at hl'
        injection hl' with hl'
        have := h3 j hj
        rw [hl', (isMatch_iff env l' req).2 hacc] at this
        cases this
      · rintro ⟨i, h1, h2, h3⟩
        obtain ⟨hi, he⟩ := List.getElem?_eq_some_iff.1 h1
        refine ⟨(isMatch_iff env l req).2 h2, i, hi, he, ?_⟩
        intro j hj
        have hjl : j < s.locs.length := by omega
        have := h3 j _ hj (List.getElem?_eq_getElem hjl)
        rw [← isMatch_iff] at this
        simpa using this
    simp only [locationByReq]
    by_cases hcand : s.name = req.host.getD [] ∨ req.host.getD [] = [] ∨ ss = []
    · rw [if_pos hcand]
      cases hf : s.locs.find? (fun l => l.isMatch env req) with
      | some l1 =>
        simp only [Option.some.injEq]
        obtain ⟨i1, h1⟩ := (hfind l1).1 hf
        constructor
        · rintro rfl
          refine ⟨[], s, ss, i1, rfl, ?_, h1, by simp⟩
          unfold Named; tauto
        · rintro ⟨pre, t, post, i, he, hn, hfst, hpre⟩
          cases pre with
          | nil =>
            simp only [List.nil_append, List.cons.injEq] at he
            obtain ⟨rfl, rfl⟩ := he
            have := (hfind l).2 ⟨i, hfst⟩
            rw [hf] at this
            injection this
          | cons p pre =>
            simp only [List.cons_append, List.cons.injEq] at he
            obtain ⟨rfl, he⟩ := he
            exfalso
            refine hpre s (by simp) ?_ l1 (List.mem_of_getElem? h1.1) h1.2.1
            have : ss ≠ [] := by rw [he]; simp
            unfold Named; tauto
      | none =>
        simp only
        rw [ih]
        have hno : ∀ l' ∈ s.locs, ¬ Accepts env l'.rule req := by
          intro l' hl' ha
          have := List.find?_eq_none.1 hf l' hl'
          exact this ((isMatch_iff env l' req).2 ha)
        constructor
        · rintro ⟨pre, t, post, i, he, hn, hfst, hpre⟩
          refine ⟨s :: pre, t, post, i, by rw [he]; rfl, hn, hfst, ?_⟩
          intro u hu hnu
          rcases List.mem_cons.1 hu with rfl | hu
          · exact hno
          · exact hpre u hu hnu
        · rintro ⟨pre, t, post, i, he, hn, hfst, hpre⟩
          cases pre with
          | nil =>
            simp only [List.nil_append, List.cons.injEq] at he
            obtain ⟨rfl, rfl⟩ := he
            exact absurd hfst.2.1 (hno l (List.mem_of_getElem? hfst.1))
          | cons p pre =>
            simp only [List.cons_append, List.cons.injEq] at he
            exact ⟨pre, t, post, i, he.2, hn, hfst, fun u hu => hpre u (by simp [hu])⟩
    · rw [if_neg hcand, ih]
      constructor
      · rintro ⟨pre, t, post, i, he, hn, hfst, hpre⟩
        refine ⟨s :: pre, t, post, i, by rw [he]; rfl, hn, hfst, ?_⟩
        intro u hu hnu
        rcases List.mem_cons.1 hu with rfl | hu
        · exfalso; unfold Named at hnu; tauto
        · exact hpre u hu hnu
      · rintro ⟨pre, t, post, i, he, hn, hfst, hpre⟩
        cases pre with
        | nil =>
          simp only [List.nil_append, List.cons.injEq] at he
          obtain ⟨rfl, rfl⟩ := he
          exfalso; unfold Named at hn; tauto
        | cons p pre =>
          simp only [List.cons_append, List.cons.injEq] at he
          exact ⟨pre, t, post, i, he.2, hn, hfst, fun u hu => hpre u (by simp [hu])⟩

/-- **C67** (where a WebSocket goes) A WebSocket request is connected to location `l` exactly if `l` allows WebSocket and is the
    first location that accepts the request in the first server that is responsible for its host (or is the last one) and
    has such a location. -/
theorem C67_chosen_partial (env : Env W) (servers : List Server) (req : Req) (l : Loc) :
    wsOpen env servers req = some l ↔ l.isWs = true ∧
      ∃ pre s post i, servers = pre ++ s :: post ∧ (Named req s ∨ post = []) ∧ IsFirst env s.locs req i l ∧
        ∀ t ∈ pre, Named req t → ∀ l' ∈ t.locs, ¬ Accepts env l'.rule req := by
  rw [← locationByReq_iff]
  unfold wsOpen
  cases locationByReq env req servers with
  | none => simp
  | some l1 =>
    simp only [Option.some.injEq]
    constructor
    · intro h
      split at h
      · rename_i hw; injection h with h; exact ⟨h ▸ hw, h⟩
      · cases h
    · rintro ⟨hw, rfl⟩; rw [if_pos hw]

/-- a request without host goes to the first server that has a location for it, a request for another host to the last -/
example :
    let a : Loc := { plainLoc ['/', 'a'] with isWs := true }
    let b : Loc := { plainLoc ['/', 'b'] with isWs := true, tryPaths := none }
    let srv := [⟨['x'], [a]⟩, ⟨['y'], [b]⟩, ⟨['z'], [b, a]⟩]
    (wsOpen countEnv srv (demoReq ['/', 'b'] none)).isSome = true ∧
    (wsOpen countEnv srv { demoReq ['/', 'a'] none with host := some ['q'] }).isSome = true ∧
    (wsOpen countEnv srv { demoReq ['/', 'b'] none with host := some ['x'] }).isSome = true := by decide +kernel

/-! ### C46 and C65 with try lists -/

/-- **C46** fails for the status: if every path of a try list leads to a location that refuses the client's address, the client is not
    told 503 but the status of the try list. -/
theorem C46_try_status_fails (env : Env W) (servers : List Server) (w : W) (cache : List (Rule × Option Text × Option Text))
    (req : Req) (srv : Server) (hsrv : selectServer (req.host.getD []) servers = some srv) (i : Nat) (l : Loc)
    (hfirst : IsFirst env srv.locs req i l) (hlim : l.limit = none) (hadm : Admitted env l req.clientIp) (list : List Text)
    (status : Nat) (htry : l.tryPaths = some (list, status)) (t : Text) (ht : req.clientIp = some t) (ip : Ip)
    (hip : env.parseIp t = some ip)
    (hall : ∀ v ∈ list, ∃ j m, IsFirst env srv.locs { req with path := env.format req v } j m ∧ m.limit = none ∧
      TurnsAway m ip) :
    ∃ s', operate env servers w cache req = some (s', .resp ⟨status, []⟩) ∧ s'.trace = [.tries i] := by
  have hlen : 0 < srv.locs.length := by
    have := List.mem_of_getElem? hfirst.1
    exact List.length_pos_of_mem this
  obtain ⟨fuel, hfuel⟩ : ∃ fuel, srv.locs.length = fuel + 1 := ⟨srv.locs.length - 1, by omega⟩
  have key : ∀ (vs : List Text) (s : St W), (∀ v ∈ vs, v ∈ list) → (∃ p, s.now = { req with path := p }) →
      ∃ s', tryList env (dealMatch env srv.locs (fuel + 1)) req status vs s = some (s', .resp ⟨status, []⟩) ∧ s'.trace = s.trace := by
    intro vs
    induction vs with
    | nil => intro s _ _; exact ⟨s, rfl, rfl⟩
    | cons v vs ih =>
      rintro ⟨w', c', d', td, tr, now⟩ hvs ⟨p, hn⟩
      simp only at hn
      subst hn
      obtain ⟨j, m, hf, hml, hta⟩ := hall v (hvs v (by simp))
      have hacc : access env m { req with path := env.format req v } = .refuse := access_refuse ht hip hta
      obtain ⟨s', h1, h2⟩ := ih ⟨w', c', [], td, tr, { req with path := env.format req v }⟩
        (fun x hx => hvs x (List.mem_cons_of_mem _ hx)) ⟨_, rfl⟩
      refine ⟨s', ?_, h2⟩
      rw [tryList]
      simp only [dealMatch, findLoc_of_first hf, limitStep, hml, hacc, isError]
      exact h1
  obtain ⟨s', h1, h2⟩ := key list ⟨w, cache, [], [i], [.tries i], req⟩ (fun _ h => h) ⟨_, rfl⟩
  refine ⟨s', ?_, h2⟩
  unfold operate
  rw [hsrv]
  simp only [dealMatch, findLoc_of_first hfirst, limitStep, hlim, access_of_admitted hadm, htry, hfuel]
  exact h1

example :
    let a : Loc := { plainLoc ['/', 'a'] with tryPaths := some ([['/', 'b']], 404) }
    let b : Loc := { plainLoc ['/', 'b'] with deny := some [⟨.v4 0x0A000000#32, 8⟩] }
    ((operate demoEnv [⟨[], [a, b]⟩] () [] (demoReq ['/', 'a'] (some ['x']))).map (·.2)) = some (.resp ⟨404, []⟩) := by
  decide +kernel

theorem asked_append (a b : List Ev) : asked (a ++ b) = asked a + asked b := by
  unfold asked; rw [List.filter_append, List.length_append]

theorem asked_handle (env : Env W) (i : Nat) (l : Loc) (req : Req) (s : St W) :
    asked (handle env i l req s).1.trace = asked s.trace := by
  rcases (handle_keep env i l req s).2 with h | ⟨k, h⟩ <;> rw [h]
  rw [asked_append]; rfl

theorem asked_dealMatch {env : Env W} {locs : List Loc} {fuel : Nat} {s s' : St W} {req : Req} {o : Out}
    (hd : s.deals = []) (hn : s.now = req) (h : dealMatch env locs fuel s req = some (s', o)) :
    asked s.trace ≤ asked s'.trace := by
  refine dealMatch_inv (P := fun x => asked s.trace ≤ asked x.trace) ?_ ?_ ?_ ?_ fuel s req s' o hd hn (Nat.le_refl _) h
  · intro s d r h; exact h
  · intro x i l _ hx
    rcases (limitStep_keep env i l x.now x).2.2.2 with h | ⟨d, h⟩ <;> rw [h]
    · exact hx
    · rw [asked_append]; omega
  · intro x i l _ hx _
    show _ ≤ asked (x.trace ++ _)
    rw [asked_append]; omega
  · intro x i l _ hx _ _; rw [asked_handle]; exact hx

/-- **C65** fails with try_paths: one request to a location whose try list leads back to it is counted at least twice by its limit, for
    every location with a limit that lets the request pass. -/
theorem C65_twice_fails (env : Env W) (servers : List Server) (w : W) (cache : List (Rule × Option Text × Option Text))
    (req : Req) (srv : Server) (hsrv : selectServer (req.host.getD []) servers = some srv) (i : Nat) (l : Loc)
    (hfirst : IsFirst env srv.locs req i l) (zone ip : Text) (burst : Nat) (hlim : l.limit = some (zone, burst))
    (hip : req.clientIp = some ip) (hpass : (env.limit w zone ip burst).1 ≠ .refuse) (hadm : Admitted env l req.clientIp)
    (v : Text) (vs : List Text) (status : Nat) (htry : l.tryPaths = some (v :: vs, status))
    (hback : IsFirst env srv.locs { req with path := env.format req v } i l) (s' : St W) (o : Out)
    (hop : operate env servers w cache req = some (s', o)) : 2 ≤ asked s'.trace := by
  have hlen : 0 < srv.locs.length := List.length_pos_of_mem (List.mem_of_getElem? hfirst.1)
  obtain ⟨fuel, hfuel⟩ : ∃ fuel, srv.locs.length = fuel + 1 := ⟨srv.locs.length - 1, by omega⟩
  unfold operate at hop
  rw [hsrv] at hop
  simp only [hfuel] at hop
  have h0 : dealMatch env srv.locs (fuel + 1 + 1) ⟨w, cache, [], [], [], req⟩ req
      = tryList env (dealMatch env srv.locs (fuel + 1)) req status (v :: vs)
        ⟨(env.limit w zone ip burst).2, cache, [], [i], [.limited i (env.limit w zone ip burst).1, .tries i], req⟩ := by
    rw [dealMatch]
    simp only [findLoc_of_first hfirst, limitStep, hlim, hip, if_neg hpass, access_of_admitted hadm, htry]
    rfl
  rw [h0] at hop
  generalize hw1 : (env.limit w zone ip burst).2 = w1 at hop
  generalize hd1 : (env.limit w zone ip burst).1 = d1 at hop
  rw [tryList] at hop
  simp only at hop
  have hgo : ∀ s1 o1, dealMatch env srv.locs (fuel + 1) ⟨w1, cache, [], [i], [.limited i d1, .tries i],
      { req with path := env.format req v }⟩ { req with path := env.format req v } = some (s1, o1) → 2 ≤ asked s1.trace := by
    intro s1 o1 h
    have hacc : access env l { req with path := env.format req v } = .pass := access_of_admitted hadm
    simp only [dealMatch, findLoc_of_first hback, limitStep, hlim, hacc, htry] at h
    rw [hip] at h
    simp only at h
    split at h
    · rename_i s2 r heq
      simp only [Prod.mk.injEq] at heq
      simp only [Option.some.injEq, Prod.mk.injEq] at h
      rw [← h.1, ← heq.1]
      exact Nat.le_refl 2
    · rename_i s2 heq
      simp only [Prod.mk.injEq] at heq
      rw [← heq.1] at h
      simp only [List.contains_cons, BEq.rfl, Bool.true_or, if_true, Option.some.injEq] at h
      rw [show s1 = _ from (congrArg Prod.fst h).symm, asked_handle]
      exact Nat.le_refl 2
  have hrest : ∀ s1, 2 ≤ asked s1.trace →
      tryList env (dealMatch env srv.locs (fuel + 1)) req status vs s1 = some (s', o) → 2 ≤ asked s'.trace := by
    intro s1 h1 h2
    refine tryList_inv (P := fun x => 2 ≤ asked x.trace) ?_ vs s1 s' o h1 h2
    intro s2 v2 s3 o3 hp hg
    exact Nat.le_trans hp (asked_dealMatch (s := { s2 with deals := [], now := s2.next env req.path v2 }) rfl rfl hg)
  split at hop
  · cases hop
  · rename_i s1 r hg
    have := hgo _ _ hg
    split at hop
    · exact hrest _ this hop
    · simp only [Option.some.injEq, Prod.mk.injEq] at hop
      rw [← hop.1]; exact this
  · rename_i s1 hg
    exact hrest _ (hgo _ _ hg) hop

example :
    let a : Loc := { plainLoc ['/'] with limit := some (['z'], 0), tryPaths := some ([['/', 'i']], 404) }
    ((operate demoEnv [⟨[], [a]⟩] () [] (demoReq ['/'] (some ['x']))).map (fun x => asked x.1.trace)) = some 2 := by
  decide +kernel

end Wm.Reverse
