import Verif.Model.Reverse
import Verif.Props.Helper
/-! Properties C45, C46, C47, C65, C66, C67, C68: choosing a location, access rules, try_paths, kept connections. -/
namespace Wm.Reverse
open Wm Wm.Config Wm.Helper

variable {W : Type}

/-! ### C45: the first matching location -/

/-- the path condition of a rule: wildcard pattern (or prefix, see C34), or regular expression -/
def PathAccepts (env : Env W) (p path : Text) : Prop :=
  (if '*' ∈ p then Glob p path else p <+: path) ∨ ∃ re, env.regex p = some re ∧ re path = true

/-- all conditions of a rule hold (the address of this side, `remoteIp`, left out: see `C45_remote_fails`) -/
structure Accepts (env : Env W) (m : Rule) (req : Req) : Prop where
  path : ∀ p, m.path = some p → PathAccepts env p req.path
  method : ∀ ms, m.method = some ms → req.method ∈ ms
  scheme : ∀ ss, m.scheme = some ss → req.scheme ∈ ss
  host : ∀ h, m.host = some h → req.host = some h
  clientIp : ∀ gs, m.clientIp = some gs →
    ∃ t ip, req.clientIp = some t ∧ env.parseIp t = some ip ∧ ∃ g ∈ gs, g.contains ip = true

theorem containsAny_iff (gs : List IpGate) (ip : Ip) : containsAny gs ip = true ↔ ∃ g ∈ gs, g.contains ip = true := by
  induction gs with
  | nil => simp [containsAny]
  | cons g gs ih =>
    simp only [containsAny, List.mem_cons, exists_eq_or_imp]
    split
    · rename_i h; simp [h]
    · rename_i h; rw [ih]; simp [h]

theorem pathOk_iff (env : Env W) (p path : Text) : pathOk env p path = true ↔ PathAccepts env p path := by
  unfold pathOk PathAccepts
  have hm : isMatch path p = true ↔ (if '*' ∈ p then Glob p path else p <+: path) := by
    by_cases h : '*' ∈ p
    · rw [if_pos h]; exact C33_wildcards path p h
    · rw [if_neg h]; exact C34_prefix_fails path p h
  by_cases h : isMatch path p = true
  · simp only [h, if_true, true_iff]; exact .inl (hm.1 h)
  · simp only [h, Bool.false_eq_true, if_false]
    rw [← hm]
    simp only [h, Bool.false_eq_true, false_or]
    cases env.regex p with
    | none => simp
    | some re => simp

theorem isMatch_iff (env : Env W) (l : Loc) (req : Req) : l.isMatch env req = true ↔ Accepts env l.rule req := by
  unfold Loc.isMatch isMatchRule
  generalize l.rule = m
  have e1 : (m.path.elim false (fun p => !pathOk env p req.path)) = true ↔ ¬ ∀ p, m.path = some p → PathAccepts env p req.path := by
    cases m.path with
    | none => simp
    | some p => simp [← pathOk_iff]
  have e2 : (m.method.elim false (fun ms => !ms.contains req.method)) = true ↔ ¬ ∀ ms, m.method = some ms → req.method ∈ ms := by
    cases m.method with
    | none => simp
    | some p => simp
  have e3 : (m.scheme.elim false (fun ms => !ms.contains req.scheme)) = true ↔ ¬ ∀ ms, m.scheme = some ms → req.scheme ∈ ms := by
    cases m.scheme with
    | none => simp
    | some p => simp
  have e4 : (m.host.elim false (fun h => !(req.host == some h))) = true ↔ ¬ ∀ h, m.host = some h → req.host = some h := by
    cases m.host with
    | none => simp
    | some p => simp
  split
  · rename_i h
    simp only [Option.getD_some, Bool.false_eq_true, false_iff]
    exact fun ha => e1.1 h ha.path
  · rename_i h1
    have h1 := Classical.not_not.1 (mt e1.2 h1)
    split
    · rename_i h
      simp only [Option.getD_some, Bool.false_eq_true, false_iff]
      exact fun ha => e2.1 h ha.method
    · rename_i h2
      have h2 := Classical.not_not.1 (mt e2.2 h2)
      split
      · rename_i h
        simp only [Option.getD_some, Bool.false_eq_true, false_iff]
        exact fun ha => e3.1 h ha.scheme
      · rename_i h3
        have h3 := Classical.not_not.1 (mt e3.2 h3)
        split
        · rename_i h
          simp only [Option.getD_some, Bool.false_eq_true, false_iff]
          exact fun ha => e4.1 h ha.host
        · rename_i h4
          have h4 := Classical.not_not.1 (mt e4.2 h4)
          cases hg : m.clientIp with
          | none =>
            simp only [Option.getD_some, true_iff]
            exact ⟨h1, h2, h3, h4, by simp [hg]⟩
          | some gs =>
            simp only
            cases ht : req.clientIp with
            | none =>
              simp only [Option.getD_some, Bool.false_eq_true, false_iff]
              intro ha
              obtain ⟨t, ip, h, _⟩ := ha.clientIp gs hg
              rw [ht] at h; cases h
            | some t =>
              simp only
              cases hp : env.parseIp t with
              | none =>
                simp only [Option.getD_none, Bool.false_eq_true, false_iff]
                intro ha
                obtain ⟨t', ip, h, h', _⟩ := ha.clientIp gs hg
                rw [ht] at h; injection h with h; subst h
                rw [hp] at h'; cases h'
              | some ip =>
                simp only [Option.getD_some]
                rw [containsAny_iff]
                constructor
                · intro hc
                  refine ⟨h1, h2, h3, h4, ?_⟩
                  intro gs' hgs
                  rw [hg] at hgs; injection hgs with hgs; subst hgs
                  exact ⟨t, ip, ht, hp, hc⟩
                · intro ha
                  obtain ⟨t', ip', h, h', hc⟩ := ha.clientIp gs hg
                  rw [ht] at h; injection h with h; subst h
                  rw [hp] at h'; injection h' with h'; subst h'
                  exact hc

/-- `l` is number `i` and the first whose conditions all hold -/
def IsFirst (env : Env W) (locs : List Loc) (req : Req) (i : Nat) (l : Loc) : Prop :=
  locs[i]? = some l ∧ Accepts env l.rule req ∧ ∀ j l', j < i → locs[j]? = some l' → ¬ Accepts env l'.rule req

theorem findLoc_some (env : Env W) (req : Req) (locs : List Loc) (k i : Nat) (l : Loc)
    (h : findLoc env [] req locs k = some (i, l)) : k ≤ i ∧ IsFirst env locs req (i - k) l := by
  induction locs generalizing k with
  | nil => simp [findLoc] at h
  | cons a locs ih =>
    simp only [findLoc, List.contains_nil, Bool.false_eq_true, if_false] at h
    split at h
    · rename_i hm
      simp only [Option.some.injEq, Prod.mk.injEq] at h
      obtain ⟨rfl, rfl⟩ := h
      refine ⟨Nat.le_refl _, ?_⟩
      rw [Nat.sub_self]
      exact ⟨rfl, (isMatch_iff env _ req).1 hm, fun j l' hj => absurd hj (Nat.not_lt_zero _)⟩
    · rename_i hm
      obtain ⟨h1, h2, h3, h4⟩ := ih (k + 1) h
      refine ⟨by omega, ?_⟩
      have e : i - k = (i - (k + 1)) + 1 := by omega
      rw [e]
      refine ⟨h2, h3, ?_⟩
      intro j l' hj hl
      cases j with
      | zero =>
        simp only [List.getElem?_cons_zero, Option.some.injEq] at hl
        subst hl
        exact fun ha => hm ((isMatch_iff env _ req).2 ha)
      | succ j => exact h4 j l' (by omega) hl

theorem findLoc_none (env : Env W) (req : Req) (locs : List Loc) (k : Nat) :
    findLoc env [] req locs k = none ↔ ∀ l ∈ locs, ¬ Accepts env l.rule req := by
  induction locs generalizing k with
  | nil => simp [findLoc]
  | cons a locs ih =>
    simp only [findLoc, List.contains_nil, Bool.false_eq_true, if_false, List.mem_cons, forall_eq_or_imp,
      ← isMatch_iff env a req]
    split
    · rename_i h; simp [h]
    · rename_i h; rw [ih]; simp [h]

theorem findLoc_of_first {env : Env W} {req : Req} {locs : List Loc} {i : Nat} {l : Loc}
    (h : IsFirst env locs req i l) : findLoc env [] req locs 0 = some (i, l) := by
  cases hf : findLoc env [] req locs 0 with
  | none => exact absurd h.2.1 ((findLoc_none env req locs 0).1 hf l (List.mem_of_getElem? h.1))
  | some p =>
    obtain ⟨j, l'⟩ := p
    obtain ⟨_, h1, h2, h3⟩ := findLoc_some env req locs 0 j l' hf
    rw [Nat.sub_zero] at h1 h3
    rcases Nat.lt_trichotomy i j with hlt | rfl | hlt
    · exact absurd h.2.1 (h3 i l hlt h.1)
    · rw [h.1] at h1; injection h1 with h1; subst h1; rfl
    · exact absurd h2 (h.2.2 j l' hlt h1)

/-! one invariant rule for the whole recursion -/

/-- the limit was asked for this location just before, if it has one, and did not refuse -/
def NotRefused (i : Nat) (l : Loc) (req : Req) (trace : List Ev) : Prop :=
  l.limit.isSome = true → req.clientIp.isSome = true → ∃ d, trace.getLast? = some (.limited i d) ∧ d ≠ .refuse

theorem limitStep_notRefused {env : Env W} {i : Nat} {l : Loc} {req : Req} {s s' : St W}
    (h : limitStep env i l req s = (s', none)) : NotRefused i l req s'.trace := by
  unfold limitStep at h
  intro h1 h2
  cases hl : l.limit with
  | none => rw [hl] at h1; cases h1
  | some p =>
    obtain ⟨zone, burst⟩ := p
    rw [hl] at h
    simp only at h
    cases hc : req.clientIp with
    | none => rw [hc] at h2; cases h2
    | some ip =>
      rw [hc] at h
      simp only [Prod.mk.injEq] at h
      obtain ⟨rfl, hd⟩ := h
      refine ⟨_, by simp only [List.getLast?_append, List.getLast?_singleton, Option.some_or]; rfl, ?_⟩
      intro hr
      rw [if_pos hr] at hd
      cases hd

/-- the request made for an entry of a try list: as the attempt before left it, with the path of the entry -/
abbrev St.next (env : Env W) (s : St W) (path v : Text) : Req :=
  { s.now with path := env.format { s.now with path := path } v }

theorem tryList_inv {env : Env W} {go : St W → Req → Option (St W × Out)} {req : Req} {fs : Nat} {P : St W → Prop}
    (hgo : ∀ s v s' o, P s → go { s with deals := [], now := s.next env req.path v } (s.next env req.path v) = some (s', o) →
      P s') :
    ∀ (vs : List Text) (s s' : St W) (o : Out), P s → tryList env go req fs vs s = some (s', o) → P s' := by
  intro vs
  induction vs with
  | nil =>
    intro s s' o hp h
    simp only [tryList, Option.some.injEq, Prod.mk.injEq] at h
    exact h.1 ▸ hp
  | cons v vs ih =>
    intro s s' o hp h
    simp only [tryList] at h
    split at h
    · cases h
    · rename_i s1 r hg
      have hp1 := hgo s v s1 _ hp hg
      split at h
      · exact ih s1 s' o hp1 h
      · simp only [Option.some.injEq, Prod.mk.injEq] at h
        exact h.1 ▸ hp1
    · rename_i s1 hg
      exact ih s1 s' o (hgo s v s1 _ hp hg) h

/-- what no handler changes -/
def Like (base r : Req) : Prop := r.method = base.method ∧ r.scheme = base.scheme ∧ r.clientIp = base.clientIp

theorem handle_like {env : Env W} {i : Nat} {l : Loc} {base : Req} {s : St W} (h : Like base s.now) :
    Like base (handle env i l s.now s).1.now := by
  unfold handle
  dsimp only
  repeat' split
  all_goals exact h

theorem limitStep_now (env : Env W) (i : Nat) (l : Loc) (req : Req) (s : St W) :
    (limitStep env i l req s).1.now = s.now := by
  unfold limitStep
  split
  · rfl
  · split <;> rfl

/-- A property of the state that is kept by each single step is kept by the whole handling of a request. -/
theorem dealMatch_inv {env : Env W} {locs : List Loc} {P : St W → Prop}
    (hdeals : ∀ s d p, P s → P { s with deals := d, now := { s.now with path := p } })
    (hlimit : ∀ s i l, locs[i]? = some l → P s → P (limitStep env i l s.now s).1)
    (henter : ∀ s i l, locs[i]? = some l → P s → i ∉ s.tryDeals →
      P { s with tryDeals := i :: s.tryDeals, trace := s.trace ++ [.tries i] })
    (hhandle : ∀ s i l, locs[i]? = some l → P s → access env l s.now = .pass →
      NotRefused i l s.now s.trace → P (handle env i l s.now s).1)
    (fuel : Nat) : ∀ (s : St W) (r : Req) (s' : St W) (o : Out), s.deals = [] → s.now = r → P s →
      dealMatch env locs fuel s r = some (s', o) → P s' := by
  induction fuel with
  | zero => intro s p s' o _ _ _ h; simp [dealMatch] at h
  | succ fuel ih =>
    intro s p s' o hd hn hp h
    subst hn
    simp only [dealMatch, hd] at h
    split at h
    · simp only [Option.some.injEq, Prod.mk.injEq] at h
      exact h.1 ▸ hp
    · rename_i i l hf
      have hil : locs[i]? = some l := by
        have := (findLoc_some env _ locs 0 i l hf).2.1
        simpa using this
      have hp1 := hlimit s i l hil hp
      have hn1 := limitStep_now env i l s.now s
      cases hl : limitStep env i l s.now s with
      | mk s1 r =>
        rw [hl] at h hp1 hn1
        cases r with
        | some r =>
          simp only [Option.some.injEq, Prod.mk.injEq] at h
          exact h.1 ▸ hp1
        | none =>
          simp only at h hp1 hn1
          have hnr := limitStep_notRefused hl
          rw [← hn1] at hnr h
          split at h
          · simp only [Option.some.injEq, Prod.mk.injEq] at h
            exact h.1 ▸ hp1
          · simp only [Option.some.injEq, Prod.mk.injEq] at h
            exact h.1 ▸ hp1
          · rename_i ha
            have hh := hhandle s1 i l hil hp1 ha hnr
            split at h
            · rw [Option.some.injEq] at h; rw [h] at hh; exact hh
            · split at h
              · rw [Option.some.injEq] at h; rw [h] at hh; exact hh
              · rename_i hc
                have hc : i ∉ s1.tryDeals := by simpa using hc
                refine tryList_inv (P := P) ?_ _ _ _ _ (henter s1 i l hil hp1 hc) h
                intro s2 v s3 o3 hp2 hg
                exact ih { s2 with deals := [], now := s2.next env s1.now.path v } (s2.next env s1.now.path v) s3 o3 rfl rfl
                  (hdeals s2 [] _ hp2) hg

theorem limitStep_keep (env : Env W) (i : Nat) (l : Loc) (req : Req) (s : St W) :
    (limitStep env i l req s).1.tryDeals = s.tryDeals ∧ (limitStep env i l req s).1.deals = s.deals ∧
    (limitStep env i l req s).1.cache = s.cache ∧
    ((limitStep env i l req s).1.trace = s.trace ∨ ∃ d, (limitStep env i l req s).1.trace = s.trace ++ [.limited i d]) := by
  unfold limitStep
  split
  · exact ⟨rfl, rfl, rfl, .inl rfl⟩
  · split
    · exact ⟨rfl, rfl, rfl, .inl rfl⟩
    · exact ⟨rfl, rfl, rfl, .inr ⟨_, rfl⟩⟩

theorem handle_keep (env : Env W) (i : Nat) (l : Loc) (req : Req) (s : St W) :
    (handle env i l req s).1.tryDeals = s.tryDeals ∧
    ((handle env i l req s).1.trace = s.trace ∨ ∃ k, (handle env i l req s).1.trace = s.trace ++ [.handled i req k]) := by
  unfold handle
  simp only
  split
  · split
    · exact ⟨rfl, .inl rfl⟩
    · exact ⟨rfl, .inr ⟨true, rfl⟩⟩
    · exact ⟨rfl, .inr ⟨true, rfl⟩⟩
    · exact ⟨rfl, .inr ⟨true, rfl⟩⟩
  · split
    · exact ⟨rfl, .inl rfl⟩
    · split
      · exact ⟨rfl, .inr ⟨false, rfl⟩⟩
      · split
        · exact ⟨rfl, .inr ⟨false, rfl⟩⟩
        · exact ⟨rfl, .inr ⟨false, rfl⟩⟩

/-- the location an event is about -/
def Ev.loc : Ev → Nat
  | .limited i _ => i
  | .tries i => i
  | .handled i _ _ => i

/-- **C45** (server) The server block chosen is the first whose name is the host (any, if the host is empty), else the
    last one. -/
theorem C45_server (host : Text) (servers : List Server) (hne : servers ≠ []) :
    ∃ pre s post, servers = pre ++ s :: post ∧ selectServer host servers = some s ∧
      (∀ t ∈ pre, t.name ≠ host ∧ host ≠ []) ∧ (s.name = host ∨ host = [] ∨ post = []) := by
  induction servers with
  | nil => exact absurd rfl hne
  | cons s ss ih =>
    cases ss with
    | nil => exact ⟨[], s, [], rfl, rfl, by simp, .inr (.inr rfl)⟩
    | cons t ss =>
      simp only [selectServer]
      by_cases h : s.name = host ∨ host = []
      · rw [if_pos h]
        exact ⟨[], s, t :: ss, rfl, rfl, by simp, h.elim .inl (fun h => .inr (.inl h))⟩
      · rw [if_neg h]
        obtain ⟨pre, s', post, h1, h2, h3, h4⟩ := ih (by simp)
        refine ⟨s :: pre, s', post, by rw [h1]; rfl, h2, ?_, h4⟩
        intro u hu
        rcases List.mem_cons.1 hu with rfl | hu
        · exact ⟨fun hc => h (.inl hc), fun hc => h (.inr hc)⟩
        · exact h3 u hu

example : (selectServer ['b'] [⟨['a'], []⟩, ⟨['b'], []⟩, ⟨['c'], []⟩]).map (·.name) = some ['b'] ∧
    (selectServer ['x'] [⟨['a'], []⟩, ⟨['b'], []⟩, ⟨['c'], []⟩]).map (·.name) = some ['c'] := by decide +kernel

/-- **C45** (location) If `l` is the first location of the chosen server all of whose conditions hold, then everything
    done for the request starts with it: the first event is about `l`, and without try_paths all are. If no location
    accepts the request, nothing is done and the answer is 404. -/
theorem C45_location (env : Env W) (servers : List Server) (w : W) (cache : List (Rule × Option Text × Option Text))
    (req : Req) (srv : Server) (hsrv : selectServer (req.host.getD []) servers = some srv) (s' : St W) (o : Out)
    (hop : operate env servers w cache req = some (s', o)) :
    (∀ i l, IsFirst env srv.locs req i l → (∀ e, s'.trace.head? = some e → e.loc = i) ∧
      (l.tryPaths = none → ∀ e ∈ s'.trace, e.loc = i)) ∧
    ((∀ l ∈ srv.locs, ¬ Accepts env l.rule req) → s'.trace = [] ∧ o = .resp ⟨404, []⟩) := by
  unfold operate at hop
  rw [hsrv] at hop
  simp only [dealMatch] at hop
  constructor
  · intro i l hfirst
    rw [findLoc_of_first hfirst] at hop
    simp only at hop
    obtain ⟨_, _, _, htr⟩ := limitStep_keep env i l req ⟨w, cache, [], [], [], req⟩
    have hlim : ∀ e ∈ (limitStep env i l req ⟨w, cache, [], [], [], req⟩).1.trace, e.loc = i := by
      rcases htr with h | ⟨d, h⟩ <;> rw [h] <;> simp [Ev.loc]
    cases hl : limitStep env i l req ⟨w, cache, [], [], [], req⟩ with
    | mk s1 r =>
      rw [hl] at hop hlim
      have hhead : (∀ e ∈ s'.trace, e.loc = i) → (∀ e, s'.trace.head? = some e → e.loc = i) ∧
          (l.tryPaths = none → ∀ e ∈ s'.trace, e.loc = i) :=
        fun h => ⟨fun e he => h e (List.mem_of_mem_head? he), fun _ => h⟩
      have hhandle : handle env i l req s1 = (s', o) → ∀ e ∈ s'.trace, e.loc = i := by
        intro h e he
        have hk := (handle_keep env i l req s1).2
        rw [h] at hk
        rcases hk with hk | ⟨k, hk⟩
        · rw [hk] at he; exact hlim e he
        · rw [hk, List.mem_append] at he
          rcases he with he | he
          · exact hlim e he
          · rw [List.mem_singleton] at he; rw [he]; rfl
      cases r with
      | some r =>
        simp only [Option.some.injEq, Prod.mk.injEq] at hop
        exact hhead (hop.1 ▸ hlim)
      | none =>
        simp only at hop
        split at hop
        · simp only [Option.some.injEq, Prod.mk.injEq] at hop
          exact hhead (hop.1 ▸ hlim)
        · simp only [Option.some.injEq, Prod.mk.injEq] at hop
          exact hhead (hop.1 ▸ hlim)
        · split at hop
          · rw [Option.some.injEq] at hop
            exact hhead (hhandle hop)
          · split at hop
            · rw [Option.some.injEq] at hop
              exact hhead (hhandle hop)
            · rename_i list status htry _
              refine ⟨?_, fun hn => absurd (hn ▸ htry) (by simp)⟩
              -- the trace only grows, and it starts with an event about `i`
              have hgrow : ∃ e0 t0, s1.trace ++ [Ev.tries i] = e0 :: t0 ∧ e0.loc = i := by
                cases h1 : s1.trace with
                | nil => exact ⟨_, _, rfl, rfl⟩
                | cons e0 t0 => exact ⟨e0, t0 ++ [.tries i], rfl, hlim e0 (by rw [h1]; simp)⟩
              obtain ⟨e0, t0, he0, hloc⟩ := hgrow
              have hinv : ∃ t, s'.trace = e0 :: t := by
                refine tryList_inv (P := fun s => ∃ t, s.trace = e0 :: t) ?_ list _ s' o ⟨t0, he0⟩ hop
                intro s2 v s3 o3 hp2 hg
                refine dealMatch_inv (P := fun s => ∃ t, s.trace = e0 :: t) ?_ ?_ ?_ ?_ _
                  { s2 with deals := [], now := s2.next env req.path v } (s2.next env req.path v) s3 o3 rfl rfl hp2 hg
                · intro s d r h; exact h
                · rintro s j l' _ ⟨t, ht⟩
                  rcases (limitStep_keep env j l' s.now s).2.2.2 with h | ⟨d, h⟩
                  · exact ⟨t, by rw [h, ht]⟩
                  · exact ⟨t ++ [.limited j d], by rw [h, ht]; rfl⟩
                · rintro s j l' _ ⟨t, ht⟩ _
                  exact ⟨t ++ [.tries j], by simp [ht]⟩
                · rintro s j l' _ ⟨t, ht⟩ _ _
                  rcases (handle_keep env j l' s.now s).2 with h | ⟨k, h⟩
                  · exact ⟨t, by rw [h, ht]⟩
                  · exact ⟨t ++ [.handled j s.now k], by rw [h, ht]; rfl⟩
              obtain ⟨t, ht⟩ := hinv
              intro e he
              rw [ht] at he
              injection he with he
              exact he ▸ hloc
  · intro hnone
    rw [(findLoc_none env req srv.locs 0).2 hnone] at hop
    simp only [Option.some.injEq, Prod.mk.injEq] at hop
    obtain ⟨rfl, rfl⟩ := hop
    exact ⟨rfl, rfl⟩

/-- **C45** fails for the condition on the address of this side: it is never looked at. -/
theorem C45_remote_fails (env : Env W) (m : Rule) (gs : Option (List IpGate)) (req : Req) :
    isMatchRule env { m with remoteIp := gs } req = isMatchRule env m req := rfl

/-! ### C46: refused addresses -/

/-- the client's address may use the location -/
def Admitted (env : Env W) (l : Loc) (clientIp : Option Text) : Prop :=
  ∀ t, clientIp = some t → (l.allow.isSome ∨ l.deny.isSome) → ∃ ip, env.parseIp t = some ip ∧
    (∀ gs, l.allow = some gs → ∃ g ∈ gs, g.contains ip = true) ∧
    (∀ gs, l.deny = some gs → ∀ g ∈ gs, g.contains ip = false)

theorem access_pass {env : Env W} {l : Loc} {req : Req} (h : access env l req = .pass) : Admitted env l req.clientIp := by
  intro t ht hs
  unfold access at h
  rw [if_pos (by rcases hs with hs | hs <;> simp [hs]), ht] at h
  simp only at h
  cases hp : env.parseIp t with
  | none => rw [hp] at h; cases h
  | some ip =>
    rw [hp] at h
    simp only at h
    split at h
    · cases h
    · rename_i h1
      split at h
      · cases h
      · rename_i h2
        refine ⟨ip, rfl, ?_, ?_⟩
        · intro gs hg
          rw [hg] at h1
          rw [← containsAny_iff]
          simpa using h1
        · intro gs hg g hmem
          rw [hg] at h2
          rw [Bool.eq_false_iff]
          intro hc
          exact h2 ((containsAny_iff gs ip).2 ⟨g, hmem, hc⟩)

/-- every event of handling was preceded by the checks -/
def Checked (env : Env W) (locs : List Loc) (base : Req) (trace : List Ev) : Prop :=
  ∀ a i r k b, trace = a ++ .handled i r k :: b →
    ∃ l, locs[i]? = some l ∧ Admitted env l base.clientIp ∧ NotRefused i l base a

theorem Checked.snoc {env : Env W} {locs : List Loc} {base : Req} {trace : List Ev} {e : Ev}
    (h : Checked env locs base trace)
    (he : ∀ i r k, e = .handled i r k → ∃ l, locs[i]? = some l ∧ Admitted env l base.clientIp ∧ NotRefused i l base trace) :
    Checked env locs base (trace ++ [e]) := by
  intro a i r k b hab
  rcases List.eq_nil_or_concat b with rfl | ⟨b', e', rfl⟩
  · obtain ⟨h1, h2⟩ := List.append_inj' hab rfl
    injection h2 with h2
    subst h1
    exact he i r k h2
  · rw [List.concat_eq_append, ← List.cons_append, ← List.append_assoc] at hab
    exact h a i r k b' (List.append_inj' hab rfl).1

/-- **C46** In every configuration, for every request and through every chain of try_paths: a location's handler (or its
    kept upstream connection) gets the request only if the client's address is allowed by and not denied by that
    location, and, if the location has a request limit, the limit was asked just before and did not refuse.
    (`clientIp` present; without it see `C46_no_address_fails`.) -/
theorem C46_handler_guarded (env : Env W) (servers : List Server) (w : W)
    (cache : List (Rule × Option Text × Option Text)) (req : Req) (srv : Server)
    (hsrv : selectServer (req.host.getD []) servers = some srv) (s' : St W) (o : Out)
    (hop : operate env servers w cache req = some (s', o)) : Checked env srv.locs req s'.trace := by
  unfold operate at hop
  rw [hsrv] at hop
  simp only at hop
  refine (dealMatch_inv (P := fun s => Checked env srv.locs req s.trace ∧ Like req s.now) ?_ ?_ ?_ ?_ _
    ⟨w, cache, [], [], [], req⟩ req s' o rfl rfl ⟨?_, rfl, rfl, rfl⟩ hop).1
  · intro s d r h; exact h
  · intro s i l _ h
    rw [limitStep_now]
    refine ⟨?_, h.2⟩
    rcases (limitStep_keep env i l s.now s).2.2.2 with ht | ⟨d, ht⟩
    · simp only [ht]; exact h.1
    · simp only [ht]; exact h.1.snoc (by intro i r k hc; cases hc)
  · intro s i l _ h _
    exact ⟨h.1.snoc (by intro i r k hc; cases hc), h.2⟩
  · intro s i l hil h ha hnr
    refine ⟨?_, handle_like h.2⟩
    rcases (handle_keep env i l s.now s).2 with ht | ⟨k, ht⟩
    · simp only [ht]; exact h.1
    · simp only [ht]
      refine h.1.snoc ?_
      intro j r k' hc
      injection hc with h1 h2 h3
      subst h1
      have ha := access_pass ha
      unfold NotRefused at hnr ⊢
      rw [h.2.2.2] at ha hnr
      exact ⟨l, hil, ha, hnr⟩
  · intro a i r k b hab
    simp at hab

/-- an address that a location does not let in -/
def TurnsAway (l : Loc) (ip : Ip) : Prop :=
  (∃ gs, l.allow = some gs ∧ ∀ g ∈ gs, g.contains ip = false) ∨ (∃ gs, l.deny = some gs ∧ ∃ g ∈ gs, g.contains ip = true)

theorem access_refuse {env : Env W} {l : Loc} {req : Req} {t : Text} (ht : req.clientIp = some t) {ip : Ip}
    (hip : env.parseIp t = some ip) (hrefuse : TurnsAway l ip) : access env l req = .refuse := by
  unfold access
  have hsome : (l.deny.isSome || l.allow.isSome) = true := by
    rcases hrefuse with ⟨gs, h, _⟩ | ⟨gs, h, _⟩ <;> simp [h]
  rw [if_pos hsome, ht]
  simp only [hip]
  split
  · rfl
  · rename_i h1
    rcases hrefuse with ⟨gs, h, hall⟩ | ⟨gs, h, hex⟩
    · exfalso
      apply h1
      simp only [h, Option.elim, Bool.not_eq_true']
      rw [Bool.eq_false_iff]
      intro hc
      obtain ⟨g, hg, hgc⟩ := (containsAny_iff gs ip).1 hc
      rw [hall g hg] at hgc; cases hgc
    · rw [if_pos]
      simp only [h, Option.elim]
      exact (containsAny_iff gs ip).2 hex

/-- **C46** (answer) A request whose first matching location refuses its address gets a 503 and nothing is handled
    (when the location has no limit, which may refuse first; in general see `C46_turned_away`). -/
theorem C46_answer (env : Env W) (servers : List Server) (w : W) (cache : List (Rule × Option Text × Option Text))
    (req : Req) (srv : Server) (hsrv : selectServer (req.host.getD []) servers = some srv) (i : Nat) (l : Loc)
    (hfirst : IsFirst env srv.locs req i l) (t : Text) (ht : req.clientIp = some t) (ip : Ip)
    (hip : env.parseIp t = some ip) (hlim : l.limit = none)
    (hrefuse : (∃ gs, l.allow = some gs ∧ ∀ g ∈ gs, g.contains ip = false) ∨
      (∃ gs, l.deny = some gs ∧ ∃ g ∈ gs, g.contains ip = true)) :
    ∃ s', operate env servers w cache req = some (s', .resp ⟨503, []⟩) ∧ s'.trace = [] := by
  have hacc : access env l req = .refuse := access_refuse ht hip hrefuse
  refine ⟨⟨w, cache, [], [], [], req⟩, ?_, rfl⟩
  unfold operate
  rw [hsrv]
  simp only [dealMatch, findLoc_of_first hfirst, limitStep, hlim, hacc]

/-! a small world for examples: no regular expressions, the only address text is "x" -/

def demoEnv : Env Unit where
  parseIp t := if t = ['x'] then some (.v4 0x0A000001#32) else none
  regex _ := none
  format _ v := v
  hdr := exactHeaders
  limit _ _ _ _ := (.ok, ())
  fresh _ _ _ := (some ⟨200, []⟩, ())
  left _ _ r := (r.host, false)
  reuse _ _ _ := (.closed, ())

def anyRule (p : Text) : Rule := ⟨some p, none, none, none, none, none⟩

def plainLoc (p : Text) : Loc := ⟨anyRule p, none, none, .plain, [], false, none, none, none, none⟩

def demoReq (p : Text) (ip : Option Text) : Req := ⟨p, ['G'], ['h'], none, ip, []⟩

/-- the hypotheses of `C46_answer` are met -/
example : let l : Loc := { plainLoc ['/', 'a'] with deny := some [⟨.v4 0x0A000000#32, 8⟩] }
    ((operate demoEnv [⟨[], [plainLoc ['/', 'b'], l]⟩] () [] (demoReq ['/', 'a'] (some ['x']))).map (·.2))
      = some (.resp ⟨503, []⟩) ∧
    ((operate demoEnv [⟨[], [plainLoc ['/', 'b'], l]⟩] () [] (demoReq ['/', 'b'] (some ['x']))).map (·.2))
      = some (.resp ⟨200, []⟩) := by decide +kernel

/-- **C46** fails for requests without a client address: every allow and deny list lets them pass. -/
theorem C46_no_address_fails (env : Env W) (l : Loc) (req : Req) (h : req.clientIp = none) : access env l req = .pass := by
  unfold access
  split
  · rw [h]
  · rfl

/-- **C46** fails for the status: a request refused by the limit gets 404, not 503. -/
theorem C46_limit_status_fails (env : Env W) (i : Nat) (l : Loc) (req : Req) (s : St W) (r : Response)
    (h : (limitStep env i l req s).2 = some r) : r.status = 404 := by
  unfold limitStep at h
  split at h
  · cases h
  · split at h
    · cases h
    · simp only at h
      split at h
      · injection h with h; rw [← h]
      · cases h

/-! ### C47: try_paths terminates -/

/-- the locations whose try list was not entered yet -/
def remaining (n : Nat) (tryDeals : List Nat) : Nat := ((List.range n).filter fun i => !tryDeals.contains i).length

theorem remaining_mono {n : Nat} {t t' : List Nat} (h : t ⊆ t') : remaining n t' ≤ remaining n t := by
  unfold remaining
  rw [← List.countP_eq_length_filter, ← List.countP_eq_length_filter]
  refine List.countP_mono_left ?_
  intro i _ hi
  simp only [List.contains_eq_mem, Bool.not_eq_eq_eq_not, Bool.not_true, decide_eq_false_iff_not] at hi ⊢
  exact fun hc => hi (h hc)

theorem remaining_cons {n i : Nat} {t : List Nat} (hi : i < n) (h : i ∉ t) : remaining n (i :: t) < remaining n t := by
  have e : ((List.range n).filter fun j => !(i :: t).contains j)
      = ((List.range n).filter fun j => !t.contains j).filter fun j => decide (j ≠ i) := by
    rw [List.filter_filter]
    apply List.filter_congr
    intro j _
    by_cases hj : j = i <;> simp [hj, h]
  unfold remaining
  rw [e, List.length_filter_lt_length_iff_exists]
  exact ⟨i, by simp [hi, h], by simp⟩

theorem dealMatch_grows {env : Env W} {locs : List Loc} {fuel : Nat} {s s' : St W} {req : Req} {o : Out}
    (hd : s.deals = []) (hn : s.now = req) (h : dealMatch env locs fuel s req = some (s', o)) :
    s.tryDeals ⊆ s'.tryDeals := by
  refine dealMatch_inv (P := fun x => s.tryDeals ⊆ x.tryDeals) ?_ ?_ ?_ ?_ fuel s req s' o hd hn
    (List.Subset.refl _) h
  · intro s d r h; exact h
  · intro x i l _ hx; rw [(limitStep_keep env i l x.now x).1]; exact hx
  · intro x i l _ hx _; exact fun j hj => List.mem_cons_of_mem _ (hx hj)
  · intro x i l _ hx _ _; rw [(handle_keep env i l x.now x).1]; exact hx

theorem tryList_total {env : Env W} {go : St W → Req → Option (St W × Out)} {req : Req} {fs n m : Nat}
    (hgo : ∀ s r, s.deals = [] → s.now = r → remaining n s.tryDeals < m → ∃ x, go s r = some x)
    (hgrow : ∀ s r s' o, s.deals = [] → s.now = r → go s r = some (s', o) → s.tryDeals ⊆ s'.tryDeals) :
    ∀ (vs : List Text) (s : St W), remaining n s.tryDeals < m → ∃ x, tryList env go req fs vs s = some x := by
  intro vs
  induction vs with
  | nil => intro s _; exact ⟨_, rfl⟩
  | cons v vs ih =>
    intro s hs
    obtain ⟨⟨s1, o1⟩, hx⟩ := hgo { s with deals := [], now := s.next env req.path v } (s.next env req.path v) rfl rfl hs
    have hg := hgrow { s with deals := [], now := s.next env req.path v } _ s1 o1 rfl rfl hx
    have hs1 : remaining n s1.tryDeals < m := Nat.lt_of_le_of_lt (remaining_mono hg) hs
    simp only [tryList, hx]
    cases o1 with
    | err => exact ih s1 hs1
    | resp r =>
      simp only
      split
      · exact ih s1 hs1
      · exact ⟨_, rfl⟩

theorem dealMatch_total (env : Env W) (locs : List Loc) (fuel : Nat) : ∀ (s : St W) (req : Req), s.deals = [] → s.now = req →
    remaining locs.length s.tryDeals < fuel → ∃ x, dealMatch env locs fuel s req = some x := by
  induction fuel with
  | zero => intro s req _ _ h; omega
  | succ fuel ih =>
    intro s req hd hn hf
    simp only [dealMatch, hd]
    split
    · exact ⟨_, rfl⟩
    · rename_i i l hfind
      have hil : locs[i]? = some l := by simpa using (findLoc_some env _ locs 0 i l hfind).2.1
      have hi : i < locs.length := (List.getElem?_eq_some_iff.1 hil).1
      cases hl : limitStep env i l req s with
      | mk s1 r =>
        have hk := (limitStep_keep env i l req s).1
        rw [hl] at hk
        simp only at hk
        cases r with
        | some r => exact ⟨_, rfl⟩
        | none =>
          simp only
          split
          · exact ⟨_, rfl⟩
          · exact ⟨_, rfl⟩
          · split
            · exact ⟨_, rfl⟩
            · split
              · exact ⟨_, rfl⟩
              · rename_i hc
                have hc : i ∉ s1.tryDeals := by simpa using hc
                refine tryList_total (n := locs.length) (m := fuel) ih
                  (fun s r s' o hd hn h => dealMatch_grows hd hn h) _ _ ?_
                have := remaining_cons hi hc
                simp only
                rw [hk] at this hc ⊢
                omega

/-- more depth does not change the result -/
theorem dealMatch_more (env : Env W) (locs : List Loc) (fuel : Nat) : ∀ (s : St W) (req : Req) (x : St W × Out),
    dealMatch env locs fuel s req = some x → dealMatch env locs (fuel + 1) s req = some x := by
  induction fuel with
  | zero => intro s req x h; simp [dealMatch] at h
  | succ fuel ih =>
    intro s req x h
    rw [dealMatch] at h ⊢
    split at h
    · exact h
    · rename_i i l hf
      split at h
      · exact h
      · rename_i s1 hl
        split at h
        · exact h
        · exact h
        · split at h
          · exact h
          · split at h
            · rename_i hc; rw [if_pos hc]; exact h
            · rename_i list status _ hc
              rw [if_neg hc]
              have hmono : ∀ (vs : List Text) (s : St W) (x : St W × Out),
                  tryList env (dealMatch env locs fuel) req status vs s = some x →
                  tryList env (dealMatch env locs (fuel + 1)) req status vs s = some x := by
                intro vs
                induction vs with
                | nil => intro s x h; exact h
                | cons v vs ihv =>
                  intro s x h
                  simp only [tryList] at h ⊢
                  split at h
                  · cases h
                  · rename_i s2 r hg
                    rw [ih _ _ _ hg]
                    simp only
                    split at h
                    · rename_i he; rw [if_pos he]; exact ihv _ _ h
                    · rename_i he; rw [if_neg he]; exact h
                  · rename_i s2 hg
                    rw [ih _ _ _ hg]
                    exact ihv _ _ h
              exact hmono _ _ _ h

theorem remaining_nil (n : Nat) : remaining n [] = n := by
  unfold remaining
  rw [List.filter_eq_self.2 (by simp), List.length_range]

/-- **C47** In every configuration — however the try lists refer to each other — handling a request ends with an answer,
    within a depth of the number of locations plus one: allowing more depth changes nothing. -/
theorem C47_terminates (env : Env W) (locs : List Loc) (w : W) (cache : List (Rule × Option Text × Option Text))
    (req : Req) : ∃ x, ∀ k, dealMatch env locs (locs.length + 1 + k) ⟨w, cache, [], [], [], req⟩ req = some x := by
  obtain ⟨x, hx⟩ := dealMatch_total env locs (locs.length + 1) ⟨w, cache, [], [], [], req⟩ req rfl rfl
    (by rw [remaining_nil]; omega)
  refine ⟨x, fun k => ?_⟩
  induction k with
  | zero => exact hx
  | succ k ih => exact dealMatch_more env locs _ _ _ _ ih

/-- the try lists entered, in order -/
def triedLists (trace : List Ev) : List Nat := trace.filterMap fun
  | .tries i => some i
  | _ => none

/-- **C47** (once) No try list is entered twice for one request. -/
theorem C47_once (env : Env W) (servers : List Server) (w : W) (cache : List (Rule × Option Text × Option Text))
    (req : Req) (s' : St W) (o : Out) (hop : operate env servers w cache req = some (s', o)) :
    (triedLists s'.trace).Nodup := by
  have hinv : s'.tryDeals = (triedLists s'.trace).reverse ∧ (triedLists s'.trace).Nodup := by
    unfold operate at hop
    split at hop
    · simp only [Option.some.injEq, Prod.mk.injEq] at hop
      obtain ⟨rfl, _⟩ := hop
      exact ⟨rfl, List.nodup_nil⟩
    · refine dealMatch_inv (P := fun s => s.tryDeals = (triedLists s.trace).reverse ∧ (triedLists s.trace).Nodup)
        ?_ ?_ ?_ ?_ _ ⟨w, cache, [], [], [], req⟩ req s' o rfl rfl
        ⟨rfl, List.nodup_nil⟩ hop
      · intro s d r h; exact h
      · intro s i l _ h
        obtain ⟨h1, _, _, h2⟩ := limitStep_keep env i l s.now s
        rw [h1]
        rcases h2 with h2 | ⟨d, h2⟩
        · rw [h2]; exact h
        · rw [h2]
          have : triedLists (s.trace ++ [.limited i d]) = triedLists s.trace := by simp [triedLists]
          rw [this]; exact h
      · intro s i l _ h hi
        have : triedLists (s.trace ++ [.tries i]) = triedLists s.trace ++ [i] := by simp [triedLists]
        simp only
        rw [this]
        refine ⟨by rw [h.1]; simp, ?_⟩
        rw [List.nodup_append]
        refine ⟨h.2, by simp, ?_⟩
        rintro a ha b hb rfl
        rw [List.mem_singleton] at hb
        subst hb
        rw [h.1, List.mem_reverse] at hi
        exact hi ha
      · intro s i l _ h _ _
        obtain ⟨h1, h2⟩ := handle_keep env i l s.now s
        rw [h1]
        rcases h2 with h2 | ⟨k, h2⟩
        · rw [h2]; exact h
        · rw [h2]
          have : triedLists (s.trace ++ [.handled i s.now k]) = triedLists s.trace := by simp [triedLists]
          rw [this]; exact h
  exact hinv.2

/-- two locations whose try lists lead to each other and to themselves -/
example : let a : Loc := { plainLoc ['/', 'a'] with kind := .nothing, tryPaths := some ([['/', 'b'], ['/', 'a']], 404) }
    let b : Loc := { plainLoc ['/', 'b'] with kind := .nothing, tryPaths := some ([['/', 'a'], ['/', 'b']], 410) }
    ((operate demoEnv [⟨[], [a, b]⟩] () [] (demoReq ['/', 'a'] none)).map
      (fun x => (triedLists x.1.trace, x.2))) = some ([0, 1], .resp ⟨404, []⟩) := by decide +kernel

/-! ### C65: one request counts once -/

/-- how often the limits were asked -/
def asked (trace : List Ev) : Nat := (trace.filter fun
  | .limited _ _ => true
  | _ => false).length

/-- **C65**, partial: without try_paths in the location that gets the request, the limit is asked at most once. -/
theorem C65_once_partial (env : Env W) (servers : List Server) (w : W) (cache : List (Rule × Option Text × Option Text))
    (req : Req) (srv : Server) (hsrv : selectServer (req.host.getD []) servers = some srv) (i : Nat) (l : Loc)
    (hfirst : IsFirst env srv.locs req i l) (hnt : l.tryPaths = none) (s' : St W) (o : Out)
    (hop : operate env servers w cache req = some (s', o)) : asked s'.trace ≤ 1 := by
  unfold operate at hop
  rw [hsrv] at hop
  simp only [dealMatch, findLoc_of_first hfirst] at hop
  obtain ⟨_, _, _, htr⟩ := limitStep_keep env i l req ⟨w, cache, [], [], [], req⟩
  have hlim : asked (limitStep env i l req ⟨w, cache, [], [], [], req⟩).1.trace ≤ 1 := by
    rcases htr with h | ⟨d, h⟩ <;> rw [h] <;> simp [asked]
  cases hl : limitStep env i l req ⟨w, cache, [], [], [], req⟩ with
  | mk s1 r =>
    rw [hl] at hop hlim
    cases r with
    | some r =>
      simp only [Option.some.injEq, Prod.mk.injEq] at hop
      exact hop.1 ▸ hlim
    | none =>
      simp only [hnt] at hop
      split at hop
      · simp only [Option.some.injEq, Prod.mk.injEq] at hop
        exact hop.1 ▸ hlim
      · simp only [Option.some.injEq, Prod.mk.injEq] at hop
        exact hop.1 ▸ hlim
      · rw [Option.some.injEq] at hop
        have hk := (handle_keep env i l req s1).2
        rw [hop] at hk
        rcases hk with hk | ⟨k, hk⟩
        · rw [hk]; exact hlim
        · rw [hk]
          have : asked (s1.trace ++ [.handled i req k]) = asked s1.trace := by simp [asked]
          rw [this]; exact hlim

/-! ### C66, C68: kept upstream connections -/

/-- **C66**, partial: the answer of an upstream over a new connection has the location's header rules applied.
    Missing: kept connections, see `C66_kept_fails`. -/
theorem C66_first_partial (env : Env W) (i : Nat) (l : Loc) (req : Req) (s : St W) (a : Response) (w : W)
    (hc : l.key ∉ s.cache) (hk : l.kind = .proxy) (ha : env.fresh s.world i req = (some a, w)) :
    (handle env i l req s).2 = .resp { a with headers := rewriteAll env.hdr false l.headers a.headers } := by
  have hc' : s.cache.contains l.key = false := by simpa using hc
  simp [handle, hc, hk, ha]

/-- **C66** fails: the answer over a kept connection — from the second request of a client's connection on — is passed
    on as it is, whatever the rules. -/
theorem C66_kept_fails (env : Env W) (i : Nat) (l : Loc) (req : Req) (s : St W) (a : Response) (w : W)
    (hc : l.key ∈ s.cache) (ha : env.reuse s.world i req = (.answer a, w)) : (handle env i l req s).2 = .resp a := by
  simp [handle, hc, ha]

/-- two equal requests on one connection: the first answer has the header, the second has not -/
example : let env : Env Unit := { demoEnv with reuse := fun _ _ _ => (.answer ⟨200, []⟩, ()) }
    let l : Loc := { plainLoc ['/'] with kind := .proxy, headers := [⟨.add, false, ['A'], ['1']⟩] }
    let r1 := operate env [⟨[], [l]⟩] () [] (demoReq ['/'] none)
    let r2 := operate env [⟨[], [l]⟩] () (r1.elim [] (·.1.cache)) (demoReq ['/'] none)
    r1.map (·.2) = some (.resp ⟨200, [(['A'], ['1'])]⟩) ∧ r2.map (·.2) = some (.resp ⟨200, []⟩) := by decide +kernel

/-- **C68** fails: when the kept upstream connection was closed in the meantime, the request is not sent anywhere and the
    client gets a 404. -/
theorem C68_closed_fails (env : Env W) (i : Nat) (l : Loc) (req : Req) (s : St W) (w : W)
    (hc : l.key ∈ s.cache) (ha : env.reuse s.world i req = (.closed, w)) :
    (handle env i l req s).2 = .resp ⟨404, []⟩ ∧ (handle env i l req s).1.trace = s.trace := by
  simp [handle, hc, ha]

/-- **C68**, partial: the request after that is sent over a new connection (the closed one is forgotten). -/
theorem C68_recovers_partial (env : Env W) (i : Nat) (l : Loc) (req req' : Req) (s : St W) (w : W)
    (hc : l.key ∈ s.cache) (ha : env.reuse s.world i req = (.closed, w)) (hk : l.kind ≠ .nothing) :
    ∃ k, (handle env i l req' (handle env i l req s).1).1.trace = s.trace ++ [.handled i req' k] ∧ k = false := by
  refine ⟨false, ?_, rfl⟩
  have h1 : (handle env i l req s).1 = { s with deals := i :: s.deals, world := w, cache := s.cache.filter (· ≠ l.key) } := by
    simp [handle, hc, ha]
  rw [h1]
  simp only [handle]
  rw [if_neg (by simp), if_neg hk]
  split
  · rfl
  · split <;> rfl

/-! ### C67: WebSocket -/

/-- **C67** fails: a WebSocket request is connected to a location's upstream although the location denies the client's
    address and its request limit refuses it; neither is looked at. For every location that matches first in the only
    server. -/
theorem C67_websocket_fails (env : Env W) (name : Text) (l : Loc) (ls : List Loc) (req : Req)
    (hm : Accepts env l.rule req) (hw : l.isWs = true) :
    wsOpen env [⟨name, l :: ls⟩] req = some l := by
  simp [wsOpen, locationByReq, (isMatch_iff env l req).2 hm, hw]

example : let l : Loc := { plainLoc ['/'] with isWs := true, deny := some [⟨.v4 0x0A000000#32, 8⟩] }
    access demoEnv l (demoReq ['/'] (some ['x'])) = .refuse ∧
    (wsOpen demoEnv [⟨[], [l]⟩] (demoReq ['/'] (some ['x']))).isSome = true := by decide +kernel

/-- **C67**, partial: only locations that match and allow WebSocket are connected. -/
theorem C67_only_matching_partial (env : Env W) (servers : List Server) (req : Req) (l : Loc)
    (h : wsOpen env servers req = some l) :
    l.isWs = true ∧ Accepts env l.rule req ∧ ∃ s ∈ servers, l ∈ s.locs := by
  have hloc : ∀ servers, locationByReq env req servers = some l → Accepts env l.rule req ∧ ∃ s ∈ servers, l ∈ s.locs := by
    intro servers
    induction servers with
    | nil => intro h; simp [locationByReq] at h
    | cons s ss ih =>
      intro h
      simp only [locationByReq] at h
      have hrec : locationByReq env req ss = some l → Accepts env l.rule req ∧ ∃ s' ∈ s :: ss, l ∈ s'.locs := by
        intro h
        obtain ⟨h1, s', h2, h3⟩ := ih h
        exact ⟨h1, s', by simp [h2], h3⟩
      split at h
      · split at h
        · rename_i l' hf
          injection h with h
          subst h
          have h1 := List.find?_some hf
          exact ⟨(isMatch_iff env _ req).1 h1, s, by simp, List.mem_of_find?_eq_some hf⟩
        · exact hrec h
      · exact hrec h
  unfold wsOpen at h
  split at h
  · cases h
  · rename_i l' hl
    split at h
    · rename_i hw
      injection h with h
      subst h
      exact ⟨hw, hloc servers hl⟩
    · cases h

end Wm.Reverse
