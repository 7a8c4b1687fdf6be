import Verif.Model.Turns
import Verif.Proofs.WorldFair
/-! Property C184: every listener keeps accepting. -/
namespace Wm.Turns
open Wm

/-- the connections among what `accept` gives -/
def conns : List Item → List Nat
  | [] => []
  | .conn c :: r => c :: conns r
  | .fault :: r => conns r

/-- what came up at a listener, in order -/
def arrivedAt (p : Place) : List Event → List Item
  | [] => []
  | .arrive q x :: es => if q = p then x :: arrivedAt p es else arrivedAt p es
  | .look _ :: es => arrivedAt p es

/-- the connections accepted at a listener, in order -/
def takenAt (p : Place) (s : St) : List Nat := (s.taken.filter fun e => e.1 = p).map Prod.snd

/-- the first `t` events of an endless schedule, and the state then -/
def upto (σ : Nat → Event) (t : Nat) : List Event := (List.range t).map σ

def after (width : Nat → Nat) (σ : Nat → Event) (t : Nat) : St := run width (upto σ t)

/-! ### lists -/

theorem conns_append (a b : List Item) : conns (a ++ b) = conns a ++ conns b := by
  induction a with
  | nil => rfl
  | cons x a ih => cases x <;> simp [conns, ih]

theorem arrivedAt_append (p : Place) (a b : List Event) : arrivedAt p (a ++ b) = arrivedAt p a ++ arrivedAt p b := by
  induction a with
  | nil => rfl
  | cons x a ih =>
    cases x with
    | arrive q y => by_cases h : q = p <;> simp [arrivedAt, h, ih]
    | look b => simp [arrivedAt, ih]

theorem run_append (width : Nat → Nat) (a b : List Event) : run width (a ++ b) = b.foldl (step width) (run width a) := by
  unfold run; rw [List.foldl_append]

theorem upto_succ (σ : Nat → Event) (t : Nat) : upto σ (t + 1) = upto σ t ++ [σ t] := by
  unfold upto; rw [List.range_succ, List.map_append]; rfl

theorem after_succ (width : Nat → Nat) (σ : Nat → Event) (t : Nat) :
    after width σ (t + 1) = step width (after width σ t) (σ t) := by
  unfold after; rw [upto_succ, run_append]; rfl

theorem set_same (w : Place → List Item) (p : Place) (l : List Item) : set w p l p = l := if_pos rfl
theorem set_ne (w : Place → List Item) (p q : Place) (l : List Item) (h : q ≠ p) : set w p l q = w q := if_neg h

theorem takenAt_same (p : Place) (s : St) (c : Nat) (w : Place → List Item) (o : Nat → Bool) :
    takenAt p ⟨w, o, s.taken ++ [(p, c)]⟩ = takenAt p s ++ [c] := by
  simp [takenAt]

theorem takenAt_ne (p q : Place) (s : St) (c : Nat) (w : Place → List Item) (o : Nat → Bool) (h : q ≠ p) :
    takenAt p ⟨w, o, s.taken ++ [(q, c)]⟩ = takenAt p s := by
  simp [takenAt, h]

/-! ### one event -/

/-- what an event does at a listener -/
inductive Change (p : Place) (s s' : St) (e : Event) : Prop
  | comes (x : Item) (he : e = .arrive p x) (hw : s'.wait p = s.wait p ++ [x]) (ht : takenAt p s' = takenAt p s)
  | goes (x : Item) (he : ∃ b, e = .look b) (hw : s.wait p = x :: s'.wait p) (ht : takenAt p s' = takenAt p s ++ conns [x])
  | stays (he : ∀ x, e ≠ .arrive p x) (hw : s'.wait p = s.wait p) (ht : takenAt p s' = takenAt p s)

/-- what is accepted when `x` is first at listener `q` -/
def adds (s : St) (q : Place) : Item → List (Place × Nat)
  | .conn c => s.taken ++ [(q, c)]
  | .fault => s.taken

theorem change_pop (p q : Place) (s : St) (x : Item) (rest : List Item) (o : Nat → Bool) (b : Branch)
    (h : s.wait q = x :: rest) :
    Change p s ⟨set s.wait q rest, o, adds s q x⟩ (.look b) := by
  by_cases hq : q = p
  · subst hq
    refine .goes x ⟨b, rfl⟩ (by rw [h]; simp [set_same]) ?_
    cases x with
    | conn c => exact takenAt_same q s c _ _
    | fault => simp [takenAt, conns, adds]
  · refine .stays (by simp) (set_ne _ _ _ _ (fun h => hq h.symm)) ?_
    cases x with
    | conn c => exact takenAt_ne p q s c _ _ hq
    | fault => rfl

theorem step_change (width : Nat → Nat) (p : Place) (s : St) (e : Event) : Change p s (step width s e) e := by
  cases e with
  | arrive q x =>
    by_cases hq : q = p
    · subst hq
      exact .comes x rfl (set_same _ _ _) rfl
    · exact .stays (by simp [hq]) (set_ne _ _ _ _ (fun h => hq h.symm)) rfl
  | look b =>
    cases b with
    | one k =>
      unfold step
      by_cases ho : s.off k = true
      · simp only [ho, if_true]; exact .stays (by simp) rfl rfl
      · simp only [ho, if_false, Bool.false_eq_true]
        split
        · exact .stays (by simp) rfl rfl
        · rename_i c rest h; exact change_pop p _ s (.conn c) rest _ _ h
        · rename_i rest h; exact change_pop p _ s .fault rest _ _ h
    | many k =>
      unfold step
      dsimp only
      split
      · exact .stays (by simp) rfl rfl
      · rename_i i hi
        split
        · exact .stays (by simp) rfl rfl
        · rename_i c rest h; exact change_pop p _ s (.conn c) rest _ _ h
        · rename_i rest h; exact change_pop p _ s .fault rest _ _ h

/-- what came up at a listener is what was looked at and what still waits -/
theorem inv_run (width : Nat → Nat) (p : Place) (es : List Event) :
    ∃ g, arrivedAt p es = g ++ (run width es).wait p ∧ takenAt p (run width es) = conns g := by
  induction es using List.reverseRecOn with
  | nil => exact ⟨[], rfl, rfl⟩
  | append_singleton es e ih =>
    obtain ⟨g, h1, h2⟩ := ih
    rw [arrivedAt_append, run_append]
    show ∃ g, _ = g ++ (step width (run width es) e).wait p ∧ takenAt p (step width (run width es) e) = _
    cases step_change width p (run width es) e with
    | comes x he hw ht =>
      refine ⟨g, ?_, ht.trans h2⟩
      rw [hw, he, h1]
      simp [arrivedAt]
    | goes x he hw ht =>
      obtain ⟨b, rfl⟩ := he
      refine ⟨g ++ [x], ?_, ?_⟩
      · rw [h1, hw]; simp [arrivedAt]
      · rw [ht, h2, conns_append]
    | stays he hw ht =>
      refine ⟨g, ?_, ht.trans h2⟩
      rw [hw, h1]
      cases e with
      | arrive q x => simp [arrivedAt, show q ≠ p from fun h => he x (by rw [h])]
      | look b => simp [arrivedAt]

/-- **C184** (in order, none lost): at every listener the connections accepted, followed by those that still wait, are those that
    came there, in their order, in every run. -/
theorem C184_order (width : Nat → Nat) (p : Place) (es : List Event) :
    takenAt p (run width es) ++ conns ((run width es).wait p) = conns (arrivedAt p es) := by
  obtain ⟨g, h1, h2⟩ := inv_run width p es
  rw [h1, h2, conns_append]

/-! ### endless schedules -/

/-- If at a listener something is taken away again and again while something waits there, all connections are accepted. -/
theorem all_taken {width : Nat → Nat} {σ : Nat → Event} {p : Place} {E : Nat → Prop} (hE : Often E)
    (hs : ∀ t, E t → (after width σ t).wait p ≠ [] → ∃ x, (after width σ t).wait p = x :: (after width σ (t + 1)).wait p) (t : Nat) :
    ∃ t', t ≤ t' ∧ conns (arrivedAt p (upto σ t)) <+: takenAt p (after width σ t') := by
  have inv := fun t => inv_run width p (upto σ t)
  choose g h1 h2 using inv
  have hlen : ∀ t, (g t).length + ((after width σ t).wait p).length = (arrivedAt p (upto σ t)).length := by
    intro t; rw [h1 t, List.length_append]; rfl
  have hC : ∀ t, arrivedAt p (upto σ t) <+: arrivedAt p (upto σ (t + 1)) := by
    intro t; rw [upto_succ, arrivedAt_append]; exact List.prefix_append _ _
  have hBC : ∀ t, g t <+: arrivedAt p (upto σ t) := fun t => ⟨_, (h1 t).symm⟩
  have hB : ∀ t, g t <+: g (t + 1) := by
    intro t
    refine List.prefix_of_prefix_length_le ((hBC t).trans (hC t)) (hBC (t + 1)) ?_
    have a := hlen t
    have b := hlen (t + 1)
    rw [upto_succ, arrivedAt_append, List.length_append] at b
    have hc := step_change width p (after width σ t) (σ t)
    rw [← after_succ] at hc
    cases hc with
    | comes x he hw ht => rw [hw, he] at b; simp [arrivedAt] at b; omega
    | goes x he hw ht => rw [hw] at a; simp at a; obtain ⟨y, hy⟩ := he; rw [hy] at b; simp [arrivedAt] at b; omega
    | stays he hw ht => rw [hw] at b; omega
  obtain ⟨t', h3, h4⟩ := reaches hB hC hBC hE (fun t ht hlt => by
    have a := hlen t
    have b := hlen (t + 1)
    have hne : (after width σ t).wait p ≠ [] := by intro h; rw [h] at a; simp at a; omega
    obtain ⟨x, hx⟩ := hs t ht hne
    rw [hx] at a
    simp at a
    have := (hC t).length_le
    omega) t
  refine ⟨t', h3, ?_⟩
  have : takenAt p (after width σ t') = conns (g t') := h2 t'
  rw [this]
  obtain ⟨u, hu⟩ := h4
  rw [← hu, conns_append]
  exact List.prefix_append _ _

theorem off_one (width : Nat → Nat) (s : St) (e : Event) (k : Nat) (h : s.off k = false)
    (he : e = .look (.one k) → ∀ r, s.wait (.one k) ≠ .fault :: r) : (step width s e).off k = false := by
  cases e with
  | arrive q x => exact h
  | look b =>
    cases b with
    | one j =>
      unfold step
      dsimp only
      split
      · exact h
      · split
        · exact h
        · rfl
        · rename_i rest hw
          by_cases hj : k = j
          · subst hj; exact absurd hw (he rfl rest)
          · simp [hj, h]
    | many j =>
      unfold step
      dsimp only
      split
      · exact h
      · split
        · exact h
        · rfl
        · rfl

theorem off_taken (width : Nat → Nat) (s : St) (e : Event) (h : (step width s e).taken ≠ s.taken) (k : Nat) :
    (step width s e).off k = false := by
  cases e with
  | arrive q x => exact absurd rfl h
  | look b =>
    cases b with
    | one j =>
      unfold step at h ⊢
      dsimp only at h ⊢
      split at h
      · exact absurd rfl h
      · rename_i ho
        rw [if_neg ho]
        split at h
        · exact absurd rfl h
        · rfl
        · exact absurd rfl h
    | many j =>
      unfold step at h ⊢
      dsimp only at h ⊢
      split at h
      · exact absurd rfl h
      · split at h
        · exact absurd rfl h
        · rfl
        · exact absurd rfl h

/-- if something is found between `a` and `b` at a first place -/
theorem first_look {P : Nat → Prop} {a b : Nat} (hab : a ≤ b) (h : P b) : ∃ c, a ≤ c ∧ c ≤ b ∧ P c ∧ ∀ d, a ≤ d → d < c → ¬ P d := by
  induction b using Nat.strongRecOn with
  | ind b ih =>
    by_cases hx : ∃ d, a ≤ d ∧ d < b ∧ P d
    · obtain ⟨d, h1, h2, h3⟩ := hx
      obtain ⟨c, c1, c2, c3⟩ := ih d h2 h1 h3
      exact ⟨c, c1, by omega, c3⟩
    · exact ⟨b, hab, Nat.le_refl b, h, fun d h1 h2 h3 => hx ⟨d, h1, h2, h3⟩⟩

/-- **C184**, partial (listeners that there is one of): in every endless schedule in which the listener is looked at again and
    again, every connection that comes there is accepted, provided that accepting never fails there, or that again and again a
    connection is accepted at some listener. Missing: failures while nobody else connects, see `C184_fault_fails`. -/
theorem C184_one_partial (width : Nat → Nat) (σ : Nat → Event) (k : Nat) (hl : Often fun t => σ t = .look (.one k))
    (h : (∀ t, σ t ≠ .arrive (.one k) .fault) ∨ Often fun t => (after width σ (t + 1)).taken ≠ (after width σ t).taken) (t : Nat) :
    ∃ t', t ≤ t' ∧ conns (arrivedAt (.one k) (upto σ t)) <+: takenAt (.one k) (after width σ t') := by
  have hE : Often fun t => σ t = .look (.one k) ∧ (after width σ t).off k = false := by
    rcases h with h | h
    · have hw : ∀ t, (∀ x ∈ (after width σ t).wait (.one k), x ≠ .fault) := by
        intro t x hx hf
        subst hf
        have : .fault ∈ arrivedAt (.one k) (upto σ t) := by
          obtain ⟨g, h1, -⟩ := inv_run width (.one k) (upto σ t)
          rw [h1]; exact List.mem_append_right _ hx
        revert this
        induction t with
        | zero => simp [upto, arrivedAt]
        | succ t ih =>
          intro hm
          rw [upto_succ, arrivedAt_append, List.mem_append] at hm
          rcases hm with hm | hm
          · clear hx
            have : ∀ es : List Event, .fault ∈ arrivedAt (.one k) es → Event.arrive (.one k) .fault ∈ es := by
              intro es
              induction es with
              | nil => intro h; cases h
              | cons e es ih =>
                cases e with
                | arrive q x =>
                  by_cases hq : q = .one k
                  · simp only [arrivedAt, hq, if_true, List.mem_cons]
                    rintro (h | h)
                    · subst h; exact .inl rfl
                    · exact .inr (ih h)
                  · simp only [arrivedAt, if_neg hq]
                    intro h; exact List.mem_cons_of_mem _ (ih h)
                | look b => intro h; exact List.mem_cons_of_mem _ (ih h)
            have hm := this _ hm
            unfold upto at hm
            rw [List.mem_map] at hm
            obtain ⟨n, -, hn⟩ := hm
            exact h n hn
          · cases hσ : σ t with
            | arrive q x =>
              rw [hσ] at hm
              by_cases hq : q = .one k
              · simp [arrivedAt, hq] at hm
                exact h t (by rw [hσ, hq, ← hm])
              · simp [arrivedAt, hq] at hm
            | look b => rw [hσ] at hm; simp [arrivedAt] at hm
      have ho : ∀ t, (after width σ t).off k = false := by
        intro t
        induction t with
        | zero => rfl
        | succ t ih =>
          rw [after_succ]
          refine off_one width _ _ k ih (fun _ r hr => ?_)
          exact hw t .fault (by rw [hr]; exact List.mem_cons_self) rfl
      intro t
      obtain ⟨t', h1, h2⟩ := hl t
      exact ⟨t', h1, h2, ho t'⟩
    · intro t
      obtain ⟨t1, h1, h2⟩ := h t
      obtain ⟨t2, h3, h4⟩ := hl (t1 + 1)
      obtain ⟨t3, h5, -, h6, h7⟩ := first_look (P := fun t => σ t = .look (.one k)) h3 h4
      refine ⟨t3, by omega, h6, ?_⟩
      have h0 : (after width σ (t1 + 1)).off k = false := by
        rw [after_succ] at h2 ⊢
        exact off_taken width _ _ h2 k
      have : ∀ d, t1 + 1 + d ≤ t3 → (after width σ (t1 + 1 + d)).off k = false := by
        intro d
        induction d with
        | zero => intro _; exact h0
        | succ d ih =>
          intro hd
          rw [show t1 + 1 + (d + 1) = (t1 + 1 + d) + 1 by omega, after_succ]
          exact off_one width _ _ k (ih (by omega)) (fun he => absurd he (h7 _ (by omega) (by omega)))
      have := this (t3 - (t1 + 1)) (by omega)
      rwa [show t1 + 1 + (t3 - (t1 + 1)) = t3 by omega] at this
  refine all_taken hE (fun t ht hw => ?_) t
  rw [after_succ, ht.1]
  cases hq : (after width σ t).wait (.one k) with
  | nil => exact absurd hq hw
  | cons x r =>
    refine ⟨x, ?_⟩
    unfold step
    simp only [ht.2, hq, Bool.false_eq_true, if_false]
    cases x with
    | conn c => simp [again, set_same]
    | fault => simp [set_same]

theorem find_first (s : St) (k i n : Nat) (hi : i < n) (hw : s.wait (.many k i) ≠ []) (hj : ∀ j < i, s.wait (.many k j) = []) :
    (List.range n).find? (fun i => !(s.wait (.many k i)).isEmpty) = some i := by
  rw [List.find?_range_eq_some]
  refine ⟨by cases h : s.wait (.many k i) with
    | nil => exact absurd h hw
    | cons _ _ => rfl, by simpa using hi, fun j h => by rw [hj j h]; rfl⟩

/-- **C184**, partial (groups of listeners): in every endless schedule in which the group is looked at again and again while
    nothing waits at the listeners before it in the group, every connection that comes to a listener is accepted. Missing: busy
    listeners before it, see `C184_busy_fails`. -/
theorem C184_many_partial (width : Nat → Nat) (σ : Nat → Event) (k i : Nat) (hi : i < width k)
    (hl : Often fun t => σ t = .look (.many k) ∧ ∀ j < i, (after width σ t).wait (.many k j) = []) (t : Nat) :
    ∃ t', t ≤ t' ∧ conns (arrivedAt (.many k i) (upto σ t)) <+: takenAt (.many k i) (after width σ t') := by
  refine all_taken hl (fun t ht hw => ?_) t
  rw [after_succ, ht.1]
  unfold step
  dsimp only
  rw [find_first _ k i _ hi hw ht.2]
  cases hq : (after width σ t).wait (.many k i) with
  | nil => exact absurd hq hw
  | cons x r =>
    refine ⟨x, ?_⟩
    dsimp only
    rw [hq]
    cases x with
    | conn c => simp [again, set_same]
    | fault => simp [again, set_same]

/-- **C184** fails for busy groups: while at each turn of the group something waits at a listener before it, nothing is accepted at
    a listener, for as long as this goes on and however often the group gets its turn. -/
theorem C184_busy_fails (width : Nat → Nat) (σ : Nat → Event) (k j t0 : Nat)
    (hb : ∀ t, t0 ≤ t → σ t = .look (.many k) → ∃ i < j, (after width σ t).wait (.many k i) ≠ []) (t : Nat) (ht : t0 ≤ t) :
    takenAt (.many k j) (after width σ t) = takenAt (.many k j) (after width σ t0) := by
  induction t with
  | zero => rw [Nat.le_zero.1 ht]
  | succ t ih =>
    rcases Nat.lt_or_ge t t0 with hlt | hge
    · rw [Nat.le_antisymm ht hlt]
    · rw [← ih hge, after_succ]
      cases hσ : σ t with
      | arrive q x => rfl
      | look b =>
        cases b with
        | one m =>
          unfold step
          dsimp only
          split
          · rfl
          · split
            · rfl
            · exact takenAt_ne _ _ _ _ _ _ (by simp)
            · rfl
        | many m =>
          unfold step
          dsimp only
          split
          · rfl
          · rename_i i hi
            split
            · rfl
            · refine takenAt_ne _ _ _ _ _ _ (fun heq => ?_)
              cases heq
              obtain ⟨i, h1, h2⟩ := hb t hge hσ
              have h3 := (List.find?_range_eq_some.1 hi).2.2 i h1
              cases hc : (after width σ t).wait (.many k i) with
              | nil => exact h2 hc
              | cons _ _ => rw [hc] at h3; cases h3
            · rfl

/-- **C184** fails after an error: if accepting fails once at a listener that there is one of, while nothing waits anywhere, nothing
    is accepted there any more, whatever comes there and however often the task looks, until a connection comes somewhere else. -/
theorem C184_fault_fails (width : Nat → Nat) (es more : List Event) (k : Nat) (hq : ∀ p, (run width es).wait p = [])
    (hm : ∀ p x, .arrive p x ∈ more → p = .one k) :
    (run width (es ++ [.arrive (.one k) .fault, .look (.one k)] ++ more)).taken = (run width es).taken := by
  rw [run_append, run_append]
  have h0 : ∀ s : St, (∀ p, s.wait p = []) →
      let s' := step width (step width s (.arrive (.one k) .fault)) (.look (.one k))
      s'.taken = s.taken ∧ s'.off k = true ∧ ∀ p, p ≠ .one k → s'.wait p = [] := by
    intro s hs
    have hw : set s.wait (.one k) (s.wait (.one k) ++ [.fault]) (.one k) = [.fault] := by rw [set_same, hs]; rfl
    unfold step
    dsimp only
    split
    · rename_i ho
      exact ⟨rfl, ho, fun p hp => (set_ne _ _ _ _ hp).trans (hs p)⟩
    · rw [hw]
      refine ⟨rfl, by simp, fun p hp => ?_⟩
      dsimp only
      rw [set_ne _ _ _ _ hp, set_ne _ _ _ _ hp]
      exact hs p
  obtain ⟨h1, h2, h3⟩ := h0 _ hq
  have key : ∀ (more : List Event) (s : St), (∀ p x, Event.arrive p x ∈ more → p = .one k) → s.off k = true →
      (∀ p, p ≠ .one k → s.wait p = []) → (more.foldl (step width) s).taken = s.taken := by
    intro more
    induction more with
    | nil => intro s _ _ _; rfl
    | cons e more ih =>
      intro s hm ho hw
      have hm' := fun p x h => hm p x (List.mem_cons_of_mem _ h)
      rw [List.foldl_cons]
      cases e with
      | arrive p x =>
        obtain rfl := hm p x List.mem_cons_self
        exact ih _ hm' ho (fun p hp => by
          show set _ _ _ p = []
          rw [set_ne _ _ _ _ hp]; exact hw p hp)
      | look b =>
        have : step width s (.look b) = s := by
          cases b with
          | one j =>
            unfold step
            dsimp only
            by_cases hj : j = k
            · subst hj; rw [if_pos ho]
            · rw [hw (.one j) (by simpa using hj)]
              simp
          | many j =>
            unfold step
            dsimp only
            have : (List.range (width j)).find? (fun i => !(s.wait (.many j i)).isEmpty) = none := by
              rw [List.find?_eq_none]
              intro i _
              rw [hw (.many j i) (by simp)]
              simp
            rw [this]
        rw [this]
        exact ih s hm' ho hw
  exact (key more _ hm h2 h3).trans h1

/-- **C151** fails after an error: if accepting fails once at the control port while nothing waits there and no message that a service
    is gone, no connection is accepted at the control port any more, however many come, until a service ends. -/
theorem C151_accept_fails (es more : List Event) (hq : ∀ p, (run (fun _ => 0) es).wait p = [])
    (hm : ∀ x, .arrive (.one 1) x ∉ more) (ho : ∀ p x, .arrive p x ∈ more → p = .one 0 ∨ p = .one 1) :
    takenAt (.one 0) (run (fun _ => 0) (es ++ [.arrive (.one 0) .fault, .look (.one 0)] ++ more)) =
      takenAt (.one 0) (run (fun _ => 0) es) := by
  have h := C184_fault_fails (fun _ => 0) es more 0 hq fun p x hp => by
    rcases ho p x hp with rfl | rfl
    · rfl
    · exact absurd hp (hm x)
  unfold takenAt
  rw [h]

/-! ### examples -/

/-- two listeners in group 0, three in group 1 -/
def width : Nat → Nat := fun k => k + 2

/-- a visitor comes to the second listener; from then on one comes to the first before each turn of the group -/
def busy : Nat → Event
  | 0 => .arrive (.many 0 1) (.conn 7)
  | t + 1 => if t % 2 = 0 then .arrive (.many 0 0) (.conn t) else .look (.many 0)

theorem busy_waits (n : Nat) :
    (after width busy (2 * n + 1)).wait (.many 0 0) = [] ∧ (after width busy (2 * n + 2)).wait (.many 0 0) = [.conn (2 * n)] := by
  have hb : busy (2 * n + 1) = .arrive (.many 0 0) (.conn (2 * n)) := by simp [busy]
  have h2 : (after width busy (2 * n + 1)).wait (.many 0 0) = [] → (after width busy (2 * n + 2)).wait (.many 0 0) = [.conn (2 * n)] := by
    intro h
    rw [after_succ, hb]
    simp [step, set_same, h]
  induction n with
  | zero => exact ⟨rfl, h2 rfl⟩
  | succ n ih =>
    have hb' : busy (2 * n + 1) = .arrive (.many 0 0) (.conn (2 * n)) := by simp [busy]
    have ih := ih hb' (fun h => by rw [after_succ, hb']; simp [step, set_same, h])
    suffices h : (after width busy (2 * (n + 1) + 1)).wait (.many 0 0) = [] from ⟨h, h2 h⟩
    rw [show 2 * (n + 1) + 1 = (2 * n + 2) + 1 by omega, after_succ]
    have hl : busy (2 * n + 2) = .look (.many 0) := by
      show (if (2 * n + 1) % 2 = 0 then _ else _) = _
      rw [if_neg (by omega)]
    rw [hl]
    unfold step
    dsimp only
    rw [find_first _ 0 0 _ (by decide) (by rw [ih.2]; simp) (by simp)]
    dsimp only
    rw [ih.2]
    simp [again, set_same]

/-- the group gets its turn again and again, and the visitor of the second listener is never served -/
example : (Often fun t => busy t = .look (.many 0)) ∧ arrivedAt (.many 0 1) (upto busy 1) = [.conn 7] ∧
    ∀ t, takenAt (.many 0 1) (after width busy t) = [] := by
  refine ⟨fun t => ⟨2 * t + 2, by omega, ?_⟩, rfl, fun t => ?_⟩
  · show (if (2 * t + 1) % 2 = 0 then _ else _) = _
    rw [if_neg (by omega)]
  · refine C184_busy_fails width busy 0 1 0 (fun t _ hl => ⟨0, by decide, ?_⟩) t (Nat.zero_le _)
    match t, hl with
    | t + 1, hl =>
      have ht : t % 2 = 1 := by
        by_cases h : t % 2 = 0
        · simp [busy, h] at hl
        · omega
      have := (busy_waits (t / 2)).2
      rw [show 2 * (t / 2) + 2 = t + 1 by omega] at this
      rw [this]; simp

/-- without visitors of the first it would be -/
example : takenAt (.many 0 1) (run width [.arrive (.many 0 1) (.conn 7), .look (.many 0)]) = [7] := by decide

/-- connections come to the proxy, and both the proxy's listener and a group get their turns -/
def turns (t : Nat) : Event :=
  if t % 3 = 0 then .arrive (.one 1) (.conn t) else if t % 3 = 1 then .look (.one 1) else .look (.many 0)

example : (Often fun t => turns t = .look (.one 1)) ∧ (∀ t, turns t ≠ .arrive (.one 1) .fault) ∧
    (Often fun t => turns t = .look (.many 0)) ∧ takenAt (.one 1) (after width turns 15) = [0, 3, 6, 9, 12] := by
  refine ⟨fun t => ⟨3 * t + 1, by omega, ?_⟩, fun t => ?_, fun t => ⟨3 * t + 2, by omega, ?_⟩, by decide⟩
  · show (if _ then _ else if _ then _ else _) = _
    rw [if_neg (by omega), if_pos (by omega)]
  · unfold turns
    split
    · simp
    · split <;> simp
  · show (if _ then _ else if _ then _ else _) = _
    rw [if_neg (by omega), if_neg (by omega)]

/-- a failure, and a connection that is not accepted after it until another listener has one -/
example : (∀ p, (run width [.arrive (.one 1) (.conn 3), .look (.one 1)]).wait p = []) ∧
    (run width [.arrive (.one 1) .fault, .look (.one 1), .arrive (.one 1) (.conn 3), .look (.one 1), .look (.many 0)]).taken = [] ∧
    (run width [.arrive (.one 1) .fault, .look (.one 1), .arrive (.one 1) (.conn 3), .look (.one 1), .arrive (.one 4) (.conn 5),
      .look (.one 4), .look (.one 1)]).taken = [(.one 4, 5), (.one 1, 3)] := by
  refine ⟨fun p => ?_, by decide, by decide⟩
  by_cases hp : p = .one 1
  · subst hp; rfl
  · show set (set (fun _ => []) _ _) _ _ p = []
    rw [set_ne _ _ _ _ hp, set_ne _ _ _ _ hp]

/-- the control port: two requests, a failure, a third request -/
example : takenAt (.one 0) (run (fun _ => 0) ([.arrive (.one 0) (.conn 1), .look (.one 0)] ++
      [.arrive (.one 0) .fault, .look (.one 0)] ++ [.arrive (.one 0) (.conn 2), .look (.one 0), .look (.one 1), .look (.one 0)])) = [1] ∧
    takenAt (.one 0) (run (fun _ => 0) [.arrive (.one 0) .fault, .look (.one 0), .arrive (.one 0) (.conn 2), .arrive (.one 1) (.conn 0),
      .look (.one 1), .look (.one 0)]) = [2] := by decide

end Wm.Turns
