import Verif.Model.Health
import Mathlib.Data.List.Induction
import Mathlib.Data.List.Infix
/-! Properties C41, C42: health records and connecting. -/
namespace Wm.Health
open Wm

/-! ### C41: down and up again

The specification: for one address, the outcomes since its last long silence, and blocks of consecutive outcomes. -/

/-- the outcomes since the last silence longer than `T` (times and outcomes in order) -/
def sinceSilence (T : Nat) (evs : List (Nat × Bool)) : List Bool :=
  (evs.foldl (fun (acc : Option Nat × List Bool) e =>
    (some e.1, (if acc.1.elim false (fun l => decide (e.1 - l > T)) then [] else acc.2) ++ [e.2])) (none, [])).2

/-- `M` failures in a row, and afterwards never `m` successes in a row -/
def Down (M m : Nat) (outcomes : List Bool) : Prop :=
  ∃ a b, outcomes = a ++ List.replicate M false ++ b ∧ ¬ List.replicate m true <:+: b

/-- how many of the last outcomes are `b` -/
def run (b : Bool) (l : List Bool) : Nat := (l.reverse.takeWhile (· == b)).length

theorem run_nil (b : Bool) : run b [] = 0 := rfl

theorem run_snoc (b c : Bool) (l : List Bool) : run b (l ++ [c]) = if c = b then run b l + 1 else 0 := by
  by_cases h : c = b <;> simp [run, h]

theorem le_run_iff (b : Bool) (n : Nat) (l : List Bool) : n ≤ run b l ↔ List.replicate n b <:+ l := by
  induction l using List.reverseRecOn generalizing n with
  | nil =>
    rw [run_nil]
    cases n with
    | zero => simp
    | succ n => simp [List.replicate_succ]
  | append_singleton l c ih =>
    rw [run_snoc]
    cases n with
    | zero => simp
    | succ n =>
      rw [List.replicate_succ', List.suffix_concat_iff]
      constructor
      · intro h
        split at h
        · rename_i hc
          obtain ⟨t, ht⟩ := (ih n).1 (by omega)
          exact .inr ⟨List.replicate n b, by rw [hc], ⟨t, ht⟩⟩
        · omega
      · rintro (h | ⟨t, h1, h2⟩)
        · simp at h
        · have h3 := List.append_inj' h1 rfl
          obtain ⟨h3, h4⟩ := h3
          injection h4 with h4
          subst h3
          rw [if_pos h4.symm]
          have := (ih n).2 h2
          omega

theorem run_stop (a b : List Bool) : run true (a ++ [false] ++ b) = run true b := by
  induction b using List.reverseRecOn with
  | nil => rw [List.append_nil, run_snoc]; rfl
  | append_singleton b c ih => rw [← List.append_assoc, run_snoc, run_snoc, ih]

theorem down_fail (M m : Nat) (hm : 1 ≤ m) (l : List Bool) :
    Down M m (l ++ [false]) ↔ Down M m l ∨ M ≤ run false l + 1 := by
  constructor
  · rintro ⟨a, b, h1, h2⟩
    rcases List.eq_nil_or_concat b with rfl | ⟨b', c, rfl⟩
    · right
      have : List.replicate M false <:+ l ++ [false] := ⟨a, by rw [h1]; simp⟩
      rw [← le_run_iff, run_snoc] at this
      simpa using this
    · left
      simp only [List.concat_eq_append] at h1 h2
      rw [← List.append_assoc] at h1
      have := (List.append_inj' h1 rfl).1
      exact ⟨a, b', this, fun hc => h2 (hc.trans (List.prefix_append _ _).isInfix)⟩
  · rintro (⟨a, b, rfl, h2⟩ | h)
    · refine ⟨a, b ++ [false], by simp, ?_⟩
      rw [List.infix_concat_iff]
      rintro (h | h)
      · rw [← le_run_iff, run_snoc] at h
        simp at h; omega
      · exact h2 h
    · have : M ≤ run false (l ++ [false]) := by rw [run_snoc]; simpa using h
      obtain ⟨a, ha⟩ := (le_run_iff false M _).1 this
      refine ⟨a, [], by rw [List.append_nil, ha], ?_⟩
      intro hc
      have := hc.length_le
      simp at this; omega

theorem down_ok (M m : Nat) (hM : 1 ≤ M) (l : List Bool) :
    Down M m (l ++ [true]) ↔ Down M m l ∧ ¬ m ≤ run true l + 1 := by
  constructor
  · rintro ⟨a, b, h1, h2⟩
    rcases List.eq_nil_or_concat b with rfl | ⟨b', c, rfl⟩
    · exfalso
      have : List.replicate M false <:+ l ++ [true] := ⟨a, by rw [h1]; simp⟩
      rw [← le_run_iff, run_snoc] at this
      simp at this; omega
    · simp only [List.concat_eq_append] at h1 h2
      have h1' := h1
      rw [← List.append_assoc] at h1
      have := (List.append_inj' h1 rfl).1
      refine ⟨⟨a, b', this, fun hc => h2 (hc.trans (List.prefix_append _ _).isInfix)⟩, fun hr => h2 ?_⟩
      have h3 : m ≤ run true (l ++ [true]) := by rw [run_snoc]; simpa using hr
      obtain ⟨M', rfl⟩ : ∃ M', M = M' + 1 := ⟨M - 1, by omega⟩
      rw [h1', List.replicate_succ', ← List.append_assoc a, run_stop, le_run_iff] at h3
      exact h3.isInfix
  · rintro ⟨⟨a, b, rfl, h2⟩, h⟩
    refine ⟨a, b ++ [true], by simp, ?_⟩
    rw [List.infix_concat_iff]
    rintro (hs | hs)
    · apply h
      have h3 : List.replicate m true <:+ (a ++ List.replicate M false ++ b) ++ [true] := by
        rw [List.append_assoc]
        exact hs.trans (List.suffix_append _ _)
      rw [← le_run_iff, run_snoc] at h3
      simpa using h3
    · exact h2 hs

variable {A : Type} [DecidableEq A]

/-- the outcomes recorded for an address, with their times -/
def outcomesOf (x : A) (ops : List (Op A)) : List (Nat × Bool) :=
  ops.filterMap fun
    | .outcome a t ok => if a = x then some (t, ok) else none
    | .request _ _ _ => none

/-- The silence after which an address is forgiven, in nanoseconds: the configured one, but 30 seconds for an address first seen by the
    active check. -/
def patience (T : Nat) (x : A) : List (Op A) → Nat
  | [] => T
  | .outcome a _ _ :: ops => if a = x then T else patience T x ops
  | .request a _ _ :: ops => if a = x then 30 * 1000000000 else patience T x ops

/-- the operations mention the address -/
def mentions (x : A) (ops : List (Op A)) : Bool :=
  ops.any fun
    | .outcome a _ _ => a = x
    | .request a _ _ => a = x

theorem patience_snoc (T : Nat) (x : A) (ops : List (Op A)) (o : Op A) :
    patience T x (ops ++ [o]) = if mentions x ops then patience T x ops else patience T x [o] := by
  induction ops with
  | nil => rfl
  | cons p ops ih =>
    cases p with
    | outcome a t ok => by_cases h : a = x <;> simp [patience, mentions, h, ih]
    | request a t i => by_cases h : a = x <;> simp [patience, mentions, h, ih]

theorem sinceSilence_fold (T : Nat) (evs : List (Nat × Bool)) :
    (evs.foldl (fun (acc : Option Nat × List Bool) e =>
      (some e.1, (if acc.1.elim false (fun l => decide (e.1 - l > T)) then [] else acc.2) ++ [e.2])) (none, []))
      = (evs.getLast?.map Prod.fst, sinceSilence T evs) := by
  induction evs using List.reverseRecOn with
  | nil => rfl
  | append_singleton evs e _ => simp [sinceSilence]

theorem sinceSilence_snoc (T : Nat) (evs : List (Nat × Bool)) (e : Nat × Bool) :
    sinceSilence T (evs ++ [e]) =
      (if (evs.getLast?.map Prod.fst).elim false (fun l => decide (e.1 - l > T)) then [] else sinceSilence T evs) ++ [e.2] := by
  conv_lhs => unfold sinceSilence
  rw [List.foldl_append, sinceSilence_fold]
  rfl

/-- what the record of an address holds after its history -/
def Holds (M m T : Nat) (evs : List (Nat × Bool)) (r : Record) : Prop :=
  r.failTimeout = T ∧ r.fallTimes = run false (sinceSilence T evs) ∧ r.riseTimes = run true (sinceSilence T evs) ∧
  (r.failed = true ↔ Down M m (sinceSilence T evs)) ∧ ∀ t, evs.getLast?.map Prod.fst = some t → r.lastRecord = t

theorem not_down_nil (M m : Nat) (hM : 1 ≤ M) : ¬ Down M m [] := by
  rintro ⟨a, b, h, _⟩
  have := congrArg List.length h
  simp at this; omega

theorem not_down_one (M m : Nat) (hM : 2 ≤ M) (c : Bool) : ¬ Down M m [c] := by
  rintro ⟨a, b, h, _⟩
  have := congrArg List.length h
  simp at this; omega

theorem fresh_holds {M m T : Nat} (hM : 2 ≤ M) {evs : List (Nat × Bool)} {r : Record} (h : Holds M m T evs r) (t : Nat)
    (c : Bool) : ∃ l, sinceSilence T (evs ++ [(t, c)]) = l ++ [c] ∧ (r.fresh t).failTimeout = T ∧
      (r.fresh t).fallTimes = run false l ∧ (r.fresh t).riseTimes = run true l ∧
      ((r.fresh t).failed = true ↔ Down M m l) := by
  obtain ⟨h1, h2, h3, h4, h5⟩ := h
  have hd := not_down_nil M m (by omega)
  cases hl : evs.getLast?.map Prod.fst with
  | none =>
    have he : evs = [] := by simpa using hl
    subst he
    refine ⟨[], rfl, ?_⟩
    have hs : sinceSilence T [] = [] := rfl
    rw [hs] at h2 h3 h4
    unfold Record.fresh
    split
    · exact ⟨h1, rfl, rfl, by simp [hd]⟩
    · exact ⟨h1, h2, h3, h4⟩
  | some l =>
    refine ⟨_, sinceSilence_snoc T evs (t, c), ?_⟩
    rw [hl]
    have hlast := h5 l hl
    unfold Record.fresh
    rw [hlast, h1]
    by_cases hc : t - l > T
    · simp only [hc, if_true, Option.elim, decide_true]
      exact ⟨by first | trivial | exact h1, rfl, rfl, by simp [hd]⟩
    · simp only [hc, if_false, Option.elim, decide_false, Bool.false_eq_true]
      exact ⟨by first | trivial | exact h1, h2, h3, h4⟩

theorem step_params (h : Check A) (o : Op A) :
    (h.step o).failTimeout = h.failTimeout ∧ (h.step o).maxFails = h.maxFails ∧ (h.step o).minRises = h.minRises := by
  cases o with
  | outcome a t ok =>
    cases ok <;> simp only [Check.step, Check.rise, Check.fall] <;> split <;> exact ⟨rfl, rfl, rfl⟩
  | request a t i =>
    simp only [Check.step, Check.canRequest]
    split
    · exact ⟨rfl, rfl, rfl⟩
    · repeat' split
      all_goals exact ⟨rfl, rfl, rfl⟩

theorem run_params (h : Check A) (ops : List (Op A)) :
    (h.run ops).failTimeout = h.failTimeout ∧ (h.run ops).maxFails = h.maxFails ∧ (h.run ops).minRises = h.minRises := by
  induction ops generalizing h with
  | nil => exact ⟨rfl, rfl, rfl⟩
  | cons o ops ih =>
    obtain ⟨a, b, c⟩ := ih (h.step o)
    obtain ⟨a', b', c'⟩ := step_params h o
    exact ⟨a.trans a', b.trans b', c.trans c'⟩

theorem step_other (h : Check A) (x : A) (o : Op A) (ho : mentions x [o] = false) : (h.step o).map x = h.map x := by
  cases o with
  | outcome a t ok =>
    have hx : ¬ x = a := by
      rintro rfl; simp [mentions] at ho
    cases ok <;> simp only [Check.step, Check.rise, Check.fall] <;> split <;> simp [Check.put, hx]
  | request a t i =>
    have hx : ¬ x = a := by
      rintro rfl; simp [mentions] at ho
    simp only [Check.step, Check.canRequest]
    split
    · simp [Check.put, hx]
    · repeat' split
      all_goals simp [Check.put, hx]

/-- the record of every address says what its history says -/
theorem record_holds (T M m : Nat) (hM : 2 ≤ M) (hm : 1 ≤ m) (ops : List (Op A)) (x : A) :
    if mentions x ops then ∃ r, ((Check.new T M m : Check A).run ops).map x = some r ∧
        Holds M m (patience T x ops) (outcomesOf x ops) r
    else ((Check.new T M m : Check A).run ops).map x = none := by
  induction ops using List.reverseRecOn with
  | nil => rfl
  | append_singleton ops o ih =>
    have hrun : (Check.new T M m : Check A).run (ops ++ [o]) = ((Check.new T M m : Check A).run ops).step o := by
      simp [Check.run, List.foldl_append]
    obtain ⟨p1, p2, p3⟩ := run_params (Check.new T M m : Check A) ops
    have p1 : ((Check.new T M m : Check A).run ops).failTimeout = T := p1
    have p2 : ((Check.new T M m : Check A).run ops).maxFails = M := p2
    have p3 : ((Check.new T M m : Check A).run ops).minRises = m := p3
    rw [hrun]
    generalize (Check.new T M m : Check A).run ops = h at *
    have hment : mentions x (ops ++ [o]) = (mentions x ops || mentions x [o]) := by simp [mentions]
    cases ho : mentions x [o] with
    | false =>
      rw [hment, ho, Bool.or_false, step_other h x o ho, patience_snoc]
      have hou : outcomesOf x (ops ++ [o]) = outcomesOf x ops := by
        unfold outcomesOf
        rw [List.filterMap_append]
        cases o with
        | outcome a t ok =>
          have hx : ¬ a = x := by rintro rfl; simp [mentions] at ho
          simp [hx]
        | request a t i => simp
      rw [hou]
      by_cases hmx : mentions x ops = true
      · rw [if_pos hmx] at ih ⊢; rw [if_pos hmx]; exact ih
      · rw [if_neg hmx] at ih ⊢; exact ih
    | true =>
      rw [hment, ho, Bool.or_true, if_pos rfl, patience_snoc]
      cases o with
      | outcome a t ok =>
        have hx : a = x := by simpa [mentions] using ho
        subst hx
        have hou : outcomesOf a (ops ++ [.outcome a t ok]) = outcomesOf a ops ++ [(t, ok)] := by
          unfold outcomesOf
          rw [List.filterMap_append]; simp
        rw [hou]
        have hlast : ∀ t', ((outcomesOf a ops ++ [(t, ok)]).getLast?.map Prod.fst = some t') → t = t' := by
          intro t' h; simpa using h
        by_cases hmx : mentions a ops = true
        · rw [if_pos hmx] at ih ⊢
          obtain ⟨r, hr, hh⟩ := ih
          obtain ⟨l, hl, f1, f2, f3, f4⟩ := fresh_holds hM hh t ok
          cases ok with
          | true =>
            have hmap : (h.step (.outcome a t true)).map a = some { (r.fresh t) with
                lastRecord := t, riseTimes := (r.fresh t).riseTimes + 1, fallTimes := 0,
                failed := if (r.fresh t).riseTimes + 1 ≥ h.minRises then false else (r.fresh t).failed } := by
              simp only [Check.step, Check.rise, hr, Check.put, if_true]
            refine ⟨_, hmap, f1, ?_, ?_, ?_, hlast⟩
            · rw [hl, run_snoc]; simp
            · rw [hl, run_snoc, f3]; simp
            · simp only [f3, p3]
              rw [hl, down_ok M m (by omega)]
              by_cases hc : run true l + 1 ≥ m
              · simp [hc]
              · rw [if_neg hc, f4]; exact ⟨fun h => ⟨h, hc⟩, fun h => h.1⟩
          | false =>
            have hmap : (h.step (.outcome a t false)).map a = some { (r.fresh t) with
                lastRecord := t, fallTimes := (r.fresh t).fallTimes + 1, riseTimes := 0,
                failed := if (r.fresh t).fallTimes + 1 ≥ h.maxFails then true else (r.fresh t).failed } := by
              simp only [Check.step, Check.fall, hr, Check.put, if_true]
            refine ⟨_, hmap, f1, ?_, ?_, ?_, hlast⟩
            · rw [hl, run_snoc, f2]; simp
            · rw [hl, run_snoc]; simp
            · simp only [f2, p2]
              rw [hl, down_fail M m hm]
              by_cases hc : run false l + 1 ≥ M
              · simp [hc]
              · rw [if_neg hc, f4]; exact ⟨fun h => .inl h, fun h => h.resolve_right hc⟩
        · rw [if_neg hmx] at ih ⊢
          have hev : outcomesOf a ops = [] := by
            unfold outcomesOf
            rw [List.filterMap_eq_nil_iff]
            intro o ho'
            have hn : mentions a [o] = false := by
              rw [Bool.eq_false_iff]; intro hc
              apply hmx
              unfold mentions at hc ⊢
              rw [List.any_eq_true]
              exact ⟨o, ho', by simpa using hc⟩
            cases o with
            | outcome b t ok =>
              have hx : ¬ b = a := by rintro rfl; simp [mentions] at hn
              simp [hx]
            | request b t i => rfl
          rw [hev]
          have hseg : sinceSilence (patience T a [Op.outcome a t ok]) ([] ++ [(t, ok)]) = [ok] := by simp [sinceSilence]
          have hpat : patience T a [Op.outcome a t ok] = T := by simp [patience]
          have hnd := not_down_one M m hM ok
          cases ok with
          | true =>
            have hmap : (h.step (.outcome a t true)).map a = some { Record.new h.failTimeout t with riseTimes := 1 } := by
              simp only [Check.step, Check.rise, ih, Check.put, if_true]
            refine ⟨_, hmap, ?_, ?_, ?_, ?_, ?_⟩
            · rw [hpat]; exact p1
            · rw [hseg]; rfl
            · rw [hseg]; rfl
            · rw [hseg]; simp [hnd, Record.new]
            · intro t' ht'; simpa [Record.new] using ht'
          | false =>
            have hmap : (h.step (.outcome a t false)).map a = some { Record.new h.failTimeout t with fallTimes := 1 } := by
              simp only [Check.step, Check.fall, ih, Check.put, if_true]
            refine ⟨_, hmap, ?_, ?_, ?_, ?_, ?_⟩
            · rw [hpat]; exact p1
            · rw [hseg]; rfl
            · rw [hseg]; rfl
            · rw [hseg]; simp [hnd, Record.new]
            · intro t' ht'; simpa [Record.new] using ht'
      | request a t i =>
        have hx : a = x := by simpa [mentions] using ho
        subst hx
        have hou : outcomesOf a (ops ++ [.request a t i]) = outcomesOf a ops := by
          unfold outcomesOf
          rw [List.filterMap_append]; simp
        rw [hou]
        by_cases hmx : mentions a ops = true
        · rw [if_pos hmx] at ih ⊢
          obtain ⟨r, hr, hh⟩ := ih
          simp only [Check.step, Check.canRequest, hr]
          cases hq : r.lastRequest with
          | none => exact ⟨{ r with lastRequest := some t }, by simp [Check.put], hh⟩
          | some q =>
            simp only
            by_cases hc : t - q > i
            · exact ⟨{ r with lastRequest := some t }, by simp [Check.put, hc], hh⟩
            · exact ⟨r, by simp [hc, hr], hh⟩
        · rw [if_neg hmx] at ih ⊢
          have hev : outcomesOf a ops = [] := by
            unfold outcomesOf
            rw [List.filterMap_eq_nil_iff]
            intro o ho'
            have hn : mentions a [o] = false := by
              rw [Bool.eq_false_iff]; intro hc
              apply hmx
              unfold mentions at hc ⊢
              rw [List.any_eq_true]
              exact ⟨o, ho', by simpa using hc⟩
            cases o with
            | outcome b t ok =>
              have hx : ¬ b = a := by rintro rfl; simp [mentions] at hn
              simp [hx]
            | request b t i => rfl
          rw [hev]
          have hmap : (h.step (.request a t i)).map a = some { Record.new (sec 30) t with lastRequest := some t } := by
            simp only [Check.step, Check.canRequest, ih, Check.put, if_true]
          refine ⟨_, hmap, ?_, rfl, rfl, ?_, ?_⟩
          · simp [patience, Record.new, sec]
          · simp [Record.new, sinceSilence, not_down_nil M m (by omega)]
          · intro t' ht'; simp at ht'

/-- **C41** For every configuration with at least two failures and one success, after every history of outcomes for any
    addresses, an address is regarded as down at a time `now` exactly when it has been heard of within the failure
    timeout, and since its last silence longer than that timeout it had `maxFails` failures in a row not followed by
    `minRises` successes in a row. (`patience` is the failure timeout, see there for the exception.) -/
theorem C41_down (T M m : Nat) (hM : 2 ≤ M) (hm : 1 ≤ m) (ops : List (Op A)) (x : A) (now : Nat) :
    ((Check.new T M m : Check A).run ops).isDown x now = true ↔
      ∃ last, (outcomesOf x ops).getLast?.map Prod.fst = some last ∧ ¬ now - last > patience T x ops ∧
        Down M m (sinceSilence (patience T x ops) (outcomesOf x ops)) := by
  have h := record_holds T M m hM hm ops x
  unfold Check.isDown
  by_cases hmx : mentions x ops = true
  · rw [if_pos hmx] at h
    obtain ⟨r, hr, h1, _, _, h4, h5⟩ := h
    rw [hr]
    simp only
    cases hl : (outcomesOf x ops).getLast?.map Prod.fst with
    | none =>
      have he : outcomesOf x ops = [] := by simpa using hl
      rw [he] at h4
      have hf : r.failed = false := by
        rw [Bool.eq_false_iff]; intro hc
        exact not_down_nil M m (by omega) (h4.1 hc)
      simp [hf]
    | some last =>
      rw [h1, h5 last hl]
      constructor
      · intro h
        split at h
        · cases h
        · rename_i hc
          exact ⟨last, rfl, hc, h4.1 h⟩
      · rintro ⟨l, hl', hc, h⟩
        injection hl' with hl'
        subst hl'
        rw [if_neg hc]
        exact h4.2 h
  · rw [if_neg hmx] at h
    rw [h]
    have hev : outcomesOf x ops = [] := by
      unfold outcomesOf
      rw [List.filterMap_eq_nil_iff]
      intro o ho'
      have hn : mentions x [o] = false := by
        rw [Bool.eq_false_iff]; intro hc
        apply hmx
        unfold mentions at hc ⊢
        rw [List.any_eq_true]
        exact ⟨o, ho', by simpa using hc⟩
      cases o with
      | outcome b t ok =>
        have hx : ¬ b = x := by rintro rfl; simp [mentions] at hn
        simp [hx]
      | request b t i => rfl
    simp [hev]

/-- three failures, one success: still down; another success: up; three failures and a long silence: up -/
example : let h : Check Nat := .new 60 3 2
    let ops : List (Op Nat) := [.outcome 1 0 false, .outcome 1 1 false, .outcome 2 1 true, .outcome 1 2 false, .outcome 1 3 true]
    (h.run ops).isDown 1 10 = true ∧ (h.run (ops ++ [.outcome 1 4 true])).isDown 1 10 = false ∧
    (h.run ops).isDown 1 64 = false ∧ (h.run ops).isDown 2 10 = false := by decide +kernel

/-- **C41** (addresses first seen by the active check) fails: such an address is forgiven after 30 seconds of silence, whatever
    happened to it and however long the configured timeout is. -/
theorem C41_active_fails (T M m : Nat) (hM : 2 ≤ M) (hm : 1 ≤ m) (x : A) (t0 i : Nat) (ops : List (Op A)) (last now : Nat)
    (hl : (outcomesOf x ops).getLast?.map Prod.fst = some last) (hn : now - last > 30 * 1000000000) :
    ((Check.new T M m : Check A).run (.request x t0 i :: ops)).isDown x now = false := by
  cases hd : ((Check.new T M m : Check A).run (.request x t0 i :: ops)).isDown x now with
  | false => rfl
  | true =>
    obtain ⟨l, h1, h2, _⟩ := (C41_down T M m hM hm (.request x t0 i :: ops) x now).1 hd
    have h3 : outcomesOf x (.request x t0 i :: ops) = outcomesOf x ops := by simp [outcomesOf]
    rw [h3, hl] at h1
    cases h1
    exact absurd hn (by simpa [patience] using h2)

/-- three failures; with a timeout of 60 seconds the address is down 37 seconds later, but not when the active check was first -/
example : let h : Check Nat := Check.global
    let ops : List (Op Nat) := [.outcome 1 (sec 1) false, .outcome 1 (sec 2) false, .outcome 1 (sec 3) false]
    (h.run ops).isDown 1 (sec 40) = true ∧ (h.run (.request 1 0 (sec 10) :: ops)).isDown 1 (sec 40) = false := by
  decide +kernel

/-- **C41** fails for a limit of one failure: the very first failure of an address does not take it out. -/
theorem C41_first_fails (T m : Nat) (x : A) (t : Nat) :
    ((Check.new T 1 m : Check A).run [.outcome x t false]).isDown x t = false := by
  simp [Check.run, Check.step, Check.fall, Check.new, Check.put, Check.isDown, Record.new]

/-! ### C42: connecting -/

/-- the outcomes recorded for a list of attempts that were made -/
def recordAll (h : Check A) : List (Attempt A) → Check A
  | [] => h
  | t :: ts => recordAll (match t.answer with
    | .ok => h.rise t.addr t.done
    | .fail => h.fall t.addr t.done
    | .hang => h) ts

theorem isDown_other (h : Check A) (o : Op A) (x : A) (now : Nat) (ho : mentions x [o] = false) :
    (h.step o).isDown x now = h.isDown x now := by
  unfold Check.isDown
  rw [step_other h x o ho]

/-- **C42** For every list of different addresses, health state and answers of the network (none hanging): the address
    connected is the first one in the list that is not down and answers; if there is none the result is an error; the
    addresses tried are exactly those not down, up to the connected one; and exactly their outcomes are recorded. -/
theorem C42_connect (h : Check A) (ts : List (Attempt A)) (hn : (ts.map (·.addr)).Nodup)
    (hh : ∀ t ∈ ts, t.answer ≠ .hang) :
    let up := ts.filter fun t => !h.isDown t.addr t.time
    let before := up.takeWhile fun t => t.answer ≠ .ok
    let tried := before ++ (up.find? fun t => t.answer = .ok).toList
    (connect h ts).2.2 = ((up.find? fun t => t.answer = .ok).elim .error fun t => .connected t.addr) ∧
    (connect h ts).2.1 = tried.map (·.addr) ∧ (connect h ts).1 = recordAll h tried := by
  induction ts generalizing h with
  | nil => exact ⟨rfl, rfl, rfl⟩
  | cons t ts ih =>
    simp only [List.map_cons, List.nodup_cons] at hn
    have hh' : ∀ t ∈ ts, t.answer ≠ .hang := fun t' ht => hh t' (by simp [ht])
    simp only [connect, List.filter_cons]
    cases hd : h.isDown t.addr t.time with
    | true =>
      simp only [if_true, Bool.not_true, Bool.false_eq_true, if_false]
      exact ih h hn.2 hh'
    | false =>
      simp only [Bool.false_eq_true, if_false, Bool.not_false, if_true]
      cases ha : t.answer with
      | hang => exact absurd ha (hh t (by simp))
      | ok => simp [ha, recordAll, List.takeWhile_cons, List.find?_cons]
      | fail =>
        have ih := ih (h.fall t.addr t.done) hn.2 hh'
        have hsame : ∀ t' ∈ ts, (!(h.fall t.addr t.done).isDown t'.addr t'.time) = !h.isDown t'.addr t'.time := by
          intro t' ht'
          have : mentions t'.addr [Op.outcome t.addr t.done false] = false := by
            simp only [mentions, List.any_cons, List.any_nil, Bool.or_false, decide_eq_false_iff_not]
            intro hc
            exact hn.1 (hc ▸ List.mem_map_of_mem ht')
          rw [← isDown_other h _ t'.addr t'.time this]
          rfl
        rw [List.filter_congr hsame] at ih
        obtain ⟨i1, i2, i3⟩ := ih
        simp only [ha, List.takeWhile_cons, List.find?_cons, ne_eq, reduceCtorEq, not_false_eq_true, decide_true, if_true,
          decide_false, Bool.false_eq_true, List.cons_append, List.map_cons, recordAll]
        exact ⟨i1, by rw [i2], i3⟩

example : let h : Check Nat := (Check.new 60 3 2).run [.outcome 1 0 false, .outcome 1 0 false, .outcome 1 0 false]
    let ts : List (Attempt Nat) := [⟨1, 5, .ok, 6⟩, ⟨2, 5, .fail, 6⟩, ⟨3, 6, .ok, 7⟩, ⟨4, 6, .ok, 7⟩]
    (connect h ts).2 = ([2, 3], .connected 3) := by decide +kernel

/-- **C42** fails with a time limit: an address that does not answer in time is tried, but nothing is recorded about it,
    so however often this happens it is never regarded as down; and later addresses are not tried. -/
theorem C42_timeout_fails (h : Check A) (t : Attempt A) (ts : List (Attempt A)) (hd : h.isDown t.addr t.time = false)
    (ha : t.answer = .hang) : connect h (t :: ts) = (h, [t.addr], .timedOut) := by
  simp [connect, hd, ha]

example : (Check.global : Check Nat).isDown 1 0 = false := by decide +kernel

end Wm.Health
