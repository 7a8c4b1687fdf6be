import Verif.Model.Text
import Mathlib.Data.List.Induction
/-! Lemmas about texts. -/
namespace Wm

/-- a decimal digit -/
def IsDigit (c : Char) : Prop := 48 ≤ c.toNat ∧ c.toNat ≤ 57

instance (c : Char) : Decidable (IsDigit c) := by unfold IsDigit; infer_instance

theorem digitChar_fin : ∀ k : Fin 10, (Char.ofNat (48 + k.val)).toNat = 48 + k.val := by decide

theorem digitChar_toNat (d : Nat) : (digitChar d).toNat = 48 + d % 10 := by
  have h : d % 10 < 10 := Nat.mod_lt _ (by decide)
  exact digitChar_fin ⟨d % 10, h⟩

theorem digitChar_isDigit (d : Nat) : IsDigit (digitChar d) := by
  have := digitChar_toNat d
  have h : d % 10 < 10 := Nat.mod_lt _ (by decide)
  unfold IsDigit; omega

theorem digitVal_digitChar (d : Nat) : digitVal (digitChar d) = some (d % 10) := by
  have h : d % 10 < 10 := Nat.mod_lt _ (by decide)
  rw [digitVal, digitChar_toNat, if_pos (by omega)]; congr 1; omega

theorem digitVal_isSome {c : Char} (h : IsDigit c) : digitVal c = some (c.toNat - 48) := if_pos h

theorem parseDigits_append (a : Nat) (x y : Text) :
    parseDigits a (x ++ y) = (parseDigits a x).bind (parseDigits · y) := by
  induction x generalizing a with
  | nil => rfl
  | cons c x ih =>
    simp only [List.cons_append, parseDigits]
    cases digitVal c with
    | none => rfl
    | some d => exact ih _

theorem parseDigits_showNat (n : Nat) : parseDigits 0 (showNat n) = some n := by
  induction n using Nat.strongRecOn with
  | _ n ih =>
    rw [showNat]
    split
    · rename_i h
      have : n % 10 = n := Nat.mod_eq_of_lt h
      simp [parseDigits, digitVal_digitChar, this]
    · rename_i h
      rw [parseDigits_append, ih (n / 10) (by omega)]
      simp only [Option.bind_some, parseDigits, digitVal_digitChar]
      congr 1; omega

theorem showNat_isDigit (n : Nat) : ∀ c ∈ showNat n, IsDigit c := by
  induction n using Nat.strongRecOn with
  | _ n ih =>
    rw [showNat]
    split
    · simp [digitChar_isDigit]
    · rename_i h
      intro c hc
      rcases List.mem_append.1 hc with hc | hc
      · exact ih (n / 10) (by omega) c hc
      · rw [List.mem_singleton] at hc; subst hc; exact digitChar_isDigit _

theorem showNat_ne_nil (n : Nat) : showNat n ≠ [] := by
  rw [showNat]; split <;> simp

theorem parseU_digits (bits : Nat) {ds : Text} (hne : ds ≠ []) (hd : ∀ c ∈ ds, IsDigit c) {n : Nat}
    (hn : parseDigits 0 ds = some n) : parseU bits ds = if n < 2 ^ bits then some n else none := by
  have h1 : stripPlus ds = ds := by
    cases ds with
    | nil => rfl
    | cons c r =>
      have : c ≠ '+' := by
        rintro rfl
        have := hd '+' (by simp)
        revert this; decide
      simp [stripPlus, this]
  unfold parseU
  rw [h1]
  simp only [hne, if_false, hn]

theorem parseU_showNat {bits n : Nat} (h : n < 2 ^ bits) : parseU bits (showNat n) = some n := by
  rw [parseU_digits bits (showNat_ne_nil n) (showNat_isDigit n) (parseDigits_showNat n), if_pos h]

/-- digits only parse -/
theorem parseDigits_isDigit {a n : Nat} {ds : Text} (h : parseDigits a ds = some n) : ∀ c ∈ ds, IsDigit c := by
  induction ds generalizing a with
  | nil => simp
  | cons c ds ih =>
    simp only [parseDigits] at h
    cases hc : digitVal c with
    | none => rw [hc] at h; simp at h
    | some d =>
      rw [hc] at h
      intro x hx
      rcases List.mem_cons.1 hx with rfl | hx
      · unfold digitVal at hc; split at hc
        · assumption
        · simp at hc
      · exact ih h x hx

theorem stripPrefix_eq_some {p s r : Text} : stripPrefix p s = some r ↔ s = p ++ r := by
  induction p generalizing s with
  | nil => simp [stripPrefix]
  | cons a p ih =>
    cases s with
    | nil => simp [stripPrefix]
    | cons b s =>
      simp only [stripPrefix, List.cons_append, List.cons.injEq]
      split
      · rename_i h; subst h; simp [ih]
      · rename_i h; simp; intro hc; exact absurd hc.symm h

theorem stripPrefix_append (p r : Text) : stripPrefix p (p ++ r) = some r := stripPrefix_eq_some.2 rfl

theorem stripPrefix_eq_none {p s : Text} : stripPrefix p s = none ↔ ¬ p <+: s := by
  constructor
  · rintro h ⟨r, rfl⟩; rw [stripPrefix_append] at h; simp at h
  · intro h
    cases hs : stripPrefix p s with
    | none => rfl
    | some r => exact absurd ⟨r, (stripPrefix_eq_some.1 hs).symm⟩ h

theorem stripSuffix_eq_some {p s r : Text} : stripSuffix p s = some r ↔ s = r ++ p := by
  unfold stripSuffix
  rw [Option.map_eq_some_iff]
  constructor
  · rintro ⟨a, h, rfl⟩
    have := congrArg List.reverse (stripPrefix_eq_some.1 h)
    simpa using this
  · rintro rfl
    exact ⟨r.reverse, by rw [List.reverse_append, stripPrefix_append], by simp⟩

theorem endsWith_iff {p s : Text} : endsWith p s = true ↔ p <:+ s := by
  unfold endsWith
  rw [Option.isSome_iff_exists]
  constructor
  · rintro ⟨r, h⟩; exact ⟨r, (stripSuffix_eq_some.1 h).symm⟩
  · rintro ⟨r, h⟩; exact ⟨r, stripSuffix_eq_some.2 h.symm⟩

theorem endsWith_append (p s : Text) : endsWith p (s ++ p) = true := endsWith_iff.2 ⟨s, rfl⟩

/-- a text ends with a one-character text exactly when that is its last character -/
theorem endsWith_last (c d : Char) (s : Text) : endsWith [c] (s ++ [d]) = decide (c = d) := by
  rw [Bool.eq_iff_iff, endsWith_iff, decide_eq_true_iff]
  constructor
  · rintro ⟨r, h⟩
    have h2 := congrArg List.getLast? h
    simpa using h2
  · rintro rfl; exact ⟨s, rfl⟩

theorem trimStartStr_append (p s : Text) (hp : p ≠ []) : trimStartStr p (p ++ s) = trimStartStr p s := by
  rw [trimStartStr, stripPrefix_append]
  have : s.length < (p ++ s).length := by
    cases p with
    | nil => exact absurd rfl hp
    | cons a p => simp; omega
  simp only [this, if_true]

theorem trimStartStr_id (p s : Text) (h : ¬ p <+: s) : trimStartStr p s = s := by
  rw [trimStartStr, stripPrefix_eq_none.2 h]

theorem trimEndStr_append (p s : Text) (hp : p ≠ []) : trimEndStr p (s ++ p) = trimEndStr p s := by
  unfold trimEndStr
  rw [List.reverse_append, trimStartStr_append _ _ (by simpa using hp)]

theorem trimEndStr_id (p s : Text) (h : ¬ p <:+ s) : trimEndStr p s = s := by
  unfold trimEndStr
  rw [trimStartStr_id _ _ (fun hc => h (List.reverse_prefix.1 hc)), List.reverse_reverse]

/-- digits do not end with a text whose last character is not a digit -/
theorem not_suffix_digits {p : Text} {c : Char} {ds : Text} (hc : ¬ IsDigit c) (hd : ∀ x ∈ ds, IsDigit x) :
    ¬ (p ++ [c]) <:+ ds := by
  rintro ⟨r, rfl⟩
  exact hc (hd c (by simp))

theorem trimEnd_append (f : Char → Bool) (x y : Text) (hy : ∀ c ∈ y, f c = true) : trimEnd f (x ++ y) = trimEnd f x := by
  unfold trimEnd
  rw [List.reverse_append, List.dropWhile_append_of_pos (by simpa using hy)]

theorem dropWhile_none (f : Char → Bool) (x : Text) (hx : ∀ c ∈ x, f c = false) : x.dropWhile f = x := by
  cases x with
  | nil => rfl
  | cons c x => rw [List.dropWhile_cons, if_neg (by simp [hx c (by simp)])]

theorem trimEnd_none (f : Char → Bool) (x : Text) (hx : ∀ c ∈ x, f c = false) : trimEnd f x = x := by
  unfold trimEnd
  rw [dropWhile_none f _ (by simpa using hx), List.reverse_reverse]

theorem trim_none (x : Text) (hx : ∀ c ∈ x, isWs c = false) : trim x = x := by
  unfold trim trimStart
  rw [dropWhile_none isWs x hx, trimEnd_none isWs x hx]

theorem splitOn_ne_nil (f : Char → Bool) (s : Text) : splitOn f s ≠ [] := by
  cases s with
  | nil => simp [splitOn]
  | cons c s =>
    simp only [splitOn]; split
    · simp
    · split <;> simp

theorem splitOn_none (f : Char → Bool) (s : Text) (h : ∀ c ∈ s, f c = false) : splitOn f s = [s] := by
  induction s with
  | nil => rfl
  | cons c s ih =>
    rw [splitOn, if_neg (by simp [h c (by simp)]), ih (fun x hx => h x (by simp [hx]))]

theorem splitOn_sep (f : Char → Bool) (s r : Text) (c : Char) (h : ∀ x ∈ s, f x = false) (hc : f c = true) :
    splitOn f (s ++ c :: r) = s :: splitOn f r := by
  induction s with
  | nil => rw [List.nil_append, splitOn, if_pos hc]
  | cons d s ih =>
    rw [List.cons_append, splitOn, if_neg (by simp [h d (by simp)]), ih (fun x hx => h x (by simp [hx]))]

theorem splitWs_sep (s r : Text) (c : Char) (hs : s ≠ []) (h : ∀ x ∈ s, isWs x = false) (hc : isWs c = true) :
    splitWs (s ++ c :: r) = s :: splitWs r := by
  unfold splitWs
  rw [splitOn_sep _ _ _ _ h hc]; simp [hs]

theorem splitWs_nil : splitWs [] = [] := rfl

theorem splitWs_single (s : Text) (hs : s ≠ []) (h : ∀ x ∈ s, isWs x = false) : splitWs s = [s] := by
  unfold splitWs
  rw [splitOn_none _ _ h]; simp [hs]

theorem isDigit_not_ws {c : Char} (h : IsDigit c) : isWs c = false := by
  unfold IsDigit at h
  unfold isWs
  simp only [Bool.or_eq_false_iff, Bool.and_eq_false_iff, beq_eq_false_iff_ne, decide_eq_false_iff_not]
  omega

end Wm
