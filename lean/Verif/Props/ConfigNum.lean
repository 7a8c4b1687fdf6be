import Verif.Model.ConfigNum
import Verif.Model.BasicLemmas
import Verif.Proofs.Text
/-! Properties C24–C27, C61, C62: size, duration and rate settings. -/
namespace Wm.Config
open Wm

/-! ### Vocabulary -/

/-- the number denoted by a string of decimal digits -/
def decimal (ds : List (Fin 10)) : Nat := ds.foldl (fun a d => 10 * a + d.val) 0

/-- the text of a string of decimal digits -/
def digitText (ds : List (Fin 10)) : Text := ds.map fun d => Char.ofNat (48 + d.val)

/-- the factor of a size unit letter -/
def unitFactor : Char → Option Nat
  | 'k' | 'K' => some 1024
  | 'm' | 'M' => some (1024 * 1024)
  | 'g' | 'G' => some (1024 * 1024 * 1024)
  | 't' | 'T' => some (1024 * 1024 * 1024 * 1024)
  | 'p' | 'P' => some (1024 * 1024 * 1024 * 1024 * 1024)
  | _ => none

/-- a duration in milliseconds -/
def ofMillis (n : Nat) : Dur := ⟨n / 1000, n % 1000 * 1000000⟩

/-! ### helper lemmas -/

theorem digitText_isDigit (ds : List (Fin 10)) : ∀ c ∈ digitText ds, IsDigit c := by
  intro c hc
  simp only [digitText, List.mem_map] at hc
  obtain ⟨d, _, rfl⟩ := hc
  unfold IsDigit; rw [digitChar_fin]; omega

theorem digitText_eq_nil {ds : List (Fin 10)} : digitText ds = [] ↔ ds = [] := by simp [digitText]

theorem parseDigits_digitText (ds : List (Fin 10)) (a : Nat) :
    parseDigits a (digitText ds) = some (ds.foldl (fun a d => 10 * a + d.val) a) := by
  induction ds generalizing a with
  | nil => rfl
  | cons d ds ih =>
    have : digitVal (Char.ofNat (48 + d.val)) = some d.val := by
      rw [digitVal_isSome (by unfold IsDigit; rw [digitChar_fin]; omega), digitChar_fin]; simp
    simp only [digitText, List.map_cons, parseDigits, this, List.foldl_cons]
    rw [Nat.mul_comm 10 a]
    exact ih _

theorem parseU_digitText (bits : Nat) {ds : List (Fin 10)} (h : ds ≠ []) :
    parseU bits (digitText ds) = if decimal ds < 2 ^ bits then some (decimal ds) else none :=
  parseU_digits bits (by simpa [digitText] using h) (digitText_isDigit ds) (parseDigits_digitText ds 0)

theorem utf8_snoc (s : Text) (c : Char) : utf8 (s ++ [c]) = utf8 s ++ utf8Char c := by simp [utf8]

theorem utf8Char_ascii {c : Char} (h : c.toNat < 0x80) : utf8Char c = [UInt8.ofNat c.toNat] := by
  simp only [utf8Char, h, if_true]

theorem getLast_utf8 (s : Text) {c : Char} (h : c.toNat < 0x80) :
    (utf8 (s ++ [c])).getLast? = some (UInt8.ofNat c.toNat) := by
  rw [utf8_snoc, utf8Char_ascii h]; simp

theorem digit_not_unitLetter {c : Char} (h : IsDigit c) : isUnitLetter c = false := by
  unfold isUnitLetter
  simp only [List.contains_eq_mem, decide_eq_false_iff_not, List.mem_cons, List.not_mem_nil, or_false]
  rintro (rfl | rfl | rfl | rfl | rfl | rfl | rfl | rfl | rfl | rfl) <;> (revert h; decide)

theorem unit_facts {c : Char} {m : Nat} (h : unitFactor c = some m) :
    c.toNat < 0x80 ∧ unitMulti (UInt8.ofNat c.toNat) = some m ∧ isUnitLetter c = true ∧ ¬ IsDigit c := by
  unfold unitFactor at h
  split at h <;> first
    | (injection h with h; subst h; decide)
    | simp at h

theorem parseSize_unit (checked : Bool) {ds : Text} (hd : ∀ c ∈ ds, IsDigit c) {c : Char} {m : Nat}
    (h : unitFactor c = some m) :
    parseSize checked (ds ++ [c]) = (orInvalid (parseU 64 ds) >>= fun n => mulU64 checked n m) := by
  obtain ⟨h1, h2, h3, h4⟩ := unit_facts h
  unfold parseSize
  rw [getLast_utf8 ds h1]
  simp only [h2]
  rw [trimEnd_append _ _ _ (by simp [h3]), trimEnd_none _ _ (fun c hc => digit_not_unitLetter (hd c hc))]

theorem digit_byte {c : Char} (h : IsDigit c) : unitMulti (UInt8.ofNat c.toNat) = none ∧
    48 ≤ (UInt8.ofNat c.toNat).toNat ∧ (UInt8.ofNat c.toNat).toNat ≤ 57 := by
  obtain ⟨h1, h2⟩ := h
  have : ∀ n : Fin 58, 48 ≤ n.val → unitMulti (UInt8.ofNat n.val) = none ∧
      48 ≤ (UInt8.ofNat n.val).toNat ∧ (UInt8.ofNat n.val).toNat ≤ 57 := by decide
  exact this ⟨c.toNat, by omega⟩ h1

theorem parseSize_plain (checked : Bool) {ds : Text} (hne : ds ≠ []) (hd : ∀ c ∈ ds, IsDigit c) :
    parseSize checked ds = orInvalid (parseU 64 ds) := by
  rcases List.eq_nil_or_concat ds with rfl | ⟨l, c, rfl⟩
  · exact absurd rfl hne
  · have hc : IsDigit c := hd c (by simp)
    obtain ⟨h1, h2⟩ := digit_byte hc
    unfold parseSize
    rw [List.concat_eq_append, getLast_utf8 l (by unfold IsDigit at hc; omega)]
    simp only [h1, h2, and_self, if_true]

theorem mulU64_ok {checked : Bool} {a b : Nat} (h : a * b < 2 ^ 64) : mulU64 checked a b = .ok (a * b) := if_pos h

theorem sizeLoop_spec (k div idx : Nat) (hi : k + idx = 5) :
    (sizeLoop k div idx).1 * 1024 ^ ((sizeLoop k div idx).2 - idx) = div ∧ idx ≤ (sizeLoop k div idx).2 ∧
      (sizeLoop k div idx).2 ≤ 5 := by
  induction k generalizing div idx with
  | zero => simp [sizeLoop]; omega
  | succ k ih =>
    simp only [sizeLoop]
    split
    · split
      · simp; omega
      · rename_i h1 h2
        obtain ⟨e1, e2, e3⟩ := ih (div / 1024) (idx + 1) (by omega)
        refine ⟨?_, by omega, e3⟩
        have : (sizeLoop k (div / 1024) (idx + 1)).2 - idx = ((sizeLoop k (div / 1024) (idx + 1)).2 - (idx + 1)) + 1 := by
          omega
        rw [this, Nat.pow_succ, ← Nat.mul_assoc, e1]
        have : div % 1024 = 0 := by simpa using h2
        omega
    · simp; omega

/-! ### C24, C25: sizes -/

/-- **C24** Printing a size and parsing the text gives the same size, for every 64-bit value (with or without overflow
    checks). -/
theorem C24_size_roundtrip (checked : Bool) (n : Nat) (h : n < 2 ^ 64) : parseSize checked (showSize n) = .ok n := by
  obtain ⟨e1, _, e3⟩ := sizeLoop_spec 5 n 0 rfl
  unfold showSize
  generalize sizeLoop 5 n 0 = r at e1 e3
  obtain ⟨d, i⟩ := r
  simp only [Nat.sub_zero] at e1 e3
  have hdig := showNat_isDigit d
  have hd : d < 2 ^ 64 := by
    refine Nat.lt_of_le_of_lt ?_ h
    rw [← e1]; exact Nat.le_mul_of_pos_right _ (Nat.pow_pos (by decide))
  have key : ∀ c m, sizeUnits.getD i [] = [c] → unitFactor c = some m → m = 1024 ^ i →
      parseSize checked (showNat d ++ sizeUnits.getD i []) = .ok n := by
    intro c m h1 h2 h3
    rw [h1, parseSize_unit checked hdig h2, parseU_showNat hd, orInvalid, Res.bind_ok]
    rw [mulU64_ok (by rw [h3, e1]; exact h), h3, e1]
  have : i = 0 ∨ i = 1 ∨ i = 2 ∨ i = 3 ∨ i = 4 ∨ i = 5 := by omega
  rcases this with rfl | rfl | rfl | rfl | rfl | rfl
  · simp only [sizeUnits, List.getD_cons_zero, List.append_nil]
    rw [parseSize_plain checked (showNat_ne_nil d) hdig, parseU_showNat hd, orInvalid]
    simp at e1; rw [e1]
  · exact key 'k' _ rfl rfl (by decide)
  · exact key 'm' _ rfl rfl (by decide)
  · exact key 'g' _ rfl rfl (by decide)
  · exact key 't' _ rfl rfl (by decide)
  · exact key 'p' _ rfl rfl (by decide)

/-- **C25** (plain numbers) Digits alone denote the number, and are rejected exactly when it does not fit 64 bits. -/
theorem C25_plain_number (checked : Bool) (ds : List (Fin 10)) (h : ds ≠ []) :
    parseSize checked (digitText ds) = if decimal ds < 2 ^ 64 then .ok (decimal ds) else .err .invalid := by
  rw [parseSize_plain checked (by simpa [digitText] using h) (digitText_isDigit ds), parseU_digitText 64 h]
  split <;> rfl

/-- **C25**, partial (units): digits and a unit denote number times factor when that fits 64 bits; a number that
    does not fit 64 bits by itself is rejected. Missing: the product is not checked, see
    `C25_overflow_fails`. -/
theorem C25_unit_partial (checked : Bool) (ds : List (Fin 10)) (h : ds ≠ []) (c : Char) (m : Nat)
    (hc : unitFactor c = some m) :
    (decimal ds * m < 2 ^ 64 → parseSize checked (digitText ds ++ [c]) = .ok (decimal ds * m)) ∧
    (2 ^ 64 ≤ decimal ds → parseSize checked (digitText ds ++ [c]) = .err .invalid) := by
  rw [parseSize_unit checked (digitText_isDigit ds) hc, parseU_digitText 64 h]
  constructor
  · intro h1
    have hm : 0 < m := by
      unfold unitFactor at hc
      split at hc <;> first | (injection hc with hc; subst hc; decide) | simp at hc
    have : decimal ds < 2 ^ 64 := Nat.lt_of_le_of_lt (Nat.le_mul_of_pos_right _ hm) h1
    rw [if_pos this]
    exact mulU64_ok h1
  · intro h1; rw [if_neg (by omega)]; rfl

example : unitFactor 'G' = some (2 ^ 30) ∧ digitText [4, 0] ++ ['G'] = "40G".toList ∧
    parseSize false "40G".toList = .ok (40 * 2 ^ 30) := by decide +kernel

/-- **C25** fails when the product does not fit: whenever digits and unit denote a number of 2^64 or more (the digits
    themselves fitting), the text is never rejected: it is reduced modulo 2^64, or the program panics if built with
    overflow checks. -/
theorem C25_overflow_fails (ds : List (Fin 10)) (h : ds ≠ []) (c : Char) (m : Nat) (hc : unitFactor c = some m)
    (h1 : decimal ds < 2 ^ 64) (h2 : 2 ^ 64 ≤ decimal ds * m) :
    parseSize false (digitText ds ++ [c]) = .ok (decimal ds * m % 2 ^ 64) ∧
    parseSize true (digitText ds ++ [c]) = .panic := by
  rw [parseSize_unit _ (digitText_isDigit ds) hc, parseSize_unit _ (digitText_isDigit ds) hc, parseU_digitText 64 h,
    if_pos h1, orInvalid, Res.bind_ok, Res.bind_ok]
  unfold mulU64
  simp only [if_neg (show ¬ decimal ds * m < 2 ^ 64 by omega)]
  exact ⟨rfl, rfl⟩

/-- the setting "16384p" means 0 -/
example : digitText [1, 6, 3, 8, 4] ++ ['p'] = "16384p".toList ∧ parseSize false "16384p".toList = .ok 0 := by
  decide +kernel

/-! ### C26, C27: durations -/

theorem mkDur_secs {n : Nat} (h : n < 2 ^ 64) : mkDur n 0 = .ok ⟨n, 0⟩ := by
  unfold mkDur; simp [h]

theorem mkDur_nanos {n : Nat} (h : n < 2 ^ 32) : mkDur 0 n = .ok ⟨n / 1000000000, n % 1000000000⟩ := by
  unfold mkDur; rw [if_pos (by omega)]; simp

theorem ends_false {p : Text} {c : Char} {x : Text} {q : Text} {d : Char} (h : c ≠ d) :
    endsWith (p ++ [c]) (x ++ (q ++ [d])) = false := by
  rw [Bool.eq_false_iff, Ne, endsWith_iff]
  rintro ⟨r, hr⟩
  have := congrArg List.getLast? hr
  rw [← List.append_assoc, ← List.append_assoc] at this
  simp at this; exact h this

theorem ends_false' {p : Text} {c : Char} {x : Text} (h : ¬ IsDigit c) (hx : ∀ y ∈ x, IsDigit y) :
    endsWith (p ++ [c]) x = false := by
  rw [Bool.eq_false_iff, Ne, endsWith_iff]; exact not_suffix_digits h hx

theorem trimDigits (p : Text) (q : Text) (c : Char) {ds : Text} (hp : p = q ++ [c]) (hc : ¬ IsDigit c)
    (hd : ∀ x ∈ ds, IsDigit x) : trimEndStr p (ds ++ p) = ds := by
  subst hp
  rw [trimEndStr_append _ _ (by simp), trimEndStr_id _ _ (not_suffix_digits hc hd)]

theorem parseDur_ms (checked : Bool) {ds : Text} (hd : ∀ c ∈ ds, IsDigit c) :
    parseDur checked (ds ++ ['m', 's']) = (mulU64 checked (parseOr1 ds) 1000000 >>= fun ns => mkDur 0 (asU32 ns)) := by
  unfold parseDur
  rw [if_neg (by simp), if_pos (endsWith_append _ _), trimDigits ['m', 's'] ['m'] 's' rfl (by decide) hd]

theorem parseDur_h (checked : Bool) {ds : Text} (hd : ∀ c ∈ ds, IsDigit c) :
    parseDur checked (ds ++ ['h']) = (mulU64 checked (parseOr1 ds) 3600 >>= fun n => mkDur n 0) := by
  have h1 : endsWith ['m', 's'] (ds ++ ['h']) = false := ends_false (p := ['m']) (q := []) (by decide)
  unfold parseDur
  rw [if_neg (by simp), h1, if_neg (by simp), if_pos (endsWith_append _ _), trimDigits ['h'] [] 'h' rfl (by decide) hd]

theorem parseDur_min (checked : Bool) {ds : Text} (hd : ∀ c ∈ ds, IsDigit c) :
    parseDur checked (ds ++ ['m', 'i', 'n']) = (mulU64 checked (parseOr1 ds) 60 >>= fun n => mkDur n 0) := by
  have h1 : endsWith ['m', 's'] (ds ++ ['m', 'i', 'n']) = false := ends_false (p := ['m']) (q := ['m', 'i']) (by decide)
  have h2 : endsWith ['h'] (ds ++ ['m', 'i', 'n']) = false := ends_false (p := []) (q := ['m', 'i']) (by decide)
  unfold parseDur
  rw [if_neg (by simp), h1, if_neg (by simp), h2, if_neg (by simp), if_pos (endsWith_append _ _),
    trimDigits ['m', 'i', 'n'] ['m', 'i'] 'n' rfl (by decide) hd]

theorem parseDur_s (checked : Bool) {ds : Text} (hd : ∀ c ∈ ds, IsDigit c) :
    parseDur checked (ds ++ ['s']) = mkDur (parseOr1 ds) 0 := by
  have h0 : endsWith ['m', 's'] (ds ++ ['s']) = false := by
    rw [Bool.eq_false_iff, Ne, endsWith_iff]
    rintro ⟨r, hr⟩
    have : r ++ ['m'] = ds := by
      have := congrArg List.dropLast hr
      simpa [List.dropLast_append] using this
    exact absurd (hd 'm' (by rw [← this]; simp)) (by decide)
  have h1 : endsWith ['h'] (ds ++ ['s']) = false := ends_false (p := []) (q := []) (by decide)
  have h2 : endsWith ['m', 'i', 'n'] (ds ++ ['s']) = false := ends_false (p := ['m', 'i']) (q := []) (by decide)
  unfold parseDur
  rw [if_neg (by simp), h0, if_neg (by simp), h1, if_neg (by simp), h2, if_neg (by simp), if_pos (endsWith_append _ _),
    trimDigits ['s'] [] 's' rfl (by decide) hd]

theorem parseDur_plain (checked : Bool) {ds : Text} (hne : ds ≠ []) (hd : ∀ c ∈ ds, IsDigit c) :
    parseDur checked ds = mkDur (parseOr1 ds) 0 := by
  have h0 : endsWith ['m', 's'] ds = false := ends_false' (p := ['m']) (by decide) hd
  have h1 : endsWith ['h'] ds = false := ends_false' (p := []) (by decide) hd
  have h2 : endsWith ['m', 'i', 'n'] ds = false := ends_false' (p := ['m', 'i']) (by decide) hd
  have h3 : endsWith ['s'] ds = false := ends_false' (p := []) (by decide) hd
  unfold parseDur
  rw [if_neg hne, h0, if_neg (by simp), h1, if_neg (by simp), h2, if_neg (by simp), h3, if_neg (by simp)]

theorem parseOr1_showNat {n : Nat} (h : n < 2 ^ 64) : parseOr1 (showNat n) = n := by
  simp [parseOr1, parseU_showNat h]

theorem parseOr1_digitText {ds : List (Fin 10)} (hne : ds ≠ []) (h : decimal ds < 2 ^ 64) :
    parseOr1 (digitText ds) = decimal ds := by
  simp [parseOr1, parseU_digitText 64 hne, h]

/-- what the text of `n` milliseconds is parsed to -/
theorem ms_value (checked : Bool) {n : Nat} (h : n ≤ 4294) :
    (mulU64 checked n 1000000 >>= fun ns => mkDur 0 (asU32 ns)) = .ok (ofMillis n) := by
  rw [mulU64_ok (by omega), Res.bind_ok]
  have : asU32 (n * 1000000) = n * 1000000 := Nat.mod_eq_of_lt (by omega)
  rw [this, mkDur_nanos (by omega)]
  unfold ofMillis
  congr 2 <;> omega

theorem ms_short (checked : Bool) (n : Nat) (d : Dur)
    (h : (mulU64 checked n 1000000 >>= fun ns => mkDur 0 (asU32 ns)) = .ok d) :
    d.secs * 1000000000 + d.nanos < 2 ^ 32 := by
  cases hm : mulU64 checked n 1000000 with
  | err e => rw [hm] at h; simp at h
  | panic => rw [hm] at h; simp at h
  | ok v =>
    rw [hm, Res.bind_ok, mkDur_nanos (n := asU32 v) (Nat.mod_lt _ (by decide))] at h
    injection h with h; subst h
    have : asU32 v < 2 ^ 32 := Nat.mod_lt _ (by decide)
    simp only
    omega

/-- **C26**, partial: exact account of the print/parse round trip for every duration of whole milliseconds: it is the
    identity exactly for whole seconds and for at most 4294 ms. Missing: other durations, which come back different
    (less than 4.295 s). -/
theorem C26_duration_roundtrip_partial (checked : Bool) (secs ms : Nat) (hs : secs < 2 ^ 64) (hms : ms < 1000) :
    (showDur checked ⟨secs, ms * 1000000⟩ >>= parseDur checked) = .ok ⟨secs, ms * 1000000⟩
      ↔ ms = 0 ∨ secs * 1000 + ms ≤ 4294 := by
  have e0 : ms * 1000000 / 1000000 = ms := Nat.mul_div_cancel _ (by decide)
  by_cases h0 : ms = 0
  · subst h0
    simp only [true_or, iff_true]
    unfold showDur
    simp only [Nat.zero_mul, Nat.zero_div, gt_iff_lt, Nat.lt_irrefl, if_false]
    split
    · rename_i h
      rw [Res.bind_ok, parseDur_h checked (showNat_isDigit _), parseOr1_showNat (by omega), mulU64_ok (by omega),
        Res.bind_ok, mkDur_secs (by omega)]
      congr 2; omega
    · split
      · rename_i h
        rw [Res.bind_ok, parseDur_min checked (showNat_isDigit _), parseOr1_showNat (by omega), mulU64_ok (by omega),
          Res.bind_ok, mkDur_secs (by omega)]
        congr 2; omega
      · rw [Res.bind_ok, parseDur_s checked (showNat_isDigit _), parseOr1_showNat hs, mkDur_secs hs]
  · constructor
    · intro h
      right
      have hsh : ∃ t, showDur checked ⟨secs, ms * 1000000⟩ = .ok (showNat t ++ ['m', 's']) ∨
          showDur checked ⟨secs, ms * 1000000⟩ = .panic := by
        unfold showDur
        simp only [e0, gt_iff_lt, if_pos (Nat.pos_of_ne_zero h0)]
        unfold mulU64
        by_cases c1 : secs * 1000 < 2 ^ 64
        · rw [if_pos c1, Res.bind_ok]
          unfold addU64
          by_cases c2 : ms + secs * 1000 < 2 ^ 64
          · rw [if_pos c2]; exact ⟨_, .inl rfl⟩
          · rw [if_neg c2]
            cases checked
            · exact ⟨_, .inl rfl⟩
            · exact ⟨0, .inr rfl⟩
        · rw [if_neg c1]
          cases checked
          · simp only [Bool.false_eq_true, if_false, Res.bind_ok]
            unfold addU64
            by_cases c2 : ms + secs * 1000 % 2 ^ 64 < 2 ^ 64
            · rw [if_pos c2]; exact ⟨_, .inl rfl⟩
            · rw [if_neg c2]; exact ⟨_, .inl rfl⟩
          · exact ⟨0, .inr rfl⟩
      obtain ⟨t, hsh | hsh⟩ := hsh
      · rw [hsh, Res.bind_ok, parseDur_ms checked (showNat_isDigit _)] at h
        have := ms_short checked _ _ h
        simp only at this
        omega
      · rw [hsh] at h; simp at h
    · rintro (h | h)
      · exact absurd h h0
      · have hsh : showDur checked ⟨secs, ms * 1000000⟩ = .ok (showNat (ms + secs * 1000) ++ ['m', 's']) := by
          unfold showDur
          simp only [e0, gt_iff_lt, if_pos (Nat.pos_of_ne_zero h0)]
          rw [mulU64_ok (by omega), Res.bind_ok]
          unfold addU64
          rw [if_pos (by omega)]; rfl
        rw [hsh, Res.bind_ok, parseDur_ms checked (showNat_isDigit _), parseOr1_showNat (by omega),
          ms_value checked (by omega)]
        unfold ofMillis
        have e1 : (ms + secs * 1000) % 1000 = ms := by omega
        have e2 : (ms + secs * 1000) / 1000 = secs := by omega
        rw [e1, e2]

example : showDur false ⟨2, 500 * 1000000⟩ = .ok "2500ms".toList ∧ parseDur false "2500ms".toList = .ok ⟨2, 500000000⟩ := by
  decide +kernel

/-- what the text of `n` milliseconds is parsed to, in general -/
theorem ms_wraps (checked : Bool) {n : Nat} (h : n * 1000000 < 2 ^ 64) :
    ∃ d, (mulU64 checked n 1000000 >>= fun ns => mkDur 0 (asU32 ns)) = .ok d ∧ d.nanos < 1000000000 ∧
      d.secs * 1000000000 + d.nanos = n * 1000000 % 2 ^ 32 := by
  rw [mulU64_ok h, Res.bind_ok, mkDur_nanos (n := asU32 (n * 1000000)) (Nat.mod_lt _ (by decide))]
  refine ⟨_, rfl, Nat.mod_lt _ (by decide), ?_⟩
  dsimp only
  unfold asU32
  omega

theorem ms_fits {n : Nat} (h : n * 1000000 < 2 ^ 64) : n < 2 ^ 64 :=
  Nat.lt_of_le_of_lt (Nat.le_mul_of_pos_right n (by decide)) h

/-- **C26** fails: every duration of more than 4294 ms that is not in whole seconds is printed in milliseconds and read back as a
    duration of less than 4.295 s, its nanoseconds counted modulo 2^32. (As long as they fit 64 bits.) -/
theorem C26_duration_roundtrip_fails (checked : Bool) (secs ms : Nat) (h0 : 0 < ms) (hms : ms < 1000)
    (hbig : 4294 < secs * 1000 + ms) (hfit : (secs * 1000 + ms) * 1000000 < 2 ^ 64) :
    ∃ d, (showDur checked ⟨secs, ms * 1000000⟩ >>= parseDur checked) = .ok d ∧ d.nanos < 1000000000 ∧
      d.secs * 1000000000 + d.nanos = (secs * 1000 + ms) * 1000000 % 2 ^ 32 ∧ d ≠ ⟨secs, ms * 1000000⟩ := by
  have e0 : ms * 1000000 / 1000000 = ms := Nat.mul_div_cancel _ (by decide)
  have g := ms_fits hfit
  have g1 : secs * 1000 < 2 ^ 64 := Nat.lt_of_le_of_lt (Nat.le_add_right _ _) g
  have g2 : ms + secs * 1000 < 2 ^ 64 := by rw [Nat.add_comm]; exact g
  have hsh : showDur checked ⟨secs, ms * 1000000⟩ = .ok (showNat (ms + secs * 1000) ++ ['m', 's']) := by
    unfold showDur
    simp only [e0, gt_iff_lt, if_pos h0]
    rw [mulU64_ok g1, Res.bind_ok]
    unfold addU64
    rw [if_pos g2]; rfl
  obtain ⟨d, h1, h2, h3⟩ := ms_wraps checked hfit
  refine ⟨d, ?_, h2, h3, ?_⟩
  · rw [hsh, Res.bind_ok, parseDur_ms checked (showNat_isDigit _), parseOr1_showNat g2, Nat.add_comm ms, h1]
  · rintro rfl
    clear hfit h1
    dsimp only at h3
    omega

/-- 5.5 s are printed as "5500ms", which is read back as 1.205032704 s -/
example : showDur false ⟨5, 500 * 1000000⟩ = .ok "5500ms".toList ∧
    parseDur false "5500ms".toList = .ok ⟨1, 205032704⟩ := by decide +kernel

/-- **C26** fails (printing): a duration with a part of a second that does not fit 64 bits in milliseconds is printed as a
    different one, or the program panics if built with overflow checks. -/
theorem C26_print_fails (secs ms : Nat) (hs : secs < 2 ^ 64) (h0 : 0 < ms) (hms : ms < 1000)
    (hbig : 2 ^ 64 ≤ secs * 1000 + ms) :
    showDur false ⟨secs, ms * 1000000⟩ = .ok (showNat ((secs * 1000 + ms) % 2 ^ 64) ++ "ms".toList) ∧
    showDur true ⟨secs, ms * 1000000⟩ = .panic := by
  have e0 : ms * 1000000 / 1000000 = ms := Nat.mul_div_cancel _ (by decide)
  unfold showDur
  simp only [e0, gt_iff_lt, if_pos h0]
  unfold mulU64
  by_cases c1 : secs * 1000 < 2 ^ 64
  · rw [if_pos c1, if_pos c1, Res.bind_ok, Res.bind_ok]
    unfold addU64
    have c2 : ¬ ms + secs * 1000 < 2 ^ 64 := by omega
    rw [if_neg c2, if_neg c2, Nat.add_comm ms]
    exact ⟨rfl, rfl⟩
  · rw [if_neg c1, if_neg c1]
    simp only [Bool.false_eq_true, if_false, if_true, Res.bind_ok]
    refine ⟨?_, rfl⟩
    unfold addU64
    have e : (secs * 1000 + ms) % 2 ^ 64 =
        if ms + secs * 1000 % 2 ^ 64 < 2 ^ 64 then ms + secs * 1000 % 2 ^ 64 else (ms + secs * 1000 % 2 ^ 64) % 2 ^ 64 := by
      split <;> omega
    rw [e]
    split <;> rfl

example : showDur false ⟨18446744073709551, 616 * 1000000⟩ = .ok "0ms".toList := by decide +kernel

/-- **C27**, partial: digits with the unit h, min, s or none denote that many hours, minutes, seconds, as long as the
    number of seconds fits 64 bits; digits with the unit ms denote that many milliseconds exactly up to 4294.
    Missing: larger numbers of milliseconds (`C27_millis_fails`) and overflow (`C27_too_big_fails`). -/
theorem C27_meaning_partial (checked : Bool) (ds : List (Fin 10)) (hne : ds ≠ []) :
    (decimal ds * 3600 < 2 ^ 64 → parseDur checked (digitText ds ++ "h".toList) = .ok ⟨decimal ds * 3600, 0⟩) ∧
    (decimal ds * 60 < 2 ^ 64 → parseDur checked (digitText ds ++ "min".toList) = .ok ⟨decimal ds * 60, 0⟩) ∧
    (decimal ds < 2 ^ 64 → parseDur checked (digitText ds ++ "s".toList) = .ok ⟨decimal ds, 0⟩) ∧
    (decimal ds < 2 ^ 64 → parseDur checked (digitText ds) = .ok ⟨decimal ds, 0⟩) ∧
    (decimal ds < 2 ^ 64 →
      (parseDur checked (digitText ds ++ "ms".toList) = .ok (ofMillis (decimal ds)) ↔ decimal ds ≤ 4294)) := by
  have hd := digitText_isDigit ds
  have hn : digitText ds ≠ [] := by simpa [digitText] using hne
  refine ⟨fun h => ?_, fun h => ?_, fun h => ?_, fun h => ?_, fun h => ⟨fun h1 => ?_, fun h1 => ?_⟩⟩
  · show parseDur checked (digitText ds ++ ['h']) = _
    rw [parseDur_h checked hd, parseOr1_digitText hne (by omega), mulU64_ok h, Res.bind_ok, mkDur_secs h]
  · show parseDur checked (digitText ds ++ ['m', 'i', 'n']) = _
    rw [parseDur_min checked hd, parseOr1_digitText hne (by omega), mulU64_ok h, Res.bind_ok, mkDur_secs h]
  · show parseDur checked (digitText ds ++ ['s']) = _
    rw [parseDur_s checked hd, parseOr1_digitText hne h, mkDur_secs h]
  · rw [parseDur_plain checked hn hd, parseOr1_digitText hne h, mkDur_secs h]
  · change parseDur checked (digitText ds ++ ['m', 's']) = _ at h1
    rw [parseDur_ms checked hd, parseOr1_digitText hne h] at h1
    have := ms_short checked _ _ h1
    simp only [ofMillis] at this
    omega
  · show parseDur checked (digitText ds ++ ['m', 's']) = _
    rw [parseDur_ms checked hd, parseOr1_digitText hne h, ms_value checked h1]

example : digitText [9, 0] ++ "min".toList = "90min".toList ∧ parseDur true "90min".toList = .ok ⟨5400, 0⟩ := by
  decide +kernel

/-- **C27** fails: every setting of more than 4294 ms means less than 4.295 s, with or without overflow checks: its nanoseconds
    are counted modulo 2^32. (As long as they fit 64 bits.) -/
theorem C27_millis_fails (checked : Bool) (ds : List (Fin 10)) (hne : ds ≠ []) (hbig : 4294 < decimal ds)
    (hfit : decimal ds * 1000000 < 2 ^ 64) :
    ∃ d, parseDur checked (digitText ds ++ "ms".toList) = .ok d ∧ d.nanos < 1000000000 ∧
      d.secs * 1000000000 + d.nanos = decimal ds * 1000000 % 2 ^ 32 ∧
      d.secs * 1000000000 + d.nanos ≠ decimal ds * 1000000 := by
  obtain ⟨d, h1, h2, h3⟩ := ms_wraps checked hfit
  refine ⟨d, ?_, h2, h3, by clear hfit h1; omega⟩
  show parseDur checked (digitText ds ++ ['m', 's']) = _
  rw [parseDur_ms checked (digitText_isDigit ds), parseOr1_digitText hne (ms_fits hfit), h1]

/-- "5000ms" means 0.705 s -/
example (checked : Bool) : parseDur checked "5000ms".toList = .ok ⟨0, 705032704⟩ := by
  cases checked <;> decide +kernel

/-- **C27** fails: a number that does not fit 64 bits silently means one second (or minute, hour, millisecond). -/
theorem C27_too_big_fails (checked : Bool) (ds : List (Fin 10)) (hne : ds ≠ []) (h : 2 ^ 64 ≤ decimal ds) :
    parseDur checked (digitText ds ++ "s".toList) = .ok ⟨1, 0⟩ ∧
    parseDur checked (digitText ds ++ "h".toList) = .ok ⟨3600, 0⟩ := by
  have hd := digitText_isDigit ds
  have h1 : parseOr1 (digitText ds) = 1 := by simp [parseOr1, parseU_digitText 64 hne, Nat.not_lt.2 h]
  constructor
  · show parseDur checked (digitText ds ++ ['s']) = _
    rw [parseDur_s checked hd, h1, mkDur_secs (by omega)]
  · show parseDur checked (digitText ds ++ ['h']) = _
    rw [parseDur_h checked hd, h1, mulU64_ok (by omega), Res.bind_ok, mkDur_secs (by omega)]

/-! ### C61: malformed texts -/

theorem mkDur_not_err (a b : Nat) (e : Err) : mkDur a b ≠ .err e := by unfold mkDur; split <;> simp

theorem mulU64_not_err (c : Bool) (a b : Nat) (e : Err) : mulU64 c a b ≠ .err e := by
  unfold mulU64; split
  · simp
  · cases c <;> simp

/-- **C61** fails for durations: no non-empty text at all is rejected. -/
theorem C61_duration_never_rejected_fails (checked : Bool) (s : Text) (hs : s ≠ []) (e : Err) :
    parseDur checked s ≠ .err e := by
  have hb : ∀ (a b : Nat) (f : Nat → Res Dur), (∀ n, f n ≠ .err e) → (mulU64 checked a b >>= f) ≠ .err e := by
    intro a b f hf
    cases hm : mulU64 checked a b with
    | ok v => rw [Res.bind_ok]; exact hf v
    | err x => exact absurd hm (mulU64_not_err _ _ _ _)
    | panic => simp
  unfold parseDur
  rw [if_neg hs]
  split
  · exact hb _ _ _ fun n => mkDur_not_err _ _ _
  · split
    · exact hb _ _ _ fun n => mkDur_not_err _ _ _
    · split
      · exact hb _ _ _ fun n => mkDur_not_err _ _ _
      · split <;> exact mkDur_not_err _ _ _

/-- for instance "abc" means one second, "10x h" means one hour -/
example : parseDur true "abc".toList = .ok ⟨1, 0⟩ ∧ parseDur true "10x h".toList = .ok ⟨3600, 0⟩ := by decide +kernel

theorem unitMulti_none {c : Char} (hc : c.toNat < 0x80) (h : unitFactor c = none) : unitMulti (UInt8.ofNat c.toNat) = none := by
  have e : c = Char.ofNat c.toNat := (Char.ofNat_toNat c).symm
  have key : ∀ n < 0x80, unitFactor (Char.ofNat n) = none → unitMulti (UInt8.ofNat n) = none := by decide
  exact key _ hc (by rw [← e]; exact h)

theorem isUnitLetter_iff {c : Char} : isUnitLetter c = true ↔ unitFactor c ≠ none := by
  constructor
  · intro h
    unfold isUnitLetter at h
    simp only [List.contains_eq_mem, decide_eq_true_eq, List.mem_cons, List.not_mem_nil, or_false] at h
    rcases h with (rfl | rfl | rfl | rfl | rfl | rfl | rfl | rfl | rfl | rfl) <;> decide
  · intro h
    obtain ⟨m, hm⟩ := Option.ne_none_iff_exists'.1 h
    exact (unit_facts hm).2.2.1

theorem isDigit_text {t : Text} (h : ∀ c ∈ t, IsDigit c) : ∃ ds, t = digitText ds := by
  induction t with
  | nil => exact ⟨[], rfl⟩
  | cons c t ih =>
    obtain ⟨ds, rfl⟩ := ih fun x hx => h x (List.mem_cons_of_mem _ hx)
    have hc : 48 ≤ c.toNat ∧ c.toNat ≤ 57 := h c (by simp)
    refine ⟨⟨c.toNat - 48, by omega⟩ :: ds, ?_⟩
    simp only [digitText, List.map_cons]
    rw [show 48 + (c.toNat - 48) = c.toNat by omega, Char.ofNat_toNat]

theorem parseU_some {t : Text} {n : Nat} (h : parseU 64 t = some n) :
    ∃ ds, t = digitText ds ∨ t = '+' :: digitText ds := by
  unfold parseU at h
  split at h
  · simp at h
  · rename_i hs
    cases hp : parseDigits 0 (stripPlus t) with
    | none => rw [hp] at h; simp at h
    | some v =>
      obtain ⟨ds, hd⟩ := isDigit_text (parseDigits_isDigit hp)
      unfold stripPlus at hd
      split at hd
      · exact ⟨ds, .inl hd⟩
      · split at hd
        · rename_i hc
          exact ⟨ds, .inr (by rw [hd, hc])⟩
        · exact ⟨ds, .inl hd⟩

/-- **C61** fails for sizes: a number followed by any repetition of an unknown character is accepted, and so are
    repeated unit letters (only the last counts). -/
theorem C61_size_suffix_fails (checked : Bool) (ds : List (Fin 10)) (hne : ds ≠ []) (h : decimal ds < 2 ^ 64)
    (c : Char) (hc : c.toNat < 0x80) (hnd : ¬ IsDigit c) (hf : unitFactor c = none) (k : Nat) :
    parseSize checked (digitText ds ++ List.replicate (k + 1) c) = .ok (decimal ds) := by
  have hu : unitMulti (UInt8.ofNat c.toNat) = none := unitMulti_none hc hf
  unfold parseSize
  have e : digitText ds ++ List.replicate (k + 1) c = (digitText ds ++ List.replicate k c) ++ [c] := by
    rw [List.replicate_succ', List.append_assoc]
  have h1 : (UInt8.ofNat c.toNat).toNat = c.toNat := by
    rw [UInt8.toNat_ofNat']; exact Nat.mod_eq_of_lt (by omega)
  rw [e, getLast_utf8 _ hc, ← e]
  simp only [hu, h1]
  rw [if_neg (show ¬ (48 ≤ c.toNat ∧ c.toNat ≤ 57) from hnd), trimEnd_append _ _ _ (by
      intro x hx
      rw [List.mem_replicate] at hx
      simp [hx.2, Char.ofNat_toNat]),
    trimEnd_none _ _ (by
      intro x hx
      have := digitText_isDigit ds x hx
      rw [decide_eq_false_iff_not, Char.ofNat_toNat]
      rintro rfl; exact hnd this), parseU_digitText 64 hne, if_pos h]; rfl

example : parseSize true "12xxx".toList = .ok 12 ∧ parseSize true "10gk".toList = .ok 10240 := by decide +kernel

/-- **C61**, partial: what remains: a size text is rejected when what precedes its trailing unit letters is not a
    number (digits, perhaps after a plus sign), and the empty text is rejected. -/
theorem C61_size_rejects_partial (checked : Bool) (body letters : Text) (hl : letters ≠ [])
    (hu : ∀ c ∈ letters, unitFactor c ≠ none) (hb : ∀ b c, body = b ++ [c] → unitFactor c = none)
    (hn : ∀ ds, body ≠ digitText ds ∧ body ≠ '+' :: digitText ds) :
    parseSize checked (body ++ letters) = .err .invalid ∧ parseSize checked [] = .err .invalid := by
  refine ⟨?_, rfl⟩
  obtain ⟨init, c, e⟩ := (List.eq_nil_or_concat letters).resolve_left hl
  rw [List.concat_eq_append] at e
  obtain ⟨m, hm⟩ := Option.ne_none_iff_exists'.1 (hu c (by rw [e]; simp))
  obtain ⟨h1, h2, h3, _⟩ := unit_facts hm
  have ht : trimEnd isUnitLetter (body ++ letters) = body := by
    rw [trimEnd_append _ _ _ fun x hx => isUnitLetter_iff.2 (hu x hx)]
    unfold trimEnd
    rcases List.eq_nil_or_concat body with rfl | ⟨b, x, rfl⟩
    · rfl
    · have : isUnitLetter x = false := by
        have := hb b x (List.concat_eq_append ..)
        cases hx : isUnitLetter x with
        | false => rfl
        | true => exact absurd this (isUnitLetter_iff.1 hx)
      simp [this]
  have hp : parseU 64 body = none := by
    cases h : parseU 64 body with
    | none => rfl
    | some n =>
      obtain ⟨ds, h | h⟩ := parseU_some h
      · exact absurd h (hn ds).1
      · exact absurd h (hn ds).2
  unfold parseSize
  rw [ht, e, ← List.append_assoc, getLast_utf8 _ h1]
  simp only [h2]
  rw [hp]; rfl

/-- "1.5k" -/
example : parseSize true ("1.5".toList ++ "k".toList) = .err .invalid :=
  (C61_size_rejects_partial true _ _ (by decide) (by decide)
    (fun b c h => by
      have := (List.append_inj' (show "1.".toList ++ ['5'] = b ++ [c] from h) rfl).2
      injection this with this; subst this; rfl)
    (fun ds => ⟨fun h => absurd (digitText_isDigit ds '.' (h ▸ by decide)) (by decide),
      fun h => by simp at h⟩)).1

/-! ### C62: rates -/

/-- **C62** A rate text is a size text, a slash and a duration text, with optional whitespace around both: it
    denotes exactly the pair of the two, and is rejected when the slash is missing. -/
theorem C62_rate_meaning (checked : Bool) (a b : Text) (ha : '/' ∉ a) (hb : '/' ∉ b) :
    parseRate checked (a ++ '/' :: b) = (do
      let n ← parseSize checked (trim a)
      let d ← parseDur checked (trim b)
      return (n, d)) ∧
    parseRate checked a = .err .invalid := by
  have hsep : ∀ x : Text, '/' ∉ x → ∀ c ∈ x, (decide (c = '/')) = false := by
    intro x hx c hc
    rw [decide_eq_false_iff_not]; rintro rfl; exact hx hc
  constructor
  · unfold parseRate
    rw [if_neg (by simp), splitOn_sep _ _ _ _ (hsep a ha) (by simp), splitOn_none _ _ (hsep b hb)]
    rfl
  · unfold parseRate
    split
    · rfl
    · rw [splitOn_none _ _ (hsep a ha)]; rfl

example : parseRate true "10m/s".toList = .ok (10 * 2 ^ 20, ⟨1, 0⟩) ∧ parseRate true "5 / 2min".toList = .ok (5, ⟨120, 0⟩) := by
  decide +kernel

/-- **C61** fails for rates: everything after a second slash is ignored instead of being rejected. -/
theorem C61_rate_extra_fails (checked : Bool) (a b x : Text) (ha : '/' ∉ a) (hb : '/' ∉ b) :
    parseRate checked (a ++ '/' :: (b ++ '/' :: x)) = parseRate checked (a ++ '/' :: b) := by
  have hsep : ∀ x : Text, '/' ∉ x → ∀ c ∈ x, (decide (c = '/')) = false := by
    intro x hx c hc
    rw [decide_eq_false_iff_not]; rintro rfl; exact hx hc
  unfold parseRate
  rw [if_neg (by simp), if_neg (by simp), splitOn_sep _ _ _ _ (hsep a ha) (by simp), splitOn_sep _ _ _ _ (hsep a ha) (by simp),
    splitOn_sep _ _ _ _ (hsep b hb) (by simp), splitOn_none _ _ (hsep b hb)]
  rfl

example : parseRate true "10m/s/nonsense".toList = .ok (10 * 2 ^ 20, ⟨1, 0⟩) := by decide +kernel

end Wm.Config
