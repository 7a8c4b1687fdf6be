import Verif.Model.Scalars
import Verif.Props.ConfigNum

/-! Property C176: timeouts written as plain numbers. -/

namespace Wm.Config

/-- A minus and digits end in none of the units. -/
theorem ends_minus {p ds : Text} {c : Char} (hc : ¬ IsDigit c) (hne : ds ≠ []) (hd : ∀ x ∈ ds, IsDigit x) :
    endsWith (p ++ [c]) ('-' :: ds) = false := by
  rw [Bool.eq_false_iff, Ne, endsWith_iff]
  rintro ⟨r, hr⟩
  obtain ⟨q, d, rfl⟩ := (List.eq_nil_or_concat ds).resolve_left hne
  have := congrArg List.getLast? hr
  rw [List.concat_eq_append, ← List.append_assoc, ← List.cons_append] at this
  rw [List.getLast?_concat, List.getLast?_concat, Option.some.injEq] at this
  exact hc (this ▸ hd d (by simp))

theorem parseOr1_minus (ds : Text) : parseOr1 ('-' :: ds) = 1 := by
  have h : parseDigits 0 ('-' :: ds) = none := by
    have : digitVal '-' = none := by decide
    simp [parseDigits, this]
  simp [parseOr1, parseU, stripPlus, h]

theorem parseDur_minus (checked : Bool) {ds : Text} (hne : ds ≠ []) (hd : ∀ c ∈ ds, IsDigit c) :
    parseDur checked ('-' :: ds) = .ok ⟨1, 0⟩ := by
  have h0 : endsWith ['m', 's'] ('-' :: ds) = false := ends_minus (p := ['m']) (by decide) hne hd
  have h1 : endsWith ['h'] ('-' :: ds) = false := ends_minus (p := []) (by decide) hne hd
  have h2 : endsWith ['m', 'i', 'n'] ('-' :: ds) = false := ends_minus (p := ['m', 'i']) (by decide) hne hd
  have h3 : endsWith ['s'] ('-' :: ds) = false := ends_minus (p := []) (by decide) hne hd
  unfold parseDur
  rw [if_neg (by simp), h0, if_neg (by simp), h1, if_neg (by simp), h2, if_neg (by simp), h3, if_neg (by simp), parseOr1_minus,
    mkDur_secs (by decide)]

theorem parseDur_showNat (checked : Bool) {n : Nat} (h : n < 2 ^ 64) : parseDur checked (showNat n) = .ok ⟨n, 0⟩ := by
  rw [parseDur_plain checked (showNat_ne_nil n) (showNat_isDigit n), parseOr1, parseU_showNat h]
  exact mkDur_secs h

/-- **C176**, partial: in a TOML file a number without a minus is that many seconds. Missing: YAML files
    (`C176_yaml_fails`) and negative numbers (`C176_negative_fails`). -/
theorem C176_toml_partial (checked : Bool) (n : Nat) (h : n < 2 ^ 63) :
    readTimeout checked .toml n = some (.ok ⟨n, 0⟩) := by
  have h1 : FileFormat.toml.number n = some (.i64 n) := by
    simp only [FileFormat.number]; rw [if_pos (by omega)]
  simp only [readTimeout, h1, Option.map_some, readScalar]
  rw [showInt, if_neg (by omega), Int.natAbs_natCast, parseDur_showNat checked (by omega)]

example : readTimeout true .toml 30 = some (.ok ⟨30, 0⟩) := C176_toml_partial true 30 (by decide)

/-- **C176** fails: in a YAML file every number without a minus is rejected, and the configuration with it. -/
theorem C176_yaml_fails (checked : Bool) (n : Nat) (h : n < 2 ^ 64) :
    readTimeout checked .yaml n = some (.err .invalid) := by
  have h1 : FileFormat.yaml.number n = some (.u64 n) := by
    simp only [FileFormat.number]; rw [if_pos (by omega), if_pos (by omega), Int.toNat_natCast]
  simp only [readTimeout, h1, Option.map_some, readScalar]

example : readTimeout true .yaml 30 = some (.err .invalid) := C176_yaml_fails true 30 (by decide)

/-- **C176** fails: a negative number is taken, in both formats, and means one second. -/
theorem C176_negative_fails (checked : Bool) (f : FileFormat) (n : Int) (h : n < 0) (hl : -2 ^ 63 ≤ n) :
    readTimeout checked f n = some (.ok ⟨1, 0⟩) := by
  have h1 : f.number n = some (.i64 n) := by
    cases f
    · simp only [FileFormat.number]; rw [if_pos (by omega)]
    · simp only [FileFormat.number]; rw [if_neg (by omega), if_pos (by omega)]
  simp only [readTimeout, h1, Option.map_some, readScalar]
  rw [showInt, if_pos h, parseDur_minus checked (showNat_ne_nil _) (showNat_isDigit _)]

example : readTimeout false .yaml (-30) = some (.ok ⟨1, 0⟩) := C176_negative_fails false .yaml (-30) (by decide) (by decide)

end Wm.Config
