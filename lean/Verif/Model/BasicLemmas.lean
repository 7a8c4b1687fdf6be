import Verif.Model.Basic
/-! Helper lemmas about bytes, integers and UTF-8. -/
namespace Wm

@[simp] theorem byteAt_toNat (n k : Nat) : (byteAt n k).toNat = n / 256 ^ k % 256 := by
  simp [byteAt]

@[simp] theorem getU8_put (n : Nat) (r : Bytes) : getU8 (putU8 n ++ r) = .ok (n % 256, r) := by
  simp [putU8, getU8]

@[simp] theorem getU16_put (n : Nat) (r : Bytes) : getU16 (putU16 n ++ r) = .ok (n % 2 ^ 16, r) := by
  simp only [putU16, getU16, List.cons_append, List.nil_append, byteAt_toNat]
  congr 2; omega

@[simp] theorem getU24_put (n : Nat) (r : Bytes) : getU24 (putU24 n ++ r) = .ok (n % 2 ^ 24, r) := by
  simp only [putU24, getU24, List.cons_append, List.nil_append, byteAt_toNat]
  congr 2; omega

@[simp] theorem getU32_put (n : Nat) (r : Bytes) : getU32 (putU32 n ++ r) = .ok (n % 2 ^ 32, r) := by
  simp only [putU32, getU32, List.cons_append, List.nil_append, byteAt_toNat]
  congr 2; omega

@[simp] theorem putU8_length (n : Nat) : (putU8 n).length = 1 := rfl
@[simp] theorem putU16_length (n : Nat) : (putU16 n).length = 2 := rfl
@[simp] theorem putU24_length (n : Nat) : (putU24 n).length = 3 := rfl
@[simp] theorem putU32_length (n : Nat) : (putU32 n).length = 4 := rfl

theorem charOfNat_toNat (c : Char) : Char.ofNat c.toNat = c := Char.ofNat_toNat c

theorem char_cases (c : Char) : c.toNat < 0xD800 ∨ (0xDFFF < c.toNat ∧ c.toNat < 0x110000) := by
  have := c.valid
  simpa [UInt32.isValidChar, Nat.isValidChar] using this

theorem utf8Char_ne_nil (c : Char) : utf8Char c ≠ [] := by
  unfold utf8Char; dsimp only
  split
  · simp
  · split
    · simp
    · split <;> simp

theorem lossyAux_skip (xs ys : List Nat) : lossyAux (xs ++ ys) xs.length = lossyAux ys 0 := by
  induction xs with
  | nil => rfl
  | cons a t ih => simpa [lossyAux] using ih

theorem lossyAux_char (c : Char) (r : List Nat) :
    lossyAux ((utf8Char c).map UInt8.toNat ++ r) 0 = c :: lossyAux r 0 := by
  have hc := char_cases c
  have hcc := charOfNat_toNat c
  generalize hn : c.toNat = n at *
  unfold utf8Char; dsimp only; rw [hn]
  split
  · simp only [List.map_cons, List.map_nil, List.cons_append, List.nil_append, lossyAux, utf8Step]
    have : (UInt8.ofNat n).toNat = n := by simp; omega
    simp [*]
  · split
    · have h0 : (UInt8.ofNat (0xC0 + n / 64)).toNat = 0xC0 + n / 64 := by simp; omega
      have h1 : (UInt8.ofNat (0x80 + n % 64)).toNat = 0x80 + n % 64 := by simp; omega
      simp only [List.map_cons, List.map_nil, List.cons_append, List.nil_append, lossyAux, h0, h1]
      have : utf8Step (0xC0 + n / 64) ((0x80 + n % 64) :: r) = (some c, 2) := by
        unfold utf8Step; dsimp only
        rw [if_neg (by omega), if_pos (by omega)]
        simp only [List.getD_cons_zero]
        rw [if_pos (by simp [isCont]; omega)]
        rw [show (0xC0 + n / 64 - 0xC0) * 64 + (0x80 + n % 64 - 0x80) = n by omega, hcc]
      rw [this]; simp [lossyAux]
    · split
      · have h0 : (UInt8.ofNat (0xE0 + n / 4096)).toNat = 0xE0 + n / 4096 := by simp; omega
        have h1 : (UInt8.ofNat (0x80 + n / 64 % 64)).toNat = 0x80 + n / 64 % 64 := by simp; omega
        have h2 : (UInt8.ofNat (0x80 + n % 64)).toNat = 0x80 + n % 64 := by simp; omega
        simp only [List.map_cons, List.map_nil, List.cons_append, List.nil_append, lossyAux, h0, h1, h2]
        have : utf8Step (0xE0 + n / 4096) ((0x80 + n / 64 % 64) :: (0x80 + n % 64) :: r) = (some c, 3) := by
          unfold utf8Step; dsimp only
          rw [if_neg (by omega), if_neg (by omega), if_pos (by omega)]
          simp only [List.getD_cons_zero, List.getD_cons_succ]
          rw [if_pos (by omega), if_pos (by simp [isCont]; omega)]
          rw [show (0xE0 + n / 4096 - 0xE0) * 4096 + (0x80 + n / 64 % 64 - 0x80) * 64 + (0x80 + n % 64 - 0x80) = n
            by omega, hcc]
        rw [this]; simp [lossyAux]
      · have h0 : (UInt8.ofNat (0xF0 + n / 262144)).toNat = 0xF0 + n / 262144 := by simp; omega
        have h1 : (UInt8.ofNat (0x80 + n / 4096 % 64)).toNat = 0x80 + n / 4096 % 64 := by simp; omega
        have h2 : (UInt8.ofNat (0x80 + n / 64 % 64)).toNat = 0x80 + n / 64 % 64 := by simp; omega
        have h3 : (UInt8.ofNat (0x80 + n % 64)).toNat = 0x80 + n % 64 := by simp; omega
        simp only [List.map_cons, List.map_nil, List.cons_append, List.nil_append, lossyAux, h0, h1, h2, h3]
        have : utf8Step (0xF0 + n / 262144)
            ((0x80 + n / 4096 % 64) :: (0x80 + n / 64 % 64) :: (0x80 + n % 64) :: r) = (some c, 4) := by
          unfold utf8Step; dsimp only
          rw [if_neg (by omega), if_neg (by omega), if_neg (by omega), if_pos (by omega)]
          simp only [List.getD_cons_zero, List.getD_cons_succ]
          rw [if_pos (by omega), if_pos (by simp [isCont]; omega), if_pos (by simp [isCont]; omega)]
          rw [show (0xF0 + n / 262144 - 0xF0) * 262144 + (0x80 + n / 4096 % 64 - 0x80) * 4096
            + (0x80 + n / 64 % 64 - 0x80) * 64 + (0x80 + n % 64 - 0x80) = n by omega, hcc]
        rw [this]; simp [lossyAux]

/-- `from_utf8_lossy` is the identity on texts. -/
theorem lossy_utf8 (s : Text) : lossy (utf8 s) = s := by
  unfold lossy utf8
  induction s with
  | nil => rfl
  | cons c t ih =>
    simp only [List.flatMap_cons, List.map_append]
    rw [lossyAux_char, ih]

theorem utf8_eq_nil {s : Text} : utf8 s = [] ↔ s = [] := by
  cases s with
  | nil => simp [utf8]
  | cons c t => simp [utf8, utf8Char_ne_nil]

theorem utf8_injective {s t : Text} (h : utf8 s = utf8 t) : s = t := by
  rw [← lossy_utf8 s, h, lossy_utf8]

theorem utf8_append (s t : Text) : utf8 (s ++ t) = utf8 s ++ utf8 t := by simp [utf8]

end Wm
