import Verif.Model.Types
/-! Lower case of ASCII letters. -/
namespace Wm

theorem asciiLower_eq (c : Char) : asciiLower c = c.toLower := by
  unfold asciiLower Char.toLower
  by_cases h : 'A' ≤ c ∧ c ≤ 'Z'
  · rw [if_pos h, dif_pos (by exact h)]
    obtain ⟨h1, h2⟩ := h
    have h1' : 65 ≤ c.toNat := by
      have := Char.le_def.1 h1
      exact UInt32.le_iff_toNat_le.1 this
    have h2' : c.toNat ≤ 90 := by
      have := Char.le_def.1 h2
      exact UInt32.le_iff_toNat_le.1 this
    have hv : (c.toNat + 32).isValidChar := by left; omega
    unfold Char.ofNat
    rw [dif_pos hv]
    apply Char.ext
    apply UInt32.toNat_inj.1
    show c.toNat + 32 = (c.val + ('a'.val - 'A'.val)).toNat
    rw [UInt32.toNat_add]
    have : ('a'.val - 'A'.val).toNat = 32 := by decide
    rw [this]
    show _ = (c.toNat + 32) % 2^32
    omega
  · rw [if_neg h, dif_neg (by exact h)]

theorem map_asciiLower (t : Text) : t.map asciiLower = t.map Char.toLower := by
  congr 1; exact funext asciiLower_eq

theorem isProxy_iff (m : MappingConfig) : m.isProxy = true ↔ m.mode.map Char.toLower = "proxy".toList := by
  unfold MappingConfig.isProxy eqIgnoreCase
  rw [beq_iff_eq, map_asciiLower, map_asciiLower]
  have : "proxy".toList.map Char.toLower = "proxy".toList := by decide
  rw [this]
end Wm
