import Verif.Props.FilesMore
import Mathlib.Tactic.Tauto
/-! C217: ranges asked for on condition. -/
namespace Wm.Files
open Wm

/-- what the client holds is the file as it is: its If-Range header is the file's ETag, or a date that is the second of the
    file's last change -/
def Holds (lastMod : Text → Nat) (v : Text) (m : Meta) : Prop :=
  v = etag m ∨ ∃ n, m.mtime = some n ∧ n ≠ 0 ∧ lastMod v = n

/-- **C217** A GET request with a range and an If-Range header is answered as if it had no If-Range header when the client
    holds the file as it is, and as if it had no range when not; that is, with the whole file. -/
theorem C217_if_range (env : CondEnv) (c : Cond) (m : Meta) (v : Text) (hg : c.head = false) (hv : c.ifRange = some v) :
    (Holds env.lastMod v m → fileResponse env c m = fileResponse env { c with ifRange := none } m) ∧
    (¬ Holds env.lastMod v m →
      fileResponse env c m = fileResponse env { c with ifRange := none, range := none } m) := by
  have hok : ifRangeOk env c m = true ↔ Holds env.lastMod v m := by
    unfold ifRangeOk Holds
    rw [hv]
    cases hm : m.mtime with
    | none => simp
    | some n =>
      simp only [Option.getD_some, Bool.or_eq_true, beq_iff_eq, Bool.and_eq_true, bne_iff_ne, Option.some.injEq,
        exists_eq_left']
      tauto
  have hn : ∀ r, notModified env { c with ifRange := none, range := r } m = notModified env c m := fun _ => rfl
  have ha : ∀ (x : FResp), applyHead c x = x := by intro x; simp [applyHead, hg]
  constructor
  · intro h
    have h1 := hok.2 h
    unfold fileResponse afterFile
    rw [show notModified env { c with ifRange := none } m = notModified env c m from rfl]
    simp only [h1, if_true]
    rfl
  · intro h
    have h1 : ifRangeOk env c m = false := by
      cases hb : ifRangeOk env c m with
      | true => exact absurd (hok.1 hb) h
      | false => rfl
    have h2 : ∀ x, applyHead { c with ifRange := none, range := none } x = x := by intro x; simp [applyHead, hg]
    unfold fileResponse afterFile
    rw [hn none]
    simp only [h1, Bool.false_eq_true, if_false, ha, h2]
    simp only [ifRangeOk, applyRange, if_true, Option.map_some, h2]

/-- **C217** (in full) When the client has no good copy and does not hold the file as it is, it gets the whole file with
    status 200, whatever range it asks for; when it holds it, a range that can be read is sent with 206. -/
theorem C217_whole (env : CondEnv) (c : Cond) (m : Meta) (v t : Text) (hg : c.head = false) (hv : c.ifRange = some v)
    (h1 : c.ifNoneMatch = none) (h2 : c.ifModifiedSince = none)
    (h3 : c.acceptRanges = none ∨ c.acceptRanges = some "bytes".toList) (hr : c.range = some t) :
    (¬ Holds env.lastMod v m → fileResponse env c m = some ⟨200, .whole, none⟩) ∧
    (Holds env.lastMod v m → ∀ s e b, calcRange t m.len = some (s, e) → env.seek .whole s e = some b →
      fileResponse env c m = some ⟨206, b, some (some (s, e))⟩) := by
  have g := C217_if_range env c m v hg hv
  constructor
  · intro h
    rw [g.2 h, C50_whole env { c with ifRange := none, range := none } m ⟨by simp [h1], by simp [h2], .inl rfl, h3⟩ rfl]
    simp [hg]
  · intro h s e b hc hb
    rw [g.1 h, (C50_answer_partial env { c with ifRange := none } m ⟨by simp [h1], by simp [h2], .inl rfl, h3⟩ t hr).1 s e b hc hb]
    simp [hg]

section Examples

def exCond : Cond := ⟨none, none, some "5-a".toList, some "bytes=2-4".toList, none, false⟩
def exCondEnv : CondEnv := ⟨fun _ => 0, fun _ s e => some (.part s e)⟩

/-- the file as it was is changed in the next second -/
example : Holds exCondEnv.lastMod "5-a".toList ⟨10, some 5⟩ ∧ ¬ Holds exCondEnv.lastMod "5-a".toList ⟨10, some 6⟩ ∧
    fileResponse exCondEnv exCond ⟨10, some 5⟩ = some ⟨206, .part 2 4, some (some (2, 4))⟩ ∧
    fileResponse exCondEnv exCond ⟨10, some 6⟩ = some ⟨200, .whole, none⟩ := by
  refine ⟨.inl (by decide +kernel), ?_, by decide +kernel, by decide +kernel⟩
  rintro (h | ⟨n, hn, h0, h⟩)
  · exact absurd h (by decide +kernel)
  · exact h0 h.symm

end Examples

end Wm.Files
