import Verif.Model.Socks
import Verif.Model.BasicLemmas
import Verif.Proofs.Text
/-! Lemmas about the SOCKS5 reader: what is read does not depend on the pieces the input arrives in. -/
namespace Wm
theorem Res.bind_eq_ok {α β : Type} {x : Res α} {f : α → Res β} {b : β} (h : (x >>= f) = .ok b) :
    ∃ a, x = .ok a ∧ f a = .ok b := by
  cases x with
  | ok a => exact ⟨a, rfl, h⟩
  | err e => cases h
  | panic => cases h

theorem putU8_toNat (a : UInt8) : putU8 a.toNat = [a] := by
  simp [putU8, byteAt]

theorem byteAt_zero_pair (a b : UInt8) : byteAt (a.toNat * 256 + b.toNat) 0 = b := by
  apply UInt8.toNat_inj.1
  have := b.toNat_lt; rw [byteAt_toNat]; omega

theorem byteAt_one_pair (a b : UInt8) : byteAt (a.toNat * 256 + b.toNat) 1 = a := by
  apply UInt8.toNat_inj.1
  have := b.toNat_lt; have := a.toNat_lt; rw [byteAt_toNat]; omega

theorem putU16_pair (a b : UInt8) : putU16 (a.toNat * 256 + b.toNat) = [a, b] := by
  rw [putU16, byteAt_zero_pair, byteAt_one_pair]

theorem putU32_quad (a b c d : UInt8) :
    putU32 (((a.toNat * 256 + b.toNat) * 256 + c.toNat) * 256 + d.toNat) = [a, b, c, d] := by
  have := a.toNat_lt; have := b.toNat_lt; have := c.toNat_lt; have := d.toNat_lt
  simp only [putU32, List.cons.injEq, and_true]
  refine ⟨?_, ?_, ?_, ?_⟩ <;> apply UInt8.toNat_inj.1 <;> rw [byteAt_toNat] <;> omega
end Wm

namespace Wm.Socks
open Wm

/-- everything the client sends -/
def total (s : Src) : Bytes := s.buf ++ s.pending.flatten

/-- the connection does not end before the last piece -/
def Open (s : Src) : Prop := ∀ p ∈ s.pending, p ≠ []

theorem readLen_total (n : Nat) (buf : Bytes) (ps : List Bytes) :
    total (readLen n buf ps).1 = buf ++ ps.flatten := by
  induction ps generalizing buf with
  | nil => unfold readLen; split <;> rfl
  | cons p ps ih =>
    unfold readLen; split
    · rfl
    · split
      · rename_i h; subst h; rfl
      · rw [ih]; simp

theorem readLen_len {n : Nat} {buf : Bytes} {ps : List Bytes} (h : (readLen n buf ps).2 = true) :
    n ≤ (readLen n buf ps).1.buf.length := by
  induction ps generalizing buf with
  | nil => unfold readLen at h ⊢; split <;> simp_all
  | cons p ps ih =>
    unfold readLen at h ⊢; split
    · assumption
    · split
      · simp_all
      · rename_i h1 h2; rw [if_neg h1, if_neg h2] at h; exact ih h

/-- A request is being received: `x` is what remains of it, `early` is what arrives in the same piece as its last byte,
    and `later` are the pieces behind. -/
def At (early : Bytes) (later : List Bytes) (x : Bytes) (s : Src) : Prop :=
  ∃ front : List Bytes, (∀ p ∈ front, p ≠ []) ∧ s.pending = front ++ later ∧ s.buf ++ front.flatten = x ++ early ∧
    (front = [] ∨ ∃ init last, front = init ++ [last] ∧ early.length < last.length)

theorem readLen_at (n : Nat) (buf : Bytes) (front later : List Bytes) (x early : Bytes) (ho : ∀ p ∈ front, p ≠ [])
    (ht : buf ++ front.flatten = x ++ early) (hn : n ≤ x.length)
    (hf : front = [] ∨ ∃ init last, front = init ++ [last] ∧ early.length < last.length) :
    (readLen n buf (front ++ later)).2 = true ∧ At early later x (readLen n buf (front ++ later)).1 := by
  induction front generalizing buf with
  | nil =>
    have hl : n ≤ buf.length := by
      have := congrArg List.length ht; simp at this; omega
    have : readLen n buf ([] ++ later) = (⟨buf, later⟩, true) := by
      rw [List.nil_append]
      cases later <;> unfold readLen <;> rw [if_pos hl]
    rw [this]
    exact ⟨rfl, [], by simp, rfl, ht, Or.inl rfl⟩
  | cons p ps ih =>
    rw [List.cons_append]
    unfold readLen
    split
    · exact ⟨rfl, p :: ps, ho, rfl, ht, hf⟩
    · rw [if_neg (ho p (by simp))]
      refine ih _ (fun q hq => ho q (List.mem_cons_of_mem _ hq)) (by rw [← ht]; simp) ?_
      rcases hf with hf | ⟨init, last, hf, hl⟩
      · cases hf
      · cases init with
        | nil =>
          simp only [List.nil_append, List.cons.injEq] at hf
          exact Or.inl hf.2
        | cons i is =>
          simp only [List.cons_append, List.cons.injEq] at hf
          exact Or.inr ⟨is, last, hf.2, hl⟩

/-- Wherever the request `x` ends within the input, it ends in some piece. -/
theorem at_of_total {s : Src} {x r : Bytes} (ho : Open s) (ht : total s = x ++ r) :
    ∃ early later, At early later x s ∧ early ++ later.flatten = r := by
  obtain ⟨buf, ps⟩ := s
  simp only [total, Open] at ho ht
  induction ps generalizing buf with
  | nil => exact ⟨r, [], ⟨[], by simp, rfl, by simpa using ht, Or.inl rfl⟩, by simp⟩
  | cons p ps ih =>
    by_cases hl : x.length ≤ buf.length
    · obtain ⟨b', hb, hr⟩ := (show ∃ b', buf = x ++ b' ∧ b' ++ (p :: ps).flatten = r by
        refine ⟨buf.drop x.length, ?_, ?_⟩
        · have : x = buf.take x.length := by
            have h2 := congrArg (List.take x.length) ht
            rw [List.take_append_of_le_length hl] at h2
            simpa using h2.symm
          conv_lhs => rw [← List.take_append_drop x.length buf, ← this]
        · have h2 := congrArg (List.drop x.length) ht
          rw [List.drop_append_of_le_length hl] at h2
          simpa using h2)
      exact ⟨b', p :: ps, ⟨[], by simp, rfl, by simpa using hb, Or.inl rfl⟩, hr⟩
    · obtain ⟨early, later, ⟨front, h1, h2, h3, h4⟩, hr⟩ := ih (buf ++ p) (fun q hq => ho q (List.mem_cons_of_mem _ hq))
        (by rw [← ht]; simp)
      refine ⟨early, later, ⟨p :: front, ?_, ?_, ?_, ?_⟩, hr⟩
      · intro q hq
        rcases List.mem_cons.1 hq with rfl | hq
        · exact ho _ (by simp)
        · exact h1 q hq
      · simp only at h2; rw [h2]; rfl
      · simp only at h3; rw [← h3]; simp
      · right
        rcases h4 with h4 | ⟨init, last, h4, h5⟩
        · subst h4
          refine ⟨[], p, rfl, ?_⟩
          have := congrArg List.length h3
          simp at this; omega
        · exact ⟨p :: init, last, by rw [h4]; rfl, h5⟩

/-- When nothing remains, the buffer holds what came early. -/
theorem at_nil {early : Bytes} {later : List Bytes} {s : Src} (h : At early later [] s) :
    s = ⟨early, later⟩ := by
  obtain ⟨front, -, h2, h3, h4⟩ := h
  have : front = [] := by
    rcases h4 with h | ⟨init, last, h, hl⟩
    · exact h
    · subst h
      have := congrArg List.length h3
      simp at this; omega
  subst this
  obtain ⟨b, ps⟩ := s
  simp at h2 h3
  rw [h2, h3]

theorem at_drop {early : Bytes} {later : List Bytes} {y z b : Bytes} {ps : List Bytes}
    (h : At early later (y ++ z) ⟨y ++ b, ps⟩) : At early later z ⟨b, ps⟩ := by
  obtain ⟨front, h1, h2, h3, h4⟩ := h
  refine ⟨front, h1, h2, ?_, h4⟩
  simpa using h3

theorem at_total {early : Bytes} {later : List Bytes} {x : Bytes} {s : Src} (h : At early later x s) :
    total s = x ++ (early ++ later.flatten) := by
  obtain ⟨front, h1, h2, h3, h4⟩ := h
  simp only [total, h2, List.flatten_append]
  rw [← List.append_assoc, h3]; simp

/-- a source whose pieces all belong to the buffer -/
theorem at_buf (x early : Bytes) (later : List Bytes) : At early later x ⟨x ++ early, later⟩ :=
  ⟨[], by simp, rfl, by simp, Or.inl rfl⟩

theorem split_of_le {x r b q : Bytes} (h : b ++ q = x ++ r) (hl : x.length ≤ b.length) : ∃ b', b = x ++ b' ∧ b' ++ q = r := by
  refine ⟨b.drop x.length, ?_, ?_⟩
  · have : x = b.take x.length := by
      have h2 := congrArg (List.take x.length) h
      rw [List.take_append_of_le_length hl] at h2
      simpa using h2.symm
    conv_lhs => rw [← List.take_append_drop x.length b, ← this]
  · have h2 := congrArg (List.drop x.length) h
    rw [List.drop_append_of_le_length hl] at h2
    simpa using h2

theorem need_sound {n : Nat} {s s' : Src} (h : need n s = .ok s') :
    total s' = total s ∧ n ≤ s'.buf.length := by
  unfold need at h
  have ht := readLen_total n s.buf s.pending
  have hl := @readLen_len n s.buf s.pending
  cases hr : readLen n s.buf s.pending with
  | mk a b =>
    rw [hr] at h ht hl
    cases b with
    | false => cases h
    | true => injection h with h; subst h; exact ⟨ht, hl rfl⟩

/-- what a successful `need` leaves in front -/
theorem need_split {early : Bytes} {later : List Bytes} {s : Src} {x r : Bytes} {n : Nat}
    (h : At early later (x ++ r) s) (hn : x.length = n) :
    ∃ b' ps, readLen n s.buf s.pending = (⟨x ++ b', ps⟩, true) ∧ need n s = .ok ⟨x ++ b', ps⟩ ∧ At early later r ⟨b', ps⟩ := by
  subst hn
  obtain ⟨front, h1, h2, h3, h4⟩ := h
  obtain ⟨hc, hat⟩ := readLen_at x.length s.buf front later (x ++ r) early h1 h3 (by simp) h4
  rw [← h2] at hc hat
  have hl := readLen_len hc
  unfold need
  cases hr : readLen x.length s.buf s.pending with
  | mk a b =>
    rw [hr] at hc hat hl
    simp only at hc hat hl
    subst hc
    obtain ⟨buf, ps⟩ := a
    have ht := at_total hat
    obtain ⟨b', h5, h6⟩ := split_of_le (b := buf) (q := ps.flatten) (x := x) (r := r ++ (early ++ later.flatten))
      (by rw [← List.append_assoc]; exact ht) hl
    subst h5
    exact ⟨b', ps, rfl, rfl, at_drop hat⟩

theorem takeU8_sound {s s' : Src} {v : Nat} (h : takeU8 s = .ok (v, s')) :
    ∃ a : UInt8, v = a.toNat ∧ s.buf = a :: s'.buf ∧ s'.pending = s.pending := by
  unfold takeU8 at h
  cases hb : s.buf with
  | nil => rw [hb] at h; simp [getU8] at h
  | cons a r =>
    rw [hb] at h
    simp only [getU8, Res.bind_ok, Res.pure_eq, Res.ok.injEq, Prod.mk.injEq] at h
    obtain ⟨h1, h2⟩ := h; subst h2
    exact ⟨a, h1.symm, rfl, rfl⟩

theorem takeU16_sound {s s' : Src} {v : Nat} (h : takeU16 s = .ok (v, s')) :
    ∃ a b : UInt8, v = a.toNat * 256 + b.toNat ∧ s.buf = a :: b :: s'.buf ∧ s'.pending = s.pending := by
  unfold takeU16 at h
  match hb : s.buf with
  | [] => rw [hb] at h; simp [getU16] at h
  | [a] => rw [hb] at h; simp [getU16] at h
  | a :: b :: r =>
    rw [hb] at h
    simp only [getU16, Res.bind_ok, Res.pure_eq, Res.ok.injEq, Prod.mk.injEq] at h
    obtain ⟨h1, h2⟩ := h; subst h2
    exact ⟨a, b, h1.symm, rfl, rfl⟩

theorem takeU8_total {s s' : Src} {v : Nat} (h : takeU8 s = .ok (v, s')) :
    ∃ a : UInt8, v = a.toNat ∧ total s = a :: total s' := by
  obtain ⟨a, h1, h2, h3⟩ := takeU8_sound h
  exact ⟨a, h1, by simp [total, h2, h3]⟩

theorem takeU16_total {s s' : Src} {v : Nat} (h : takeU16 s = .ok (v, s')) :
    ∃ a b : UInt8, v = a.toNat * 256 + b.toNat ∧ total s = a :: b :: total s' := by
  obtain ⟨a, b, h1, h2, h3⟩ := takeU16_sound h
  exact ⟨a, b, h1, by simp [total, h2, h3]⟩

theorem advance_total {n : Nat} {s s' : Src} (h : advance n s = .ok s') :
    n ≤ s.buf.length ∧ s' = { s with buf := s.buf.drop n } ∧ total s = s.buf.take n ++ total s' := by
  unfold advance at h
  split at h
  · rename_i hn; injection h with h; subst h
    refine ⟨hn, rfl, ?_⟩
    simp only [total]; rw [← List.append_assoc, List.take_append_drop]
  · cases h

@[simp] theorem takeU8_cons (a : UInt8) (r : Bytes) (ps : List Bytes) :
    takeU8 ⟨a :: r, ps⟩ = .ok (a.toNat, ⟨r, ps⟩) := rfl
@[simp] theorem takeU16_cons (a b : UInt8) (r : Bytes) (ps : List Bytes) :
    takeU16 ⟨a :: b :: r, ps⟩ = .ok (a.toNat * 256 + b.toNat, ⟨r, ps⟩) := rfl

theorem seg_ofSegs (s7 s6 s5 s4 s3 s2 s1 s0 : Nat) (h7 : s7 < 65536) (h6 : s6 < 65536) (h5 : s5 < 65536)
    (h4 : s4 < 65536) (h3 : s3 < 65536) (h2 : s2 < 65536) (h1 : s1 < 65536) (h0 : s0 < 65536) :
    seg (ofSegs s7 s6 s5 s4 s3 s2 s1 s0) 7 = s7 ∧ seg (ofSegs s7 s6 s5 s4 s3 s2 s1 s0) 6 = s6 ∧
    seg (ofSegs s7 s6 s5 s4 s3 s2 s1 s0) 5 = s5 ∧ seg (ofSegs s7 s6 s5 s4 s3 s2 s1 s0) 4 = s4 ∧
    seg (ofSegs s7 s6 s5 s4 s3 s2 s1 s0) 3 = s3 ∧ seg (ofSegs s7 s6 s5 s4 s3 s2 s1 s0) 2 = s2 ∧
    seg (ofSegs s7 s6 s5 s4 s3 s2 s1 s0) 1 = s1 ∧ seg (ofSegs s7 s6 s5 s4 s3 s2 s1 s0) 0 = s0 := by
  simp only [seg, ofSegs, BitVec.toNat_ofNat]
  refine ⟨?_, ?_, ?_, ?_, ?_, ?_, ?_, ?_⟩ <;> omega

theorem ofSegs_seg (a : BitVec 128) :
    ofSegs (seg a 7) (seg a 6) (seg a 5) (seg a 4) (seg a 3) (seg a 2) (seg a 1) (seg a 0) = a := by
  apply BitVec.eq_of_toNat_eq
  have := a.isLt
  simp only [seg, ofSegs, BitVec.toNat_ofNat]
  omega

theorem seg_lt (a : BitVec 128) (k : Nat) : seg a k < 65536 := Nat.mod_lt _ (by decide)

end Wm.Socks
