import Verif.Model.Reader
import Verif.Proofs.Codec
/-! Lemmas about the decode loop. -/
namespace Wm.Prot
open Wm

theorem pump_none {σ : Type} (h : σ → Frame → σ × Bool) (st : σ) {buf b : Bytes}
    (hd : decodeFrame buf = (.ok none, b)) : pump h st buf = (st, b, .more) := by
  rw [pump]; split <;> simp_all

theorem pump_some {σ : Type} (h : σ → Frame → σ × Bool) (st : σ) {buf b : Bytes} {f : Frame}
    (hd : decodeFrame buf = (.ok (some f), b)) :
    pump h st buf = if (h st f).2 then ((h st f).1, b, .stopped) else pump h (h st f).1 b := by
  rw [pump]
  split
  · simp_all
  · rename_i f' b' heq
    rw [hd] at heq
    simp only [Prod.mk.injEq, Res.ok.injEq, Option.some.injEq] at heq
    obtain ⟨rfl, rfl⟩ := heq
    split <;> simp_all
  · simp_all
  · simp_all

theorem pump_err {σ : Type} (h : σ → Frame → σ × Bool) (st : σ) {buf b : Bytes} {e : Err}
    (hd : decodeFrame buf = (.err e, b)) : pump h st buf = (st, b, .err e) := by
  rw [pump]; split <;> simp_all

theorem pump_panic {σ : Type} (h : σ → Frame → σ × Bool) (st : σ) {buf b : Bytes}
    (hd : decodeFrame buf = (.panic, b)) : pump h st buf = (st, b, .panic) := by
  rw [pump]; split <;> simp_all

theorem pump_incomplete {σ : Type} (h : σ → Frame → σ × Bool) (st : σ) {buf : Bytes} (hc : ¬ Complete buf) :
    pump h st buf = (st, buf, .more) := pump_none h st (decodeFrame_incomplete buf hc)

theorem announced_prefix {a b : Bytes} (h : a <+: b) (hl : 3 ≤ a.length) : announced a = announced b := by
  obtain ⟨t, rfl⟩ := h
  match a, hl with
  | x :: y :: z :: r, _ => rfl

theorem announced_wire {f : Frame} (hf : BodyFits f) : announced (wire f) = (headOf f).length := by
  rw [wire_fits f hf]
  have h := getU24_header (headOf f) (bodyOf f)
  have hs := headOf_small hf
  rw [Nat.mod_eq_of_lt hs] at h
  have : ∀ b : Bytes, ∀ n r, getU24 b = .ok (n, r) → announced b = n := by
    intro b n r hb
    match b, hb with
    | x :: y :: z :: w, hb => simp only [getU24, Res.ok.injEq, Prod.mk.injEq] at hb; simp only [announced]; omega
  exact this _ _ _ h

theorem wire_length {f : Frame} (hf : BodyFits f) : (wire f).length = 12 + (headOf f).length := by
  rw [wire_fits f hf, List.length_append, header_length, body_length]

theorem strict_prefix_incomplete {f : Frame} (hf : BodyFits f) {p : Bytes} (hp : p <+: wire f)
    (hlt : p.length < (wire f).length) : ¬ Complete p := by
  unfold Complete
  by_cases h3 : 3 ≤ p.length
  · rw [announced_prefix hp h3, announced_wire hf, ← wire_length hf]; omega
  · omega

theorem pump_stream (fs : List Frame) (hf : ∀ f ∈ fs, Fits f) (part : Bytes) (hp : ¬ Complete part) :
    ∀ acc, pump collect acc (fs.flatMap wire ++ part) = (acc ++ fs.map asReceived, part, .more) := by
  induction fs with
  | nil => intro acc; simpa using pump_incomplete collect acc hp
  | cons f t ih =>
    intro acc
    have h1 : decodeFrame ((f :: t).flatMap wire ++ part)
        = (.ok (some (asReceived f)), t.flatMap wire ++ part) := by
      rw [List.flatMap_cons, List.append_assoc]
      have h := frame_roundtrip_any_id f (hf f (by simp)).1 (hf f (by simp)).2.1 [] (t.flatMap wire ++ part)
      rw [wireId_fits (hf f (by simp)).2, withId_self] at h
      exact h.2
    rw [pump_some collect acc h1]
    simp only [collect, Bool.false_eq_true, if_false]
    have := ih (fun x hx => hf x (by simp [hx])) (acc ++ [asReceived f])
    rw [this]; simp

theorem split_prefix (fs : List Frame) (hf : ∀ f ∈ fs, Fits f) {part : Bytes}
    (hpart : ∀ p, p <+: part → ¬ Complete p) : ∀ (p r : Bytes), p ++ r = fs.flatMap wire ++ part →
    ∃ fs1 fs2 q, fs = fs1 ++ fs2 ∧ p = fs1.flatMap wire ++ q ∧ ¬ Complete q ∧ q ++ r = fs2.flatMap wire ++ part := by
  induction fs with
  | nil =>
    intro p r h
    refine ⟨[], [], p, rfl, rfl, hpart p ⟨r, by simpa using h⟩, h⟩
  | cons f t ih =>
    intro p r h
    by_cases hl : p.length < (wire f).length
    · refine ⟨[], f :: t, p, rfl, by simp, strict_prefix_incomplete (hf f (by simp)).1 ?_ hl, h⟩
      have h1 : p <+: wire f ++ (t.flatMap wire ++ part) := ⟨r, by simpa [List.append_assoc] using h⟩
      exact List.prefix_of_prefix_length_le h1 (List.prefix_append _ _) (by omega)
    · have h1 : wire f <+: p := by
        refine List.prefix_of_prefix_length_le (l₃ := p ++ r) ?_ (List.prefix_append _ _) (by omega)
        rw [h]; simp [List.append_assoc]
      obtain ⟨p', rfl⟩ := h1
      have h2 : p' ++ r = t.flatMap wire ++ part := by
        have : wire f ++ (p' ++ r) = wire f ++ (t.flatMap wire ++ part) := by
          simpa [List.append_assoc] using h
        exact List.append_cancel_left this
      obtain ⟨fs1, fs2, q, e1, e2, e3, e4⟩ := ih (fun x hx => hf x (by simp [hx])) p' r h2
      exact ⟨f :: fs1, fs2, q, by simp [e1], by simp [e2], e3, e4⟩

theorem feedAll_stream (chunks : List Bytes) : ∀ (fs : List Frame) (part acc_buf : Bytes) (acc : List Frame),
    (∀ f ∈ fs, Fits f) → (∀ p, p <+: part → ¬ Complete p) → ¬ Complete acc_buf →
    acc_buf ++ chunks.flatten = fs.flatMap wire ++ part →
    feedAll collect (acc, acc_buf, .more) chunks = (acc ++ fs.map asReceived, part, .more) := by
  induction chunks with
  | nil =>
    intro fs part buf acc hf hp hb h
    simp only [List.flatten_nil, List.append_nil] at h
    cases fs with
    | nil => simp [feedAll, h]
    | cons f t =>
      exfalso; apply hb
      have hff := (hf f (by simp)).1
      unfold Complete
      have hpre : wire f <+: buf := by rw [h]; simp [List.append_assoc]
      have hw := wire_length hff
      rw [← announced_prefix hpre (by omega), announced_wire hff, ← hw]
      exact hpre.length_le
  | cons c cs ih =>
    intro fs part buf acc hf hp hb h
    simp only [List.flatten_cons] at h
    rw [← List.append_assoc] at h
    obtain ⟨fs1, fs2, q, e1, e2, e3, e4⟩ := split_prefix fs hf hp _ _ h
    simp only [feedAll]
    rw [e2, pump_stream fs1 (fun f hx => hf f (by simp [e1, hx])) q e3]
    rw [ih fs2 part q _ (fun f hx => hf f (by simp [e1, hx])) hp e3 e4, e1]
    simp

end Wm.Prot
