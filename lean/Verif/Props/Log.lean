import Verif.Model.Log
import Verif.Model.BasicLemmas
import Verif.Proofs.Text
import Mathlib.Tactic.Tauto
/-!
C57: widths of log fields. C58: literal text in log patterns. C91: an invalid date format.
-/
namespace Wm.Log
open Wm

/-! ### Specification -/

/-- The text brought to the configured width: first cut to the maximum, then filled up to the minimum on the side that the
    alignment leaves free. -/
def fitTo (ps : Params) (t : Text) : Text :=
  let cutT := match ps.maxWidth with
    | none => t
    | some mx => t.take mx
  let pad := match ps.minWidth with
    | none => []
    | some mn => List.replicate (mn - cutT.length) ps.fill
  match ps.align with
  | .left => cutT ++ pad
  | .right => pad ++ cutT

/-- the minimum width is not above the maximum width -/
def Params.sane (ps : Params) : Prop := ∀ mn mx, ps.minWidth = some mn → ps.maxWidth = some mx → mn ≤ mx

mutual
/-- What a chunk should print: texts as they are, fields at their configured width, groups brought to their width as a whole.
    `none`: the date format is invalid. -/
def printed (rec : Rec) : Chunk → Option Text
  | .text t => some t
  | .error e => some ("{ERROR: ".toList ++ e ++ "}".toList)
  | .field f ps => some (fitTo ps (rec.field f).flatten)
  | .time fmt utc ps => (rec.time fmt utc).map (fun ts => fitTo ps ts.flatten)
  | .group _ cs ps => (printedList rec cs).map (fitTo ps)

def printedList (rec : Rec) : List Chunk → Option Text
  | [] => some []
  | c :: r => match printed rec c, printedList rec r with
    | some a, some b => some (a ++ b)
    | _, _ => none
end

mutual
/-- all widths in the chunk are sane -/
def Chunk.sane : Chunk → Prop
  | .text _ => True
  | .error _ => True
  | .field _ ps => ps.sane
  | .time _ _ ps => ps.sane
  | .group _ cs ps => ps.sane ∧ saneList cs

def saneList : List Chunk → Prop
  | [] => True
  | c :: r => c.sane ∧ saneList r
end

/-! ### Byte level -/

theorem cut_length_le (r : Nat) (b : Bytes) : (cut r b).length ≤ b.length := by
  induction b generalizing r with
  | nil => simp [cut]
  | cons x xs ih =>
    simp only [cut]
    repeat' split
    · simp
    · have := ih (by assumption); simp; omega
    · have := ih r; simp; omega

theorem starts_append (a b : Bytes) : starts (a ++ b) = starts a + starts b := by simp [starts]

theorem starts_cons (x : UInt8) (b : Bytes) : starts (x :: b) = starts b + (if isBoundary x then 1 else 0) := by
  simp [starts, List.countP_cons]

theorem starts_take_drop (n : Nat) (b : Bytes) : starts b = starts (b.take n) + starts (b.drop n) := by
  rw [← starts_append, List.take_append_drop]

theorem cut_nil (r : Nat) : cut r [] = [] := by cases r <;> rfl

theorem cut_take {b : Bytes} {c : Bytes} (r len : Nat) (hc : cut r b = c) : c.take len = b.take (min len c.length) := by
  induction b generalizing r c len with
  | nil => subst hc; simp [cut]
  | cons x xs ih =>
    subst hc
    cases len with
    | zero => simp
    | succ l =>
      simp only [cut]
      split
      · cases r with
        | zero => simp
        | succ r => simp [ih r l rfl, Nat.succ_min_succ]
      · simp [ih r l rfl, Nat.succ_min_succ]

theorem cut_drop (r len : Nat) (b : Bytes) (h : len ≤ (cut r b).length) :
    cut (r - starts ((cut r b).take len)) (b.drop len) = (cut r b).drop len := by
  induction b generalizing r len with
  | nil => simp [cut]
  | cons x xs ih =>
    cases len with
    | zero => simp [starts]
    | succ l =>
      simp only [cut] at h ⊢
      by_cases hx : isBoundary x = true
      · simp only [hx, if_true] at h ⊢
        cases r with
        | zero => simp at h
        | succ r =>
          simp only [List.take_succ_cons, List.drop_succ_cons, starts_cons, hx, if_true, List.length_cons] at h ⊢
          have := ih r l (by omega)
          rw [← this]
          congr 1
          omega
      · simp only [hx, Bool.false_eq_true, if_false, List.take_succ_cons, List.drop_succ_cons, starts_cons,
          List.length_cons] at h ⊢
        simpa using ih r l (by omega)

/-- the sink's answers forgotten -/
def Wr.erase : Wr → Wr
  | .sink out _ => .sink out []
  | .max r w => .max r w.erase
  | .left n f w => .left n f w.erase
  | .right n f w buf => .right n f w.erase buf

/-- the effect of `write_all` -/
def Wr.bput : Wr → Bytes → Wr
  | .sink out ks, b => .sink (out ++ b) ks
  | .max r w, b => .max (r - starts (cut r b)) (w.bput (cut r b))
  | .left n f w, b => .left (n - starts b) f (w.bput b)
  | .right n f w buf, b => .right (n - starts b) f w (if b = [] then buf else pushData buf b)

theorem bput_nil (w : Wr) : w.bput [] = w := by
  induction w with
  | sink => simp [Wr.bput]
  | max r w ih => simp [Wr.bput, cut_nil, ih, starts]
  | left n f w ih => simp [Wr.bput, ih, starts]
  | right n f w buf => simp [Wr.bput, starts]

theorem write_spec (w : Wr) (b : Bytes) (hb : b ≠ []) :
    0 < (w.write b).2 ∧ (w.write b).2 ≤ b.length ∧
      w.erase.bput b = (w.write b).1.erase.bput (b.drop (w.write b).2) := by
  have hpos : 0 < b.length := List.length_pos_iff.mpr hb
  induction w generalizing b with
  | sink out ks =>
    cases ks with
    | nil => simp [Wr.write, Wr.erase, Wr.bput, hpos]
    | cons k ks =>
      have h1 : 1 ≤ Nat.max 1 k := Nat.le_max_left 1 k
      refine ⟨?_, ?_, ?_⟩
      · simp only [Wr.write, accept]; omega
      · simp only [Wr.write, accept]; omega
      · simp only [Wr.write, Wr.erase, Wr.bput, List.append_assoc, List.take_append_drop]
  | max r w ih =>
    simp only [Wr.write]
    split
    · rename_i h
      have h0 : cut r b = [] := List.length_eq_zero_iff.mp h
      refine ⟨hpos, Nat.le_refl _, ?_⟩
      simp [Wr.erase, Wr.bput, h0, bput_nil, cut_nil, starts]
    · rename_i h
      have hc : cut r b ≠ [] := fun h0 => h (by simp [h0])
      obtain ⟨h1, h2, h3⟩ := ih (cut r b) hc (List.length_pos_iff.mpr hc)
      refine ⟨h1, Nat.le_trans h2 (cut_length_le r b), ?_⟩
      simp only [Wr.erase, Wr.bput]
      rw [cut_drop r _ b h2, h3]
      congr 1
      have := starts_take_drop (w.write (cut r b)).2 (cut r b)
      omega
  | left n f w ih =>
    obtain ⟨h1, h2, h3⟩ := ih b hb hpos
    refine ⟨h1, h2, ?_⟩
    simp only [Wr.write, Wr.erase, Wr.bput, h3]
    congr 1
    have := starts_take_drop (w.write b).2 b
    omega
  | right n f w buf ih =>
    simp only [Wr.write, Wr.erase, Wr.bput, hb, if_false, List.drop_length, if_true]
    exact ⟨hpos, Nat.le_refl _, by simp [starts]⟩

/-- `write_all` writes everything, for every behaviour of the sink -/
theorem writeAllN_spec (n : Nat) (w : Wr) (b : Bytes) (hn : b.length ≤ n) :
    (w.writeAllN n b).erase = w.erase.bput b := by
  induction n generalizing w b with
  | zero => have : b = [] := List.length_eq_zero_iff.mp (by omega); subst this; simp [Wr.writeAllN, bput_nil]
  | succ n ih =>
    cases b with
    | nil => simp [Wr.writeAllN, bput_nil]
    | cons x xs =>
      obtain ⟨h1, h2, h3⟩ := write_spec w (x :: xs) (by simp)
      rw [Wr.writeAllN, ih _ _ (by rw [List.length_drop]; omega), h3]
      simp

theorem writeAll_spec (w : Wr) (b : Bytes) : (w.writeAll b).erase = w.erase.bput b := writeAllN_spec _ _ _ (Nat.le_refl _)

/-! ### Text level -/

theorem isBoundary_ofNat {n : Nat} (hn : n < 256) : isBoundary (UInt8.ofNat n) = (decide (n < 128) || decide (192 ≤ n)) := by
  have : (UInt8.ofNat n).toNat = n := by simp; omega
  simp [isBoundary, UInt8.lt_iff_toNat_lt, UInt8.le_iff_toNat_le, this]

/-- a character is one boundary byte and then bytes that are none -/
theorem utf8Char_boundary (c : Char) :
    ∃ x xs, utf8Char c = x :: xs ∧ isBoundary x = true ∧ ∀ y ∈ xs, isBoundary y = false := by
  have hc := char_cases c
  generalize hn : c.toNat = n at *
  unfold utf8Char; dsimp only; rw [hn]
  split
  · refine ⟨_, _, rfl, ?_, by simp⟩
    rw [isBoundary_ofNat (by omega)]; simp; omega
  · split
    · refine ⟨_, _, rfl, ?_, ?_⟩
      · rw [isBoundary_ofNat (by omega)]; simp
      · simp only [List.mem_cons, List.not_mem_nil, or_false]
        rintro y rfl
        rw [isBoundary_ofNat (by omega)]; simp; omega
    · split
      · refine ⟨_, _, rfl, ?_, ?_⟩
        · rw [isBoundary_ofNat (by omega)]; simp; omega
        · simp only [List.mem_cons, List.not_mem_nil, or_false]
          rintro y (rfl | rfl) <;> rw [isBoundary_ofNat (by omega)] <;> simp <;> omega
      · refine ⟨_, _, rfl, ?_, ?_⟩
        · rw [isBoundary_ofNat (by omega)]; simp; omega
        · simp only [List.mem_cons, List.not_mem_nil, or_false]
          rintro y (rfl | rfl | rfl) <;> rw [isBoundary_ofNat (by omega)] <;> simp <;> omega

theorem starts_utf8 (t : Text) : starts (utf8 t) = t.length := by
  induction t with
  | nil => rfl
  | cons c t ih =>
    obtain ⟨x, xs, h1, h2, h3⟩ := utf8Char_boundary c
    have h0 : starts xs = 0 := by
      rw [starts, List.countP_eq_zero]; intro y hy; simp [h3 y hy]
    have : utf8 (c :: t) = (x :: xs) ++ utf8 t := by simp [utf8, h1]
    rw [this, starts_append, starts_cons, h0, ih, h2]; simp; omega

theorem cut_conts (r : Nat) (xs b : Bytes) (h : ∀ y ∈ xs, isBoundary y = false) : cut r (xs ++ b) = xs ++ cut r b := by
  induction xs with
  | nil => rfl
  | cons y ys ih =>
    have hy : isBoundary y = false := h y (by simp)
    simp only [List.cons_append, cut, hy, Bool.false_eq_true, if_false]
    rw [ih (fun z hz => h z (by simp [hz]))]

theorem cut_utf8 (r : Nat) (t : Text) : cut r (utf8 t) = utf8 (t.take r) := by
  induction t generalizing r with
  | nil => simp [utf8, cut_nil]
  | cons c t ih =>
    obtain ⟨x, xs, h1, h2, h3⟩ := utf8Char_boundary c
    have he : utf8 (c :: t) = x :: (xs ++ utf8 t) := by simp [utf8, h1]
    rw [he]
    simp only [cut, h2, if_true]
    cases r with
    | zero => simp [utf8]
    | succ r =>
      have he2 : utf8 (c :: t.take r) = x :: (xs ++ utf8 (t.take r)) := by simp [utf8, h1]
      rw [List.take_succ_cons, he2]
      show x :: cut r (xs ++ utf8 t) = _
      rw [cut_conts r xs _ h3, ih]

/-- writers of texts -/
inductive AW where
  | sink (out : Text)
  | max (remaining : Nat) (w : AW)
  | left (toFill : Nat) (fill : Char) (w : AW)
  | right (toFill : Nat) (fill : Char) (w : AW) (buf : Text)

def AW.put : AW → Text → AW
  | .sink out, s => .sink (out ++ s)
  | .max r w, s => .max (r - s.length) (w.put (s.take r))
  | .left n f w, s => .left (n - s.length) f (w.put s)
  | .right n f w buf, s => .right (n - s.length) f w (buf ++ s)

theorem AW.put_append (a : AW) (s t : Text) : a.put (s ++ t) = (a.put s).put t := by
  induction a generalizing s t with
  | sink out => simp [AW.put]
  | max r w ih => simp only [AW.put, List.length_append, List.take_append, ih]; congr 1; omega
  | left n f w ih => simp only [AW.put, List.length_append, ih]; congr 1; omega
  | right n f w buf ih => simp only [AW.put, List.length_append, List.append_assoc]; congr 1; omega

theorem AW.put_nil (a : AW) : a.put [] = a := by
  induction a with
  | sink out => simp [AW.put]
  | max r w ih => simp [AW.put, ih]
  | left n f w ih => simp [AW.put, ih]
  | right n f w buf ih => simp [AW.put]

/-- the data of a buffer of texts -/
def flat (l : List (Option Text)) : Text := l.flatMap (fun x => x.getD [])

/-- a writer stands for a writer of texts -/
def Stands : Wr → AW → Prop
  | .sink out _, .sink t => out = utf8 t
  | .max r w, .max r' a => r = r' ∧ Stands w a
  | .left n f w, .left n' f' a => n = n' ∧ f = f' ∧ Stands w a
  | .right n f w buf, .right n' f' a t =>
    n = n' ∧ f = f' ∧ Stands w a ∧ ∃ l : List (Option Text), buf = l.map (Option.map utf8) ∧ flat l = t
  | _, _ => False

theorem stands_erase (w : Wr) (a : AW) : Stands w.erase a ↔ Stands w a := by
  induction w generalizing a with
  | sink out ks => cases a <;> simp [Wr.erase, Stands]
  | max r w ih => cases a <;> simp [Wr.erase, Stands, ih]
  | left n f w ih => cases a <;> simp [Wr.erase, Stands, ih]
  | right n f w buf ih => cases a <;> simp [Wr.erase, Stands, ih]

theorem pushData_texts (l : List (Option Text)) (s : Text) :
    ∃ l' : List (Option Text), pushData (l.map (Option.map utf8)) (utf8 s) = l'.map (Option.map utf8) ∧ flat l' = flat l ++ s := by
  rcases List.eq_nil_or_concat l with rfl | ⟨l0, x, rfl⟩
  · exact ⟨[some s], by simp [pushData], by simp [flat]⟩
  · cases x with
    | none => exact ⟨l0 ++ [none, some s], by simp [pushData], by simp [flat]⟩
    | some d => exact ⟨l0 ++ [some (d ++ s)], by simp [pushData, utf8_append], by simp [flat]⟩

theorem stands_bput (w : Wr) (a : AW) (h : Stands w a) (s : Text) : Stands (w.bput (utf8 s)) (a.put s) := by
  induction w generalizing a s with
  | sink out ks =>
    cases a <;> simp only [Stands] at h
    subst h
    simp [Wr.bput, AW.put, Stands, utf8_append]
  | max r w ih =>
    cases a <;> simp only [Stands] at h
    obtain ⟨rfl, h⟩ := h
    simp only [Wr.bput, AW.put, Stands, cut_utf8, starts_utf8]
    refine ⟨?_, ih _ h _⟩
    rw [List.length_take]; omega
  | left n f w ih =>
    cases a <;> simp only [Stands] at h
    obtain ⟨rfl, rfl, h⟩ := h
    simp only [Wr.bput, AW.put, Stands, starts_utf8, true_and]
    exact ih _ h _
  | right n f w buf ih =>
    cases a <;> simp only [Stands] at h
    obtain ⟨rfl, rfl, h, l, rfl, rfl⟩ := h
    simp only [Wr.bput, AW.put, Stands, starts_utf8, true_and]
    refine ⟨h, ?_⟩
    split
    · rename_i hs
      have : s = [] := utf8_eq_nil.mp hs
      subst this
      exact ⟨l, rfl, by simp⟩
    · exact pushData_texts l s

theorem stands_writeAll {w : Wr} {a : AW} (h : Stands w a) (s : Text) : Stands (w.writeAll (utf8 s)) (a.put s) := by
  rw [← stands_erase, writeAll_spec]
  exact stands_bput _ _ ((stands_erase w a).mpr h) s

theorem stands_writeTexts {w : Wr} {a : AW} (h : Stands w a) (ts : List Text) :
    Stands (writeTexts w ts) (a.put ts.flatten) := by
  induction ts generalizing w a with
  | nil => simpa [writeTexts, AW.put_nil] using h
  | cons t ts ih =>
    simp only [writeTexts, List.flatten_cons, AW.put_append]
    exact ih (stands_writeAll h t)

theorem stands_fillUp {w : Wr} {a : AW} (h : Stands w a) (n : Nat) (f : Char) :
    Stands (Wr.fillUp n f w) (a.put (List.replicate n f)) := by
  induction n generalizing w a with
  | zero => simpa [Wr.fillUp, AW.put_nil] using h
  | succ n ih =>
    have h1 := stands_writeAll h [f]
    have h2 : utf8 [f] = utf8Char f := by simp [utf8]
    rw [h2] at h1
    have h3 := ih h1
    rw [← AW.put_append] at h3
    simpa [Wr.fillUp, List.replicate_succ] using h3

theorem stands_setStyle {w : Wr} {a : AW} (h : Stands w a) : Stands w.setStyle a := by
  induction w generalizing a with
  | sink out ks => exact h
  | max r w ih =>
    cases a <;> simp only [Stands] at h
    exact ⟨h.1, ih h.2⟩
  | left n f w ih =>
    cases a <;> simp only [Stands] at h
    exact ⟨h.1, h.2.1, ih h.2.2⟩
  | right n f w buf ih =>
    cases a <;> simp only [Stands] at h
    obtain ⟨rfl, rfl, h, l, rfl, rfl⟩ := h
    exact ⟨rfl, rfl, h, l ++ [none], by simp, by simp [flat]⟩

theorem stands_writeOut {w : Wr} {a : AW} (h : Stands w a) (l : List (Option Text)) :
    Stands (writeOut w (l.map (Option.map utf8))) (a.put (flat l)) := by
  induction l generalizing w a with
  | nil => simpa [writeOut, flat, AW.put_nil] using h
  | cons x l ih =>
    cases x with
    | none => simpa [writeOut, flat] using ih (stands_setStyle h)
    | some d =>
      have := ih (stands_writeAll h d)
      rw [← AW.put_append] at this
      simpa [writeOut, flat] using this

/-! ### Chunks -/

/-- what the code prints: it cuts after filling up -/
def fitCode (ps : Params) (t : Text) : Text :=
  let padded := match ps.minWidth with
    | none => t
    | some mn => match ps.align with
      | .left => t ++ List.replicate (mn - t.length) ps.fill
      | .right => List.replicate (mn - t.length) ps.fill ++ t
  match ps.maxWidth with
  | none => padded
  | some mx => padded.take mx

theorem stands_max {w : Wr} {r : Nat} {a : AW} (h : Stands w (.max r a)) : ∃ w', w = .max r w' ∧ Stands w' a := by
  cases w <;> simp only [Stands] at h
  obtain ⟨rfl, h⟩ := h
  exact ⟨_, rfl, h⟩

theorem stands_left {w : Wr} {n : Nat} {f : Char} {a : AW} (h : Stands w (.left n f a)) :
    ∃ w', w = .left n f w' ∧ Stands w' a := by
  cases w <;> simp only [Stands] at h
  obtain ⟨rfl, rfl, h⟩ := h
  exact ⟨_, rfl, h⟩

theorem stands_right {w : Wr} {n : Nat} {f : Char} {a : AW} {t : Text} (h : Stands w (.right n f a t)) :
    ∃ w' l, w = .right n f w' (List.map (Option.map utf8) l) ∧ flat l = t ∧ Stands w' a := by
  cases w <;> simp only [Stands] at h
  obtain ⟨rfl, rfl, h, l, rfl, rfl⟩ := h
  exact ⟨_, l, rfl, rfl, h⟩

theorem stands_finish_left {w : Wr} {n : Nat} {f : Char} {a : AW} (h : Stands w (.left n f a)) :
    Stands w.finish (a.put (List.replicate n f)) := by
  obtain ⟨w', rfl, h'⟩ := stands_left h
  exact stands_fillUp h' n f

theorem stands_finish_right {w : Wr} {n : Nat} {f : Char} {a : AW} {t : Text} (h : Stands w (.right n f a t)) :
    Stands w.finish (a.put (List.replicate n f ++ t)) := by
  obtain ⟨w', l, rfl, rfl, h'⟩ := stands_right h
  rw [AW.put_append]
  exact stands_writeOut (stands_fillUp h' n f) l

/-- the layers over a writer of texts -/
def AW.wrap (ps : Params) (a : AW) : AW :=
  match ps.minWidth, ps.maxWidth, ps.align with
  | none, none, _ => a
  | none, some mx, _ => .max mx a
  | some mn, none, .left => .left mn ps.fill a
  | some mn, none, .right => .right mn ps.fill a []
  | some mn, some mx, .left => .left mn ps.fill (.max mx a)
  | some mn, some mx, .right => .right mn ps.fill (.max mx a) []

theorem stands_wrap {w : Wr} {a : AW} (h : Stands w a) (ps : Params) : Stands (wrap ps w) (a.wrap ps) := by
  obtain ⟨fill, al, mn, mx⟩ := ps
  have hn : ∃ l : List (Option Text), ([] : List (Option Bytes)) = l.map (Option.map utf8) ∧ flat l = [] := ⟨[], rfl, rfl⟩
  cases mn <;> cases mx <;> cases al <;> simp only [wrap, AW.wrap, Stands, true_and] <;> tauto

theorem stands_inner_max {w : Wr} {r : Nat} {a : AW} (h : Stands w (.max r a)) : Stands w.inner a := by
  obtain ⟨w', rfl, h'⟩ := stands_max h
  exact h'

theorem stands_unwrap {w : Wr} {a : AW} {ps : Params} {t : Text} (h : Stands w ((a.wrap ps).put t)) :
    Stands (unwrap ps w) (a.put (fitCode ps t)) := by
  obtain ⟨fill, al, mn, mx⟩ := ps
  cases mn with
  | none =>
    cases mx with
    | none => cases al <;> simpa [unwrap, AW.wrap, fitCode] using h
    | some mx => cases al <;> exact stands_inner_max h
  | some mn =>
    cases mx with
    | none =>
      cases al with
      | left =>
        have := stands_finish_left h
        rw [← AW.put_append] at this
        exact this
      | right => exact stands_finish_right h
    | some mx =>
      cases al with
      | left =>
        have := stands_finish_left h
        have := stands_inner_max this
        simp only [unwrap, fitCode]
        rw [List.take_append, AW.put_append]
        exact this
      | right =>
        have := stands_finish_right h
        exact stands_inner_max this

mutual
/-- what the code prints for a chunk -/
def coded (rec : Rec) : Chunk → Option Text
  | .text t => some t
  | .error e => some ("{ERROR: ".toList ++ e ++ "}".toList)
  | .field f ps => some (fitCode ps (rec.field f).flatten)
  | .time fmt utc ps => (rec.time fmt utc).map (fun ts => fitCode ps ts.flatten)
  | .group _ cs ps => (codedList rec cs).map (fitCode ps)

def codedList (rec : Rec) : List Chunk → Option Text
  | [] => some []
  | c :: r => match coded rec c, codedList rec r with
    | some a, some b => some (a ++ b)
    | _, _ => none
end

/-- the result of an encoding stands for the writer with the text put -/
def Agrees (a : AW) : Option Wr → Option Text → Prop
  | some w, some t => Stands w (a.put t)
  | none, none => True
  | _, _ => False

mutual
theorem encode_agrees (rec : Rec) (w : Wr) (a : AW) (h : Stands w a) (c : Chunk) :
    Agrees a (encode rec w c) (coded rec c) := by
  cases c with
  | text t => simpa [encode, coded, Agrees] using stands_writeAll h t
  | error e =>
    have := stands_writeTexts h ["{ERROR: ".toList, e, "}".toList]
    simpa [encode, coded, Agrees] using this
  | field f ps => exact stands_unwrap (stands_writeTexts (stands_wrap h ps) (rec.field f))
  | time fmt utc ps =>
    simp only [encode, coded]
    cases rec.time fmt utc with
    | none => trivial
    | some ts => exact stands_unwrap (stands_writeTexts (stands_wrap h ps) ts)
  | group hl cs ps =>
    have hs : ∀ {w : Wr} {a : AW}, Stands w a → Stands (if (hl && rec.styled) = true then w.setStyle else w) a := by
      intro w a h
      split
      · exact stands_setStyle h
      · exact h
    have ih := encodeList_agrees rec _ _ (hs (stands_wrap h ps)) cs
    simp only [encode, coded]
    revert ih
    cases encodeList rec _ cs <;> cases codedList rec cs <;> intro ih
    · trivial
    · exact ih
    · exact ih
    · exact stands_unwrap (hs ih)

theorem encodeList_agrees (rec : Rec) (w : Wr) (a : AW) (h : Stands w a) (cs : List Chunk) :
    Agrees a (encodeList rec w cs) (codedList rec cs) := by
  cases cs with
  | nil => simpa [encodeList, codedList, Agrees, AW.put_nil] using h
  | cons c cs =>
    have h1 := encode_agrees rec w a h c
    simp only [encodeList, codedList]
    revert h1
    cases encode rec w c <;> cases coded rec c <;> intro h1
    · trivial
    · exact h1.elim
    · exact h1.elim
    · rename_i w' t
      have h2 := encodeList_agrees rec w' _ h1 cs
      simp only
      revert h2
      cases encodeList rec w' cs <;> cases codedList rec cs <;> intro h2
      · trivial
      · exact h2
      · exact h2
      · simpa [Agrees, AW.put_append] using h2
end

/-- a formatter with sane widths prints the text cut and then filled up -/
theorem fitCode_sane (ps : Params) (h : ps.sane) (t : Text) : fitCode ps t = fitTo ps t := by
  obtain ⟨fill, al, mn, mx⟩ := ps
  cases mn with
  | none => cases mx <;> cases al <;> simp [fitCode, fitTo]
  | some mn =>
    cases mx with
    | none => cases al <;> simp [fitCode, fitTo]
    | some mx =>
      have hle : mn ≤ mx := h mn mx rfl rfl
      by_cases ht : t.length ≤ mx
      · have e1 : t.take mx = t := List.take_of_length_le ht
        have e2 : mn - min mx t.length = mn - t.length := by omega
        cases al
        · simp only [fitCode, fitTo, e1]
          apply List.take_of_length_le; simp; omega
        · simp only [fitCode, fitTo, e1]
          apply List.take_of_length_le; simp; omega
      · have e1 : mn - t.length = 0 := by omega
        have e2 : mn - (t.take mx).length = 0 := by rw [List.length_take]; omega
        rw [List.length_take] at e2
        cases al <;> simp [fitCode, fitTo, e1, e2]

mutual
theorem coded_sane (rec : Rec) (c : Chunk) (h : c.sane) : coded rec c = printed rec c := by
  cases c with
  | text t => rfl
  | error e => rfl
  | field f ps => simp only [coded, printed, fitCode_sane ps h]
  | time fmt utc ps => simp only [coded, printed, fitCode_sane ps h]
  | group hl cs ps =>
    simp only [Chunk.sane] at h
    simp only [coded, printed, codedList_sane rec cs h.2]
    have : fitCode ps = fitTo ps := funext (fitCode_sane ps h.1)
    rw [this]

theorem codedList_sane (rec : Rec) (cs : List Chunk) (h : saneList cs) : codedList rec cs = printedList rec cs := by
  cases cs with
  | nil => rfl
  | cons c cs =>
    simp only [saneList] at h
    simp only [codedList, printedList, coded_sane rec c h.1, codedList_sane rec cs h.2]
end

/-! ### C57 -/

theorem stands_sink {w : Wr} {t : Text} (h : Stands w (.sink t)) : ∃ ks, w = .sink (utf8 t) ks := by
  cases w <;> simp only [Stands] at h
  subst h
  exact ⟨_, rfl⟩

/-- C57, for widths with minimum ≤ maximum: fields, dates and (nested) groups, with whatever text before, however the texts of the
    fields are split into writes, however the output accepts them: what is added to the output is exactly the text that
    `printed` describes (in particular whole characters). -/
theorem C57_width_partial (rec : Rec) (before : Text) (short : List Nat) (cs : List Chunk) (h : saneList cs) :
    match printedList rec cs with
    | some t => ∃ short', encodeList rec (.sink (utf8 before) short) cs = some (.sink (utf8 (before ++ t)) short')
    | none => encodeList rec (.sink (utf8 before) short) cs = none := by
  have ha := encodeList_agrees rec (.sink (utf8 before) short) (.sink before) rfl cs
  rw [codedList_sane rec cs h] at ha
  revert ha
  cases encodeList rec (.sink (utf8 before) short) cs <;> cases printedList rec cs <;> intro ha
  · rfl
  · exact ha.elim
  · exact ha.elim
  · obtain ⟨ks, rfl⟩ := stands_sink ha
    exact ⟨ks, rfl⟩

/-- The length of a field: never above the maximum, never below the minimum. -/
theorem C57_length_partial (ps : Params) (h : ps.sane) (t : Text) :
    (∀ mx, ps.maxWidth = some mx → (fitTo ps t).length ≤ mx) ∧ (∀ mn, ps.minWidth = some mn → mn ≤ (fitTo ps t).length) ∧
      ((∀ mx, ps.maxWidth = some mx → t.length ≤ mx) → (∀ mn, ps.minWidth = some mn → mn ≤ t.length) → fitTo ps t = t) := by
  obtain ⟨fill, al, mn, mx⟩ := ps
  refine ⟨?_, ?_, ?_⟩
  · rintro mx' ⟨rfl⟩
    cases mn with
    | none => cases al <;> simp [fitTo] <;> omega
    | some mn => have := h mn mx' rfl rfl; cases al <;> simp [fitTo] <;> omega
  · rintro mn' ⟨rfl⟩
    cases mx <;> cases al <;> simp [fitTo] <;> omega
  · intro h1 h2
    cases mx with
    | none =>
      cases mn with
      | none => cases al <;> simp [fitTo]
      | some mn => have := h2 mn rfl; cases al <;> simp [fitTo] <;> omega
    | some mx =>
      have e := List.take_of_length_le (h1 mx rfl)
      cases mn with
      | none => cases al <;> simp [fitTo, e]
      | some mn => have := h2 mn rfl; cases al <;> simp [fitTo, e] <;> omega

/-- C57 does not hold when the minimum is above the maximum: such a field always comes out too short, with exactly the maximum
    number of characters (the fill characters are cut too, and with right alignment they come before the text). -/
theorem C57_width_fails (rec : Rec) (before : Text) (short : List Nat) (f : Field) (ps : Params) (mn mx : Nat)
    (hn : ps.minWidth = some mn) (hx : ps.maxWidth = some mx) (h : mx < mn) :
    ∃ t short', encodeList rec (.sink (utf8 before) short) [.field f ps] = some (.sink (utf8 (before ++ t)) short') ∧
      t.length = mx ∧ t.length < mn := by
  have ha := encodeList_agrees rec (.sink (utf8 before) short) (.sink before) rfl [.field f ps]
  simp only [codedList, coded, List.append_nil] at ha
  cases he : encodeList rec (.sink (utf8 before) short) [.field f ps] with
  | none => rw [he] at ha; exact ha.elim
  | some w =>
    rw [he] at ha
    obtain ⟨ks, rfl⟩ := stands_sink ha
    refine ⟨_, ks, rfl, ?_⟩
    obtain ⟨fill, al, mn', mx'⟩ := ps
    cases hn; cases hx
    constructor
    · cases al <;> simp [fitCode] <;> omega
    · cases al <;> simp [fitCode] <;> omega

/-- Whole patterns: `format_req` gives the text described by `printed`, and panics exactly if there is none. -/
theorem C57_pattern_partial (k : Classes) (rec : Rec) (pattern : Text) (h : saneList (chunksOf (parse k pattern))) :
    formatReq k rec pattern = match printedList rec (chunksOf (parse k pattern)) with
      | some t => .ok t
      | none => .panic := by
  have := C57_width_partial rec [] [] _ h
  simp only [formatReq]
  revert this
  cases printedList rec (chunksOf (parse k pattern)) with
  | none =>
    intro this
    have this : encodeList rec (.sink [] []) (chunksOf (parse k pattern)) = none := this
    rw [this]
  | some t =>
    rintro ⟨ks, this⟩
    have this : encodeList rec (.sink [] []) (chunksOf (parse k pattern)) = some (.sink (utf8 t) ks) := this
    rw [this]
    simp [Wr.out, lossy_utf8]

/-! ### C91: formatting never ends a request -/

mutual
/-- a date format that `chrono` rejects, somewhere in the chunk -/
def Chunk.badDate (rec : Rec) : Chunk → Prop
  | .text _ => False
  | .error _ => False
  | .field _ _ => False
  | .time fmt utc _ => rec.time fmt utc = none
  | .group _ cs _ => badDates rec cs

def badDates (rec : Rec) : List Chunk → Prop
  | [] => False
  | c :: r => c.badDate rec ∨ badDates rec r
end

mutual
theorem coded_none (rec : Rec) (c : Chunk) : coded rec c = none ↔ c.badDate rec := by
  cases c with
  | text t => simp [coded, Chunk.badDate]
  | error e => simp [coded, Chunk.badDate]
  | field f ps => simp [coded, Chunk.badDate]
  | time fmt utc ps => simp [coded, Chunk.badDate]
  | group hl cs ps => simp [coded, Chunk.badDate, codedList_none rec cs]

theorem codedList_none (rec : Rec) (cs : List Chunk) : codedList rec cs = none ↔ badDates rec cs := by
  cases cs with
  | nil => simp [codedList, badDates]
  | cons c cs =>
    simp only [badDates, ← coded_none rec c, ← codedList_none rec cs, codedList]
    cases coded rec c <;> cases codedList rec cs <;> simp
end

theorem formatReq_panic_iff (k : Classes) (rec : Rec) (pattern : Text) :
    formatReq k rec pattern = .panic ↔ badDates rec (chunksOf (parse k pattern)) := by
  rw [← codedList_none]
  have ha := encodeList_agrees rec (.sink [] []) (.sink []) rfl (chunksOf (parse k pattern))
  simp only [formatReq]
  revert ha
  cases encodeList rec (.sink [] []) (chunksOf (parse k pattern)) <;> cases codedList rec (chunksOf (parse k pattern)) <;> intro ha
  · simp
  · exact ha.elim
  · exact ha.elim
  · simp

/-- C91 holds for patterns whose date formats are valid, whatever else is in them (unknown formatters, unmatched brackets, any
    widths): formatting gives a text. -/
theorem C91_format_partial (k : Classes) (rec : Rec) (pattern : Text) (h : ¬ badDates rec (chunksOf (parse k pattern))) :
    ∃ t, formatReq k rec pattern = .ok t := by
  have h1 : formatReq k rec pattern ≠ .panic := fun h2 => h ((formatReq_panic_iff k rec pattern).mp h2)
  revert h1
  simp only [formatReq]
  cases encodeList rec (.sink [] []) (chunksOf (parse k pattern)) <;> simp

/-- C91 does not hold: every pattern with a date format that the date library rejects ends every request that is logged or
    answered with it. -/
theorem C91_format_fails (k : Classes) (rec : Rec) (pattern : Text) (h : badDates rec (chunksOf (parse k pattern))) :
    formatReq k rec pattern = .panic := (formatReq_panic_iff k rec pattern).mpr h

/-! ### C58: literal text -/

/-- `Escaped p t`: `p` is `t` with every brace, parenthesis and backslash escaped, by a backslash or (not the backslash) by
    doubling. -/
inductive Escaped : Text → Text → Prop
  | nil : Escaped [] []
  | plain (c : Char) (p t : Text) : c ∉ ['{', '}', '(', ')', '\\'] → Escaped p t → Escaped (c :: p) (c :: t)
  | backslash (c : Char) (p t : Text) : c ∈ ['{', '}', '(', ')', '\\'] → Escaped p t → Escaped ('\\' :: c :: p) (c :: t)
  | doubled (c : Char) (p t : Text) : c ∈ ['{', '}', '(', ')'] → Escaped p t → Escaped (c :: c :: p) (c :: t)

theorem isSpecial_iff (c : Char) : isSpecial c = true ↔ c ∈ ['{', '}', '(', ')', '\\'] := by
  simp [isSpecial, or_assoc]

theorem Escaped.text_split {p t : Text} (h : Escaped p t) :
    ∃ t', Escaped (p.drop (p.takeWhile (fun c => !isSpecial c)).length) t' ∧
      t = p.takeWhile (fun c => !isSpecial c) ++ t' := by
  induction h with
  | nil => exact ⟨[], .nil, rfl⟩
  | plain c p t hc hp ih =>
    have hs : isSpecial c = false := by
      cases hb : isSpecial c
      · rfl
      · exact absurd ((isSpecial_iff c).mp hb) hc
    obtain ⟨t', h1, h2⟩ := ih
    refine ⟨t', ?_, ?_⟩
    · simpa [List.takeWhile_cons, hs] using h1
    · simpa [List.takeWhile_cons, hs] using h2
  | backslash c p t hc hp ih =>
    exact ⟨c :: t, by simpa [List.takeWhile_cons, isSpecial] using Escaped.backslash c p t hc hp, by simp [List.takeWhile_cons, isSpecial]⟩
  | doubled c p t hc hp ih =>
    have hs : isSpecial c = true := (isSpecial_iff c).mpr (by simp at hc ⊢; tauto)
    exact ⟨c :: t, by simpa [List.takeWhile_cons, hs] using Escaped.doubled c p t hc hp, by simp [List.takeWhile_cons, hs]⟩

/-- the text of pieces that are all texts -/
def literal : List Piece → Option Text
  | [] => some []
  | .text t :: r => (literal r).map (t ++ ·)
  | _ :: _ => none

theorem next_escaped (k : Classes) (n : Nat) {p t : Text} (h : Escaped p t) (hp : p ≠ []) :
    ∃ s p' t', next k (n + 1) p = some (.text s, p') ∧ p'.length < p.length ∧ Escaped p' t' ∧ t = s ++ t' := by
  cases h with
  | nil => exact absurd rfl hp
  | plain c p t hc h =>
    have hs : isSpecial c = false := by
      cases hb : isSpecial c
      · rfl
      · exact absurd ((isSpecial_iff c).mp hb) hc
    simp only [List.mem_cons, not_or] at hc
    obtain ⟨h1, h2, h3, h4, h5, -⟩ := hc
    obtain ⟨t', e1, e2⟩ := h.text_split
    refine ⟨c :: p.takeWhile (fun c => !isSpecial c), p.drop (p.takeWhile (fun c => !isSpecial c)).length, t', ?_, ?_, e1, ?_⟩
    · simp [next, h1, h2, h3, h4, h5, textPiece, List.takeWhile_cons, hs]
    · rw [List.length_drop, List.length_cons]; omega
    · rw [List.cons_append, ← e2]
  | backslash c p t hc h =>
    have hs := (isSpecial_iff c).mpr hc
    exact ⟨[c], p, t, by simp [next, escaped, hs], by simp; omega, h, rfl⟩
  | doubled c p t hc h =>
    refine ⟨[c], p, t, ?_, by simp; omega, h, rfl⟩
    simp only [List.mem_cons, List.not_mem_nil, or_false] at hc
    rcases hc with rfl | rfl | rfl | rfl <;> simp [next, Log.doubled]

theorem pieces_succ (k : Classes) (n : Nat) (b : Bool) (p : Text) : pieces k (n + 1) b p =
    if b && p.head? == some ')' then ([], p.tail, true)
    else match next k n p with
      | none => ([], p, false)
      | some (x, p) => (x :: (pieces k n b p).1, (pieces k n b p).2) := by simp only [pieces]; rfl

theorem args_succ (k : Classes) (n : Nat) (p : Text) : args k (n + 1) p =
    match p with
    | '(' :: r => match pieces k n true r with
      | (ps, p, true) => match args k n p with
        | (some as, p) => (some (ps :: as), p)
        | (none, p) => (none, p)
      | (_, p, false) => (none, p)
    | p => (some [], p) := by simp only [args]; rfl

theorem pieces_escaped (k : Classes) (n : Nat) {p t : Text} (h : Escaped p t) (hn : 2 * p.length + 2 ≤ n) :
    literal (pieces k n false p).1 = some t := by
  induction n generalizing p t with
  | zero => omega
  | succ n ih =>
    cases n with
    | zero => omega
    | succ n =>
      by_cases hp : p = []
      · subst hp; cases h; simp [pieces, next, literal]
      · obtain ⟨s, p', t', h1, h2, h3, rfl⟩ := next_escaped k n h hp
        rw [pieces_succ]
        simp only [Bool.false_and, Bool.false_eq_true, if_false, h1, literal]
        rw [ih h3 (by omega)]
        rfl

/-- C58: an escaped text is parsed into texts only, which together are the text -/
theorem C58_parse (k : Classes) {p t : Text} (h : Escaped p t) : literal (parse k p) = some t :=
  pieces_escaped k _ h (by simp only [enough]; omega)

theorem codedList_literal (rec : Rec) (ps : List Piece) (t : Text) (h : literal ps = some t) :
    saneList (chunksOf ps) ∧ printedList rec (chunksOf ps) = some t := by
  induction ps generalizing t with
  | nil => simp only [literal, Option.some.injEq] at h; subst h; exact ⟨trivial, rfl⟩
  | cons p ps ih =>
    cases p with
    | text s =>
      simp only [literal, Option.map_eq_some_iff] at h
      obtain ⟨t', h1, rfl⟩ := h
      obtain ⟨h2, h3⟩ := ih t' h1
      exact ⟨⟨trivial, h2⟩, by simp [chunksOf, chunkOf, printedList, printed, h3]⟩
    | argument n as ps => simp [literal] at h
    | error e => simp [literal] at h

/-- C58: and it is printed as it is, for every request -/
theorem C58_print (k : Classes) (rec : Rec) {p t : Text} (h : Escaped p t) : formatReq k rec p = .ok t := by
  obtain ⟨h1, h2⟩ := codedList_literal rec _ _ (C58_parse k h)
  rw [C57_pattern_partial k rec p h1, h2]

/-- every text can be escaped -/
def escape (t : Text) : Text := t.flatMap (fun c => if isSpecial c then ['\\', c] else [c])

theorem escape_escaped (t : Text) : Escaped (escape t) t := by
  induction t with
  | nil => exact .nil
  | cons c t ih =>
    simp only [escape, List.flatMap_cons]
    split
    · exact .backslash c _ _ ((isSpecial_iff c).mp (by assumption)) ih
    · exact .plain c _ _ (fun hc => by simp_all [(isSpecial_iff c).mpr hc]) ih

/-! #### The parser comes to an end -/

theorem name_length (k : Classes) (p : Text) : (name k p).2.length ≤ p.length := by
  cases p with
  | nil => simp [name]
  | cons c r =>
    simp only [name]
    split
    · simp only [List.length_drop, List.length_cons]; omega
    · simp

theorem integerFrom_length (p : Text) (cur : Nat) (b : Bool) : (integerFrom cur b p).2.length ≤ p.length := by
  induction p generalizing cur b with
  | nil => simp [integerFrom]
  | cons c r ih =>
    simp only [integerFrom]
    split
    · have := ih (cur * 10 + by assumption) true; simp only [List.length_cons]; omega
    · simp

theorem fillOf_length (p : Text) : (fillOf p).2.length ≤ p.length := by
  unfold fillOf; split <;> simp

theorem alignOf_length (p : Text) : (alignOf p).2.length ≤ p.length := by
  unfold alignOf; split <;> simp

theorem maxOf_length (p : Text) : (maxOf p).2.length ≤ p.length := by
  unfold maxOf; split
  · have := integerFrom_length (by assumption) 0 false; simp only [integer, List.length_cons]; omega
  · simp

theorem parameters_length (p : Text) : (parameters p).2.length ≤ p.length := by
  unfold parameters; split
  · rename_i p
    have h1 := fillOf_length p
    have h2 := alignOf_length (fillOf p).2
    have h3 := integerFrom_length (alignOf (fillOf p).2).2 0 false
    have h4 := maxOf_length (integer (alignOf (fillOf p).2).2).2
    simp only [integer] at *
    simp only [List.length_cons]; omega
  · simp

theorem closeArg_length (x : Piece) (p : Text) : (closeArg x p).2.length ≤ p.length := by
  unfold closeArg; split <;> simp

theorem doubled_length (c : Char) (m p : Text) : (Log.doubled c m p).2.length ≤ p.length := by
  unfold Log.doubled; split
  · split <;> simp
  · simp

theorem escaped_length (p : Text) : (Log.escaped p).2.length ≤ p.length := by
  unfold Log.escaped; split
  · split <;> simp
  · simp

theorem lengths (k : Classes) (n : Nat) :
    (∀ p x p', next k n p = some (x, p') → p'.length < p.length) ∧
    (∀ p, (args k n p).2.length ≤ p.length) ∧
    (∀ b p, (pieces k n b p).2.1.length ≤ p.length) := by
  induction n with
  | zero => exact ⟨by simp [next], by simp [args], by simp [pieces]⟩
  | succ n ih =>
    obtain ⟨ih1, ih2, ih3⟩ := ih
    refine ⟨?_, ?_, ?_⟩
    · intro p x p' h
      cases p with
      | nil => simp [next] at h
      | cons c r =>
        simp only [next] at h
        split at h
        · split at h
          · simp only [Option.some.injEq, Prod.mk.injEq] at h
            obtain ⟨-, rfl⟩ := h; simp; omega
          · split at h
            · rename_i as q hq
              have e1 := ih2 (name k r).2
              rw [hq] at e1
              have e2 := name_length k r
              have e3 := parameters_length q
              have e4 := closeArg_length (.argument (name k r).1 as (parameters q).1) (parameters q).2
              simp only [Option.some.injEq] at h
              rw [h] at e4
              simp only [List.length_cons] at *; omega
            · rename_i q hq
              have e1 := ih2 (name k r).2
              rw [hq] at e1
              have e2 := name_length k r
              have e4 := closeArg_length (.error "unclosed '('".toList) q
              simp only [Option.some.injEq] at h
              rw [h] at e4
              simp only [List.length_cons] at *; omega
        · repeat' split at h
          all_goals simp only [Option.some.injEq] at h
          · have e := doubled_length '}' "unmatched '}'".toList r; rw [h] at e; simp only [List.length_cons] at *; omega
          · have e := doubled_length '(' "unexpected '('".toList r; rw [h] at e; simp only [List.length_cons] at *; omega
          · have e := doubled_length ')' "unexpected ')'".toList r; rw [h] at e; simp only [List.length_cons] at *; omega
          · have e := escaped_length r; rw [h] at e; simp only [List.length_cons] at *; omega
          · rename_i h1 h2 h3 h4 h5
            have hs : isSpecial c = false := by simp [isSpecial, h1, h2, h3, h4, h5]
            simp only [textPiece, List.takeWhile_cons, hs, Bool.not_false, if_true, List.length_cons, List.drop_succ_cons,
              Prod.mk.injEq] at h
            obtain ⟨-, rfl⟩ := h
            simp only [List.length_drop, List.length_cons]; omega
    · intro p
      simp only [args]
      split
      · rename_i r
        have e1 := ih3 true r
        split
        · rename_i ps q hq
          rw [hq] at e1
          have e2 := ih2 q
          split
          · rename_i as q' hq'
            rw [hq'] at e2; simp only [List.length_cons] at *; omega
          · rename_i q' hq'
            rw [hq'] at e2; simp only [List.length_cons] at *; omega
        · rename_i ps q hq
          rw [hq] at e1; simp only [List.length_cons] at *; omega
      · simp
    · intro b p
      simp only [pieces]
      split
      · simp
      · split
        · simp
        · rename_i x q hq
          have e1 := ih1 p x q hq
          have e2 := ih3 b q
          simp only; omega

/-- With enough fuel more fuel changes nothing: the fuel is not what ends the parser. -/
theorem fuel (k : Classes) (n : Nat) :
    (∀ p : Text, 2 * p.length + 1 ≤ n → next k (n + 1) p = next k n p) ∧
    (∀ p : Text, 2 * p.length + 1 ≤ n → args k (n + 1) p = args k n p) ∧
    (∀ b, ∀ p : Text, 2 * p.length + 2 ≤ n → pieces k (n + 1) b p = pieces k n b p) := by
  induction n with
  | zero => exact ⟨by intro p h; omega, by intro p h; omega, by intro b p h; omega⟩
  | succ n ih =>
    obtain ⟨ih1, ih2, ih3⟩ := ih
    refine ⟨?_, ?_, ?_⟩
    · intro p h
      cases p with
      | nil => simp [next]
      | cons c r =>
        have e := name_length k r
        simp only [List.length_cons] at h
        have e2 := ih2 (name k r).2 (by omega)
        simp only [next]
        split
        · split
          · rfl
          · rw [e2]
        · rfl
    · intro p h
      rw [args_succ, args_succ]
      split
      · rename_i r
        simp only [List.length_cons] at h
        rw [ih3 true r (by omega)]
        have e1 := (lengths k n).2.2 true r
        split
        · rename_i ps q hq
          rw [hq] at e1
          rw [ih2 q (by simp only at e1; omega)]
        · rfl
      · rfl
    · intro b p h
      rw [pieces_succ, pieces_succ]
      split
      · rfl
      · rw [ih1 p (by omega)]
        split
        · rfl
        · rename_i x q hq
          have e1 := (lengths k n).1 p x q hq
          simp only [ih3 b q (by omega)]

/-- C58: parsing any pattern terminates: after a number of calls proportional to its length nothing is left to do -/
theorem C58_terminates (k : Classes) (p : Text) (n : Nat) (hn : enough p ≤ n) : (pieces k n false p).1 = parse k p := by
  induction n with
  | zero => simp [enough] at hn
  | succ n ih =>
    by_cases h : enough p ≤ n
    · rw [(fuel k n).2.2 false p (by simp only [enough] at h; omega), ih h]
    · have : enough p = n + 1 := by omega
      rw [parse, this]

/-! ### The hypotheses are met -/

section Examples

def exK : Classes := ⟨Char.isAlpha, Char.isAlphanum⟩

def exRec : Rec :=
  { field := fun f => match f with
      | .path => ["/ind".toList, "ex-é€😀".toList]
      | .host => ["example.org".toList]
      | _ => ["???".toList]
    time := fun fmt _ => if fmt = "%Q".toList then none else some ["2026".toList]
    styled := true }

/-- nested groups and widths -/
def exChunks : List Chunk :=
  [.text "p=".toList, .field .path ⟨'*', .left, some 3, some 8⟩,
    .group true [.text "[".toList, .field .host ⟨' ', .right, none, some 4⟩, .text "]".toList] ⟨'-', .right, some 9, some 9⟩,
    .time "%Y".toList false ⟨' ', .left, some 6, none⟩]

example : saneList exChunks := by
  simp [exChunks, saneList, Chunk.sane, Params.sane]

example : printedList exRec exChunks = some "p=/index-é---[exam]2026  ".toList := by decide +kernel

/-- the same through the writers, with a sink that takes one or two bytes at a time: the character `é` arrives in two parts -/
example : (encodeList exRec (.sink [] [1, 1, 1, 1, 1, 1, 1, 1, 1, 1, 1, 1, 2, 2]) exChunks).map Wr.out =
    some (utf8 "p=/index-é---[exam]2026  ".toList) := by decide +kernel

example : (parse exK "a{{b {path:*<3.8}{(x{host:.4}):->9}{d(%Y)}".toList).length = 6 := by decide +kernel

example : formatReq exK exRec "{path:*<3.8}|{(x{host:.4}):->9}|{d(%Y)}|{nope}".toList =
    .ok "/index-é|----xexam|2026|{ERROR: unknown formatter `nope`}".toList := by decide +kernel

/-- minimum above maximum -/
example : (encodeList exRec (.sink [] []) [.field .host ⟨' ', .right, some 20, some 5⟩]).map Wr.out =
    some (utf8 "     ".toList) := by decide +kernel

example : badDates exRec (chunksOf (parse exK "at {d(%Q)} {path}".toList)) :=
  (codedList_none _ _).mp (by decide +kernel)

example : formatReq exK exRec "at {d(%Q)} {path}".toList = .panic :=
  C91_format_fails _ _ _ ((codedList_none _ _).mp (by decide +kernel))

example : Escaped "a\\{b}}".toList "a{b}".toList :=
  .plain 'a' _ _ (by decide) (.backslash '{' _ _ (by decide) (.plain 'b' _ _ (by decide) (.doubled '}' _ _ (by decide) .nil)))

end Examples

end Wm.Log
