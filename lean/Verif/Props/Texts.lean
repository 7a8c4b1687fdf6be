import Verif.Model.Texts
import Verif.Props.ConfigNum
import Verif.Props.ConfigText
/-! Properties C131–C135: further textual settings. -/
namespace Wm.Texts
open Wm Wm.Config Wm.Reverse

/-! ### helper lemmas -/

/-- neither begins nor ends with whitespace -/
def Trimmed (v : Text) : Prop := (∀ c ∈ v.head?, isWs c = false) ∧ ∀ c ∈ v.getLast?, isWs c = false

theorem dropWhile_of_head (f : Char → Bool) (v : Text) (h : ∀ c ∈ v.head?, f c = false) : v.dropWhile f = v := by
  cases v with
  | nil => rfl
  | cons c v => simp at h; rw [List.dropWhile_cons, if_neg (by simp [h])]

theorem trim_of_trimmed {v : Text} (h : Trimmed v) : trim v = v := by
  unfold trim trimStart trimEnd
  rw [dropWhile_of_head _ v h.1, dropWhile_of_head _ v.reverse (by simpa using h.2), List.reverse_reverse]

theorem dropWhile_head (f : Char → Bool) (v : Text) : ∀ c ∈ (v.dropWhile f).head?, f c = false := by
  induction v with
  | nil => simp
  | cons d v ih =>
    rw [List.dropWhile_cons]; split
    · exact ih
    · rename_i h; simpa using h

theorem dropWhile_sub (f : Char → Bool) (v : Text) : ∀ c ∈ v.dropWhile f, c ∈ v := fun _ h => (List.dropWhile_suffix f).subset h

theorem trim_sub (v : Text) : ∀ c ∈ trim v, c ∈ v := by
  intro c h
  unfold trim trimEnd trimStart at h
  rw [List.mem_reverse] at h
  have h1 := dropWhile_sub _ _ c h
  rw [List.mem_reverse] at h1
  exact dropWhile_sub _ _ c h1

theorem trim_trimmed (v : Text) : Trimmed (trim v) := by
  unfold trim trimEnd trimStart
  constructor
  · intro c hc
    rw [List.head?_reverse] at hc
    have h0 := dropWhile_head isWs v
    generalize v.dropWhile isWs = u at *
    -- the last of the remaining suffix of the reversed text is the head of the text
    obtain ⟨p, hp⟩ := List.dropWhile_suffix isWs (l := u.reverse)
    generalize u.reverse.dropWhile isWs = t at *
    have : u = t.reverse ++ p.reverse := by rw [← List.reverse_append, hp, List.reverse_reverse]
    apply h0
    rw [this]
    cases ht : t.reverse with
    | nil => rw [List.reverse_eq_nil_iff] at ht; subst ht; simp at hc
    | cons d ds =>
      have : t.getLast? = some d := by rw [← List.head?_reverse, ht]; rfl
      rw [this] at hc
      simpa using hc
  · intro c hc
    rw [List.getLast?_reverse] at hc
    exact dropWhile_head isWs _ c hc

theorem splitOn_mem (f : Char → Bool) (s : Text) : ∀ p ∈ splitOn f s, ∀ c ∈ p, f c = false ∧ c ∈ s := by
  induction s with
  | nil => simp [splitOn]
  | cons d s ih =>
    rw [splitOn]
    split
    · intro p hp c hc
      rcases List.mem_cons.1 hp with rfl | hp
      · simp at hc
      · exact ⟨(ih p hp c hc).1, List.mem_cons_of_mem _ (ih p hp c hc).2⟩
    · rename_i hd
      cases hs : splitOn f s with
      | nil =>
        intro p hp c hc
        simp only [List.mem_singleton] at hp; subst hp
        simp only [List.mem_singleton] at hc; subst hc
        exact ⟨by simpa using hd, List.mem_cons_self ..⟩
      | cons q qs =>
        rw [hs] at ih
        intro p hp c hc
        rcases List.mem_cons.1 hp with rfl | hp
        · rcases List.mem_cons.1 hc with rfl | hc
          · exact ⟨by simpa using hd, List.mem_cons_self ..⟩
          · exact ⟨(ih q (by simp) c hc).1, List.mem_cons_of_mem _ (ih q (by simp) c hc).2⟩
        · exact ⟨(ih p (by simp [hp]) c hc).1, List.mem_cons_of_mem _ (ih p (by simp [hp]) c hc).2⟩

theorem splitOn_app (f : Char → Bool) (a r : Text) (c : Char) (hc : f c = true) :
    splitOn f (a ++ c :: r) = splitOn f a ++ splitOn f r := by
  induction a with
  | nil => simp [splitOn, hc]
  | cons d a ih =>
    rw [List.cons_append, splitOn, splitOn, ih]
    split
    · rfl
    · cases hs : splitOn f a with
      | nil => exact absurd hs (splitOn_ne_nil f a)
      | cons p ps => rfl

/-- words separated by one blank -/
def blanks (ws : List Text) : Text := List.intercalate [' '] ws

theorem blanks_cons (w v : Text) (ws : List Text) : blanks (w :: v :: ws) = w ++ ' ' :: blanks (v :: ws) := by
  simp [blanks, List.intercalate]

theorem splitOn_words (ws : List Text) (hne : ws ≠ []) (h : ∀ w ∈ ws, ' ' ∉ w) :
    splitOn (fun c => decide (c = ' ')) (blanks ws) = ws := by
  have hf : ∀ w ∈ ws, ∀ c ∈ w, (fun c => decide (c = ' ')) c = false := by
    intro w hw c hc
    simp only [decide_eq_false_iff_not]
    rintro rfl; exact h w hw hc
  induction ws with
  | nil => exact absurd rfl hne
  | cons w ws ih =>
    cases ws with
    | nil => simp only [blanks, List.intercalate, List.intersperse, List.flatten_cons, List.flatten_nil, List.append_nil]
             exact splitOn_none _ _ (hf w (by simp))
    | cons v ws =>
      rw [blanks_cons, splitOn_sep _ _ _ _ (hf w (by simp)) (by simp),
        ih (by simp) (fun x hx => h x (by simp [hx])) (fun x hx => hf x (by simp [hx]))]

theorem keyValue_eq (k v : Text) (hk : '=' ∉ k) (hv : '=' ∉ v) (tk : Trimmed k) (tv : Trimmed v) :
    keyValue (k ++ '=' :: v) = [k, v] := by
  unfold keyValue
  rw [splitOn_sep _ _ _ _ (by intro x hx; simp only [decide_eq_false_iff_not]; rintro rfl; exact hk hx) (by simp),
    splitOn_none _ _ (by intro x hx; simp only [decide_eq_false_iff_not]; rintro rfl; exact hv hx)]
  simp [trim_of_trimmed tk, trim_of_trimmed tv]

theorem trimmed_of {v : Text} (h : ∀ c ∈ v, isWs c = false) : Trimmed v :=
  ⟨fun c hc => h c (List.mem_of_mem_head? hc), fun c hc => h c (List.mem_of_mem_getLast? hc)⟩

theorem isDigit_ne {c : Char} (h : IsDigit c) : c ≠ '=' ∧ c ≠ ' ' ∧ c ≠ '/' := by
  unfold IsDigit at h
  refine ⟨?_, ?_, ?_⟩ <;> (rintro rfl; revert h; decide)

/-! ### C131: limit_req -/

/-- a setting of `limit_req` as written -/
inductive LimitSet where
  | zone (name : Text)
  | brust (n : List (Fin 10))

/-- a name that can be written: no blank, no `=`, no whitespace at its ends; a number of at most 64 bits -/
def LimitSet.Fits : LimitSet → Prop
  | .zone v => ' ' ∉ v ∧ '=' ∉ v ∧ Trimmed v
  | .brust ds => ds ≠ [] ∧ decimal ds < 2 ^ 64

def LimitSet.write : LimitSet → Text
  | .zone v => "zone".toList ++ '=' :: v
  | .brust ds => "brust".toList ++ '=' :: digitText ds

def LimitSet.zone? : LimitSet → Option Text
  | .zone v => some v
  | .brust _ => none

def LimitSet.brust? : LimitSet → Option Nat
  | .zone _ => none
  | .brust ds => some (decimal ds)

theorem parseU_digitText (ds : List (Fin 10)) (hne : ds ≠ []) (h : decimal ds < 2 ^ 64) :
    parseU 64 (digitText ds) = some (decimal ds) := by
  have := parseU_digits 64 (ds := digitText ds) (mt digitText_eq_nil.1 hne) (digitText_isDigit ds)
    (parseDigits_digitText ds 0)
  rw [this]
  exact if_pos h

theorem limitWord_write (x : LimitSet) (hx : x.Fits) (z : LimitReq) :
    limitWord z x.write = .ok ⟨x.zone?.getD z.zone, x.brust?.getD z.burst⟩ := by
  cases x with
  | zone v =>
    have hk : keyValue (LimitSet.zone v).write = ["zone".toList, v] :=
      keyValue_eq _ _ (by decide) hx.2.1 (trimmed_of (by decide)) hx.2.2
    unfold limitWord
    rw [hk]
    rfl
  | brust ds =>
    have hk : keyValue (LimitSet.brust ds).write = ["brust".toList, digitText ds] :=
      keyValue_eq _ _ (by decide) (fun h => (isDigit_ne (digitText_isDigit ds _ h)).1 rfl) (trimmed_of (by decide))
        (trimmed_of (fun c hc => isDigit_not_ws (digitText_isDigit ds c hc)))
    unfold limitWord
    rw [hk]
    show (if "brust".toList = "zone".toList then _ else if "brust".toList = "brust".toList then _ else _) = _
    rw [if_neg (by decide), if_pos rfl, parseU_digitText ds hx.1 hx.2]
    rfl

theorem limitWords_write (ws : List LimitSet) (h : ∀ x ∈ ws, x.Fits) (z : LimitReq) :
    limitWords (ws.map LimitSet.write) z
      = .ok ⟨(ws.filterMap LimitSet.zone?).getLast?.getD z.zone, (ws.filterMap LimitSet.brust?).getLast?.getD z.burst⟩ := by
  induction ws generalizing z with
  | nil => rfl
  | cons x ws ih =>
    rw [List.map_cons, limitWords, limitWord_write x (h x (by simp))]
    show limitWords (ws.map LimitSet.write) _ = _
    rw [ih (fun y hy => h y (by simp [hy]))]
    cases x with
    | zone v =>
      simp only [LimitSet.zone?, LimitSet.brust?, List.filterMap_cons, Option.getD_some, Option.getD_none,
        List.getLast?_cons]
    | brust ds =>
      simp only [LimitSet.zone?, LimitSet.brust?, List.filterMap_cons, Option.getD_some, Option.getD_none,
        List.getLast?_cons]

theorem write_no_blank (x : LimitSet) (hx : x.Fits) : ' ' ∉ x.write := by
  cases x with
  | zone v =>
    intro h
    rcases List.mem_append.1 h with h | h
    · revert h; decide
    · rcases List.mem_cons.1 h with h | h
      · revert h; decide
      · exact hx.1 h
  | brust ds =>
    intro h
    rcases List.mem_append.1 h with h | h
    · revert h; decide
    · rcases List.mem_cons.1 h with h | h
      · revert h; decide
      · exact (isDigit_ne (digitText_isDigit ds _ h)).2.1 rfl

/-- **C131** (meaning) Settings `zone=name` and `brust=number`, in any number and order, separated by single blanks, mean
    what they say: of each kind the last one counts; without `zone` the name is empty, without `brust` the number is 0. -/
theorem C131_meaning (ws : List LimitSet) (hne : ws ≠ []) (h : ∀ x ∈ ws, x.Fits) :
    parseLimit (blanks (ws.map LimitSet.write))
      = .ok ⟨(ws.filterMap LimitSet.zone?).getLast?.getD [], (ws.filterMap LimitSet.brust?).getLast?.getD 0⟩ := by
  unfold parseLimit
  rw [splitOn_words _ (by simpa using hne) (by
    intro w hw
    obtain ⟨x, hx, rfl⟩ := List.mem_map.1 hw
    exact write_no_blank x (h x hx))]
  exact limitWords_write ws h _

theorem limitWord_result (z : LimitReq) (w : Text) : (∃ z', limitWord z w = .ok z') ∨ limitWord z w = .err .invalid := by
  unfold limitWord
  split
  · split
    · exact .inl ⟨_, rfl⟩
    · split
      · cases parseU 64 _ with
        | none => exact .inr rfl
        | some n => exact .inl ⟨_, rfl⟩
      · exact .inr rfl
  · exact .inr rfl

theorem limitWords_err (ws : List Text) (w : Text) (hw : w ∈ ws) (h : ∀ z, limitWord z w = .err .invalid) (z : LimitReq) :
    limitWords ws z = .err .invalid := by
  induction ws generalizing z with
  | nil => cases hw
  | cons v ws ih =>
    rw [limitWords]
    rcases List.mem_cons.1 hw with rfl | hw
    · rw [h]; rfl
    · rcases limitWord_result z v with ⟨z', h'⟩ | h'
      · rw [h']; exact ih hw z'
      · rw [h']; rfl

/-- **C131** (other settings) A text with a setting of another name is rejected. -/
theorem C131_unknown (ws : List Text) (h : ∀ w ∈ ws, ' ' ∉ w) (k v : Text) (hw : k ++ '=' :: v ∈ ws) (hk : '=' ∉ k)
    (hk' : ∀ c ∈ k, isWs c = false) (h1 : k ≠ "zone".toList) (h2 : k ≠ "brust".toList) :
    parseLimit (blanks ws) = .err .invalid := by
  unfold parseLimit
  rw [splitOn_words ws (List.ne_nil_of_mem hw) h]
  refine limitWords_err ws _ hw ?_ _
  intro z
  unfold limitWord keyValue
  rw [splitOn_sep _ _ _ _ (by intro x hx; simp only [decide_eq_false_iff_not]; rintro rfl; exact hk hx) (by simp)]
  rw [List.map_cons, trim_of_trimmed (trimmed_of hk')]
  cases hs : (splitOn (fun c => decide (c = '=')) v).map trim with
  | nil => rfl
  | cons x xs =>
    show (if k = "zone".toList then _ else if k = "brust".toList then _ else _) = _
    rw [if_neg h1, if_neg h2]

theorem limitWords_inv (ws : List Text) (hw : ∀ w ∈ ws, ' ' ∉ w) (z z' : LimitReq)
    (hz : (LimitSet.zone z.zone).Fits ∧ z.burst < 2 ^ 64) (h : limitWords ws z = .ok z') :
    (LimitSet.zone z'.zone).Fits ∧ z'.burst < 2 ^ 64 := by
  induction ws generalizing z with
  | nil => cases h; exact hz
  | cons w ws ih =>
    rw [limitWords] at h
    cases h1 : limitWord z w with
    | panic => rw [h1] at h; cases h
    | err e => rw [h1] at h; cases h
    | ok z1 =>
      rw [h1] at h
      refine ih (fun x hx => hw x (by simp [hx])) z1 ?_ h
      unfold limitWord at h1
      split at h1
      · rename_i k v rest hkv
        split at h1
        · cases h1
          refine ⟨?_, hz.2⟩
          have hmem : v ∈ keyValue w := by rw [hkv]; simp
          unfold keyValue at hmem
          obtain ⟨p, hp, rfl⟩ := List.mem_map.1 hmem
          refine ⟨?_, ?_, trim_trimmed p⟩
          · intro hc; exact hw w (by simp) (splitOn_mem _ _ p hp _ (trim_sub p _ hc)).2
          · intro hc; simpa using (splitOn_mem _ _ p hp _ (trim_sub p _ hc)).1
        · split at h1
          · cases hn : parseU 64 v with
            | none => rw [hn] at h1; cases h1
            | some n =>
              rw [hn] at h1
              cases h1
              refine ⟨hz.1, ?_⟩
              unfold parseU at hn
              split at hn
              · cases hn
              · split at hn
                · split at hn
                  · rename_i hlt; cases hn; exact hlt
                  · cases hn
                · cases hn
          · cases h1
      · cases h1

/-- **C131** (print and parse) Whatever was read is read again from the printed text. -/
theorem C131_roundtrip (s : Text) (z : LimitReq) (h : parseLimit s = .ok z) : parseLimit (showLimit z) = .ok z := by
  have hz := limitWords_inv _ (fun w hw hc => by simpa using (splitOn_mem _ _ w hw _ hc).1) ⟨[], 0⟩ z
    ⟨⟨by simp, by simp, by simp [Trimmed]⟩, by simp⟩ h
  have e : showLimit z = blanks ["zone".toList ++ '=' :: z.zone, "brust".toList ++ '=' :: showNat z.burst] := by
    rw [blanks_cons]
    simp only [blanks, List.intercalate, List.intersperse, List.flatten_cons, List.flatten_nil, List.append_nil]
    simp only [showLimit, List.append_assoc]
    rfl
  have hd : ∀ c ∈ showNat z.burst, IsDigit c := showNat_isDigit _
  unfold parseLimit
  rw [e, splitOn_words _ (by simp) (by
    intro w hw
    simp only [List.mem_cons, List.not_mem_nil, or_false] at hw
    rcases hw with rfl | rfl
    · exact write_no_blank (.zone z.zone) hz.1
    · intro hc
      rcases List.mem_append.1 hc with hc | hc
      · revert hc; decide
      · rcases List.mem_cons.1 hc with hc | hc
        · revert hc; decide
        · exact (isDigit_ne (hd _ hc)).2.1 rfl)]
  rw [limitWords, show limitWord ⟨[], 0⟩ ("zone".toList ++ '=' :: z.zone) = .ok ⟨z.zone, 0⟩ from
    limitWord_write (.zone z.zone) hz.1 _]
  show (limitWord ⟨z.zone, 0⟩ ("brust".toList ++ '=' :: showNat z.burst) >>= limitWords []) = _
  have hk : keyValue ("brust".toList ++ '=' :: showNat z.burst) = ["brust".toList, showNat z.burst] :=
    keyValue_eq _ _ (by decide) (fun h => (isDigit_ne (hd _ h)).1 rfl) (trimmed_of (by decide))
      (trimmed_of (fun c hc => isDigit_not_ws (hd c hc)))
  unfold limitWord
  rw [hk]
  show ((if "brust".toList = "zone".toList then _ else if "brust".toList = "brust".toList then _ else _) >>= _) = _
  rw [if_neg (by decide), if_pos rfl, parseU_showNat hz.2]
  rfl

/-- **C131** fails for other ways to separate settings: where zone texts and other lists of words take any whitespace, a
    text with two blanks in a row, or with a blank at its end, is rejected. -/
theorem C131_blanks_fails (a b : Text) :
    parseLimit (a ++ ' ' :: ' ' :: b) = .err .invalid ∧ parseLimit (a ++ [' ']) = .err .invalid := by
  have h0 : ∀ z, limitWord z [] = .err .invalid := fun _ => rfl
  constructor
  · unfold parseLimit
    refine limitWords_err _ [] ?_ h0 _
    rw [splitOn_app _ _ _ _ (by simp), splitOn, if_pos (by simp)]
    simp
  · unfold parseLimit
    refine limitWords_err _ [] ?_ h0 _
    rw [splitOn_app _ _ _ _ (by simp)]
    simp [splitOn]

example : parseLimit "zone=limit brust=12".toList = .ok ⟨"limit".toList, 12⟩ ∧
    parseLimit "brust=3 zone=a".toList = .ok ⟨"a".toList, 3⟩ ∧ parseLimit "zone=a burst=1".toList = .err .invalid := by
  decide +kernel
example : blanks ([LimitSet.zone "limit".toList, .brust [1, 2]].map LimitSet.write) = "zone=limit brust=12".toList ∧
    (LimitSet.zone "limit".toList).Fits ∧ (LimitSet.brust [1, 2]).Fits := by
  refine ⟨by decide +kernel, ?_, ?_⟩
  · exact ⟨by decide, by decide, trimmed_of (by decide)⟩
  · exact ⟨by decide, by decide⟩

/-! ### C132: limit_req_zone -/

/-- not empty, without whitespace, `=` and `/` -/
def Word (w : Text) : Prop := w ≠ [] ∧ ∀ c ∈ w, isWs c = false ∧ c ≠ '=' ∧ c ≠ '/'

theorem isDigit_word {c : Char} (h : IsDigit c) : isWs c = false ∧ c ≠ '=' ∧ c ≠ '/' :=
  ⟨isDigit_not_ws h, (isDigit_ne h).1, (isDigit_ne h).2.2⟩

theorem word_digits (n : Nat) (u : Text) (hu : ∀ c ∈ u, isWs c = false ∧ c ≠ '=' ∧ c ≠ '/') : Word (showNat n ++ u) := by
  refine ⟨by simp [showNat_ne_nil n], ?_⟩
  intro c hc
  rcases List.mem_append.1 hc with hc | hc
  · exact isDigit_word (showNat_isDigit n c hc)
  · exact hu c hc

theorem units_word : ∀ u ∈ sizeUnits, ∀ c ∈ u, isWs c = false ∧ c ≠ '=' ∧ c ≠ '/' := by decide +kernel

theorem showSize_word (n : Nat) : Word (showSize n) := by
  unfold showSize
  refine word_digits _ _ ?_
  rw [List.getD_eq_getElem?_getD]
  cases h : sizeUnits[(sizeLoop 5 n 0).2]? with
  | none => simp
  | some u => exact units_word u (List.mem_of_getElem? h)

theorem showDur_word (checked : Bool) (d : Dur) (t : Text) (h : showDur checked d = .ok t) : Word t := by
  unfold showDur at h
  dsimp only at h
  split at h
  · cases h1 : mulU64 checked d.secs 1000 with
    | panic => rw [h1] at h; cases h
    | err e => rw [h1] at h; cases h
    | ok a =>
      rw [h1, Res.bind_ok] at h
      cases h2 : addU64 checked (d.nanos / 1000000) a with
      | panic => rw [h2] at h; cases h
      | err e => rw [h2] at h; cases h
      | ok b =>
        rw [h2, Res.bind_ok] at h
        cases h; exact word_digits _ _ (by decide +kernel)
  · split at h
    · cases h; exact word_digits _ _ (by decide +kernel)
    · split at h
      · cases h; exact word_digits _ _ (by decide +kernel)
      · cases h; exact word_digits _ _ (by decide +kernel)

theorem parseSize_r (checked : Bool) (n : Nat) (h : n < 2 ^ 64) : parseSize checked (showNat n ++ ['r']) = .ok n := by
  unfold parseSize
  rw [getLast_utf8 _ (by decide)]
  simp only [show unitMulti (UInt8.ofNat 'r'.toNat) = none from by decide]
  rw [if_neg (by decide), trimEnd_append _ _ _ (by decide), trimEnd_none _ _ (by
    intro x hx
    have hd := showNat_isDigit n x hx
    rw [decide_eq_false_iff_not]
    rintro rfl
    revert hd; unfold IsDigit; decide), parseU_showNat h]
  rfl

theorem zoneWord_limit (checked : Bool) (z : LimitZone) (v : Text) (hv : '=' ∉ v) (ht : Trimmed v) :
    zoneWord checked z ("limit".toList ++ '=' :: v) = (parseSize checked v >>= fun n => .ok { z with limit := n }) := by
  unfold zoneWord
  rw [keyValue_eq _ _ (by decide) hv (trimmed_of (by decide)) ht]
  rfl

theorem zoneWord_rate (checked : Bool) (z : LimitZone) (v : Text) (hv : '=' ∉ v) (ht : Trimmed v) :
    zoneWord checked z ("rate".toList ++ '=' :: v) = (parseRate checked v >>= fun r => .ok { z with nums := r.1, per := r.2 }) := by
  unfold zoneWord
  rw [keyValue_eq _ _ (by decide) hv (trimmed_of (by decide)) ht]
  show (if "rate".toList = "limit".toList then _ else if "rate".toList = "rate".toList then _ else _) = _
  rw [if_neg (by decide), if_pos rfl]

/-- **C132** (meaning) A text of a key, `limit=` with a size and `rate=` with a number of requests per duration, in either
    order and separated by any whitespace, means the zone with that key, that size (C25) and that rate (C62); without
    `limit=` the size is 0, without `rate=` the rate is the default of the library. -/
theorem C132_meaning (checked : Bool) (nums : Nat) (per : Dur) (key size rate : Text) (hk : key ≠ [])
    (hkw : ∀ c ∈ key, isWs c = false) (hs : ∀ c ∈ size, isWs c = false ∧ c ≠ '=') (hr : ∀ c ∈ rate, isWs c = false ∧ c ≠ '=')
    (w1 w2 : Char) (hw1 : isWs w1 = true) (hw2 : isWs w2 = true) :
    parseZone checked nums per (key ++ w1 :: ("limit=".toList ++ size ++ w2 :: ("rate=".toList ++ rate)))
      = (do let n ← parseSize checked size; let r ← parseRate checked rate; .ok ⟨key, n, r.1, r.2⟩) ∧
    parseZone checked nums per (key ++ w1 :: ("rate=".toList ++ rate ++ w2 :: ("limit=".toList ++ size)))
      = (do let r ← parseRate checked rate; let n ← parseSize checked size; .ok ⟨key, n, r.1, r.2⟩) ∧
    parseZone checked nums per (key ++ w1 :: ("limit=".toList ++ size))
      = (do let n ← parseSize checked size; .ok ⟨key, n, nums, per⟩) ∧
    parseZone checked nums per (key ++ w1 :: ("rate=".toList ++ rate))
      = (do let r ← parseRate checked rate; .ok ⟨key, 0, r.1, r.2⟩) := by
  have nl : "limit=".toList ++ size ≠ [] := by simp
  have nr : "rate=".toList ++ rate ≠ [] := by simp
  have pl : ∀ c ∈ "limit=".toList ++ size, isWs c = false := by
    intro c hc
    rcases List.mem_append.1 hc with hc | hc
    · exact (by decide : ∀ c ∈ "limit=".toList, isWs c = false) c hc
    · exact (hs c hc).1
  have pr : ∀ c ∈ "rate=".toList ++ rate, isWs c = false := by
    intro c hc
    rcases List.mem_append.1 hc with hc | hc
    · exact (by decide : ∀ c ∈ "rate=".toList, isWs c = false) c hc
    · exact (hr c hc).1
  have el : ∀ z : LimitZone, zoneWord checked z ("limit=".toList ++ size) = (parseSize checked size >>= fun n => .ok { z with limit := n }) :=
    fun z => zoneWord_limit checked z size (fun h => (hs _ h).2 rfl) (trimmed_of fun c hc => (hs c hc).1)
  have er : ∀ z : LimitZone, zoneWord checked z ("rate=".toList ++ rate) = (parseRate checked rate >>= fun r => .ok { z with nums := r.1, per := r.2 }) :=
    fun z => zoneWord_rate checked z rate (fun h => (hr _ h).2 rfl) (trimmed_of fun c hc => (hr c hc).1)
  refine ⟨?_, ?_, ?_, ?_⟩
  · unfold parseZone
    rw [splitWs_sep _ _ _ hk hkw hw1, splitWs_sep _ _ _ nl pl hw2, splitWs_single _ nr pr]
    simp only [zoneWords, el]
    cases parseSize checked size with
    | panic => rfl
    | err e => rfl
    | ok n =>
      simp only [Res.bind_ok, er]
      cases parseRate checked rate <;> rfl
  · unfold parseZone
    rw [splitWs_sep _ _ _ hk hkw hw1, splitWs_sep _ _ _ nr pr hw2, splitWs_single _ nl pl]
    simp only [zoneWords, er]
    cases parseRate checked rate with
    | panic => rfl
    | err e => rfl
    | ok n =>
      simp only [Res.bind_ok, el]
      cases parseSize checked size <;> rfl
  · unfold parseZone
    rw [splitWs_sep _ _ _ hk hkw hw1, splitWs_single _ nl pl]
    simp only [zoneWords, el]
    cases parseSize checked size <;> rfl
  · unfold parseZone
    rw [splitWs_sep _ _ _ hk hkw hw1, splitWs_single _ nr pr]
    simp only [zoneWords, er]
    cases parseRate checked rate <;> rfl

/-- **C132**, partial (print and parse): the exact account for every zone whose key is a word and whose period is in whole
    milliseconds: it is read again unchanged exactly when its period is (C26). Missing: other periods, see
    `C132_print_fails`. -/
theorem C132_print_partial (checked : Bool) (nums : Nat) (per : Dur) (key : Text) (hk : key ≠ [])
    (hkw : ∀ c ∈ key, isWs c = false) (limit n secs ms : Nat) (hl : limit < 2 ^ 64) (hn : n < 2 ^ 64) (hs : secs < 2 ^ 64)
    (hms : ms < 1000) :
    (showZone checked ⟨key, limit, n, ⟨secs, ms * 1000000⟩⟩ >>= parseZone checked nums per)
      = .ok ⟨key, limit, n, ⟨secs, ms * 1000000⟩⟩ ↔ ms = 0 ∨ secs * 1000 + ms ≤ 4294 := by
  rw [← C26_duration_roundtrip_partial checked secs ms hs hms]
  unfold showZone
  dsimp only
  cases hd : showDur checked ⟨secs, ms * 1000000⟩ with
  | panic => constructor <;> (intro h; cases h)
  | err e => constructor <;> (intro h; cases h)
  | ok d =>
    have hw := showDur_word _ _ _ hd
    have hrw := word_digits n ['r'] (by decide)
    have hsz := showSize_word limit
    have e : key ++ " limit=".toList ++ showSize limit ++ " rate=".toList ++ showNat n ++ "r/".toList ++ d
        = key ++ ' ' :: ("limit=".toList ++ showSize limit ++ ' ' :: ("rate=".toList ++ (showNat n ++ 'r' :: '/' :: d))) := by
      simp only [List.append_assoc]; rfl
    rw [Res.bind_ok, Res.bind_ok, Res.bind_ok, e]
    have hm := (C132_meaning checked nums per key (showSize limit) (showNat n ++ 'r' :: '/' :: d) hk hkw
      (fun c hc => ⟨(hsz.2 c hc).1, (hsz.2 c hc).2.1⟩) (by
        intro c hc
        rcases List.mem_append.1 hc with hc | hc
        · exact ⟨isDigit_not_ws (showNat_isDigit _ c hc), (isDigit_ne (showNat_isDigit _ c hc)).1⟩
        · rcases List.mem_cons.1 hc with rfl | hc
          · decide
          · rcases List.mem_cons.1 hc with rfl | hc
            · decide
            · exact ⟨(hw.2 c hc).1, (hw.2 c hc).2.1⟩) ' ' ' ' (by decide) (by decide)).1
    rw [hm, C24_size_roundtrip checked limit hl, Res.bind_ok]
    have hr := (C62_rate_meaning checked (showNat n ++ ['r']) d (fun h => (hrw.2 _ h).2.2 rfl) (fun h => (hw.2 _ h).2.2 rfl)).1
    have e2 : showNat n ++ 'r' :: '/' :: d = (showNat n ++ ['r']) ++ '/' :: d := by simp
    rw [e2, hr, trim_none _ (fun c hc => (hrw.2 c hc).1), trim_none _ (fun c hc => (hw.2 c hc).1), parseSize_r checked n hn,
      Res.bind_ok]
    cases parseDur checked d with
    | panic => constructor <;> (intro h; cases h)
    | err e => constructor <;> (intro h; cases h)
    | ok d' =>
      constructor
      · intro h
        have h : Res.ok (⟨key, limit, n, d'⟩ : LimitZone) = .ok ⟨key, limit, n, ⟨secs, ms * 1000000⟩⟩ := h
        simp only [Res.ok.injEq, LimitZone.mk.injEq, true_and] at h
        rw [h]
      · intro h
        have h : d' = ⟨secs, ms * 1000000⟩ := by simpa using h
        rw [h]; rfl

/-- **C132** fails for other periods: every zone whose period is longer than 4294 ms and not in whole seconds is not read again
    as it was printed. -/
theorem C132_print_fails (checked : Bool) (nums : Nat) (per : Dur) (key : Text) (hk : key ≠ [])
    (hkw : ∀ c ∈ key, isWs c = false) (limit n secs ms : Nat) (hl : limit < 2 ^ 64) (hn : n < 2 ^ 64) (hs : secs < 2 ^ 64)
    (h0 : 0 < ms) (hms : ms < 1000) (hbig : 4294 < secs * 1000 + ms) :
    (showZone checked ⟨key, limit, n, ⟨secs, ms * 1000000⟩⟩ >>= parseZone checked nums per)
      ≠ .ok ⟨key, limit, n, ⟨secs, ms * 1000000⟩⟩ := by
  rw [Ne, C132_print_partial checked nums per key hk hkw limit n secs ms hl hn hs hms]
  omega

/-- a zone of ten requests in 5.5 s is printed and read again as ten requests in about 1.2 s -/
example :
    showZone false ⟨"k".toList, 1024, 10, ⟨5, 500 * 1000000⟩⟩ = .ok "k limit=1024 rate=10r/5500ms".toList ∧
    parseZone false 0 ⟨0, 0⟩ "k limit=1024 rate=10r/5500ms".toList = .ok ⟨"k".toList, 1024, 10, ⟨1, 205032704⟩⟩ := by
  decide +kernel

/-- **C132** fails: a text without any word ends the program instead of being rejected. -/
theorem C132_blank_fails (checked : Bool) (nums : Nat) (per : Dur) (s : Text) (h : ∀ c ∈ s, isWs c = true) :
    parseZone checked nums per s = .panic := by
  have : splitWs s = [] := by
    unfold splitWs
    induction s with
    | nil => rfl
    | cons c s ih =>
      rw [splitOn, if_pos (h c (by simp)), List.filter_cons_of_neg (by simp)]
      exact ih (fun x hx => h x (by simp [hx]))
  unfold parseZone
  rw [this]

example : parseZone true 0 ⟨0, 0⟩ "{client_ip} limit=10m rate=1000r/s".toList
    = .ok ⟨"{client_ip}".toList, 10 * 2 ^ 20, 1000, ⟨1, 0⟩⟩ := by decide +kernel

/-! ### C133: try_paths -/

/-- an entry of `try_paths` as meant -/
inductive TryItem where
  | path (p : Text)
  | status (code : List (Fin 10))

def TryItem.word : TryItem → Text
  | .path p => p
  | .status ds => '=' :: digitText ds

/-- a path does not begin with `=`; a status is one the library knows -/
def TryItem.Fits (valid : Nat → Bool) : TryItem → Prop
  | .path p => p.head? ≠ some '='
  | .status ds => ds ≠ [] ∧ decimal ds < 2 ^ 16 ∧ valid (decimal ds) = true

def TryItem.path? : TryItem → Option Text
  | .path p => some p
  | .status _ => none

def TryItem.status? : TryItem → Option Nat
  | .path _ => none
  | .status ds => some (decimal ds)

theorem tryWord_path (valid : Nat → Bool) (t : TryPaths) (p : Text) (h : p.head? ≠ some '=') :
    tryWord valid t p = ⟨t.list ++ [p], t.status⟩ := if_neg h

theorem tryWord_status (valid : Nat → Bool) (t : TryPaths) (ds : List (Fin 10)) (h : (TryItem.status ds).Fits valid) :
    tryWord valid t ('=' :: digitText ds) = ⟨t.list, decimal ds⟩ := by
  unfold tryWord
  rw [if_pos (show ('=' :: digitText ds).head? = some '=' from rfl)]
  have e : trimStart (fun c => decide (c = '=')) ('=' :: digitText ds) = digitText ds := by
    unfold trimStart
    rw [List.dropWhile_cons, if_pos (by simp), dropWhile_none _ _ (by
      intro c hc; simp only [decide_eq_false_iff_not]; exact (isDigit_ne (digitText_isDigit ds c hc)).1)]
  have hp : parseU 16 (digitText ds) = some (decimal ds) := by
    have := parseU_digits 16 (ds := digitText ds) (mt digitText_eq_nil.1 h.1) (digitText_isDigit ds) (parseDigits_digitText ds 0)
    rw [this]; exact if_pos h.2.1
  rw [e, hp]
  exact if_pos h.2.2

theorem tryWords (valid : Nat → Bool) (is : List TryItem) (h : ∀ i ∈ is, i.Fits valid) (t : TryPaths) :
    (is.map TryItem.word).foldl (tryWord valid) t
      = ⟨t.list ++ is.filterMap TryItem.path?, (is.filterMap TryItem.status?).getLast?.getD t.status⟩ := by
  induction is generalizing t with
  | nil => simp
  | cons i is ih =>
    rw [List.map_cons, List.foldl_cons, ih (fun x hx => h x (by simp [hx]))]
    cases i with
    | path p =>
      rw [show (TryItem.path p).word = p from rfl, tryWord_path valid t p (h (.path p) (by simp))]
      simp only [TryItem.path?, TryItem.status?, List.filterMap_cons, List.append_assoc, List.cons_append, List.nil_append]
    | status ds =>
      rw [show (TryItem.status ds).word = '=' :: digitText ds from rfl, tryWord_status valid t ds (h _ (by simp))]
      simp only [TryItem.path?, TryItem.status?, List.filterMap_cons, List.getLast?_cons, Option.getD_some]

/-- **C133** (meaning) A text of paths and statuses `=code`, in any order, each plain or in quotes it does not contain,
    separated by any whitespace: the paths are tried in their order, and the status is the last one given, 404 if none is. -/
theorem C133_meaning (valid : Nat → Bool) (lead : Text) (hl : ∀ c ∈ lead, isWs c = true) (ws : List (Quoting × TryItem × Text))
    (hw : ∀ x ∈ ws, x.1.Fits x.2.1.word ∧ x.2.2 ≠ [] ∧ ∀ c ∈ x.2.2, isWs c = true) (last : Option (Quoting × TryItem))
    (hlast : ∀ x ∈ last, x.1.Fits x.2.word) (items : List TryItem)
    (hi : items = ws.map (fun x => x.2.1) ++ last.toList.map (fun x => x.2)) (hf : ∀ i ∈ items, i.Fits valid) :
    parseTry valid (lead ++ ws.flatMap (fun x => x.1.write x.2.1.word ++ x.2.2)
        ++ last.toList.flatMap (fun x => x.1.write x.2.word))
      = ⟨items.filterMap TryItem.path?, (items.filterMap TryItem.status?).getLast?.getD 404⟩ := by
  have := C35_split_words lead hl (ws.map fun x => (x.1, x.2.1.word, x.2.2)) (by
      intro x hx
      obtain ⟨y, hy, rfl⟩ := List.mem_map.1 hx
      exact hw y hy) (last.map fun x => (x.1, x.2.word)) (by
      intro x hx
      cases last with
      | none => cases hx
      | some y => cases hx; exact hlast y rfl)
  unfold parseTry
  have e1 : (ws.map fun x => (x.1, x.2.1.word, x.2.2)).flatMap (fun x => x.1.write x.2.1 ++ x.2.2)
      = ws.flatMap (fun x => x.1.write x.2.1.word ++ x.2.2) := by rw [List.flatMap_map]
  have e2 : (last.map fun x => (x.1, x.2.word)).toList.flatMap (fun x => x.1.write x.2)
      = last.toList.flatMap (fun x => x.1.write x.2.word) := by cases last <;> rfl
  have e3 : (ws.map fun x => (x.1, x.2.1.word, x.2.2)).map (fun x => x.2.1)
      ++ (last.map fun x => (x.1, x.2.word)).toList.map Prod.snd = items.map TryItem.word := by
    rw [hi, List.map_append, List.map_map, List.map_map]
    cases last <;> rfl
  rw [e1, e2, e3] at this
  rw [this, tryWords valid items hf]
  simp

/-- **C133** fails: an entry beginning with `=` that is no status is ignored instead of being rejected. -/
theorem C133_ignored_fails (valid : Nat → Bool) (w s : Text) (hw : w.head? = some '=')
    (hp : ∀ c ∈ w, isWs c = false ∧ c ≠ '"' ∧ c ≠ '\'')
    (hbad : ∀ n, parseU 16 (w.dropWhile (· = '=')) = some n → valid n = false) :
    parseTry valid (w ++ ' ' :: s) = parseTry valid s := by
  have hne : w ≠ [] := by rintro rfl; cases hw
  unfold parseTry
  rw [sp w s ⟨hne, hp⟩, List.foldl_cons]
  have : tryWord valid ⟨[], 404⟩ w = ⟨[], 404⟩ := by
    unfold tryWord
    rw [if_pos hw]
    show (match parseU 16 (w.dropWhile (· = '=')) with | some n => _ | none => _) = _
    cases hn : parseU 16 (w.dropWhile (· = '=')) with
    | none => rfl
    | some n => simp [hbad n hn]
  rw [this]

theorem splitQuoted_join (l : List Text) (hl : ∀ w ∈ l, Quoting.Fits .plain w) (r : Text) :
    splitQuoted (joinWords l ++ ' ' :: r) = l ++ splitQuoted r := by
  induction l with
  | nil => exact sp_blank r
  | cons w l ih =>
    cases l with
    | nil => exact sp w r (hl w (by simp))
    | cons v l =>
      rw [joinWords, List.append_assoc, List.cons_append, sp w _ (hl w (by simp)), ih (fun x hx => hl x (by simp [hx]))]
      rfl

theorem tryWords_grow (valid : Nat → Bool) (ws : List Text) (t : TryPaths) :
    ∃ more, (ws.foldl (tryWord valid) t).list = t.list ++ more := by
  induction ws generalizing t with
  | nil => exact ⟨[], by simp⟩
  | cons w ws ih =>
    obtain ⟨m, hm⟩ := ih (tryWord valid t w)
    rw [List.foldl_cons, hm]
    unfold tryWord
    split
    · split
      · split <;> exact ⟨m, rfl⟩
      · exact ⟨m, rfl⟩
    · exact ⟨w :: m, by simp⟩

theorem tryWords_paths (valid : Nat → Bool) (ws : List Text) (h : ∀ w ∈ ws, w.head? ≠ some '=') (t : TryPaths) :
    ws.foldl (tryWord valid) t = ⟨t.list ++ ws, t.status⟩ := by
  induction ws generalizing t with
  | nil => simp
  | cons w ws ih =>
    rw [List.foldl_cons, tryWord_path valid t w (h w (by simp)), ih (fun x hx => h x (by simp [hx]))]
    simp

/-- **C133** fails for printed settings: the status is printed without `=`, so reading the printed text never gives the
    setting again: the status becomes a path to be tried. (Whatever the library prints for a status, provided it begins
    neither with whitespace, nor a quote, nor `=`.) -/
theorem C133_print_fails (valid : Nat → Bool) (text : Nat → Text) (t : TryPaths) (c : Char) (r : Text)
    (ht : text t.status = c :: r) (hc : isPlain c = true) (hce : c ≠ '=')
    (hl : ∀ w ∈ t.list, Quoting.Fits .plain w ∧ w.head? ≠ some '=') :
    ∃ p more, (parseTry valid (showTry text t)).list = t.list ++ p :: more ∧ p.head? = some c := by
  unfold parseTry showTry
  rw [splitQuoted_join _ (fun w hw => (hl w hw).1), List.foldl_append, tryWords_paths valid _ (fun w hw => (hl w hw).2), ht,
    splitQuoted_cons, if_pos hc, List.foldl_cons, tryWord_path _ _ _ (by simpa using hce)]
  obtain ⟨m, hm⟩ := tryWords_grow valid (splitQuoted (r.dropWhile isPlain))
    ⟨(⟨[] ++ t.list, 404⟩ : TryPaths).list ++ [c :: r.takeWhile isPlain], 404⟩
  exact ⟨c :: r.takeWhile isPlain, m, by rw [hm]; simp, rfl⟩

example : parseTry (fun n => 100 ≤ n && n < 600) "{path}/ '/a b' =403 =999 /x".toList
    = ⟨["{path}/".toList, "/a b".toList, "/x".toList], 403⟩ := by decide +kernel
example : showTry showNat ⟨["/a".toList], 403⟩ = "/a 403".toList ∧
    parseTry (fun _ => true) "/a 403".toList = ⟨["/a".toList, "403".toList], 404⟩ := by decide +kernel

/-! ### C134: access_log and error_log -/

theorem lower_showLevel : ∀ l : Level, parseLevel (showLevel l) = some l := by
  intro l; cases l <;> decide +kernel

theorem showLevel_word : ∀ l : Level, showLevel l ≠ [] ∧ ' ' ∉ showLevel l := by
  intro l; cases l <;> decide

theorem split3 (a b c : Text) (ha : ' ' ∉ a) (hb : ' ' ∉ b) :
    splitOn (fun c => decide (c = ' ')) (a ++ ' ' :: (b ++ ' ' :: c)) = a :: b :: splitOn (fun c => decide (c = ' ')) c := by
  have hf : ∀ w : Text, ' ' ∉ w → ∀ c ∈ w, (fun c => decide (c = ' ')) c = false := by
    intro w hw c hc
    simp only [decide_eq_false_iff_not]; rintro rfl; exact hw hc
  rw [splitOn_sep _ _ _ _ (hf a ha) (by simp), splitOn_sep _ _ _ _ (hf b hb) (by simp)]

theorem split2 (a b : Text) (ha : ' ' ∉ a) (hb : ' ' ∉ b) :
    splitOn (fun c => decide (c = ' ')) (a ++ ' ' :: b) = [a, b] := by
  have hf : ∀ w : Text, ' ' ∉ w → ∀ c ∈ w, (fun c => decide (c = ' ')) c = false := by
    intro w hw c hc
    simp only [decide_eq_false_iff_not]; rintro rfl; exact hw hc
  rw [splitOn_sep _ _ _ _ (hf a ha) (by simp), splitOn_none _ _ (hf b hb)]

theorem split1 (a : Text) (ha : ' ' ∉ a) : splitOn (fun c => decide (c = ' ')) a = [a] :=
  splitOn_none _ _ (by intro c hc; simp only [decide_eq_false_iff_not]; rintro rfl; exact ha hc)

/-- the letters of a level's name, small and large -/
def levelLetters : Level → List (Char × Char)
  | .error => [('e', 'E'), ('r', 'R'), ('r', 'R'), ('o', 'O'), ('r', 'R')]
  | .warn => [('w', 'W'), ('a', 'A'), ('r', 'R'), ('n', 'N')]
  | .info => [('i', 'I'), ('n', 'N'), ('f', 'F'), ('o', 'O')]
  | .debug => [('d', 'D'), ('e', 'E'), ('b', 'B'), ('u', 'U'), ('g', 'G')]
  | .trace => [('t', 'T'), ('r', 'R'), ('a', 'A'), ('c', 'C'), ('e', 'E')]

/-- a name of a level: each letter small or large -/
def LevelName (l : Level) (s : Text) : Prop :=
  List.Forall₂ (fun c p => c = p.1 ∨ c = p.2) s (levelLetters l)

theorem lower_eq {c d : Char} (h : lower c = d) : c = d ∨ c.toNat + 32 = d.toNat ∧ 65 ≤ c.toNat ∧ c.toNat ≤ 90 := by
  unfold lower at h
  split at h
  · rename_i hc
    right
    have h1 : 65 ≤ c.toNat := hc.1
    have h2 : c.toNat ≤ 90 := hc.2
    refine ⟨?_, h1, h2⟩
    rw [← h]
    have hv : (c.toNat + 32).isValidChar := Or.inl (by omega)
    generalize c.toNat + 32 = n at hv
    rw [Char.ofNat, dif_pos hv]
    rfl
  · exact Or.inl h

theorem map_lower_iff (s : Text) : ∀ (ps : List (Char × Char)),
    (∀ p ∈ ps, lower p.1 = p.1 ∧ lower p.2 = p.1 ∧ p.2.toNat + 32 = p.1.toNat) →
    (s.map lower = ps.map (·.1) ↔ List.Forall₂ (fun c p => c = p.1 ∨ c = p.2) s ps) := by
  induction s with
  | nil =>
    intro ps _
    cases ps with
    | nil => simp
    | cons p ps => exact ⟨fun h => by simp at h, fun h => by cases h⟩
  | cons c s ih =>
    intro ps hp
    cases ps with
    | nil => exact ⟨fun h => by simp at h, fun h => by cases h⟩
    | cons p ps =>
      obtain ⟨h1, h2, h3⟩ := hp p (by simp)
      have hi := ih ps fun q hq => hp q (by simp [hq])
      simp only [List.map_cons, List.cons.injEq, List.forall₂_cons, hi]
      refine and_congr_left fun _ => ⟨fun h => ?_, ?_⟩
      · rcases lower_eq h with h | ⟨h, _, _⟩
        · exact Or.inl h
        · exact Or.inr (Char.toNat_inj.1 (by omega))
      · rintro (rfl | rfl)
        · exact h1
        · exact h2

theorem levelName_iff (l : Level) (s : Text) : s.map lower = (showLevel l).map lower ↔ LevelName l s := by
  have h : (showLevel l).map lower = (levelLetters l).map (·.1) := by cases l <;> decide +kernel
  rw [h, LevelName]
  exact map_lower_iff s _ (by cases l <;> decide +kernel)

theorem parseLevel_iff (l : Level) (s : Text) : parseLevel s = some l ↔ LevelName l s := by
  rw [← levelName_iff]
  constructor
  · intro h
    have := List.find?_some h
    simpa using (of_decide_eq_true this).symm
  · intro h
    unfold parseLevel
    rw [h]
    cases l <;> decide +kernel

theorem parseLevel_name (l : Level) (s : Text) (h : LevelName l s) : parseLevel s = some l := (parseLevel_iff l s).2 h

/-- **C134** (meaning) `name format level` means the log of that name, lines in that format, at that level; without level
    the level is trace. A text of one word is rejected. -/
theorem C134_meaning (name format : Text) (hn : ' ' ∉ name) (hf : ' ' ∉ format) :
    (∀ l t, LevelName l t → ' ' ∉ t → parseLog (name ++ ' ' :: (format ++ ' ' :: t)) = .ok ⟨name, format, l⟩) ∧
    parseLog (name ++ ' ' :: format) = .ok ⟨name, format, .trace⟩ ∧ parseLog name = .err .invalid := by
  refine ⟨?_, ?_, ?_⟩
  · intro l t hl ht
    unfold parseLog
    rw [split3 _ _ _ hn hf, split1 t ht]
    simp [parseLevel_name l t hl]
  · unfold parseLog
    rw [split2 _ _ hn hf]
  · unfold parseLog
    rw [split1 _ hn]

/-- **C134**, partial (print and parse): a setting with a format is read again from the printed text. Missing: settings
    without format, see `C134_format_fails`. -/
theorem C134_print_partial (c : LogTo) (hn : ' ' ∉ c.name) (hf : ' ' ∉ c.format) (hne : c.format ≠ []) :
    parseLog (showLog c) = .ok c := by
  unfold showLog
  rw [if_neg hne]
  split
  · rw [List.append_assoc, List.cons_append, parseLog, split3 _ _ _ hn hf, split1 _ (showLevel_word _).2]
    simp [lower_showLevel]
  · rename_i h
    have h : c.level = .trace := by simpa using h
    rw [parseLog, split2 _ _ hn hf]
    simp [← h]

/-- **C134** (error logs) For an error log, whose second word is read as level, printing and reading gives the same setting
    in every case. -/
theorem C134_error (c : LogTo) (hn : ' ' ∉ c.name) :
    (parseLog (showLog (c.asError parseLevel)) >>= fun d => .ok (d.asError parseLevel)) = .ok (c.asError parseLevel) := by
  have hfm : (c.asError parseLevel).format = [] ∧ (c.asError parseLevel).name = c.name := by
    unfold LogTo.asError; split
    · rename_i h; exact ⟨h, rfl⟩
    · exact ⟨rfl, rfl⟩
  generalize c.asError parseLevel = e at hfm
  obtain ⟨n, f, l⟩ := e
  obtain ⟨rfl, rfl⟩ := hfm
  unfold showLog
  rw [if_pos rfl, parseLog, split2 _ _ hn (showLevel_word _).2]
  show Res.ok (LogTo.asError parseLevel ⟨_, showLevel l, .trace⟩) = _
  unfold LogTo.asError
  rw [if_neg (showLevel_word l).1, lower_showLevel]
  rfl

/-- **C134** fails for access logs without format: the printed level is read as the format. -/
theorem C134_format_fails (name : Text) (l : Level) (hn : ' ' ∉ name) :
    parseLog (showLog ⟨name, [], l⟩) = .ok ⟨name, showLevel l, .trace⟩ := by
  unfold showLog
  rw [if_pos rfl, parseLog, split2 _ _ hn (showLevel_word _).2]

/-- **C134** fails: a level that does not exist, or any text after the level, is not rejected: the level is trace,
    whatever was written. -/
theorem C134_level_fails (name format t u : Text) (hn : ' ' ∉ name) (hf : ' ' ∉ format) (ht : ' ' ∉ t) :
    ((∀ l, ¬ LevelName l t) → parseLog (name ++ ' ' :: (format ++ ' ' :: t)) = .ok ⟨name, format, .trace⟩) ∧
    parseLog (name ++ ' ' :: (format ++ ' ' :: (t ++ ' ' :: u))) = .ok ⟨name, format, .trace⟩ := by
  constructor
  · intro h
    unfold parseLog
    rw [split3 _ _ _ hn hf, split1 t ht]
    cases hl : parseLevel t with
    | none => simp [hl]
    | some l => exact absurd ((parseLevel_iff l t).1 hl) (h l)
  · unfold parseLog
    rw [split3 _ _ _ hn hf, splitOn_app _ _ _ _ (by simp), split1 t ht]
    cases hs : splitOn (fun c => decide (c = ' ')) u with
    | nil => exact absurd hs (splitOn_ne_nil _ _)
    | cons x xs => rfl

example : parseLog "access main Info".toList = .ok ⟨"access".toList, "main".toList, .info⟩ ∧
    parseLog "access main info x".toList = .ok ⟨"access".toList, "main".toList, .trace⟩ ∧
    LevelName .info "Info".toList ∧ ∀ l, ¬ LevelName l "loud".toList := by
  refine ⟨by decide +kernel, by decide +kernel, (parseLevel_iff _ _).1 (by decide +kernel), fun l h => ?_⟩
  have h := (parseLevel_iff _ _).2 h
  revert h; cases l <;> decide +kernel

/-! ### C135: sets of methods and schemes -/

variable {α : Type} [DecidableEq α]

/-- a library's reading and printing of methods or schemes: printed names are single words and are read again -/
structure Names (parse : Text → Option α) (render : α → Text) : Prop where
  roundtrip : ∀ a, parse (render a) = some a
  word : ∀ a, render a ≠ [] ∧ ∀ c ∈ render a, isWs c = false

/-- **C135** (meaning) Names separated by whitespace mean the set of them. -/
theorem C135_meaning {parse : Text → Option α} {render : α → Text} (hn : Names parse render) (as : List α) :
    ∃ set, parseSet parse (splitWs (as.flatMap fun a => render a ++ [' '])) [] = .ok set ∧ set.Nodup ∧ ∀ a, a ∈ set ↔ a ∈ as := by
  have hs : splitWs (as.flatMap fun a => render a ++ [' ']) = as.map render := by
    induction as with
    | nil => rfl
    | cons a as ih =>
      rw [List.flatMap_cons, List.append_assoc]
      have := splitWs_sep (render a) (as.flatMap fun a => render a ++ [' ']) ' ' (hn.word a).1 (hn.word a).2 (by decide)
      rw [List.singleton_append, this, ih]; rfl
  rw [hs]
  suffices h : ∀ set : List α, set.Nodup → ∃ r, parseSet parse (as.map render) set = .ok r ∧ r.Nodup ∧
      ∀ a, a ∈ r ↔ a ∈ set ∨ a ∈ as by
    obtain ⟨r, h1, h2, h3⟩ := h [] List.nodup_nil
    exact ⟨r, h1, h2, fun a => by simpa using h3 a⟩
  intro set hset
  clear hs
  induction as generalizing set with
  | nil => exact ⟨set, rfl, hset, by simp⟩
  | cons a as ih =>
    rw [List.map_cons, parseSet, hn.roundtrip]
    have hnd : (if a ∈ set then set else set ++ [a]).Nodup := by
      split
      · exact hset
      · rename_i hnot
        rw [List.nodup_append]
        refine ⟨hset, by simp, ?_⟩
        intro x hx y hy hxy
        simp only [List.mem_singleton] at hy
        subst hy; subst hxy; exact hnot hx
    obtain ⟨r, h1, h2, h3⟩ := ih _ hnd
    refine ⟨r, h1, h2, ?_⟩
    intro x
    rw [h3]
    by_cases ha : a ∈ set
    · rw [if_pos ha, List.mem_cons]
      constructor
      · rintro (h | h)
        · exact .inl h
        · exact .inr (.inr h)
      · rintro (h | rfl | h)
        · exact .inl h
        · exact .inl ha
        · exact .inr h
    · rw [if_neg ha, List.mem_append, List.mem_singleton, List.mem_cons, or_assoc]

theorem parseSet_bad {parse : Text → Option α} (w : Text) (hw : parse w = none) (ws : List Text) (h : w ∈ ws) :
    ∀ set, parseSet parse ws set = .err .invalid := by
  induction ws with
  | nil => simp at h
  | cons v ws ih =>
    intro set
    rw [parseSet]
    cases hv : parse v with
    | none => rfl
    | some a =>
      rcases List.mem_cons.1 h with rfl | h
      · rw [hw] at hv; simp at hv
      · exact ih h _

/-- **C135** (other names) A text with a word that is no name is rejected, whatever stands before and after it. -/
theorem C135_unknown {parse : Text → Option α} (before w after : Text) (hne : w ≠ []) (hp : ∀ c ∈ w, isWs c = false)
    (hw : parse w = none) (hb : before = [] ∨ ∃ b, before = b ++ [' ']) (ha : after = [] ∨ ∃ a, after = ' ' :: a) :
    parseSet parse (splitWs (before ++ w ++ after)) [] = .err .invalid := by
  refine parseSet_bad w hw _ ?_ []
  have h1 : w ∈ splitWs (w ++ after) := by
    rcases ha with rfl | ⟨a, rfl⟩
    · rw [List.append_nil, splitWs_single w hne hp]; simp
    · rw [splitWs_sep w a ' ' hne hp (by decide)]; simp
  rcases hb with rfl | ⟨b, rfl⟩
  · simpa using h1
  · have h2 : splitOn isWs (b ++ [' '] ++ w ++ after) = splitOn isWs b ++ splitOn isWs (w ++ after) := by
      have : b ++ [' '] ++ w ++ after = b ++ ' ' :: (w ++ after) := by simp
      rw [this]
      clear this
      generalize w ++ after = r
      induction b with
      | nil => simp [splitOn, show isWs ' ' = true by decide]
      | cons d b ih =>
        simp only [List.cons_append, splitOn]
        split
        · rw [ih]; rfl
        · rw [ih]
          cases hb : splitOn isWs b with
          | nil => exact absurd hb (splitOn_ne_nil _ _)
          | cons x xs => rfl
    unfold splitWs at h1 ⊢
    rw [h2, List.filter_append]
    exact List.mem_append_right _ h1

/-- **C135**, partial (print and parse): the empty set and sets of one member are read again. Missing: all others, see
    `C135_print_fails`. -/
theorem C135_print_partial {parse : Text → Option α} {render : α → Text} (hn : Names parse render) (a : α) :
    parseSet parse (splitWs (showSet render [a])) [] = .ok [a] ∧
    parseSet parse (splitWs (showSet render [])) [] = .ok [] := by
  constructor
  · simp only [showSet, List.flatMap_cons, List.flatMap_nil, List.append_nil]
    rw [splitWs_single _ (hn.word a).1 (hn.word a).2, parseSet, hn.roundtrip]
    rfl
  · rfl

/-- **C135** fails for sets of two or more members: the names are printed without anything between them, so that the printed
    text is never read as the set, in whatever order its members come: it is rejected or gives at most one member. -/
theorem C135_print_fails {parse : Text → Option α} {render : α → Text} (hn : Names parse render) (set : List α) :
    ∀ r, parseSet parse (splitWs (showSet render set)) [] = .ok r → r.length ≤ 1 := by
  intro r hr
  have hws : ∀ c ∈ showSet render set, isWs c = false := by
    intro c hc
    obtain ⟨a, _, ha⟩ := List.mem_flatMap.1 hc
    exact (hn.word a).2 c ha
  by_cases hne : showSet render set = []
  · rw [hne] at hr; cases hr; simp
  · rw [splitWs_single _ hne hws, parseSet] at hr
    split at hr
    · cases hr
    · cases hr; simp

example : Names (fun t => if t = "GET".toList then some true else if t = "PUT".toList then some false else none)
    (fun b => if b then "GET".toList else "PUT".toList) := by
  constructor
  · intro a; cases a <;> decide +kernel
  · intro a; cases a <;> decide +kernel
example : showSet (fun b => if b then "GET".toList else "PUT".toList) [true, false] = "GETPUT".toList := by decide +kernel

end Wm.Texts
