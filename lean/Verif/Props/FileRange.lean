import Verif.Props.FileLines
/-!
Property C50: the line of the answer that names the part that is sent.
-/
namespace Wm.Files
open Wm

/-! ### Proof -/

/-- a file answer without conditions, when ranges are looked at -/
theorem answer_ranged {e : Fs} {f : FileSrv} {x : Extra} {env : HEnv} {info : Text → Meta} {bytes : Text → Nat} {path : Text}
    {accept : Option Text} {c : Cond} {q : Text} {enc rate : Option Text} (hd : dealRequest e f path accept = .file q enc rate)
    (h1 : c.ifNoneMatch = none) (h2 : c.ifModifiedSince = none) (h3 : c.acceptRanges = none) (h4 : c.ifRange = none) :
    answer e f x env info bytes path accept c =
      match rangeLines env c (info q)
        ⟨200, .whole, metaLines env (info q) (settingLines env x (contentLines f (baseOf q enc) enc))⟩ with
      | (r, true) => some ⟨(headLines c (info q) r).status, .file q (headLines c (info q) r).body, (headLines c (info q) r).lines⟩
      | (_, false) => none := by
  have hn : notModified env.toCondEnv c (info q) = false := by unfold notModified; rw [h1, h2]; rfl
  have hok : ifRangeOk env.toCondEnv c (info q) = true := by unfold ifRangeOk; rw [h4]
  unfold answer
  rw [hd]
  dsimp only
  unfold fileLines
  rw [hn]
  simp only [Bool.false_eq_true, if_false]
  unfold afterLines
  dsimp only
  rw [if_pos (Or.inl h3), if_pos hok]
  generalize rangeLines env c (info q) _ = z
  obtain ⟨r, b⟩ := z
  cases b <;> rfl

theorem base_range (env : HEnv) (x : Extra) (m : Meta) (f : FileSrv) (base : Text) (enc : Option Text) :
    values (metaLines env m (settingLines env x (contentLines f base enc))) .contentRange = [] := by
  rw [metaLines_values, settingLines_values]
  simp only [reduceCtorEq, if_false]
  rw [contentLines_values]
  simp only [reduceCtorEq, if_false]

theorem head_range (c : Cond) (m : Meta) (r : HResp) :
    values (headLines c m r).lines .contentRange = values r.lines .contentRange :=
  headLines_values c m r _ (by decide) (by decide)

theorem head_status (c : Cond) (m : Meta) (r : HResp) : (headLines c m r).status = r.status := by
  unfold headLines; split <;> rfl

/-- what is sent for a range that can be read -/
theorem range_served {e : Fs} {f : FileSrv} {x : Extra} {env : HEnv} {info : Text → Meta} {bytes : Text → Nat} {path : Text}
    {accept : Option Text} {c : Cond} {q : Text} {enc rate : Option Text} (hd : dealRequest e f path accept = .file q enc rate)
    (h1 : c.ifNoneMatch = none) (h2 : c.ifModifiedSince = none) (h3 : c.acceptRanges = none) (h4 : c.ifRange = none)
    {t : Text} {s l : Nat} {b : FBody} (ht : c.range = some t) (hc : calcRange t (info q).len = some (s, l))
    (hb : env.seek .whole s l = some b) :
    ∃ a, answer e f x env info bytes path accept c = some a ∧ a.status = 206 ∧
      values a.lines .contentRange = ["bytes ".toList ++ showNat s ++ '-' :: showNat l ++ '/' :: showNat (info q).len] := by
  rw [answer_ranged hd h1 h2 h3 h4]
  unfold rangeLines
  rw [ht]
  dsimp only
  rw [hc]
  dsimp only
  rw [hb]
  dsimp only
  refine ⟨_, rfl, ?_, ?_⟩
  · rw [head_status]
  · show values (headLines _ _ _).lines _ = _
    rw [head_range]
    exact values_insert_self _ _ _

/-! ### C50: the line that names the part -/

/-- a file is asked for, with nothing else than perhaps a range -/
def JustRange (c : Cond) : Prop :=
  c.ifNoneMatch = none ∧ c.ifModifiedSince = none ∧ c.acceptRanges = none ∧ c.ifRange = none

/-- **C50** (Content-Range), partial: to `bytes=a-b` the answer says that bytes `a` to `b` of all bytes of the file are sent,
    for every `a ≤ b` that the file system reads; with `b < a` it says 416 and the length; without a range it says nothing.
    Missing: ranges without an end, see the next theorem. -/
theorem C50_named_partial (e : Fs) (f : FileSrv) (x : Extra) (env : HEnv) (info : Text → Meta) (bytes : Text → Nat)
    (path : Text) (accept : Option Text) (c : Cond) (q : Text) (enc rate : Option Text)
    (hd : dealRequest e f path accept = .file q enc rate) (hj : JustRange c) :
    (∀ a b : Nat, a < 2 ^ 64 → b < 2 ^ 64 → c.range = some ("bytes=".toList ++ showNat a ++ '-' :: showNat b) →
      (a ≤ b → env.seek .whole a b ≠ none → ∃ r, answer e f x env info bytes path accept c = some r ∧ r.status = 206 ∧
        values r.lines .contentRange = ["bytes ".toList ++ showNat a ++ '-' :: showNat b ++ '/' :: showNat (info q).len]) ∧
      (b < a → ∃ r, answer e f x env info bytes path accept c = some r ∧ r.status = 416 ∧
        r.source = .file q .empty ∧ values r.lines .contentRange = ["bytes */".toList ++ showNat (info q).len])) ∧
    (c.range = none → ∃ r, answer e f x env info bytes path accept c = some r ∧ r.status = 200 ∧
      values r.lines .contentRange = []) := by
  obtain ⟨h1, h2, h3, h4⟩ := hj
  refine ⟨fun a b ha hb hr => ⟨fun hab hs => ?_, fun hab => ?_⟩, fun hr => ?_⟩
  · have hc := C50_closed_partial a b (info q).len ha hb
    rw [if_pos hab] at hc
    obtain ⟨y, hy⟩ := Option.ne_none_iff_exists'.1 hs
    exact range_served hd h1 h2 h3 h4 hr hc hy
  · have hc := C50_closed_partial a b (info q).len ha hb
    rw [if_neg (by omega)] at hc
    rw [answer_ranged hd h1 h2 h3 h4]
    unfold rangeLines
    rw [hr]
    dsimp only
    rw [hc]
    dsimp only
    refine ⟨_, rfl, head_status _ _ _, ?_, ?_⟩
    · unfold headLines; split <;> rfl
    · show values (headLines _ _ _).lines _ = _
      rw [head_range]
      exact values_insert_self _ _ _
  · rw [answer_ranged hd h1 h2 h3 h4]
    unfold rangeLines
    rw [hr]
    refine ⟨_, rfl, head_status _ _ _, ?_⟩
    show values (headLines _ _ _).lines _ = _
    rw [head_range]
    exact base_range ..

/-- **C50** fails (Content-Range) for ranges without an end: to `bytes=a-` the answer names the length of the file as the
    number of the last byte that is sent, though the last byte of the file has the number before. -/
theorem C50_named_fails (e : Fs) (f : FileSrv) (x : Extra) (env : HEnv) (info : Text → Meta) (bytes : Text → Nat)
    (path : Text) (accept : Option Text) (c : Cond) (q : Text) (enc rate : Option Text)
    (hd : dealRequest e f path accept = .file q enc rate) (hj : JustRange c) (a : Nat) (ha : a < 2 ^ 64)
    (hl : a ≤ (info q).len) (hr : c.range = some ("bytes=".toList ++ showNat a ++ ['-']))
    (hs : env.seek .whole a (info q).len ≠ none) :
    ∃ r, answer e f x env info bytes path accept c = some r ∧ r.status = 206 ∧
      values r.lines .contentRange =
        ["bytes ".toList ++ showNat a ++ '-' :: showNat (info q).len ++ '/' :: showNat (info q).len] := by
  obtain ⟨h1, h2, h3, h4⟩ := hj
  obtain ⟨y, hy⟩ := Option.ne_none_iff_exists'.1 hs
  exact range_served hd h1 h2 h3 h4 hr (C50_open_fails a (info q).len ha hl) hy

/-! ### examples -/

example : JustRange lnC ∧ JustRange { lnC with range := some "bytes=2-".toList } :=
  ⟨⟨rfl, rfl, rfl, rfl⟩, ⟨rfl, rfl, rfl, rfl⟩⟩

/-- the last three bytes of a file of five bytes -/
example : (answer lnFs lnSrv lnX lnEnv (fun _ => ⟨5, some 16⟩) List.length "/a.rar".toList none
      { lnC with range := some "bytes=2-".toList }).map (fun a => (a.status, values a.lines .contentRange)) =
    some (206, ["bytes 2-5/5".toList]) := by decide +kernel

end Wm.Files
