import Verif.Model.Files
import Verif.Proofs.Text
import Mathlib.Tactic.Tauto
/-! Properties C49, C50, C70-C76: the file server. -/
namespace Wm.Files
open Wm

/-! ### C49: staying in the root directory -/

/-- The directory or file a path leads to, as the list of names from the top of the file system (without symbolic
    links), from the working directory `cwd`. -/
def walkStep (at_ : List Text) : Comp → List Text
  | .root => []
  | .cur => at_
  | .parent => at_.dropLast
  | .normal n => at_ ++ [n]

def walk (cwd : List Text) (p : Text) : List Text := (comps p).foldl walkStep cwd

/-- `p` leads into the directory `root` -/
def Inside (cwd : List Text) (root p : Text) : Prop := walk cwd root <+: walk cwd p

/-- no segment `..` -/
def NoUp (p : Text) : Prop := ['.', '.'] ∉ segs p

theorem splitOn_append_sep (f : Char → Bool) (a b : Text) (c : Char) (hc : f c = true) :
    splitOn f (a ++ c :: b) = splitOn f a ++ splitOn f b := by
  induction a with
  | nil => simp [splitOn, hc]
  | cons x a ih =>
    rw [List.cons_append, splitOn, splitOn, ih]
    by_cases hx : f x = true
    · simp [hx]
    · cases h : splitOn f a with
      | nil => exact absurd h (splitOn_ne_nil f a)
      | cons s ss => simp [hx]

theorem segs_append (a b : Text) : segs (a ++ '/' :: b) = segs a ++ segs b :=
  splitOn_append_sep _ a b '/' rfl

/-- text without separators at the end only changes the last segment -/
theorem splitOn_append_tail (f : Char → Bool) (a t : Text) (ht : ∀ c ∈ t, f c = false) :
    ∃ ss l, splitOn f a = ss ++ [l] ∧ splitOn f (a ++ t) = ss ++ [l ++ t] := by
  induction a with
  | nil => exact ⟨[], [], by simp [splitOn], by rw [List.nil_append, splitOn_none f t ht]; rfl⟩
  | cons x a ih =>
    obtain ⟨ss, l, h1, h2⟩ := ih
    rw [List.cons_append, splitOn, splitOn, h1, h2]
    by_cases hx : f x = true
    · exact ⟨[] :: ss, l, by simp [hx], by simp [hx]⟩
    · cases ss with
      | nil => exact ⟨[], x :: l, by simp [hx], by simp [hx]⟩
      | cons s ss => exact ⟨(x :: s) :: ss, l, by simp [hx], by simp [hx]⟩

theorem comps_append (r h : Text) (hr : r ≠ []) : comps (r ++ '/' :: h) = comps r ++ (segs h).filterMap segComp := by
  unfold comps
  rw [segs_append, List.filterMap_append]
  have h1 : (r ++ '/' :: h).head? = r.head? := by cases r with
    | nil => exact absurd rfl hr
    | cons a r => rfl
  have h2 : (segs r ++ segs h).head? = (segs r).head? := by
    cases hs : segs r with
    | nil => exact absurd hs (splitOn_ne_nil _ r)
    | cons a r => rfl
  rw [h1, h2, List.append_assoc]

theorem walk_normals (ss : List Text) (st : List Text) (h : ['.', '.'] ∉ ss) :
    st <+: (ss.filterMap segComp).foldl walkStep st := by
  induction ss generalizing st with
  | nil => exact List.prefix_refl _
  | cons s ss ih =>
    simp only [List.mem_cons, not_or] at h
    rw [List.filterMap_cons]
    unfold segComp
    by_cases h1 : s = [] ∨ s = ['.']
    · rw [if_pos h1]; exact ih st h.2
    · rw [if_neg h1, if_neg (fun hc => h.1 hc.symm)]
      simp only [List.foldl_cons, walkStep]
      exact (List.prefix_append st [s]).trans (ih _ h.2)

/-- the paths below the root, textually -/
def Below (root p : Text) : Prop := ∃ h, p = root ++ '/' :: h ∧ NoUp h

theorem Below.inside {root p : Text} (hr : root ≠ []) (h : Below root p) (cwd : List Text) : Inside cwd root p := by
  obtain ⟨h, rfl, hn⟩ := h
  unfold Inside walk
  rw [comps_append root h hr, List.foldl_append]
  exact walk_normals _ _ hn

theorem below_withSlash (root h : Text) (hn : NoUp h) : Below root (root ++ withSlash h) := by
  unfold withSlash
  cases h with
  | nil => exact ⟨[], rfl, hn⟩
  | cons c h =>
    by_cases hc : c = '/'
    · subst hc
      refine ⟨h, rfl, ?_⟩
      have : segs ('/' :: h) = [] :: segs h := segs_append [] h
      unfold NoUp at hn
      rw [this] at hn
      exact fun hm => hn (List.mem_cons_of_mem _ hm)
    · exact ⟨c :: h, by simp [hc], hn⟩

theorem below_join {root p i : Text} (h : Below root p) (hi : i.head? ≠ some '/') (hn : NoUp i) :
    Below root (joinPath p i) := by
  obtain ⟨h, rfl, hh⟩ := h
  unfold joinPath
  rw [if_neg hi]
  split
  · rename_i hlast
    have hlast : (root ++ '/' :: h).getLast? = some '/' := by
      rcases hlast with hl | hl
      · simp at hl
      · exact hl
    rcases List.eq_nil_or_concat h with rfl | ⟨h', c, rfl⟩
    · exact ⟨i, by simp, hn⟩
    · have hc : c = '/' := by
        rw [List.concat_eq_append] at hlast
        simpa [List.getLast?_append, List.getLast?_cons] using hlast
      subst hc
      refine ⟨h' ++ '/' :: i, by simp, ?_⟩
      unfold NoUp at hh ⊢
      rw [List.concat_eq_append, segs_append] at hh
      rw [segs_append]
      simp only [List.mem_append, not_or] at hh ⊢
      exact ⟨hh.1, hn⟩
  · refine ⟨h ++ '/' :: i, by simp, ?_⟩
    unfold NoUp at hh ⊢
    rw [segs_append]
    simp only [List.mem_append, not_or]
    exact ⟨hh, hn⟩

theorem below_ext {root p : Text} (h : Below root p) (t : Text) (ht : '/' ∉ t) (hl : 3 ≤ t.length) : Below root (p ++ t) := by
  obtain ⟨h, rfl, hh⟩ := h
  refine ⟨h ++ t, by simp, ?_⟩
  obtain ⟨ss, l, h1, h2⟩ := splitOn_append_tail (· == '/') h t (fun c hc => by
    simp only [beq_eq_false_iff_ne]; rintro rfl; exact ht hc)
  unfold NoUp segs at hh ⊢
  rw [h1] at hh
  rw [h2]
  simp only [List.mem_append, List.mem_singleton, not_or] at hh ⊢
  refine ⟨hh.1, ?_⟩
  intro he
  have := congrArg List.length he
  simp at this
  omega

/-- the path of the file or directory whose content is sent -/
def FileOut.path? : FileOut → Option Text
  | .listing d _ _ => some d
  | .file p _ _ => some p
  | _ => none

theorem prePick_name {e : Fs} {accept p n pre : Text} {l : List Text} (h : prePick e accept p l = some (n, pre)) :
    ∃ pre', preName p pre' = some n := by
  induction l with
  | nil => simp [prePick] at h
  | cons a l ih =>
    simp only [prePick] at h
    split at h
    · exact ih h
    · split at h
      · exact ih h
      · rename_i n' hn
        split at h
        · simp only [Option.some.injEq, Prod.mk.injEq] at h
          exact ⟨a, by rw [hn, h.1]⟩
        · exact ih h

theorem preName_below {root p pre n : Text} (h : Below root p) (hn : preName p pre = some n) : Below root n := by
  unfold preName at hn
  split at hn
  · injection hn with hn; subst hn; exact below_ext h _ (by decide) (by decide)
  · split at hn
    · injection hn with hn; subst hn; exact below_ext h _ (by decide) (by decide)
    · cases hn

theorem byFile_below {e : Fs} {f : FileSrv} {accept : Option Text} {root p q : Text} (h : Below root p)
    (hq : (byFile e f accept p).path? = some q) : Below root q := by
  unfold byFile at hq
  split at hq
  · rename_i n pre hp
    simp only [FileOut.path?, Option.some.injEq] at hq
    subst hq
    cases accept with
    | none => cases hp
    | some a =>
      obtain ⟨pre', hn⟩ := prePick_name hp
      exact preName_below h hn
  · split at hq
    · simp only [FileOut.path?, Option.some.injEq] at hq; subst hq; exact h
    · cases hq

theorem withIndex_below {e : Fs} {f : FileSrv} {root p : Text} (h : Below root p)
    (hidx : ∀ i ∈ f.index, i.head? ≠ some '/' ∧ NoUp i) : Below root (withIndex e f p) := by
  unfold withIndex
  split
  · split
    · rename_i i hi
      have := hidx i (List.mem_of_find?_eq_some hi)
      exact below_join h this.1 this.2
    · exact h
  · exact h

/-- **C49**, partial: if the part of the decoded request path after the prefix has no segment `..` (and the configured
    index names are relative and have none), what is sent lies in the root directory — for every file system, every
    configuration, with index files and precompressed forms. Missing: paths with `..`, see the next theorems. -/
theorem C49_inside_partial (e : Fs) (f : FileSrv) (path : Text) (accept : Option Text) (hroot : rootOf e f ≠ [])
    (hidx : ∀ i ∈ f.index, i.head? ≠ some '/' ∧ NoUp i)
    (hpath : ∀ h, decoded e path = f.pfx ++ h → NoUp h) (cwd : List Text) (p : Text)
    (hp : (dealRequest e f path accept).path? = some p) : Inside cwd (rootOf e f) p := by
  apply Below.inside hroot
  unfold dealRequest at hp
  split at hp
  · cases hp
  · split at hp
    · cases hp
    · simp only at hp
      split at hp
      · cases hp
      · rename_i h hs
        have hb := below_withSlash (rootOf e f) h (hpath h (stripPrefix_eq_some.1 hs))
        have hb' := withIndex_below (e := e) hb hidx
        split at hp
        · cases hp
        · split at hp
          · split at hp
            · cases hp
            · simp only [FileOut.path?, Option.some.injEq] at hp
              exact hp ▸ hb'
          · split at hp
            · cases hp
            · exact byFile_below hb' hp

/-- **C49** fails: the check meant to keep requests in the root never refuses any of them. -/
theorem C49_check_fails (root h : Text) (hr : root ≠ []) : startsWithPath (root ++ withSlash h) root = true := by
  have hw : ∃ h', withSlash h = '/' :: h' := by
    unfold withSlash
    cases h with
    | nil => exact ⟨[], rfl⟩
    | cons c h => by_cases hc : c = '/'
                  · exact ⟨h, by simp [hc]⟩
                  · exact ⟨c :: h, by simp [hc]⟩
  obtain ⟨h', hw⟩ := hw
  unfold startsWithPath
  rw [hw, comps_append root h' hr]
  exact List.isPrefixOf_iff_prefix.2 (List.prefix_append _ _)

/-- a server for the directory `/s` under the prefix `/a`, and the file system with the file `/k` next to it -/
def demoSrv : FileSrv := ⟨some ['/', 's'], ['/', 'a'], [], [], [], none, [], [], true, none⟩

def demoFs (p : Text) : Fs := ⟨['/'], fun _ => false, fun q => q = p, fun _ => [], fun _ => none⟩

/-- **C49** fails: whatever follows the prefix of the location in a request, `..` included, is put behind the root as it is, and
    the file of this name is sent if there is one. -/
theorem C49_traversal_fails (e : Fs) (f : FileSrv) (root rest : Text) (hroot : f.root = some root) (hr : root ≠ [])
    (hrob : f.robots = none) (hhide : f.hide = []) (hpct : '%' ∉ f.pfx ++ '/' :: rest)
    (hdir : e.isDir (root ++ '/' :: rest) = false) (hex : e.ex (root ++ '/' :: rest) = true) :
    dealRequest e f (f.pfx ++ '/' :: rest) none = .file (root ++ '/' :: rest) none none := by
  have hd : decoded e (f.pfx ++ '/' :: rest) = f.pfx ++ '/' :: rest := if_neg hpct
  have hro : rootOf e f = root := by unfold rootOf; rw [hroot]; exact if_neg hr
  have hw : withSlash ('/' :: rest) = '/' :: rest := rfl
  have hs : startsWithPath (root ++ '/' :: rest) root = true := by
    have := C49_check_fails root ('/' :: rest) hr
    rwa [hw] at this
  have hh : ∀ t, isHide f t = false := fun t => by unfold isHide; rw [hhide]; rfl
  have hi : withIndex e f (root ++ '/' :: rest) = root ++ '/' :: rest := by unfold withIndex; rw [hdir]; rfl
  unfold dealRequest
  simp only [hd, stripPrefix_append, hrob, hro, hw, hs, hh, hi, hdir, Option.isSome_none, Bool.false_eq_true, and_false, if_false,
    Option.isNone_some, Bool.not_true, Bool.or_self, byFile, Option.bind_none, hex, if_true]

/-- a request with `..` gets a file outside the root -/
example : ∃ path p : Text,
    dealRequest (demoFs p) demoSrv path none = .file p none none ∧ ¬ Inside [] ['/', 's'] p :=
  ⟨"/a/../k".toList, "/s/../k".toList,
    C49_traversal_fails (demoFs "/s/../k".toList) demoSrv "/s".toList "../k".toList rfl (by decide) rfl rfl (by decide) rfl
      (by decide +kernel), by unfold Inside; decide +kernel⟩

/-- what is served for a request below the prefix of the location -/
theorem deal_known {e : Fs} {f : FileSrv} {path root h : Text} (hroot : f.root = some root) (hr : root ≠ [])
    (hrob : f.robots = none) (hp : f.pfx <+: path) (hd : decoded e path = f.pfx ++ h) (hhr : isHide f root = false)
    (hdir : e.isDir (withIndex e f (root ++ withSlash h)) = false) (hhide : isHide f (decoded e path) = false)
    (hex : e.ex (withIndex e f (root ++ withSlash h)) = true) :
    dealRequest e f path none = .file (withIndex e f (root ++ withSlash h)) none none := by
  obtain ⟨t, ht⟩ := hp
  have h1 : stripPrefix f.pfx path = some t := stripPrefix_eq_some.2 ht.symm
  have h2 : stripPrefix f.pfx (decoded e path) = some h := stripPrefix_eq_some.2 hd
  have hro : rootOf e f = root := by unfold rootOf; rw [hroot]; exact if_neg hr
  have hs := C49_check_fails root h hr
  unfold dealRequest
  simp only [h1, h2, hrob, hro, hs, hhr, hdir, hhide, Option.isSome_none, Bool.false_eq_true, and_false, if_false,
    Option.isNone_some, Bool.not_true, Bool.or_self, byFile, Option.bind_none, hex, if_true]

theorem withIndex_file {e : Fs} {f : FileSrv} {p : Text} (h : e.isDir p = false) : withIndex e f p = p := by
  unfold withIndex; rw [h]; rfl

/-- **C49** fails even if `..` segments are removed from request paths beforehand: the prefix is cut off anywhere, also
    in the middle of a name. For every location whose prefix ends in a name, and every path without `..` next to the root: the
    request has no `..` segment, and gets the file of that path next to the root. -/
theorem C49_prefix_fails (e : Fs) (f : FileSrv) (root up name rest : Text) (hroot : f.root = some root) (hr : root ≠ [])
    (hrob : f.robots = none) (hhide : f.hide = []) (hpfx : f.pfx = up ++ '/' :: name) (hn : name ≠ []) (hns : '/' ∉ name)
    (hup : NoUp up) (hrest : NoUp rest) (hpct : '%' ∉ f.pfx ++ "../".toList ++ rest)
    (hdir : e.isDir (root ++ "/../".toList ++ rest) = false) (hex : e.ex (root ++ "/../".toList ++ rest) = true) :
    NoUp (f.pfx ++ "../".toList ++ rest) ∧
    dealRequest e f (f.pfx ++ "../".toList ++ rest) none = .file (root ++ "/../".toList ++ rest) none none := by
  constructor
  · have e1 : f.pfx ++ "../".toList ++ rest = up ++ '/' :: ((name ++ ['.', '.']) ++ '/' :: rest) := by simp [hpfx]
    have e2 : segs (name ++ ['.', '.']) = [name ++ ['.', '.']] :=
      splitOn_none _ _ (by
        intro c hc
        rw [List.mem_append] at hc
        rcases hc with hc | hc
        · simp only [beq_eq_false_iff_ne]; rintro rfl; exact hns hc
        · revert c; decide)
    unfold NoUp at *
    rw [e1, segs_append, segs_append, e2]
    simp only [List.mem_append, List.mem_singleton, not_or]
    refine ⟨hup, ?_, hrest⟩
    intro h
    have h1 := congrArg List.length h
    have h2 := List.length_pos_iff.2 hn
    rw [List.length_append] at h1
    simp only [List.length_cons, List.length_nil] at h1
    omega
  · have hh : ∀ t, isHide f t = false := fun t => by unfold isHide; rw [hhide]; rfl
    have hw : withSlash ("../".toList ++ rest) = "/../".toList ++ rest := rfl
    have hdir' : e.isDir (root ++ withSlash ("../".toList ++ rest)) = false := by rw [hw, ← List.append_assoc]; exact hdir
    have hi := withIndex_file (f := f) hdir'
    have key := deal_known (e := e) (f := f) (path := f.pfx ++ "../".toList ++ rest) (h := "../".toList ++ rest) hroot hr hrob
      ⟨"../".toList ++ rest, by simp⟩ (by unfold decoded; rw [if_neg hpct]; simp) (hh _)
      (by rw [hi]; exact hdir') (hh _) (by rw [hi, hw, ← List.append_assoc]; exact hex)
    rw [key, hi, hw, ← List.append_assoc]

example : dealRequest (demoFs "/s/../k".toList) demoSrv "/a../k".toList none = .file "/s/../k".toList none none ∧
    ¬ Inside [] ['/', 's'] "/s/../k".toList :=
  ⟨(C49_prefix_fails (demoFs "/s/../k".toList) demoSrv "/s".toList [] ['a'] ['k'] rfl (by decide) rfl rfl rfl (by decide)
    (by decide) (by unfold NoUp; decide +kernel) (by unfold NoUp; decide +kernel) (by decide +kernel) rfl (by decide +kernel)).2,
    by unfold Inside; decide +kernel⟩

/-- a path below the root, as in `C49_inside_partial` -/
example : dealRequest (demoFs "/s/b/k".toList) demoSrv "/a/b/k".toList none = .file "/s/b/k".toList none none ∧
    NoUp "/b/k".toList ∧ Inside [] "/s".toList "/s/b/k".toList := by
  unfold NoUp Inside; decide +kernel

/-! ### C70: hidden files -/

theorem containsText_iff (s p : Text) : containsText s p = true ↔ p <:+: s := by
  induction s with
  | nil =>
    unfold containsText
    rw [List.isPrefixOf_iff_prefix]
    constructor
    · intro h; exact h.isInfix
    · intro h
      rw [List.infix_nil] at h
      exact h ▸ List.prefix_refl _
  | cons c s ih =>
    rw [containsText, Bool.or_eq_true, List.isPrefixOf_iff_prefix, ih, List.infix_cons_iff]

/-- **C70**, partial: a request whose decoded path contains a hidden text gets no file, and no directory page shows a
    path that contains one. Missing: index files and cut prefixes, see below. -/
theorem C70_hidden_partial (e : Fs) (f : FileSrv) (path : Text) (accept : Option Text) (hd : Text) (hm : hd ∈ f.hide) :
    (hd <:+: decoded e path → ∀ p enc r, dealRequest e f path accept ≠ .file p enc r) ∧
    (∀ d shown r, dealRequest e f path accept = .listing d shown r → ∀ p ∈ shown, ¬ hd <:+: p) := by
  have hby : ∀ p d shown r, byFile e f accept p ≠ .listing d shown r := by
    intro p d shown r h
    unfold byFile at h
    split at h
    · cases h
    · split at h <;> cases h
  constructor
  · intro hc p enc r h
    have hh : isHide f (decoded e path) = true := by
      unfold isHide
      rw [List.any_eq_true]
      exact ⟨hd, hm, (containsText_iff _ _).2 hc⟩
    unfold dealRequest at h
    split at h
    · cases h
    · split at h
      · cases h
      · simp only at h
        split at h
        · cases h
        · split at h
          · cases h
          · split at h
            · split at h <;> cases h
            · first
                | cases h
                | (rw [if_pos hh] at h; cases h)
  · intro d shown r h p hp hc
    unfold dealRequest at h
    split at h
    · cases h
    · split at h
      · cases h
      · simp only at h
        split at h
        · cases h
        · split at h
          · cases h
          · split at h
            · split at h
              · cases h
              · injection h with _ h _
                rw [← h, List.mem_filter] at hp
                have := hp.2
                simp only [Bool.not_eq_true', isHide, List.any_eq_false] at this
                exact this hd hm ((containsText_iff _ _).2 hc)
            · split at h
              · cases h
              · exact absurd h (hby _ _ _ _)

theorem isHide_of_not {f : FileSrv} {p : Text} (h : ∀ x ∈ f.hide, ¬ x <:+: p) : isHide f p = false := by
  unfold isHide
  rw [List.any_eq_false]
  intro x hx hc
  exact h x hx ((containsText_iff _ _).1 hc)

/-- **C70** fails: a hidden file is sent as the index file of its directory. For every file system and configuration: if the first
    index file that a directory has is hidden, a request for the file itself gets no file, but one for the directory gets it. -/
theorem C70_index_fails (e : Fs) (f : FileSrv) (root dir x : Text) (pre post : List Text) (i : Text)
    (hroot : f.root = some root) (hr : root ≠ []) (hrob : f.robots = none)
    (hx : x ∈ f.hide) (hi : x <:+: i) (hrel : i.head? ≠ some '/')
    (hidx : f.index = pre ++ i :: post)
    (hpre : ∀ j ∈ pre, j.head? ≠ some '/' ∧ e.ex (root ++ '/' :: dir ++ '/' :: j) = false)
    (hclean : ∀ y ∈ f.hide, ¬ y <:+: root ∧ ¬ y <:+: f.pfx ++ '/' :: dir ++ ['/']) (hpct : '%' ∉ f.pfx ++ '/' :: dir ++ '/' :: i)
    (hdir : e.isDir (root ++ '/' :: dir ++ ['/']) = true) (hfile : e.isDir (root ++ '/' :: dir ++ '/' :: i) = false)
    (hex : e.ex (root ++ '/' :: dir ++ '/' :: i) = true) :
    (∀ p enc r, dealRequest e f (f.pfx ++ '/' :: dir ++ '/' :: i) none ≠ .file p enc r) ∧
    dealRequest e f (f.pfx ++ '/' :: dir ++ ['/']) none = .file (root ++ '/' :: dir ++ '/' :: i) none none := by
  have hd1 : decoded e (f.pfx ++ '/' :: dir ++ '/' :: i) = f.pfx ++ '/' :: dir ++ '/' :: i := if_neg hpct
  have hd2 : decoded e (f.pfx ++ '/' :: dir ++ ['/']) = f.pfx ++ '/' :: dir ++ ['/'] := if_neg (by
    intro h; apply hpct; simp at h ⊢; tauto)
  have hj : ∀ j : Text, j.head? ≠ some '/' → joinPath (root ++ '/' :: dir ++ ['/']) j = root ++ '/' :: dir ++ '/' :: j := by
    intro j hrel
    unfold joinPath
    rw [if_neg hrel, if_pos (.inr (List.getLast?_concat ..)), List.append_assoc _ ['/']]
    rfl
  have hw : withIndex e f (root ++ withSlash ('/' :: dir ++ ['/'])) = root ++ '/' :: dir ++ '/' :: i := by
    rw [show withSlash ('/' :: dir ++ ['/']) = '/' :: dir ++ ['/'] from rfl, ← List.append_assoc]
    unfold withIndex
    rw [hdir, if_pos rfl, hidx, List.find?_append, List.find?_eq_none.2 (by
        intro j hm; rw [hj j (hpre j hm).1, (hpre j hm).2]; decide),
      List.find?_cons_of_pos (by rw [hj i hrel]; exact hex)]
    exact hj i hrel
  constructor
  · refine (C70_hidden_partial e f _ none x hx).1 ?_
    rw [hd1]
    exact hi.trans ⟨f.pfx ++ '/' :: dir ++ ['/'], [], by simp⟩
  · have key := deal_known (e := e) (f := f) (path := f.pfx ++ '/' :: dir ++ ['/']) (h := '/' :: dir ++ ['/']) hroot hr hrob
      ⟨'/' :: dir ++ ['/'], by simp⟩ (by rw [hd2]; simp) (isHide_of_not fun y hy => (hclean y hy).1)
      (by rw [hw]; exact hfile) (by rw [hd2]; exact isHide_of_not fun y hy => (hclean y hy).2) (by rw [hw]; exact hex)
    rw [key, hw]

example :
    let f : FileSrv := { demoSrv with hide := [['x']], index := [['x']] }
    let e : Fs := { demoFs "/s/d/x".toList with isDir := fun p => p = "/s/d/".toList }
    dealRequest e f "/a/d/".toList none = .file "/s/d/x".toList none none :=
  (C70_index_fails { demoFs "/s/d/x".toList with isDir := fun p => p = "/s/d/".toList }
    { demoSrv with hide := [['x']], index := [['x']] } "/s".toList ['d'] ['x'] [] [] ['x'] rfl (by decide) rfl (by decide)
    (List.infix_refl _) (by decide) rfl (by simp) (by decide +kernel) (by decide +kernel) (by decide +kernel) (by decide +kernel)
    (by decide +kernel)).2

/-- **C70** fails: a hidden file is sent when the slash after the prefix is left out of the request. For every file system,
    configuration and name `x` such that "/x" is hidden: the request for it is refused, but not the request without the slash. -/
theorem C70_prefix_fails (e : Fs) (f : FileSrv) (root x : Text) (hroot : f.root = some root) (hr : root ≠ [])
    (hrob : f.robots = none) (hx : '/' :: x ∈ f.hide) (hrel : x.head? ≠ some '/')
    (hclean : ∀ y ∈ f.hide, ¬ y <:+: root ∧ ¬ y <:+: f.pfx ++ x) (hpct : '%' ∉ f.pfx ++ x)
    (hfile : e.isDir (root ++ '/' :: x) = false) (hex : e.ex (root ++ '/' :: x) = true) :
    (∀ p enc r, dealRequest e f (f.pfx ++ '/' :: x) none ≠ .file p enc r) ∧
    dealRequest e f (f.pfx ++ x) none = .file (root ++ '/' :: x) none none := by
  have hd1 : decoded e (f.pfx ++ '/' :: x) = f.pfx ++ '/' :: x := if_neg (by
    intro h; apply hpct; simp at h ⊢; tauto)
  have hd2 : decoded e (f.pfx ++ x) = f.pfx ++ x := if_neg hpct
  have hs : withSlash x = '/' :: x := if_neg hrel
  have hw : withIndex e f (root ++ withSlash x) = root ++ '/' :: x := by rw [hs]; exact withIndex_file hfile
  constructor
  · refine (C70_hidden_partial e f _ none _ hx).1 ?_
    rw [hd1]
    exact ⟨f.pfx, [], by simp⟩
  · have key := deal_known (e := e) (f := f) (path := f.pfx ++ x) (h := x) hroot hr hrob ⟨x, rfl⟩ hd2
      (isHide_of_not fun y hy => (hclean y hy).1) (by rw [hw]; exact hfile)
      (by rw [hd2]; exact isHide_of_not fun y hy => (hclean y hy).2) (by rw [hw]; exact hex)
    rw [key, hw]

example : dealRequest (demoFs "/s/x".toList) { demoSrv with hide := ["/x".toList] } "/ax".toList none
    = .file "/s/x".toList none none :=
  (C70_prefix_fails (demoFs "/s/x".toList) { demoSrv with hide := ["/x".toList] } "/s".toList ['x'] rfl (by decide) rfl (by decide)
    (by decide) (by decide +kernel) (by decide +kernel) rfl (by decide +kernel)).2

/-! ### C50: byte ranges -/

theorem digit_ne {c : Char} (h : IsDigit c) : (c == '-') = false ∧ (c == ',') = false ∧ (c == '=') = false ∧ isWs c = false := by
  refine ⟨?_, ?_, ?_, isDigit_not_ws h⟩ <;>
    (simp only [beq_eq_false_iff_ne]; rintro rfl; revert h; unfold IsDigit; decide)

/-- what the server makes of a header with a single range of digits -/
theorem calcRange_form (a b : Text) (ha : ∀ c ∈ a, IsDigit c) (hb : ∀ c ∈ b, IsDigit c) (len : Nat) :
    calcRange ("bytes=".toList ++ a ++ '-' :: b) len =
      match rangeSide a 0, rangeSide b len with
      | some s, some e => if e < s then none else some (s, e)
      | _, _ => none := by
  have hall : ∀ c ∈ a ++ '-' :: b, (c == '=') = false ∧ (c == ',') = false ∧ isWs c = false := by
    intro c hc
    rcases List.mem_append.1 hc with h | h
    · have := digit_ne (ha c h); exact ⟨this.2.2.1, this.2.1, this.2.2.2⟩
    · rcases List.mem_cons.1 h with rfl | h
      · decide
      · have := digit_ne (hb c h); exact ⟨this.2.2.1, this.2.1, this.2.2.2⟩
  have e1 : splitOn (· == '=') ("bytes=".toList ++ a ++ '-' :: b) = ["bytes".toList, a ++ '-' :: b] := by
    have : "bytes=".toList ++ a ++ '-' :: b = "bytes".toList ++ '=' :: (a ++ '-' :: b) := by simp
    rw [this, splitOn_append_sep _ _ _ '=' rfl, splitOn_none _ _ (fun c hc => (hall c hc).1)]
    rfl
  have e2 : splitOn (· == ',') (a ++ '-' :: b) = [a ++ '-' :: b] := splitOn_none _ _ (fun c hc => (hall c hc).2.1)
  have e3 : splitOn (· == '-') (a ++ '-' :: b) = [a, b] := by
    rw [splitOn_append_sep _ _ _ '-' rfl, splitOn_none _ _ (fun c hc => (digit_ne (ha c hc)).1),
      splitOn_none _ _ (fun c hc => (digit_ne (hb c hc)).1)]
    rfl
  have e4 : trim "bytes".toList = ['b', 'y', 't', 'e', 's'] := by decide +kernel
  unfold calcRange
  rw [e1]
  simp only [e2, e4, ne_eq, not_true_eq_false, if_false, List.headD_cons]
  rw [trim_none _ (fun c hc => (hall c hc).2.2), e3]
  rfl

theorem rangeSide_showNat {n d : Nat} (h : n < 2 ^ 64) : rangeSide (showNat n) d = some n := by
  unfold rangeSide
  rw [if_neg (showNat_ne_nil n), parseU_showNat h]

/-- **C50**, partial: `bytes=a-b` with `a ≤ b` is read as exactly that range, for every `a` and `b`; with `b < a` it is
    refused. Missing: open ranges, suffix ranges and ranges beyond the end, see below. -/
theorem C50_closed_partial (a b len : Nat) (ha : a < 2 ^ 64) (hb : b < 2 ^ 64) :
    calcRange ("bytes=".toList ++ showNat a ++ '-' :: showNat b) len = if a ≤ b then some (a, b) else none := by
  rw [calcRange_form _ _ (showNat_isDigit a) (showNat_isDigit b), rangeSide_showNat ha, rangeSide_showNat hb]
  simp only
  by_cases h : a ≤ b
  · rw [if_pos h, if_neg (by omega)]
  · rw [if_neg h, if_pos (by omega)]

/-- **C50** (always) A range that is served never ends before it starts. -/
theorem C50_ordered (val : Text) (len s e : Nat) (h : calcRange val len = some (s, e)) : s ≤ e := by
  unfold calcRange at h
  split at h
  · split at h
    · cases h
    · split at h
      · split at h
        · split at h
          · cases h
          · simp only [Option.some.injEq, Prod.mk.injEq] at h
            omega
        · cases h
      · cases h
  · cases h

/-- **C50** fails for open ranges: `bytes=a-` is answered with the range from `a` to the length, one byte more than the
    file has. -/
theorem C50_open_fails (a len : Nat) (ha : a < 2 ^ 64) (h : a ≤ len) :
    calcRange ("bytes=".toList ++ showNat a ++ ['-']) len = some (a, len) := by
  have := calcRange_form (showNat a) [] (showNat_isDigit a) (by simp) len
  rw [this, rangeSide_showNat ha]
  simp only [rangeSide, if_true]
  rw [if_neg (by omega)]

/-- **C50** fails for suffix ranges: `bytes=-n`, the last `n` bytes, is answered with bytes 0 to `n`. -/
theorem C50_suffix_fails (n len : Nat) (hn : n < 2 ^ 64) :
    calcRange ("bytes=-".toList ++ showNat n) len = some (0, n) := by
  have := calcRange_form [] (showNat n) (by simp) (showNat_isDigit n) len
  have e : "bytes=-".toList ++ showNat n = "bytes=".toList ++ [] ++ '-' :: showNat n := by simp
  rw [e, this, rangeSide_showNat hn]
  simp [rangeSide]

/-- **C50** fails beyond the end: a range that starts behind the end of the file is not refused. -/
theorem C50_beyond_fails (a len : Nat) (ha : a < 2 ^ 64) (_h : len ≤ a) :
    calcRange ("bytes=".toList ++ showNat a ++ '-' :: showNat a) len = some (a, a) := by
  rw [C50_closed_partial a a len ha ha, if_pos (Nat.le_refl a)]

example : calcRange "bytes=500-999, 2000-".toList 5000 = some (500, 999) ∧ calcRange "lines=1-2".toList 5000 = none ∧
    calcRange "bytes=2-1".toList 5000 = none := by decide +kernel

/-! ### C71, C72: conditional and HEAD requests -/

/-- **C71**, partial: if the client's copy is still good (its ETag or date is the current one) and no range is asked for,
    the answer is 304 without content. Missing: requests with a range, see `C71_range_fails`. -/
theorem C71_not_modified_partial (env : CondEnv) (c : Cond) (m : Meta)
    (h : c.ifNoneMatch = some (etag m) ∨ ∃ v n, c.ifModifiedSince = some v ∧ m.mtime = some n ∧ env.lastMod v = n)
    (hr : c.range = none) : fileResponse env c m = some ⟨304, .empty, none⟩ := by
  have hn : notModified env c m = true := by
    unfold notModified
    rcases h with h | ⟨v, n, h1, h2, h3⟩
    · simp [h]
    · simp [h1, h2, h3]
  unfold fileResponse
  rw [if_pos hn]
  unfold afterFile applyRange applyHead
  rw [hr]
  cases c.head <;> simp

/-- **C71** (changed) If neither header matches, the answer is never 304. -/
theorem C71_modified (env : CondEnv) (c : Cond) (m : Meta) (r : FResp)
    (h1 : c.ifNoneMatch ≠ some (etag m)) (h2 : ∀ v n, c.ifModifiedSince = some v → m.mtime = some n → env.lastMod v ≠ n)
    (hr : fileResponse env c m = some r) : r.status ≠ 304 := by
  have hn : notModified env c m = false := by
    unfold notModified
    rw [Bool.or_eq_false_iff]
    constructor
    · cases hi : c.ifNoneMatch with
      | none => rfl
      | some v => simp only [beq_eq_false_iff_ne]; rintro rfl; exact h1 hi
    · cases hi : c.ifModifiedSince with
      | none => rfl
      | some v => cases hm : m.mtime with
        | none => rfl
        | some n => simp only [beq_eq_false_iff_ne]; exact h2 v n hi hm
  unfold fileResponse at hr
  rw [hn] at hr
  simp only [Bool.false_eq_true, if_false] at hr
  have hhead : ∀ x : FResp, (applyHead c x).status = x.status := by intro x; unfold applyHead; split <;> rfl
  have hrange : ∀ y, applyRange env c m ⟨200, .whole, none⟩ = some y → y.status = 200 ∨ y.status = 206 ∨ y.status = 416 := by
    intro y hy
    unfold applyRange at hy
    split at hy
    · injection hy with hy; rw [← hy]; exact .inl rfl
    · split at hy
      · rw [Option.map_eq_some_iff] at hy
        obtain ⟨b, _, hb⟩ := hy
        rw [← hb]; exact .inr (.inl rfl)
      · injection hy with hy; rw [← hy]; exact .inr (.inr rfl)
  unfold afterFile at hr
  split at hr
  · split at hr
    · rw [Option.map_eq_some_iff] at hr
      obtain ⟨y, hy, hyr⟩ := hr
      rw [← hyr, hhead]
      have := hrange y hy
      omega
    · injection hr with hr; rw [← hr]; decide
  · injection hr with hr; rw [← hr, hhead]; decide

/-- **C71** fails with a range: a client whose copy is still good is told 416 when it also asks for a range that is
    refused. -/
theorem C71_range_fails (env : CondEnv) (c : Cond) (m : Meta) (t : Text) (h : c.ifNoneMatch = some (etag m))
    (hr : c.range = some t) (ht : calcRange t m.len = none) (ha : c.acceptRanges = none) (hi : c.ifRange = none) :
    ∃ r, fileResponse env c m = some r ∧ r.status = 416 := by
  have hn : notModified env c m = true := by simp [notModified, h]
  refine ⟨⟨416, .empty, some none⟩, ?_, rfl⟩
  unfold fileResponse
  rw [if_pos hn]
  unfold afterFile applyRange applyHead ifRangeOk
  rw [ha, hi, hr]
  cases c.head <;> simp [ht]

/-- **C72**, partial: a HEAD request gets no content when there is no If-Range header. -/
theorem C72_head_partial (env : CondEnv) (c : Cond) (m : Meta) (r : FResp) (hh : c.head = true) (hi : c.ifRange = none)
    (hr : fileResponse env c m = some r) : r.body = .empty := by
  have key : ∀ x y, afterFile env c m x = some y → y.body = .empty := by
    intro x y hy
    unfold afterFile applyHead ifRangeOk at hy
    rw [hi] at hy
    simp only [hh, if_true] at hy
    split at hy
    · cases ha : applyRange env c m x with
      | none => rw [ha] at hy; cases hy
      | some z => rw [ha] at hy; simp only [Option.map_some, Option.some.injEq] at hy; rw [← hy]
    · simp only [Option.some.injEq] at hy; rw [← hy]
  unfold fileResponse at hr
  split at hr
  · simp only [Option.some.injEq] at hr
    cases ha : afterFile env c m ⟨304, .empty, none⟩ with
    | none => rw [ha] at hr; rw [← hr]; rfl
    | some y => rw [ha] at hr; rw [← hr]; exact key _ y ha
  · exact key _ r hr

/-- **C72** fails: a HEAD request with an If-Range header that does not match gets the whole file. -/
theorem C72_if_range_fails (env : CondEnv) (c : Cond) (m : Meta) (v : Text) (hi : c.ifRange = some v) (hv : v ≠ etag m)
    (hl : env.lastMod v ≠ m.mtime.getD 0) (h1 : c.ifNoneMatch = none) (h2 : c.ifModifiedSince = none)
    (ha : c.acceptRanges = none) : fileResponse env c m = some ⟨200, .whole, none⟩ := by
  simp [fileResponse, notModified, afterFile, ifRangeOk, h1, h2, hi, ha, hv, hl]

example : fileResponse ⟨fun _ => 0, fun _ _ _ => none⟩ ⟨none, none, some ['x'], none, none, true⟩ ⟨5, some 7⟩
    = some ⟨200, .whole, none⟩ := by decide +kernel

/-! ### C73: validators -/

def hexVal (c : Char) : Nat := if c.toNat ≤ 57 then c.toNat - 48 else c.toNat - 87

theorem hexVal_fin : ∀ k : Fin 16, hexVal (hexChar k.val) = k.val := by decide

theorem hexVal_hexChar (d : Nat) : hexVal (hexChar d) = d % 16 := by
  have h := hexVal_fin ⟨d % 16, Nat.mod_lt _ (by decide)⟩
  have e : hexChar (d % 16) = hexChar d := by unfold hexChar; rw [Nat.mod_mod]
  simpa [e] using h

theorem hexChar_fin : ∀ k : Fin 16, hexChar k.val ≠ '-' := by decide

theorem hexChar_ne (d : Nat) : hexChar d ≠ '-' := by
  have h := hexChar_fin ⟨d % 16, Nat.mod_lt _ (by decide)⟩
  have e : hexChar (d % 16) = hexChar d := by unfold hexChar; rw [Nat.mod_mod]
  simpa [e] using h

theorem showHex_val (n : Nat) : (showHex n).foldl (fun a c => a * 16 + hexVal c) 0 = n := by
  induction n using Nat.strongRecOn with
  | ind n ih =>
    rw [showHex]
    split
    · simp only [List.foldl_cons, List.foldl_nil, hexVal_hexChar]; omega
    · rw [List.foldl_append, ih (n / 16) (by omega)]
      simp only [List.foldl_cons, List.foldl_nil, hexVal_hexChar]
      omega

theorem showHex_noDash (n : Nat) : '-' ∉ showHex n := by
  induction n using Nat.strongRecOn with
  | ind n ih =>
    rw [showHex]
    split
    · simp only [List.mem_singleton]; exact fun h => hexChar_ne n h.symm
    · simp only [List.mem_append, List.mem_singleton, not_or]
      exact ⟨ih (n / 16) (by omega), fun h => hexChar_ne _ h.symm⟩

theorem append_sep_inj {a a' b b' : Text} {c : Char} (ha : c ∉ a) (ha' : c ∉ a') (h : a ++ c :: b = a' ++ c :: b') :
    a = a' ∧ b = b' := by
  induction a generalizing a' with
  | nil =>
    cases a' with
    | nil => injection h with _ h; exact ⟨rfl, h⟩
    | cons x a' => injection h with h _; subst h; exact absurd List.mem_cons_self ha'
  | cons x a ih =>
    cases a' with
    | nil => injection h with h _; subst h; exact absurd List.mem_cons_self ha
    | cons y a' =>
      injection h with h1 h2
      obtain ⟨h3, h4⟩ := ih (fun hc => ha (List.mem_cons_of_mem _ hc)) (fun hc => ha' (List.mem_cons_of_mem _ hc)) h2
      exact ⟨by rw [h1, h3], h4⟩

/-- **C73** Two states of a file get the same ETag exactly if they have the same length and the same second of the last
    change. -/
theorem C73_etag (m m' : Meta) : etag m = etag m' ↔ m.len = m'.len ∧ m.mtime.getD 0 = m'.mtime.getD 0 := by
  constructor
  · intro h
    obtain ⟨h1, h2⟩ := append_sep_inj (showHex_noDash _) (showHex_noDash _) h
    refine ⟨?_, ?_⟩
    · rw [← showHex_val m.len, h2, showHex_val]
    · rw [← showHex_val (m.mtime.getD 0), h1, showHex_val]
  · rintro ⟨h1, h2⟩
    unfold etag
    rw [h1, h2]

example : etag ⟨255, some 4096⟩ = "1000-ff".toList := by decide +kernel

/-! ### C74, C75, C76 -/

/-- **C74** fails: the rate limit of a file server is never applied to a file, in no configuration. -/
theorem C74_rate_fails (e : Fs) (f : FileSrv) (path : Text) (accept : Option Text) (p : Text) (enc r : Option Text)
    (h : dealRequest e f path accept = .file p enc r) : r = none := by
  have hby : ∀ q, byFile e f accept q = .file p enc r → r = none := by
    intro q h
    unfold byFile at h
    split at h
    · injection h with _ _ h; exact h.symm
    · split at h
      · injection h with _ _ h; exact h.symm
      · cases h
  unfold dealRequest at h
  split at h
  · cases h
  · split at h
    · cases h
    · simp only at h
      split at h
      · cases h
      · split at h
        · cases h
        · split at h
          · split at h <;> cases h
          · split at h
            · cases h
            · exact hby _ h

/-- **C74**, partial: it is applied to directory pages. -/
theorem C74_listing_partial (e : Fs) (f : FileSrv) (path : Text) (accept : Option Text) (d : Text) (shown : List Text)
    (r : Option Text) (h : dealRequest e f path accept = .listing d shown r) : r = f.rate := by
  unfold dealRequest at h
  split at h
  · cases h
  · split at h
    · cases h
    · simp only at h
      split at h
      · cases h
      · split at h
        · cases h
        · split at h
          · split at h
            · cases h
            · injection h with _ _ h; exact h.symm
          · split at h
            · cases h
            · unfold byFile at h
              split at h
              · cases h
              · split at h <;> cases h

/-- **C75** fails: for an extension in the built-in table the configured type is ignored. -/
theorem C75_mime_fails (table : Text → Option Text) (f : FileSrv) (ext t : Text) (h : table ext = some t) :
    mimetype table f ext = t := by
  simp [mimetype, h]

/-- **C75**, partial: for other extensions the configured type is used, else the default. -/
theorem C75_mime_partial (table : Text → Option Text) (f : FileSrv) (ext : Text) (h : table ext = none)
    (hn : (f.extMime.map (·.1)).Nodup) :
    (∀ t, (ext, t) ∈ f.extMime → mimetype table f ext = t) ∧
    ((∀ t, (ext, t) ∉ f.extMime) → mimetype table f ext = f.defaultMime) := by
  unfold mimetype
  rw [h]
  simp only
  constructor
  · intro t ht
    have : f.extMime.find? (fun e => e.1 = ext) = some (ext, t) := by
      revert hn ht
      generalize f.extMime = l
      induction l with
      | nil => intro _ h; cases h
      | cons a l ih =>
        intro hn ht
        rw [List.map_cons, List.nodup_cons] at hn
        rcases List.mem_cons.1 ht with rfl | ht
        · simp
        · have : a.1 ≠ ext := by
            rintro rfl
            exact hn.1 (List.mem_map.2 ⟨_, ht, rfl⟩)
          rw [List.find?_cons_of_neg (by simpa using this)]
          exact ih hn.2 ht
    rw [this]
  · intro hno
    have : f.extMime.find? (fun e => e.1 = ext) = none := by
      rw [List.find?_eq_none]
      rintro ⟨a, t⟩ hmem
      simp only [decide_eq_true_eq]
      rintro rfl
      exact hno t hmem
    rw [this]

/-- `Url::url_decode` leaves the text before the first `%` as it is -/
def KeepsStart (decode : Text → Option Text) : Prop :=
  ∀ a b r, '%' ∉ a → decode (a ++ b) = some r → a <+: r

/-- **C76**, partial: with a prefix without `%`, no request makes the file server panic. -/
theorem C76_no_panic_partial (e : Fs) (f : FileSrv) (path : Text) (accept : Option Text) (hd : KeepsStart e.decode)
    (hp : '%' ∉ f.pfx) : dealRequest e f path accept ≠ .panic := by
  intro h
  unfold dealRequest at h
  split at h
  · cases h
  · split at h
    · cases h
    · rename_i hs
      obtain ⟨b, hb⟩ : ∃ b, path = f.pfx ++ b := by
        cases hs' : stripPrefix f.pfx path with
        | none => rw [hs'] at hs; exact absurd rfl hs
        | some b => exact ⟨b, stripPrefix_eq_some.1 hs'⟩
      have hpre : f.pfx <+: decoded e path := by
        unfold decoded
        split
        · cases hdec : e.decode path with
          | none => exact ⟨b, hb.symm⟩
          | some r => rw [hb] at hdec; exact hd _ _ _ hp hdec
        · exact ⟨b, hb.symm⟩
      simp only at h
      split at h
      · rename_i hn
        exact stripPrefix_eq_none.1 hn hpre
      · split at h
        · cases h
        · split at h
          · split at h <;> cases h
          · split at h
            · cases h
            · unfold byFile at h
              split at h
              · cases h
              · split at h <;> cases h

/-- percent decoding, for examples -/
def pct : Text → Text
  | '%' :: a :: b :: r => Char.ofNat (hexVal a * 16 + hexVal b) :: pct r
  | c :: r => c :: pct r
  | [] => []

theorem pct_keeps : KeepsStart (fun t => some (pct t)) := by
  intro a b r ha h
  injection h with h
  subst h
  induction a with
  | nil => exact List.nil_prefix
  | cons c a ih =>
    have hc : c ≠ '%' := fun hc => ha (hc ▸ List.mem_cons_self)
    have : pct (c :: a ++ b) = c :: pct (a ++ b) := by
      rw [List.cons_append, pct]
      intro x y z h _
      exact hc h
    rw [this]
    exact List.cons_prefix_cons.2 ⟨rfl, ih (fun hm => ha (List.mem_cons_of_mem _ hm))⟩

/-- **C76** fails: a request below the prefix of the location panics whenever its percent-decoded path does not begin with this
    prefix. -/
theorem C76_panic_fails (e : Fs) (f : FileSrv) (path d : Text) (accept : Option Text) (hrob : f.robots = none)
    (hp : f.pfx <+: path) (hpct : '%' ∈ path) (hd : e.decode path = some d) (hn : ¬ f.pfx <+: d) :
    dealRequest e f path accept = .panic := by
  obtain ⟨t, ht⟩ := hp
  have h1 : stripPrefix f.pfx path = some t := stripPrefix_eq_some.2 ht.symm
  have h2 : decoded e path = d := by unfold decoded; rw [if_pos hpct, hd]; rfl
  have h3 : stripPrefix f.pfx d = none := stripPrefix_eq_none.2 hn
  unfold dealRequest
  simp [h1, h2, h3, hrob]

/-- with a prefix that contains a percent-encoded character every request for it panics -/
example :
    let f : FileSrv := { demoSrv with pfx := "/a%20b".toList }
    let e : Fs := { demoFs [] with decode := fun t => some (pct t) }
    dealRequest e f "/a%20b/x".toList none = .panic :=
  C76_panic_fails _ _ _ "/a b/x".toList _ rfl (by decide +kernel) (by decide) (by decide +kernel) (by decide +kernel)

/-- **C49** fails also when the server library removes `..` from request paths: it may be encoded. Whatever the path becomes when
    it is decoded is put behind the root, for every decoding. -/
theorem C49_encoded_fails (e : Fs) (f : FileSrv) (root path rest : Text) (hroot : f.root = some root) (hr : root ≠ [])
    (hrob : f.robots = none) (hhide : f.hide = []) (hp : f.pfx <+: path) (hpct : '%' ∈ path)
    (hd : e.decode path = some (f.pfx ++ '/' :: rest))
    (hdir : e.isDir (root ++ '/' :: rest) = false) (hex : e.ex (root ++ '/' :: rest) = true) :
    dealRequest e f path none = .file (root ++ '/' :: rest) none none := by
  have hh : ∀ t, isHide f t = false := fun t => by unfold isHide; rw [hhide]; rfl
  have hw : withIndex e f (root ++ withSlash ('/' :: rest)) = root ++ '/' :: rest := withIndex_file hdir
  have key := deal_known (e := e) (f := f) (path := path) (h := '/' :: rest) hroot hr hrob hp
    (by unfold decoded; rw [if_pos hpct, hd]; rfl) (hh _) (by rw [hw]; exact hdir) (hh _) (by rw [hw]; exact hex)
  rw [key, hw]

/-- a path without `..` gets the file `/k` -/
example : NoUp "/a/%2e%2e/k".toList ∧
    dealRequest { demoFs "/s/../k".toList with decode := fun t => some (pct t) } demoSrv "/a/%2e%2e/k".toList none
      = .file "/s/../k".toList none none :=
  ⟨by unfold NoUp; decide +kernel,
    C49_encoded_fails { demoFs "/s/../k".toList with decode := fun t => some (pct t) } demoSrv "/s".toList _ "../k".toList rfl
      (by decide) rfl rfl (by decide +kernel) (by decide +kernel) (by decide +kernel) rfl (by decide +kernel)⟩

end Wm.Files
