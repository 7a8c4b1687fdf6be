import Verif.Model.Helper
import Verif.Proofs.Text
import Mathlib.Data.List.Induction
/-! Properties C33, C34, C36, C37: wildcard rules, header rewriting, pid files. -/
namespace Wm.Helper
open Wm Wm.Config

/-! ### C33, C34: wildcards -/

/-- `Glob p s`: the text `s` is the pattern `p` with each `*` replaced by some text. -/
inductive Glob : Text → Text → Prop where
  | nil : Glob [] []
  | char {c : Char} {p s : Text} : c ≠ '*' → Glob p s → Glob (c :: p) (c :: s)
  | star {p s : Text} (t : Text) : Glob p s → Glob ('*' :: p) (t ++ s)

/-- the pieces of a pattern in a text, with anything between them -/
def Seg : List Text → Text → Prop
  | [], _ => False
  | [a], s => s = a
  | a :: b :: ps, s => ∃ t r, s = a ++ (t ++ r) ∧ Seg (b :: ps) r

theorem glob_seg (p s : Text) : Glob p s ↔ Seg (splitOn (fun c => decide (c = '*')) p) s := by
  induction p generalizing s with
  | nil =>
    constructor
    · rintro ⟨⟩; rfl
    · intro h
      have : s = [] := h
      subst this; exact .nil
  | cons c p ih =>
    simp only [splitOn]
    by_cases hc : c = '*'
    · subst hc
      simp only [decide_true, if_true]
      obtain ⟨q, qs, hq⟩ : ∃ q qs, splitOn (fun c => decide (c = '*')) p = q :: qs := by
        cases h : splitOn (fun c => decide (c = '*')) p with
        | nil => exact absurd h (splitOn_ne_nil _ _)
        | cons q qs => exact ⟨q, qs, rfl⟩
      rw [hq] at ih ⊢
      constructor
      · intro h
        cases h with
        | char h' _ => exact absurd rfl h'
        | star t h => exact ⟨t, _, rfl, (ih _).1 h⟩
      · rintro ⟨t, r, rfl, h⟩
        exact .star t ((ih _).2 h)
    · simp only [hc, decide_false, Bool.false_eq_true, if_false]
      cases h : splitOn (fun c => decide (c = '*')) p with
      | nil => exact absurd h (splitOn_ne_nil _ _)
      | cons q qs =>
        simp only
        rw [h] at ih
        constructor
        · intro hg
          cases hg with
          | star t h => exact absurd rfl hc
          | char _ hg =>
            have := (ih _).1 hg
            cases qs with
            | nil =>
              have hs : _ = q := this
              subst hs; rfl
            | cons q' qs =>
              obtain ⟨t, r, rfl, h2⟩ := this
              exact ⟨t, r, rfl, h2⟩
        · intro hs
          cases qs with
          | nil =>
            have hs' : s = c :: q := hs
            subst hs'
            exact .char hc ((ih _).2 rfl)
          | cons q' qs =>
            obtain ⟨t, r, rfl, h2⟩ := hs
            exact .char hc ((ih _).2 ⟨t, r, rfl, h2⟩)

theorem findAfter_some {p s r : Text} (h : findAfter p s = some r) : ∃ u, s = u ++ (p ++ r) := by
  induction s with
  | nil =>
    have h' : stripPrefix p [] = some r := h
    exact ⟨[], by rw [List.nil_append]; exact stripPrefix_eq_some.1 h'⟩
  | cons c s ih =>
    simp only [findAfter] at h
    cases hp : stripPrefix p (c :: s) with
    | some r' =>
      rw [hp] at h; injection h with h; subst h
      exact ⟨[], by rw [List.nil_append]; exact stripPrefix_eq_some.1 hp⟩
    | none =>
      rw [hp] at h
      obtain ⟨u, hu⟩ := ih h
      exact ⟨c :: u, by rw [hu]; rfl⟩

/-- the leftmost occurrence leaves the most text -/
theorem findAfter_most {p s u v : Text} (h : s = u ++ (p ++ v)) : ∃ w, findAfter p s = some (w ++ v) := by
  induction s generalizing u with
  | nil =>
    have h0 : u = [] ∧ p = [] ∧ v = [] := by simpa using h.symm
    obtain ⟨rfl, rfl, rfl⟩ := h0
    exact ⟨[], rfl⟩
  | cons c s ih =>
    simp only [findAfter]
    cases hp : stripPrefix p (c :: s) with
    | some r =>
      have e := stripPrefix_eq_some.1 hp
      rw [h] at e
      have hl : v.length ≤ r.length := by
        have := congrArg List.length e
        simp only [List.length_append] at this; omega
      have hsuf : v <:+ r := by
        have h1 : v <:+ p ++ r := ⟨u ++ p, by rw [List.append_assoc]; exact e⟩
        exact List.suffix_of_suffix_length_le h1 ⟨p, rfl⟩ hl
      obtain ⟨w, rfl⟩ := hsuf
      exact ⟨w, rfl⟩
    | none =>
      cases u with
      | nil => rw [h, List.nil_append, stripPrefix_append] at hp; simp at hp
      | cons d u =>
        rw [List.cons_append] at h
        injection h with h1 h2
        exact ih h2

/-- the last pieces of a pattern can be found in a longer text as well -/
theorem rest_iff (ps : List Text) (hne : ps ≠ []) (s : Text) :
    matchRest ps s = true ↔ ∃ t r, s = t ++ r ∧ Seg ps r := by
  induction ps generalizing s with
  | nil => exact absurd rfl hne
  | cons a ps ih =>
    cases ps with
    | nil =>
      simp only [matchRest, Option.isSome_iff_exists, stripSuffix_eq_some, Seg]
      constructor
      · rintro ⟨r, h⟩; exact ⟨r, a, h, rfl⟩
      · rintro ⟨t, r, h, rfl⟩; exact ⟨t, h⟩
    | cons b ps =>
      simp only [matchRest]
      constructor
      · cases hf : findAfter a s with
        | none => simp
        | some r =>
          intro h
          obtain ⟨u, hu⟩ := findAfter_some hf
          obtain ⟨t, r', rfl, hs⟩ := (ih (by simp) r).1 h
          exact ⟨u, a ++ (t ++ r'), hu, t, r', rfl, hs⟩
      · rintro ⟨t, r, rfl, t', r', rfl, hs⟩
        obtain ⟨w, hw⟩ := findAfter_most (p := a) (s := t ++ (a ++ (t' ++ r'))) (u := t) (v := t' ++ r') rfl
        rw [hw]
        refine (ih (by simp) _).2 ⟨w ++ t', r', by simp, hs⟩

/-- **C33** For every pattern with at least one `*`, a path matches exactly when it is the pattern with each `*` replaced
    by some text. -/
theorem C33_wildcards (src pattern : Text) (h : '*' ∈ pattern) : isMatch src pattern = true ↔ Glob pattern src := by
  rw [glob_seg]
  unfold isMatch
  obtain ⟨a, c, rfl, ha⟩ : ∃ a c, pattern = a ++ '*' :: c ∧ '*' ∉ a := by
    obtain ⟨a, c, h1, h2⟩ := List.eq_append_cons_of_mem h
    exact ⟨a, c, h1, h2⟩
  rw [splitOn_sep _ a c '*' (by intro x hx; rw [decide_eq_false_iff_not]; rintro rfl; exact ha hx) (by simp)]
  obtain ⟨q, qs, hq⟩ : ∃ q qs, splitOn (fun c => decide (c = '*')) c = q :: qs := by
    cases h : splitOn (fun c => decide (c = '*')) c with
    | nil => exact absurd h (splitOn_ne_nil _ _)
    | cons q qs => exact ⟨q, qs, rfl⟩
  rw [hq]
  simp only [Seg]
  constructor
  · cases hp : stripPrefix a src with
    | none => simp
    | some r =>
      intro hm
      obtain ⟨t, r', rfl, hs⟩ := (rest_iff _ (by simp) r).1 hm
      exact ⟨t, r', stripPrefix_eq_some.1 hp, hs⟩
  · rintro ⟨t, r, rfl, hs⟩
    rw [stripPrefix_append]
    exact (rest_iff _ (by simp) _).2 ⟨t, r, rfl, hs⟩

example : isMatch "/wmproxy/is_good".toList "*wmproxy*good".toList = true ∧
    isMatch "/wmproxy/is_good".toList "*wmproxy*bad".toList = false := by decide +kernel

/-- **C34** fails: a rule without `*` matches exactly the paths that begin with it. -/
theorem C34_prefix_fails (src pattern : Text) (h : '*' ∉ pattern) : isMatch src pattern = true ↔ pattern <+: src := by
  unfold isMatch
  rw [splitOn_none _ _ (by intro x hx; rw [decide_eq_false_iff_not]; rintro rfl; exact h hx)]
  simp only [matchRest]
  cases hp : stripPrefix pattern src with
  | some r => simp only [true_iff]; exact ⟨r, (stripPrefix_eq_some.1 hp).symm⟩
  | none => simp only [Bool.false_eq_true, false_iff]; exact stripPrefix_eq_none.1 hp

/-- for instance the rule "/admin" matches "/administrator" -/
example : isMatch "/administrator".toList "/admin".toList = true := by decide +kernel

/-- **C34**, partial: at least the path itself always matches, and a path that does not begin with the rule never
    does. -/
theorem C34_exact_partial (src pattern : Text) (h : '*' ∉ pattern) :
    isMatch pattern pattern = true ∧ (¬ pattern <+: src → isMatch src pattern = false) := by
  refine ⟨(C34_prefix_fails _ _ h).2 (List.prefix_refl _), fun hn => ?_⟩
  rw [Bool.eq_false_iff]
  exact fun hc => hn ((C34_prefix_fails _ _ h).1 hc)

/-! ### C36: header rewriting -/

/-- a rule is applied to this side -/
def applies (req : Bool) (r : HeaderRule) : Bool := r.isProxy == req

/-- the values of a header -/
def values (w : Headers) (hs : List (Text × Text)) (k : Text) : List Text :=
  (hs.filter (fun e => w.same k e.1)).map Prod.snd

/-- the headers not named by any applied rule -/
def untouched (w : Headers) (req : Bool) (rs : List HeaderRule) (hs : List (Text × Text)) : List (Text × Text) :=
  hs.filter fun e => rs.all fun r => !(applies req r && w.same r.key e.1)

theorem rewriteHeader_others (w : Headers) (hs : List (Text × Text)) (r : HeaderRule) (f : Text × Text → Bool)
    (hf : ∀ e, f e = true → w.same r.key e.1 = false) : (rewriteHeader w hs r).filter f = hs.filter f := by
  have hnew : ∀ v, f (r.key, v) = false := by
    intro v
    rw [Bool.eq_false_iff]; intro h
    have := hf _ h
    simp [w.same_refl] at this
  have hdel : (w.remove r.key hs).filter f = hs.filter f := by
    have h1 : ∀ l : List (Text × Text), l.filter f = (l.filter (fun e => !w.same r.key e.1)).filter f := by
      intro l
      rw [List.filter_filter]
      apply List.filter_congr
      intro e _
      by_cases h : f e = true
      · simp [h, hf e h]
      · simp [h]
    rw [h1, w.remove_others, ← h1]
  unfold rewriteHeader
  cases r.oper with
  | add => simp [hnew]
  | del => exact hdel
  | default =>
    simp only
    split
    · rfl
    · simp [hnew]
  | replace => simp [hnew]

/-- **C36** (other headers) Whatever the rules, headers not named by a rule for this side are unchanged and keep their
    order. -/
theorem C36_others_unchanged (w : Headers) (req : Bool) (rs : List HeaderRule) (hs : List (Text × Text)) :
    untouched w req rs (rewriteAll w req rs hs) = untouched w req rs hs := by
  suffices h : ∀ (f : Text × Text → Bool), (∀ e, f e = true → ∀ r ∈ rs, applies req r = true → w.same r.key e.1 = false) →
      ∀ hs, (rewriteAll w req rs hs).filter f = hs.filter f by
    apply h
    intro e he r hr ha
    have := List.all_eq_true.1 he r hr
    simpa [ha] using this
  intro f hf
  induction rs with
  | nil => intro hs; rfl
  | cons r rs ih =>
    intro hs
    have ih := ih (fun e he r hr => hf e he r (by simp [hr]))
    simp only [rewriteAll]
    split
    · rename_i ha
      rw [ih, rewriteHeader_others w hs r f]
      intro e he
      exact hf e he r (by simp) (by simp [applies, ha])
    · exact ih hs

/-- **C36** (other side) Rules for the other side have no effect. -/
theorem C36_other_side (w : Headers) (req : Bool) (rs : List HeaderRule) (hs : List (Text × Text)) :
    rewriteAll w req rs hs = rewriteAll w req (rs.filter (applies req)) hs := by
  induction rs generalizing hs with
  | nil => rfl
  | cons r rs ih =>
    simp only [rewriteAll, List.filter_cons]
    by_cases h : r.isProxy = req
    · rw [if_pos h, if_pos (by simp [applies, h]), rewriteAll, if_pos h, ih]
    · rw [if_neg h, if_neg (by simp [applies, h]), ih]

theorem rewriteAll_snoc (w : Headers) (req : Bool) (rs : List HeaderRule) (r : HeaderRule) (hs : List (Text × Text))
    (ha : r.isProxy = req) : rewriteAll w req (rs ++ [r]) hs = rewriteHeader w (rewriteAll w req rs hs) r := by
  induction rs generalizing hs with
  | nil => simp [rewriteAll, ha]
  | cons q rs ih =>
    simp only [List.cons_append, rewriteAll]
    split <;> exact ih _

/-- **C36** (effects) After an add rule the value is there besides the earlier ones; after a remove rule the header is
    absent; a default rule sets the value when the header was absent and leaves it alone otherwise. (The last rule of
    any rule list, on any headers.) -/
theorem C36_effects (w : Headers) (req : Bool) (rs : List HeaderRule) (r : HeaderRule) (hs : List (Text × Text))
    (ha : r.isProxy = req) :
    let before := rewriteAll w req rs hs
    let after := rewriteAll w req (rs ++ [r]) hs
    (r.oper = .add → values w after r.key = values w before r.key ++ [w.conv before r.val]) ∧
    (r.oper = .del → values w after r.key = []) ∧
    (r.oper = .default → values w before r.key = [] → values w after r.key = [w.conv before r.val]) ∧
    (r.oper = .default → values w before r.key ≠ [] → after = before) := by
  simp only
  rw [rewriteAll_snoc w req rs r hs ha]
  generalize rewriteAll w req rs hs = b
  have hany : values w b r.key = [] ↔ b.any (fun e => w.same r.key e.1) = false := by
    unfold values
    rw [List.map_eq_nil_iff, List.filter_eq_nil_iff, List.any_eq_false]
  refine ⟨fun h => ?_, fun h => ?_, fun h hv => ?_, fun h hv => ?_⟩
  · simp [rewriteHeader, h, values, w.same_refl]
  · simp only [rewriteHeader, h, values]
    rw [List.map_eq_nil_iff, List.filter_eq_nil_iff]
    intro e he; simp [w.remove_all _ _ e he]
  · simp only [rewriteHeader, h, hany.1 hv, Bool.false_eq_true, if_false]
    have hv' := hv
    unfold values at hv' ⊢
    rw [List.filter_append, List.map_append, hv']
    simp [w.same_refl]
  · have : b.any (fun e => w.same r.key e.1) = true := by
      cases hb : b.any (fun e => w.same r.key e.1) with
      | true => rfl
      | false => exact absurd (hany.2 hb) hv
    simp only [rewriteHeader, h, this, if_true]

/-- **C36** fails for replace: the old values stay, the new one is only added. -/
theorem C36_replace_fails (w : Headers) (r : HeaderRule) (hs : List (Text × Text)) (h : r.oper = .replace) :
    values w (rewriteHeader w hs r) r.key = values w hs r.key ++ [w.conv hs r.val] := by
  simp [rewriteHeader, h, values, w.same_refl]

/-- a header collection with exact names -/
def exactHeaders : Headers where
  same a b := a == b
  remove k h := h.filter (fun e => !(k == e.1))
  conv _ v := v
  same_refl := by simp
  same_symm := by intro a b; rw [Bool.eq_iff_iff]; simp only [beq_iff_eq]; exact eq_comm
  same_trans := by simp +contextual
  remove_others := by intro k h; rw [List.filter_filter]; simp
  remove_all := by intro k h e he; rw [List.mem_filter] at he; simpa using he.2

example : rewriteAll exactHeaders true [⟨.del, true, ['A'], []⟩, ⟨.add, true, ['B'], ['2']⟩, ⟨.add, false, ['C'], ['3']⟩,
      ⟨.replace, true, ['D'], ['5']⟩] [(['A'], ['1']), (['D'], ['4'])]
    = [(['D'], ['4']), (['B'], ['2']), (['D'], ['5'])] := by decide +kernel

/-! ### C37: pid files -/

theorem showNat_inj {a b : Nat} (h : showNat a = showNat b) : a = b := by
  have := congrArg (parseDigits 0) h
  rw [parseDigits_showNat, parseDigits_showNat] at this
  injection this

/-- one whole call of a process -/
inductive PidCall where
  | create (p : Nat) | remove (p : Nat)
deriving DecidableEq, Repr

/-- the steps of a call made without interruption -/
def PidCall.steps : PidCall → List PidEvent
  | .create p => [.create p]
  | .remove p => [.check p, .unlink p]

/-- the number of the process that wrote the file, according to the calls alone -/
def owner : List PidCall → Option Nat
  | [] => none
  | cs => cs.foldl (fun o c => match c with
      | .create p => some p
      | .remove p => if o = some p then none else o) none

theorem owner_eq (cs : List PidCall) : owner cs = cs.foldl (fun o c => match c with
      | .create p => some p
      | .remove p => if o = some p then none else o) none := by cases cs <;> rfl

/-- **C37**, partial: when removals are not interrupted, then after any sequence of calls by any processes the file
    holds exactly the pid of its last creator unless that process removed it, and every deletion was made by the
    process whose pid was in the file. Missing: interrupted removals, see `C37_race_fails`. -/
theorem C37_own_file_partial (cs : List PidCall) :
    (pidRun (cs.flatMap PidCall.steps)).file = (owner cs).map showNat ∧
    (pidRun (cs.flatMap PidCall.steps)).armed = [] ∧
    ∀ p t, (p, t) ∈ (pidRun (cs.flatMap PidCall.steps)).deleted → t = showNat p := by
  induction cs using List.reverseRecOn with
  | nil => exact ⟨rfl, rfl, by simp [pidRun]⟩
  | append_singleton cs c ih =>
    obtain ⟨h1, h2, h3⟩ := ih
    rw [owner_eq] at h1 ⊢
    rw [List.flatMap_append, List.flatMap_singleton, List.foldl_append, pidRun, List.foldl_append]
    rw [show (cs.flatMap PidCall.steps).foldl pidStep ⟨none, [], []⟩ = pidRun (cs.flatMap PidCall.steps) from rfl]
    generalize pidRun (cs.flatMap PidCall.steps) = s at *
    generalize List.foldl _ none cs = o at *
    cases c with
    | create p => exact ⟨rfl, h2, h3⟩
    | remove p =>
      simp only [PidCall.steps, List.foldl_cons, List.foldl_nil]
      by_cases ho : o = some p
      · subst ho
        have hf : s.file = some (showNat p) := h1
        simp only [pidStep, hf, if_true, List.mem_cons, true_or]
        refine ⟨rfl, by simp [h2], ?_⟩
        intro q t hq
        simp only [List.mem_append, List.mem_singleton, Prod.mk.injEq] at hq
        rcases hq with hq | ⟨rfl, rfl⟩
        · exact h3 q t hq
        · rfl
      · have hf : s.file ≠ some (showNat p) := by
          rw [h1]
          cases o with
          | none => simp
          | some q =>
            simp only [Option.map_some, ne_eq, Option.some.injEq]
            intro hc; exact ho (by rw [showNat_inj hc])
        have h2' : p ∉ s.armed := by rw [h2]; simp
        simp only [pidStep, if_neg hf, if_neg h2', if_neg ho]
        exact ⟨h1, h2, h3⟩

example : let s := pidRun ([PidCall.create 7, .remove 8, .create 9, .remove 7, .remove 9].flatMap PidCall.steps)
    s.file = none ∧ s.deleted = [(9, showNat 9)] := by decide +kernel

/-- **C37** (restores absence) Creating and then removing leaves no file. -/
theorem C37_create_remove (cs : List PidCall) (p : Nat) :
    (pidRun ((cs ++ [PidCall.create p, PidCall.remove p]).flatMap PidCall.steps)).file = none := by
  rw [(C37_own_file_partial _).1, owner_eq]
  simp [List.foldl_append]

/-- **C37** fails under interleaving: after any history, if a process writes its pid between the check and the deletion of
    another (a restart while the old process ends), then the other deletes this file, and no file is left. -/
theorem C37_race_fails (es : List PidEvent) (p q : Nat) :
    (pidRun (es ++ [.create p, .check p, .create q, .unlink p])).file = none ∧
    (pidRun (es ++ [.create p, .check p, .create q, .unlink p])).deleted = (pidRun es).deleted ++ [(p, showNat q)] := by
  unfold pidRun
  rw [List.foldl_append]
  generalize List.foldl pidStep ⟨none, [], []⟩ es = s
  simp [pidStep]

/-- process 7 ends while process 8 starts -/
example : (pidRun [.create 7, .check 7, .create 8, .unlink 7]).deleted = [(7, showNat 8)] := by decide +kernel

end Wm.Helper
