import Verif.Model.Rewrite
import Verif.Props.Texts
import Verif.Props.Inherit
import Verif.Props.Log
/-! Properties C136 and C137: entries of try lists, with their caches, and fixed answers. -/
namespace Wm.Rewrite
open Wm Wm.Log Wm.Config Wm.Reverse Wm.Texts

variable {R : Type}

/-! ### Specification -/

/-- the text consists of these words, each plain or in quotes that it does not contain, with whitespace between them, and possibly
    before and after them -/
def Written (t : Text) (words : List Text) : Prop :=
  ∃ (lead : Text) (ws : List (Quoting × Text × Text)) (last : Quoting × Text) (trail : Text),
    t = lead ++ (ws.flatMap (fun x => x.1.write x.2.1 ++ x.2.2) ++ last.1.write last.2) ++ trail ∧
    (∀ c ∈ lead, isWs c = true) ∧ (∀ c ∈ trail, isWs c = true) ∧
    (∀ x ∈ ws, x.1.Fits x.2.1 ∧ x.2.2 ≠ [] ∧ ∀ c ∈ x.2.2, isWs c = true) ∧ last.1.Fits last.2 ∧
    words = ws.map (fun x => x.2.1) ++ [last.2]

/-- texts, with blanks between them -/
def joined : List Text → Text
  | [] => []
  | t :: ts => t ++ ts.flatMap (' ' :: ·)

/-! ### The caches -/

/-- what is in the caches is what would be made anew -/
def Caches.Good (k : Classes) (x : Regexes R) (c : Caches R) : Prop :=
  (∀ p cs, c.patterns.get p = some cs → cs = chunksOf (parse k p)) ∧
  (∀ p re, c.regexes.get p = some re → x.compile p = some re)

theorem pattern_result (k : Classes) (x : Regexes R) (c : Caches R) (h : c.Good k x) (p : Text) :
    (pattern k c p).1 = chunksOf (parse k p) := by
  unfold pattern
  split
  · rename_i cs hcs; exact h.1 p cs hcs
  · rfl

theorem pattern_good (k : Classes) (x : Regexes R) (c : Caches R) (h : c.Good k x) (p : Text) : (pattern k c p).2.Good k x := by
  unfold pattern
  split
  · exact h
  · refine ⟨?_, h.2⟩
    intro q cs hq
    rw [Table.get_put] at hq
    split at hq
    · rename_i he; simp only [Option.some.injEq] at hq; simp only at he; rw [← hq, ← he]
    · exact h.1 q cs hq

theorem tryRegex_result (k : Classes) (x : Regexes R) (c : Caches R) (h : c.Good k x) (p : Text) :
    (tryRegex x c p).1 = if p = [] then none else x.compile p := by
  unfold tryRegex
  split
  · rfl
  · split
    · rename_i re hre; exact (h.2 p re hre).symm
    · split <;> (rename_i hc; exact hc.symm)

theorem tryRegex_good (k : Classes) (x : Regexes R) (c : Caches R) (h : c.Good k x) (p : Text) : (tryRegex x c p).2.Good k x := by
  unfold tryRegex
  split
  · exact h
  · split
    · exact h
    · split
      · rename_i re hre
        refine ⟨h.1, ?_⟩
        intro q r hq
        rw [Table.get_put] at hq
        split at hq
        · rename_i he; simp only [Option.some.injEq] at hq; simp only at he; rw [← hq, ← he]; exact hre
        · exact h.2 q r hq
      · exact h

theorem after_good (k : Classes) (x : Regexes R) (es : List Asked) : (Caches.after k x es).Good k x := by
  unfold Caches.after
  have : ∀ (es : List Asked) (c : Caches R), c.Good k x → (es.foldl (Caches.step k x) c).Good k x := by
    intro es
    induction es with
    | nil => exact fun _ h => h
    | cons e es ih =>
      intro c h
      refine ih _ ?_
      cases e with
      | format p => exact pattern_good k x c h p
      | regex p => exact tryRegex_good k x c h p
  exact this es _ ⟨by simp [Caches.empty, Table.get], by simp [Caches.empty, Table.get]⟩

theorem formatCached_result (k : Classes) (x : Regexes R) (c : Caches R) (h : c.Good k x) (rec : Rec) (p : Text) :
    (formatCached k c rec p).1 = formatReq k rec p := by
  unfold formatCached formatReq
  rw [pattern_result k x c h]
  cases encodeList rec (.sink [] []) (chunksOf (parse k p)) <;> rfl

/-! ### Words -/

theorem write_head {q : Quoting} {w : Text} (h : q.Fits w) : q.write w ≠ [] ∧ (∀ c ∈ (q.write w).head?, isWs c = false) ∧
    ∀ c ∈ (q.write w).getLast?, isWs c = false := by
  cases q with
  | plain =>
    refine ⟨h.1, fun c hc => (h.2 c (List.mem_of_mem_head? hc)).1, fun c hc => (h.2 c (List.mem_of_mem_getLast? hc)).1⟩
  | double =>
    refine ⟨by simp [Quoting.write], ?_, ?_⟩
    · intro c hc; simp [Quoting.write] at hc; subst hc; decide
    · intro c hc
      have : (Quoting.write .double w).getLast? = some '"' := by
        show (('"' :: w) ++ ['"']).getLast? = _
        rw [List.getLast?_append]; rfl
      rw [this] at hc; simp at hc; subst hc; decide
  | single =>
    refine ⟨by simp [Quoting.write], ?_, ?_⟩
    · intro c hc; simp [Quoting.write] at hc; subst hc; decide
    · intro c hc
      have : (Quoting.write .single w).getLast? = some '\'' := by
        show (('\'' :: w) ++ ['\'']).getLast? = _
        rw [List.getLast?_append]; rfl
      rw [this] at hc; simp at hc; subst hc; decide

theorem trim_around (lead v trail : Text) (hv : v ≠ []) (ht : Trimmed v) (hl : ∀ c ∈ lead, isWs c = true)
    (hr : ∀ c ∈ trail, isWs c = true) : trim (lead ++ v ++ trail) = v := by
  unfold trim trimStart
  rw [List.append_assoc, List.dropWhile_append_of_pos hl]
  have : (v ++ trail).dropWhile isWs = v ++ trail := dropWhile_of_head _ _ (by
    intro c hc
    cases v with
    | nil => exact absurd rfl hv
    | cons d v => exact ht.1 c (by simpa using hc))
  rw [this, trimEnd_append _ _ _ hr]
  have := trim_of_trimmed ht
  unfold trim trimStart at this
  rwa [dropWhile_of_head _ _ ht.1] at this

theorem Written.split {t : Text} {words : List Text} (h : Written t words) :
    splitQuoted (trim t) = words ∧ (2 ≤ words.length → (trim t).any isWs = true) := by
  obtain ⟨lead, ws, last, trail, rfl, hl, hr, hw, hlast, rfl⟩ := h
  obtain ⟨hn, hh, ht⟩ := write_head hlast
  have htr : trim (lead ++ (ws.flatMap (fun x => x.1.write x.2.1 ++ x.2.2) ++ last.1.write last.2) ++ trail)
      = ws.flatMap (fun x => x.1.write x.2.1 ++ x.2.2) ++ last.1.write last.2 := by
    refine trim_around _ _ _ (by simp [hn]) ⟨?_, ?_⟩ hl hr
    · intro c hc
      cases ws with
      | nil => exact hh c (by simpa using hc)
      | cons y ws =>
        obtain ⟨gn, gh, _⟩ := write_head (hw y (by simp)).1
        apply gh
        rw [List.flatMap_cons] at hc
        cases hy : y.1.write y.2.1 with
        | nil => exact absurd hy gn
        | cons d ds => rw [hy] at hc; simpa using hc
    · intro c hc
      rw [List.getLast?_append] at hc
      cases hl' : (last.1.write last.2).getLast? with
      | none => rw [List.getLast?_eq_none_iff] at hl'; exact absurd hl' hn
      | some d => rw [hl'] at hc; exact ht c (by rw [hl']; simpa using hc)
  rw [htr]
  constructor
  · have := C35_split_words [] (by simp) ws hw (some last) (by intro y hy; simp at hy; subst hy; exact hlast)
    simpa using this
  · intro h2
    cases ws with
    | nil => simp at h2
    | cons y ws =>
      obtain ⟨_, g1, g2⟩ := hw y (by simp)
      rw [List.any_eq_true]
      cases hs : y.2.2 with
      | nil => exact absurd hs g1
      | cons d ds => exact ⟨d, by simp [List.flatMap_cons, hs], g2 d (by simp [hs])⟩

theorem replaceEach_joined (x : Regexes R) (re : R) (key : Text) (vs : List Text) :
    replaceEach x re key vs = joined (vs.map (x.replaceAll re key)) := by
  induction vs with
  | nil => rfl
  | cons v vs ih =>
    cases vs with
    | nil => simp [replaceEach, joined]
    | cons w ws => rw [replaceEach, ih]; simp [joined]; simp

/-! ### C136 -/

/-- **C136** (plain): an entry without whitespace inside stands for the request printed in this format. -/
theorem C136_plain (k : Classes) (x : Regexes R) (es : List Asked) (rec : Rec) (lead t trail : Text)
    (ht : ∀ c ∈ t, isWs c = false) (hn : t ≠ []) (hl : ∀ c ∈ lead, isWs c = true) (hr : ∀ c ∈ trail, isWs c = true) :
    (formatMay k x (Caches.after k x es) rec (lead ++ t ++ trail)).1 = formatReq k rec t := by
  have htr := trim_around lead t trail hn (trimmed_of ht) hl hr
  have ha : t.any isWs = false := by rw [List.any_eq_false]; intro c hc; simp [ht c hc]
  unfold formatMay
  simp only [htr, ha, Bool.false_eq_true, if_false]
  exact formatCached_result k x _ (after_good k x es) rec t

theorem formatMay_words (k : Classes) (x : Regexes R) (c : Caches R) (hg : c.Good k x) (rec : Rec) (t rx : Text) (v : Text)
    (vs : List Text) (hw : Written t (rx :: v :: vs)) :
    (formatMay k x c rec t).1 = match (if rx = [] then none else x.compile rx) with
      | some re => (match formatReq k rec v with
        | .ok key => .ok (joined (vs.map (x.replaceAll re key)))
        | r => r)
      | none => formatReq k rec (trim t) := by
  obtain ⟨h1, h2⟩ := hw.split
  unfold formatMay
  simp only [h1, h2 (by simp), if_true]
  have hr := tryRegex_result k x c hg rx
  have hg' := tryRegex_good k x c hg rx
  rw [← hr]
  generalize tryRegex x c rx = p at *
  obtain ⟨o, c'⟩ := p
  cases o with
  | none => exact formatCached_result k x c' hg' rec _
  | some re =>
    simp only [operRegex]
    have hf := formatCached_result k x c' hg' rec v
    generalize formatCached k c' rec v = q at *
    obtain ⟨r, c''⟩ := q
    simp only at hf
    subst hf
    cases formatReq k rec v <;> simp [replaceEach_joined]

/-- **C136** (rewriting): an entry of three words or more — a regular expression, a format, and replacements — stands for the
    request printed in the format, with all matches of the expression replaced; several replacements yield several texts, with
    blanks between them. This does not depend on what was asked before, though expressions and formats are kept. -/
theorem C136_rewrite (k : Classes) (x : Regexes R) (es : List Asked) (rec : Rec) (t rx fmt : Text) (reps : List Text)
    (hw : Written t (rx :: fmt :: reps)) (hrx : rx ≠ []) (re : R) (hre : x.compile rx = some re) (key : Text)
    (hk : formatReq k rec fmt = .ok key) :
    (formatMay k x (Caches.after k x es) rec t).1 = .ok (joined (reps.map (x.replaceAll re key))) := by
  rw [formatMay_words k x _ (after_good k x es) rec t rx fmt reps hw, if_neg hrx, hre, hk]

/-- **C136** (kept): whatever was asked before, the answer is that of a process which has kept nothing. -/
theorem C136_kept (k : Classes) (x : Regexes R) (es : List Asked) (rec : Rec) (t : Text) :
    (formatMay k x (Caches.after k x es) rec t).1 = (formatMay k x (Caches.empty : Caches R) rec t).1 ∧
    (tryRegex x (Caches.after k x es) t).1 = (tryRegex x (Caches.empty : Caches R) t).1 ∧
    (staticAnswer k (Caches.after k x es) rec t).1 = (staticAnswer k (Caches.empty : Caches R) rec t).1 := by
  have g1 := after_good k x es
  have g0 : (Caches.empty : Caches R).Good k x := after_good k x []
  refine ⟨?_, ?_, ?_⟩
  · generalize Caches.after k x es = c at g1
    have key : ∀ c : Caches R, c.Good k x → (formatMay k x c rec t).1 =
        (if (trim t).any isWs then match splitQuoted (trim t) with
          | [] => .ok []
          | [_] => .ok []
          | v :: w :: vs => match (if v = [] then none else x.compile v) with
            | some re => (match formatReq k rec w with
              | .ok key => .ok (joined (vs.map (x.replaceAll re key)))
              | r => r)
            | none => formatReq k rec (trim t)
        else formatReq k rec (trim t)) := by
      intro c hc
      unfold formatMay
      dsimp only
      split
      · generalize splitQuoted (trim t) = l
        match l with
        | [] => rfl
        | [_] => rfl
        | v :: w :: vs =>
          dsimp only
          rw [← tryRegex_result k x c hc v]
          have hg' := tryRegex_good k x c hc v
          generalize tryRegex x c v = p at *
          obtain ⟨o, c'⟩ := p
          cases o with
          | none => exact formatCached_result k x c' hg' rec _
          | some re =>
            simp only [operRegex]
            have hf := formatCached_result k x c' hg' rec w
            generalize formatCached k c' rec w = q at *
            obtain ⟨r, c''⟩ := q
            simp only at hf
            subst hf
            cases formatReq k rec w <;> simp [replaceEach_joined]
      · exact formatCached_result k x c hc rec _
    rw [key c g1, key _ g0]
  · rw [tryRegex_result k x _ g1, tryRegex_result k x _ g0]
  · unfold staticAnswer
    have h1 := formatCached_result k x _ g1 rec t
    have h0 := formatCached_result k x _ g0 rec t
    generalize formatCached k (Caches.after k x es) rec t = a at *
    generalize formatCached k (Caches.empty : Caches R) rec t = b at *
    obtain ⟨a, ca⟩ := a
    obtain ⟨b, cb⟩ := b
    simp only at h1 h0
    subst h1
    subst h0
    generalize formatReq k rec t = r
    cases r <;> rfl

/-- **C136** (memory): what is kept is bounded by what is asked: no text is kept twice, and none that was not asked for. -/
theorem C136_bounded (k : Classes) (x : Regexes R) (es : List Asked) :
    ((Caches.after k x es).patterns.map (·.1)).Nodup ∧ ((Caches.after k x es).regexes.map (·.1)).Nodup ∧
    (∀ e ∈ (Caches.after k x es).patterns, .format e.1 ∈ es) ∧ (∀ e ∈ (Caches.after k x es).regexes, .regex e.1 ∈ es) := by
  have put_nodup : ∀ {V : Type} (t : Table V) (e : Text × V), (t.map (·.1)).Nodup → ((t.put e).map (·.1)).Nodup := by
    intro V t e h
    unfold Table.put
    rw [List.map_cons, List.nodup_cons]
    refine ⟨?_, h.sublist (List.filter_sublist.map _)⟩
    simp
  have put_mem : ∀ {V : Type} (t : Table V) (e y : Text × V), y ∈ t.put e → y = e ∨ y ∈ t := by
    intro V t e y h
    unfold Table.put at h
    rw [List.mem_cons, List.mem_filter] at h
    tauto
  unfold Caches.after
  induction es using List.reverseRecOn with
  | nil => simp [Caches.empty]
  | append_singleton es e ih =>
    rw [List.foldl_append]
    generalize es.foldl (Caches.step k x) (Caches.empty : Caches R) = c at *
    obtain ⟨i1, i2, i3, i4⟩ := ih
    cases e with
    | format p =>
      simp only [List.foldl_cons, List.foldl_nil, Caches.step, pattern]
      split
      · exact ⟨i1, i2, fun e he => by simp [i3 e he], fun e he => by simp [i4 e he]⟩
      · refine ⟨put_nodup _ _ i1, i2, fun e he => ?_, fun e he => by simp [i4 e he]⟩
        rcases put_mem _ _ _ he with rfl | he
        · simp
        · simp [i3 e he]
    | regex p =>
      simp only [List.foldl_cons, List.foldl_nil, Caches.step, tryRegex]
      have old : (c.patterns.map (·.1)).Nodup ∧ (c.regexes.map (·.1)).Nodup ∧
          (∀ e ∈ c.patterns, .format e.1 ∈ es ++ [Asked.regex p]) ∧ (∀ e ∈ c.regexes, .regex e.1 ∈ es ++ [Asked.regex p]) :=
        ⟨i1, i2, fun e he => by simp [i3 e he], fun e he => by simp [i4 e he]⟩
      split
      · exact old
      · split
        · exact old
        · split
          · refine ⟨i1, put_nodup _ _ i2, old.2.2.1, fun e he => ?_⟩
            rcases put_mem _ _ _ he with rfl | he
            · simp
            · exact old.2.2.2 e he
          · exact old

/-- **C136** fails for an entry of two words, such as the name of a file with a blank in it: the first word is taken for a regular
    expression, and the path becomes empty. -/
theorem C136_two_words_fails (k : Classes) (x : Regexes R) (es : List Asked) (rec : Rec) (t rx fmt : Text)
    (hw : Written t [rx, fmt]) (hrx : rx ≠ []) (re : R) (hre : x.compile rx = some re) (key : Text)
    (hk : formatReq k rec fmt = .ok key) :
    (formatMay k x (Caches.after k x es) rec t).1 = .ok [] := by
  rw [C136_rewrite k x es rec t rx fmt [] hw hrx re hre key hk]; rfl

/-- **C136** fails likewise for an entry that is one word in quotes, with whitespace in it: the path becomes empty, whatever the
    word and the request. -/
theorem C136_quoted_fails (k : Classes) (x : Regexes R) (es : List Asked) (rec : Rec) (t w : Text) (hw : Written t [w])
    (c : Char) (hc : isWs c = true) (hcw : c ∈ w) :
    (formatMay k x (Caches.after k x es) rec t).1 = .ok [] := by
  obtain ⟨h1, -⟩ := hw.split
  have ha : (trim t).any isWs = true := by
    obtain ⟨lead, ws, last, trail, rfl, hl, hr, hws, hlast, he⟩ := hw
    have hn : ws = [] := by
      cases ws with
      | nil => rfl
      | cons y ws =>
        have := congrArg List.length he
        simp at this
    subst hn
    simp at he
    subst he
    obtain ⟨hn, hh, ht⟩ := write_head hlast
    rw [List.flatMap_nil, List.nil_append, trim_around _ _ _ hn ⟨hh, ht⟩ hl hr, List.any_eq_true]
    refine ⟨c, ?_, hc⟩
    obtain ⟨q, w⟩ := last
    cases q <;> simp [Quoting.write, hcw]
  unfold formatMay
  simp only [h1, ha, if_true]

/-- **C136** fails for an expression that is not valid: the mistake is not reported, and the path is the whole entry, with the
    expression and the replacements in it. -/
theorem C136_invalid_fails (k : Classes) (x : Regexes R) (es : List Asked) (rec : Rec) (t rx fmt : Text) (reps : List Text)
    (hw : Written t (rx :: fmt :: reps)) (hrx : x.compile rx = none) :
    (formatMay k x (Caches.after k x es) rec t).1 = formatReq k rec (trim t) := by
  rw [formatMay_words k x _ (after_good k x es) rec t rx fmt reps hw]
  by_cases h : rx = []
  · rw [if_pos h]
  · rw [if_neg h, hrx]

/-! ### C137 -/

/-- **C137**, partial: a location with a fixed answer answers each request with status 200 and the configured text, filled in for the
    request. Missing: if the text cannot be filled in, see `C137_panic_fails`. -/
theorem C137_static_partial (k : Classes) (x : Regexes R) (es : List Asked) (rec : Rec) (kept : List Text) (body text : Text)
    (h : formatReq k rec body = .ok text) :
    (staticAnswer k (Caches.after k x es) rec (intern kept body).1).1 = .ok (200, text) := by
  have hi : (intern kept body).1 = body := by
    unfold intern
    split
    · rename_i v hv
      have := List.find?_some hv
      simpa using this
    · rfl
  rw [hi]
  unfold staticAnswer
  have := formatCached_result k x _ (after_good k x es) rec body
  rw [h] at this
  generalize formatCached k (Caches.after k x es) rec body = p at *
  obtain ⟨r, c⟩ := p
  simp only at this
  subst this
  rfl

/-- **C137** (memory): the texts of static answers are kept for as long as the process lives, but each only once, however often
    it is configured or asked for, and in whichever order. -/
theorem C137_memory (ts : List Text) :
    (ts.foldl (fun kept t => (intern kept t).2) []).Nodup ∧
    ∀ t, t ∈ ts.foldl (fun kept t => (intern kept t).2) [] ↔ t ∈ ts := by
  have key : ∀ (ts kept : List Text), kept.Nodup →
      (ts.foldl (fun kept t => (intern kept t).2) kept).Nodup ∧
      ∀ t, t ∈ ts.foldl (fun kept t => (intern kept t).2) kept ↔ t ∈ kept ∨ t ∈ ts := by
    intro ts
    induction ts with
    | nil => intro kept h; exact ⟨h, by simp⟩
    | cons u ts ih =>
      intro kept h
      have hs : (intern kept u).2 = if u ∈ kept then kept else u :: kept := by
        unfold intern
        by_cases hu : u ∈ kept
        · rw [if_pos hu]
          cases hf : kept.find? (· = u) with
          | none => exact absurd (List.find?_eq_none.1 hf u hu) (by simp)
          | some v => rfl
        · rw [if_neg hu, List.find?_eq_none.2 (by intro x hx; simp; rintro rfl; exact hu hx)]
      rw [List.foldl_cons, hs]
      by_cases hu : u ∈ kept
      · rw [if_pos hu]
        refine ⟨(ih kept h).1, fun t => ?_⟩
        rw [(ih kept h).2, List.mem_cons]
        constructor
        · rintro (h | h)
          · exact .inl h
          · exact .inr (.inr h)
        · rintro (h | rfl | h)
          · exact .inl h
          · exact .inl hu
          · exact .inr h
      · rw [if_neg hu]
        have h' := ih (u :: kept) (List.nodup_cons.2 ⟨hu, h⟩)
        refine ⟨h'.1, fun t => ?_⟩
        rw [h'.2, List.mem_cons, List.mem_cons]
        constructor
        · rintro ((h | h) | h)
          · exact .inr (.inl h)
          · exact .inl h
          · exact .inr (.inr h)
        · rintro (h | h | h)
          · exact .inl (.inr h)
          · exact .inl (.inl h)
          · exact .inr h
  obtain ⟨h1, h2⟩ := key ts [] List.nodup_nil
  exact ⟨h1, fun t => by rw [h2]; simp⟩

example : ([[ 'a' ], [ 'b' ], [ 'a' ]] : List Text).foldl (fun kept t => (intern kept t).2) [] = [['b'], ['a']] := by decide

/-- **C137** fails: a text with a date format that the date library rejects (see C91) is not refused when it is configured, and
    there is no answer: serving the request panics. -/
theorem C137_panic_fails (k : Classes) (x : Regexes R) (es : List Asked) (rec : Rec) (kept : List Text) (body : Text)
    (hb : badDates rec (chunksOf (parse k body))) :
    (staticAnswer k (Caches.after k x es) rec (intern kept body).1).1 = .panic := by
  have h := C91_format_fails k rec body hb
  have hi : (intern kept body).1 = body := by
    unfold intern
    split
    · rename_i v hv
      have := List.find?_some hv
      simpa using this
    · rfl
  rw [hi]
  unfold staticAnswer
  have := formatCached_result k x _ (after_good k x es) rec body
  rw [h] at this
  generalize formatCached k (Caches.after k x es) rec body = p at *
  obtain ⟨r, c⟩ := p
  simp only at this
  subst this
  rfl

/-! ### Examples -/

section Examples

/-- expressions that match only themselves, at the beginning; "[" is not valid -/
def exX : Regexes Text :=
  ⟨fun p => if p = ['['] then none else some p, fun re key v => match stripPrefix re key with
    | some r => v ++ r
    | none => key⟩

example : Written " /old {path}   '/new'".toList ["/old".toList, "{path}".toList, "/new".toList] :=
  ⟨[' '], [(.plain, "/old".toList, [' ']), (.plain, "{path}".toList, "   ".toList)], (.single, "/new".toList), [],
    by decide, by decide, by decide, by simp [Quoting.Fits]; decide, by simp [Quoting.Fits], rfl⟩

example : (formatMay exK exX Caches.empty exRec " /in {path}   '/out'".toList).1 = .ok "/outdex-é€😀".toList := by decide +kernel

/-- a file name with a blank -/
example : (formatMay exK exX Caches.empty exRec "/my file.html".toList).1 = .ok [] := by decide +kernel

example : (formatMay exK exX (Caches.after exK exX [.regex "/in".toList, .regex ['['], .format "{path}".toList]) exRec
    "[ {path} x".toList).1 = .ok "[ /index-é€😀 x".toList := by decide +kernel

example : (Caches.after exK exX [.regex "/in".toList, .regex ['['], .regex "/in".toList]).regexes = [("/in".toList, "/in".toList)] := by
  decide +kernel

end Examples

end Wm.Rewrite
