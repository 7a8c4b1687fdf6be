import Verif.Props.LogMore
/-! Property C173: mistakes in log patterns. -/
namespace Wm.Log
open Wm

/-- how a mistake is shown -/
def shown (msg : Text) : Text := "{ERROR: ".toList ++ msg ++ "}".toList

/-- the names with a meaning that needs arguments -/
def grouping : List Text := ["d".toList, "date".toList, "X".toList, "mdc".toList, "h".toList, "highlight".toList]

/-- arguments as they are written after a name -/
def inBrackets (as : List Text) : Text := as.flatMap (fun a => '(' :: (a ++ [')']))

/-- The mistakes that can be made with arguments, and the reason given for each. -/
inductive Wrongly : Text → List Text → Text → Prop
  /-- a field has no arguments -/
  | field (n : Text) (as : List Text) : n ∈ formatters.map Prod.fst → Wrongly n as "unexpected arguments".toList
  | unknown (n : Text) (as : List Text) : isName n = true → n ∉ formatters.map Prod.fst → n ∉ grouping →
      Wrongly n as ("unknown formatter `".toList ++ n ++ "`".toList)
  /-- a group has one -/
  | group (n : Text) (as : List Text) : n ∈ [[], "h".toList, "highlight".toList] → 2 ≤ as.length →
      Wrongly n as "expected exactly one argument".toList
  /-- dates and values of the context have at most two -/
  | many (n : Text) (as : List Text) : n ∈ ["d".toList, "date".toList, "X".toList, "mdc".toList] → 3 ≤ as.length →
      Wrongly n as "expected at most two arguments".toList
  /-- the second of a date is a zone -/
  | zone (n f z : Text) : n ∈ ["d".toList, "date".toList] → z ∉ [[], "utc".toList, "local".toList] →
      Wrongly n [f, z] ("invalid timezone `".toList ++ z ++ "`".toList)
  | noZone (n f : Text) : n ∈ ["d".toList, "date".toList] → Wrongly n [f, []] "invalid timezone".toList
  /-- the first of a value of the context is its key, the second the text to show without it -/
  | key (n : Text) (as : List Text) : n ∈ ["X".toList, "mdc".toList] → as.length ≤ 1 →
      Wrongly n ([] :: as) "invalid MDC key".toList
  | dflt (n a : Text) : n ∈ ["X".toList, "mdc".toList] → a ≠ [] → Wrongly n [a, []] "invalid MDC default".toList

/-- `Sketch rec p o`: the pattern `p`, which may have mistakes in it, prints `o`: what is right stands for what it says, and
    each mistake is shown at its place. -/
inductive Sketch (rec : Rec) : Text → Text → Prop
  | nil : Sketch rec [] []
  | plain (c : Char) (p o : Text) : c ∉ ['{', '}', '(', ')', '\\'] → Sketch rec p o → Sketch rec (c :: p) (c :: o)
  | backslash (c : Char) (p o : Text) : c ∈ ['{', '}', '(', ')', '\\'] → Sketch rec p o → Sketch rec ('\\' :: c :: p) (c :: o)
  | doubled (c : Char) (p o : Text) : c ∈ ['{', '}', '(', ')'] → Sketch rec p o → Sketch rec (c :: c :: p) (c :: o)
  | field (n : Text) (f : Field) (ft : Text) (ps : Params) (p o : Text) : (n, f) ∈ formatters → Format ft ps → ps.sane →
      Sketch rec p o → Sketch rec ('{' :: (n ++ (ft ++ '}' :: p))) (fitTo ps (rec.field f).flatten ++ o)
  /-- a name without meaning -/
  | unknown (n ft : Text) (ps : Params) (p o : Text) : isName n = true → n ∉ formatters.map Prod.fst → n ∉ grouping →
      Format ft ps → Sketch rec p o →
      Sketch rec ('{' :: (n ++ (ft ++ '}' :: p))) (shown ("unknown formatter `".toList ++ n ++ "`".toList) ++ o)
  /-- a group without its text -/
  | empty (n ft : Text) (ps : Params) (p o : Text) : n ∈ [[], "h".toList, "highlight".toList] → Format ft ps →
      Sketch rec p o → Sketch rec ('{' :: (n ++ (ft ++ '}' :: p))) (shown "expected exactly one argument".toList ++ o)
  /-- a value of the context without its key -/
  | noKey (n ft : Text) (ps : Params) (p o : Text) : n ∈ ["X".toList, "mdc".toList] → Format ft ps →
      Sketch rec p o → Sketch rec ('{' :: (n ++ (ft ++ '}' :: p))) (shown "missing MDC key".toList ++ o)
  /-- wrong arguments -/
  | given (n : Text) (as : List Text) (msg ft : Text) (ps : Params) (p o : Text) : as ≠ [] →
      (∀ a ∈ as, ∀ c ∈ a, c ∉ ['{', '}', '(', ')', '\\']) → Wrongly n as msg → Format ft ps → Sketch rec p o →
      Sketch rec ('{' :: (n ++ (inBrackets as ++ (ft ++ '}' :: p)))) (shown msg ++ o)
  /-- a single bracket -/
  | stray (c : Char) (msg p o : Text) :
      (c, msg) ∈ [('}', "unmatched '}'".toList), ('(', "unexpected '('".toList), (')', "unexpected ')'".toList)] →
      p.head? ≠ some c → Sketch rec p o → Sketch rec (c :: p) (shown msg ++ o)
  /-- a backslash before something else than a bracket or a backslash -/
  | wrong (p o : Text) : (∀ c ∈ p.head?, c ∉ ['{', '}', '(', ')', '\\']) → Sketch rec p o →
      Sketch rec ('\\' :: p) (shown "unexpected '\\'".toList ++ o)

/-! ### proof -/

theorem formatReq_coded (k : Classes) (rec : Rec) (p : Text) : formatReq k rec p =
    match codedList rec (chunksOf (parse k p)) with
    | some t => .ok t
    | none => .panic := by
  have ha := encodeList_agrees rec (.sink [] []) (.sink []) rfl (chunksOf (parse k p))
  simp only [formatReq]
  revert ha
  cases encodeList rec (.sink [] []) (chunksOf (parse k p)) <;> cases codedList rec (chunksOf (parse k p)) <;> intro ha
  · rfl
  · exact ha.elim
  · exact ha.elim
  · obtain ⟨ks, rfl⟩ := stands_sink ha
    simp only [Wr.out, List.nil_append]
    rw [lossy_utf8]

/-- one piece, then the rest, whatever that is -/
theorem formatReq_next {k : Classes} {rec : Rec} {p rest t o : Text} {x : Piece}
    (hn : ∀ m, next k (m + 5) p = some (x, rest)) (hl : rest.length < p.length) (ht : coded rec (chunkOf x) = some t)
    (ho : formatReq k rec rest = .ok o) : formatReq k rec p = .ok (t ++ o) := by
  have hp : parse k p = x :: parse k rest := by
    obtain ⟨m, hm⟩ : ∃ m, enough p = (m + 5) + 1 := ⟨3 * p.length - 3, by simp only [enough]; omega⟩
    rw [parse, hm, pieces_succ]
    simp only [Bool.false_and, Bool.false_eq_true, if_false, hn m]
    rw [C58_terminates k rest (m + 5) (by simp only [enough] at hm ⊢; omega)]
  rw [formatReq_coded] at ho ⊢
  rw [hp]
  simp only [chunksOf, codedList, ht]
  revert ho
  cases codedList rec (chunksOf (parse k rest)) with
  | none => intro h; cases h
  | some o' => intro h; injection h with h; rw [h]

/-- the same for a piece that needs more steps -/
theorem formatReq_next' {k : Classes} {rec : Rec} {p rest t o : Text} {x : Piece} (h2 : 2 ≤ p.length)
    (hn : ∀ m, p.length + 4 ≤ m → next k m p = some (x, rest)) (hl : rest.length < p.length) (ht : coded rec (chunkOf x) = some t)
    (ho : formatReq k rec rest = .ok o) : formatReq k rec p = .ok (t ++ o) := by
  have hp : parse k p = x :: parse k rest := by
    obtain ⟨m, hm⟩ : ∃ m, enough p = m + 1 := ⟨3 * p.length + 2, by simp only [enough]⟩
    rw [parse, hm, pieces_succ]
    simp only [Bool.false_and, Bool.false_eq_true, if_false, hn m (by simp only [enough] at hm; omega)]
    rw [C58_terminates k rest m (by simp only [enough] at hm ⊢; omega)]
  rw [formatReq_coded] at ho ⊢
  rw [hp]
  simp only [chunksOf, codedList, ht]
  revert ho
  cases codedList rec (chunksOf (parse k rest)) with
  | none => intro h; cases h
  | some o' => intro h; injection h with h; rw [h]

theorem fieldOf_unknown {n : Text} (h : n ∉ formatters.map Prod.fst) : fieldOf n = none := by
  have key : ∀ s : String, s.toList ∈ formatters.map Prod.fst → (String.ofList n = s) = False := by
    intro s hs
    refine eq_false ?_
    rintro rfl
    rw [String.toList_ofList] at hs
    exact h hs
  simp only [fieldOf, key "l" (by decide), key "level" (by decide), key "m" (by decide), key "message" (by decide), key "M" (by decide), key "module" (by decide), key "n" (by decide), key "f" (by decide), key "file" (by decide), key "L" (by decide), key "line" (by decide), key "T" (by decide), key "thread" (by decide), key "I" (by decide), key "thread_id" (by decide), key "P" (by decide), key "pid" (by decide), key "i" (by decide), key "tid" (by decide), key "t" (by decide), key "target" (by decide), key "client_ip" (by decide), key "client_user" (by decide), key "url" (by decide), key "path" (by decide), key "query" (by decide), key "host" (by decide), key "status" (by decide), key "up_status" (by decide), key "body_bytes_sent" (by decide), key "referer" (by decide), key "user_agent" (by decide), key "cookie" (by decide), key "ssl_protocol" (by decide), key "ssl_cipher" (by decide), key "up_addr" (by decide), key "request_time" (by decide), key "up_response_time" (by decide), or_self, if_false]

theorem chunkOf_unknown {n : Text} (h : n ∉ formatters.map Prod.fst) (hg : n ∉ grouping) (hn : isName n = true) (ps : Params) :
    chunkOf (.argument n [] ps) = .error ("unknown formatter `".toList ++ n ++ "`".toList) := by
  simp only [grouping, List.mem_cons, List.not_mem_nil, or_false, not_or] at hg
  obtain ⟨h1, h2, h3, h4, h5, h6⟩ := hg
  have e1 : isDate n = false := by simp only [isDate, Bool.or_eq_false_iff, beq_eq_false_iff_ne]; exact ⟨h1, h2⟩
  have e2 : isMdc n = false := by simp only [isMdc, Bool.or_eq_false_iff, beq_eq_false_iff_ne]; exact ⟨h3, h4⟩
  have e3 : isHighlight n = false := by simp only [isHighlight, Bool.or_eq_false_iff, beq_eq_false_iff_ne]; exact ⟨h5, h6⟩
  have e4 : n.isEmpty = false := by cases n with
    | nil => simp [isName] at hn
    | cons => rfl
  unfold chunkOf
  rw [e1, e2, e3, e4]
  simp only [Bool.false_eq_true, if_false, Bool.or_self]
  rw [fieldOf_unknown h]

/-- a name without arguments -/
theorem next_bare {k : Classes} (hk : Ascii k) (m : Nat) {n ft : Text} {ps : Params} (hn : n = [] ∨ isName n = true)
    (hft : Format ft ps) (X : Text) :
    next k (m + 2) ('{' :: (n ++ (ft ++ '}' :: X))) = some (.argument n [] ps, X) := by
  rcases hn with rfl | hn
  · refine next_argument (ft := ft) ?_ (nm := []) (rest := ft ++ '}' :: X) ?_ (args_none k m (format_head hft X)) hft
    · rcases format_head hft X with h | h <;> simp [h]
    · have hc : ∃ c r, ft ++ '}' :: X = c :: r ∧ (c = ':' ∨ c = '}') := by
        cases hf : ft ++ '}' :: X with
        | nil => simp at hf
        | cons c r =>
          have := format_head hft X
          rw [hf] at this
          exact ⟨c, r, rfl, by simpa using this⟩
      obtain ⟨c, r, e, hc⟩ := hc
      have : (k.alphabetic c || c == '_') = false := by
        rcases hc with rfl | rfl <;> rw [(hk _ (by decide)).1] <;> decide
      rw [List.nil_append, e, name, this]
      rfl
  · cases n with
    | nil => simp [isName] at hn
    | cons c r =>
      refine next_argument (ft := ft) ?_ (name_eq hk hn (.inr (format_head hft X))) (args_none k m (format_head hft X)) hft
      simp only [List.cons_append, List.head?_cons, ne_eq, Option.some.injEq]
      rintro rfl
      simp only [isName, Bool.and_eq_true, decide_eq_true_eq] at hn
      exact absurd hn.1.2 (by decide)

/-- what is read of an argument of ordinary characters -/
def readAs (a : Text) : List Piece := if a = [] then [] else [.text a]

theorem args_plain (k : Classes) {Y : Text} (hY : Y.head? = some ':' ∨ Y.head? = some '}') (as : List Text)
    (h : ∀ a ∈ as, ∀ c ∈ a, c ∉ ['{', '}', '(', ')', '\\']) (m : Nat) (hm : as.length + 3 ≤ m) :
    args k m (inBrackets as ++ Y) = (some (as.map readAs), Y) := by
  induction as generalizing m with
  | nil =>
    obtain ⟨m, rfl⟩ : ∃ n, m = n + 1 := ⟨m - 1, by omega⟩
    exact args_none k m hY
  | cons a as ih =>
    obtain ⟨m, rfl⟩ : ∃ n, m = n + 4 := ⟨m - 4, by simp at hm; omega⟩
    have e : inBrackets (a :: as) ++ Y = '(' :: (a ++ ')' :: (inBrackets as ++ Y)) := by simp [inBrackets]
    rw [e, args_succ]
    simp only [pieces_plain k m a _ (h a (by simp))]
    rw [ih (fun x hx => h x (by simp [hx])) (m + 3) (by simp at hm; omega)]
    rfl

theorem inBrackets_head {as : List Text} (h : as ≠ []) (Y : Text) : (inBrackets as ++ Y).head? = some '(' := by
  cases as with
  | nil => exact absurd rfl h
  | cons => rfl

theorem next_given {k : Classes} (hk : Ascii k) {n ft : Text} {as : List Text} {ps : Params} (hn : n = [] ∨ isName n = true)
    (h0 : as ≠ []) (h : ∀ a ∈ as, ∀ c ∈ a, c ∉ ['{', '}', '(', ')', '\\']) (hft : Format ft ps) (X : Text) (m : Nat)
    (hm : as.length + 4 ≤ m) :
    next k m ('{' :: (n ++ (inBrackets as ++ (ft ++ '}' :: X)))) = some (.argument n (as.map readAs) ps, X) := by
  obtain ⟨m, rfl⟩ : ∃ n, m = n + 1 := ⟨m - 1, by omega⟩
  have ha := args_plain k (format_head hft X) as h m (by omega)
  have hh := inBrackets_head h0 (ft ++ '}' :: X)
  rcases hn with rfl | hn
  · refine next_argument (by rw [List.nil_append, hh]; simp) ?_ ha hft
    obtain ⟨r, hr⟩ : ∃ r, inBrackets as ++ (ft ++ '}' :: X) = '(' :: r := by
      cases he : inBrackets as ++ (ft ++ '}' :: X) with
      | nil => rw [he] at hh; cases hh
      | cons c r => rw [he] at hh; cases hh; exact ⟨r, rfl⟩
    rw [List.nil_append, hr]
    exact name_empty hk _
  · cases n with
    | nil => simp [isName] at hn
    | cons c r =>
      refine next_argument ?_ (name_eq hk hn (.inl hh)) ha hft
      simp only [List.cons_append, List.head?_cons, ne_eq, Option.some.injEq]
      rintro rfl
      simp only [isName, Bool.and_eq_true, decide_eq_true_eq] at hn
      exact absurd hn.1.2 (by decide)

theorem Wrongly.name {n : Text} {as : List Text} {msg : Text} (h : Wrongly n as msg) : n = [] ∨ isName n = true := by
  have hd : ∀ m ∈ ["d".toList, "date".toList, "X".toList, "mdc".toList, "h".toList, "highlight".toList], isName m = true := by
    decide
  cases h with
  | field as h =>
    obtain ⟨⟨n', f⟩, hf, rfl⟩ := List.mem_map.1 h
    exact .inr (formatters_ok _ hf).1
  | unknown as h => exact .inr h
  | group as h =>
    rcases List.mem_cons.1 h with h | h
    · exact .inl h
    · exact .inr (hd _ (by simp at h ⊢; tauto))
  | many as h => exact .inr (hd _ (by simp at h ⊢; tauto))
  | zone f z h => exact .inr (hd _ (by simp at h ⊢; tauto))
  | noZone f h => exact .inr (hd _ (by simp at h ⊢; tauto))
  | key as h => exact .inr (hd _ (by simp at h ⊢; tauto))
  | dflt a h => exact .inr (hd _ (by simp at h ⊢; tauto))

theorem isDate_iff {n : Text} : isDate n = true ↔ n ∈ ["d".toList, "date".toList] := by
  simp only [isDate, Bool.or_eq_true, beq_iff_eq, List.mem_cons, List.not_mem_nil, or_false]

theorem isMdc_iff {n : Text} : isMdc n = true ↔ n ∈ ["X".toList, "mdc".toList] := by
  simp only [isMdc, Bool.or_eq_true, beq_iff_eq, List.mem_cons, List.not_mem_nil, or_false]

theorem Wrongly.chunk {n : Text} {as : List Text} {msg : Text} (h : Wrongly n as msg) (h0 : as ≠ []) (ps : Params) :
    chunkOf (.argument n (as.map readAs) ps) = .error msg := by
  have hd : ∀ m ∈ ["d".toList, "date".toList], ∀ l, chunkOf (.argument m l ps) = dateChunk l ps := by
    intro m hm l; unfold chunkOf; rw [isDate_iff.2 hm]; rfl
  have hx : ∀ m ∈ ["X".toList, "mdc".toList], ∀ l, chunkOf (.argument m l ps) = mdcChunk l ps := by
    intro m hm l
    have e1 : isDate m = false := (by decide : ∀ m ∈ ["X".toList, "mdc".toList], isDate m = false) m hm
    unfold chunkOf; rw [e1, isMdc_iff.2 hm]; rfl
  cases h with
  | field as h =>
    obtain ⟨⟨n, f⟩, hf, rfl⟩ := List.mem_map.1 h
    obtain ⟨g1, g2, g3, g4, g5⟩ := formatters_ok _ hf
    simp only at g1 g2 g3 g4 g5
    have g6 : n.isEmpty = false := by cases n with
      | nil => simp [isName] at g1
      | cons => rfl
    unfold chunkOf
    rw [g2, g3, g4, g6]
    simp only [Bool.false_eq_true, if_false, Bool.or_self]
    rw [g5]
    cases as with
    | nil => exact absurd rfl h0
    | cons => rfl
  | unknown as h1 h2 h3 =>
    simp only [grouping, List.mem_cons, List.not_mem_nil, or_false, not_or] at h3
    obtain ⟨i1, i2, i3, i4, i5, i6⟩ := h3
    have e1 : isDate n = false := by simp only [isDate, Bool.or_eq_false_iff, beq_eq_false_iff_ne]; exact ⟨i1, i2⟩
    have e2 : isMdc n = false := by simp only [isMdc, Bool.or_eq_false_iff, beq_eq_false_iff_ne]; exact ⟨i3, i4⟩
    have e3 : isHighlight n = false := by simp only [isHighlight, Bool.or_eq_false_iff, beq_eq_false_iff_ne]; exact ⟨i5, i6⟩
    have e4 : n.isEmpty = false := by cases n with
      | nil => simp [isName] at h1
      | cons => rfl
    unfold chunkOf
    rw [e1, e2, e3, e4]
    simp only [Bool.false_eq_true, if_false, Bool.or_self]
    rw [fieldOf_unknown h2]
  | group as h h2 =>
    obtain ⟨a, b, l, rfl⟩ : ∃ a b l, as = a :: b :: l := by
      match as, h2 with
      | a :: b :: l, _ => exact ⟨a, b, l, rfl⟩
    obtain ⟨e1, e2, e3⟩ := (by decide : ∀ m ∈ [[], "h".toList, "highlight".toList],
      isDate m = false ∧ isMdc m = false ∧ (isHighlight m || m.isEmpty) = true) n h
    unfold chunkOf
    rw [e1, e2, e3]
    rfl
  | many as h h2 =>
    obtain ⟨a, b, c, l, rfl⟩ : ∃ a b c l, as = a :: b :: c :: l := by
      match as, h2 with
      | a :: b :: c :: l, _ => exact ⟨a, b, c, l, rfl⟩
    by_cases hm : n ∈ ["d".toList, "date".toList]
    · rw [hd n hm]
      simp [dateChunk]
    · rw [hx n (by simp at h hm ⊢; tauto)]
      rfl
  | zone f z h h2 =>
    rw [hd n h]
    simp only [List.mem_cons, List.not_mem_nil, or_false, not_or] at h2
    obtain ⟨z1, z2, z3⟩ := h2
    simp only [List.map_cons, List.map_nil, dateChunk, readAs, if_neg z1, zoneOf, if_neg z2, if_neg z3]
    rfl
  | noZone f h => rw [hd n h]; rfl
  | key as h h2 =>
    rw [hx n h]
    match as, h2 with
    | [], _ => rfl
    | [a], _ => rfl
  | dflt a h h2 =>
    rw [hx n h]
    simp only [List.map_cons, List.map_nil, readAs, if_neg h2]
    rfl

theorem Sketch.text_split {rec : Rec} {p o : Text} (h : Sketch rec p o) :
    ∃ o', Sketch rec (p.drop (p.takeWhile (fun c => !isSpecial c)).length) o' ∧ o = p.takeWhile (fun c => !isSpecial c) ++ o' := by
  induction h with
  | plain c p o hc h ih =>
    obtain ⟨o', h1, h2⟩ := ih
    have hs := plain_isSpecial hc
    refine ⟨o', ?_, ?_⟩
    · rw [List.takeWhile_cons, hs]; simpa using h1
    · rw [List.takeWhile_cons, hs, h2]; simp
  | nil => exact ⟨[], .nil, rfl⟩
  | backslash c p o hc h ih => exact ⟨c :: o, by simpa [isSpecial] using .backslash c p o hc h, by simp [isSpecial]⟩
  | doubled c p o hc h ih =>
    have hs : isSpecial c = true := (isSpecial_iff c).2 (by simp at hc ⊢; tauto)
    exact ⟨c :: o, by simpa [hs] using .doubled c p o hc h, by simp [hs]⟩
  | field n f ft ps p o a b c h ih => exact ⟨_, by simpa [isSpecial] using .field n f ft ps p o a b c h, by simp [isSpecial]⟩
  | unknown n ft ps p o a b c d h ih => exact ⟨_, by simpa [isSpecial] using .unknown n ft ps p o a b c d h, by simp [isSpecial]⟩
  | empty n ft ps p o a b h ih => exact ⟨_, by simpa [isSpecial] using Sketch.empty n ft ps p o a b h, by simp [isSpecial]⟩
  | noKey n ft ps p o a b h ih => exact ⟨_, by simpa [isSpecial] using Sketch.noKey n ft ps p o a b h, by simp [isSpecial]⟩
  | given n as msg ft ps p o a b c d h ih => exact ⟨_, by simpa [isSpecial] using Sketch.given n as msg ft ps p o a b c d h, by simp [isSpecial]⟩
  | stray c msg p o a b h ih =>
    have hs : isSpecial c = true := by
      simp only [List.mem_cons, List.not_mem_nil, or_false, Prod.mk.injEq] at a
      rcases a with ⟨rfl, _⟩ | ⟨rfl, _⟩ | ⟨rfl, _⟩ <;> rfl
    exact ⟨_, by simpa [hs] using .stray c msg p o a b h, by simp [hs]⟩
  | wrong p o a h ih => exact ⟨_, by simpa [isSpecial] using .wrong p o a h, by simp [isSpecial]⟩

theorem formatReq_sketch (k : Classes) (hk : Ascii k) (rec : Rec) (n : Nat) : ∀ p o : Text, p.length ≤ n → Sketch rec p o →
    formatReq k rec p = .ok o := by
  induction n with
  | zero =>
    intro p o hn h
    cases p with
    | cons => simp at hn
    | nil => cases h; rw [formatReq_coded]; rfl
  | succ n ih =>
    intro p o hn h
    cases h with
    | nil => rw [formatReq_coded]; rfl
    | plain c p o hc h =>
      have hs := plain_isSpecial hc
      obtain ⟨o', e1, e2⟩ := h.text_split
      have hle : (p.takeWhile (fun c => !isSpecial c)).length ≤ p.length := (List.takeWhile_prefix _).length_le
      have hl : (p.drop (p.takeWhile (fun c => !isSpecial c)).length).length ≤ p.length := by simp
      rw [e2, ← List.cons_append]
      refine formatReq_next (x := .text (c :: p.takeWhile (fun c => !isSpecial c)))
        (rest := p.drop (p.takeWhile (fun c => !isSpecial c)).length) ?_
        (by rw [List.length_cons]; omega) rfl (ih _ _ (by rw [List.length_cons] at hn; omega) e1)
      intro m
      rw [next_plain k _ _ hs, textPiece, List.takeWhile_cons, hs]
      simp
    | backslash c p o hc h =>
      exact formatReq_next (t := [c]) (fun m => next_backslash k _ _ hc) (by simp; omega) rfl
        (ih _ _ (by simp at hn; omega) h)
    | doubled c p o hc h =>
      exact formatReq_next (t := [c]) (fun m => next_doubled k _ _ hc) (by simp; omega) rfl
        (ih _ _ (by simp at hn; omega) h)
    | field n f ft ps p o hf hft hps h =>
      have h2 := fun m => next_field hk m hf hft p
      refine formatReq_next (fun m => (h2 (m + 3)).1) (by simp; omega) ?_ (ih _ _ (by simp at hn; omega) h)
      rw [(h2 0).2, coded_sane rec (.field f ps) hps]; rfl
    | unknown n ft ps p o h1 h2 h3 hft h =>
      refine formatReq_next (fun m => next_bare hk (m + 3) (.inr h1) hft p) (by simp; omega) ?_ (ih _ _ (by simp at hn; omega) h)
      rw [chunkOf_unknown h2 h3 h1]; rfl
    | empty n ft ps p o h1 hft h =>
      have hnm : n = [] ∨ isName n = true := by
        simp only [List.mem_cons, List.not_mem_nil, or_false] at h1
        rcases h1 with rfl | rfl | rfl
        · exact .inl rfl
        · exact .inr (by decide)
        · exact .inr (by decide)
      refine formatReq_next (fun m => next_bare hk (m + 3) hnm hft p) (by simp; omega) ?_ (ih _ _ (by simp at hn; omega) h)
      simp only [List.mem_cons, List.not_mem_nil, or_false] at h1
      rcases h1 with rfl | rfl | rfl <;> rfl
    | noKey n ft ps p o h1 hft h =>
      have hnm : n = [] ∨ isName n = true := by
        simp only [List.mem_cons, List.not_mem_nil, or_false] at h1
        rcases h1 with rfl | rfl <;> exact .inr (by decide)
      refine formatReq_next (fun m => next_bare hk (m + 3) hnm hft p) (by simp; omega) ?_ (ih _ _ (by simp at hn; omega) h)
      simp only [List.mem_cons, List.not_mem_nil, or_false] at h1
      rcases h1 with rfl | rfl <;> rfl
    | given n as msg ft ps p o h0 h1 h2 hft h =>
      have hlen : as.length ≤ (inBrackets as).length := by
        clear h0 h1 h2 hn
        induction as with
        | nil => simp
        | cons a as ih => simp only [inBrackets, List.flatMap_cons, List.length_append, List.length_cons] at ih ⊢; omega
      refine formatReq_next' (by simp; omega) (fun m hm => next_given hk h2.name h0 h1 hft p m ?_) (by simp; omega) ?_
        (ih _ _ (by simp at hn; omega) h)
      · simp at hm; omega
      · rw [h2.chunk h0]; rfl
    | stray c msg p o h1 hp h =>
      refine formatReq_next (x := .error msg) (rest := p) ?_ (by simp) rfl (ih _ _ (by simp at hn; omega) h)
      intro m
      have hd : Log.doubled c msg p = (.error msg, p) := by
        cases p with
        | nil => rfl
        | cons d p => rw [Log.doubled, if_neg (by simpa using hp)]
      simp only [List.mem_cons, List.not_mem_nil, or_false, Prod.mk.injEq] at h1
      rcases h1 with ⟨rfl, rfl⟩ | ⟨rfl, rfl⟩ | ⟨rfl, rfl⟩ <;> rw [← hd] <;> simp [next]
    | wrong p o hp h =>
      refine formatReq_next (x := .error "unexpected '\\'".toList) (rest := p) ?_ (by simp) rfl (ih _ _ (by simp at hn; omega) h)
      intro m
      have hd : Log.escaped p = (.error "unexpected '\\'".toList, p) := by
        cases p with
        | nil => rfl
        | cons d p =>
          have := plain_isSpecial (hp d (by simp))
          rw [Log.escaped, if_neg (by simp [this])]
      rw [← hd]
      simp [next]

/-- **C173**, partial: a pattern with single brackets, wrong backslashes, unknown names or missing, superfluous or wrong arguments prints all the rest as
    if they were not there, and `{ERROR: …}` with the reason at the place of each. Missing: a brace that is not closed, see
    `C173_unclosed_fails`. -/
theorem C173_mistakes_partial (k : Classes) (hk : Ascii k) (rec : Rec) (p o : Text) (h : Sketch rec p o) :
    formatReq k rec p = .ok o := formatReq_sketch k hk rec _ p o (Nat.le_refl _) h

/-- **C173** fails: after a name that is followed by something else than a closing brace, a width or an argument (such as a blank)
    the whole rest of the pattern is lost, whatever it is. -/
theorem C173_unclosed_fails (k : Classes) (hk : Ascii k) (rec : Rec) (n : Text) (hn : isName n = true) (c : Char) (rest : Text)
    (hc : k.alphanumeric c = false) (hs : c ∉ ['_', '(', ':', '}']) :
    formatReq k rec ('{' :: (n ++ c :: rest)) = .ok (shown "expected '}'".toList) := by
  have hname : name k (n ++ c :: rest) = (n, c :: rest) := by
    cases n with
    | nil => simp [isName] at hn
    | cons d r =>
      simp only [isName, Bool.and_eq_true, decide_eq_true_eq, List.all_eq_true] at hn
      obtain ⟨⟨h1, h2⟩, h3⟩ := hn
      have hall : ∀ x ∈ r, (k.alphanumeric x || x == '_') = true := by
        intro x hx
        obtain ⟨h4, h5⟩ := h3 x hx
        rw [(hk x h4).2]; exact h5
      have hcc : (c == '_') = false := by simp at hs ⊢; tauto
      have htw : (r ++ c :: rest).takeWhile (fun c => k.alphanumeric c || c == '_') = r := by
        rw [List.takeWhile_append_of_pos hall, List.takeWhile_cons, hc, hcc]; simp
      simp only [List.cons_append, name, (hk d h1).1, h2, Bool.true_or, if_true, htw, List.drop_left]
  have hargs : ∀ m, args k (m + 1) (c :: rest) = (some [], c :: rest) := by
    intro m
    rw [args_succ]
    have : c ≠ '(' := by rintro rfl; simp at hs
    split
    · rename_i h; injection h with h; exact absurd h this
    · rfl
  have hpar : parameters (c :: rest) = (⟨' ', .left, none, none⟩, c :: rest) := by
    unfold parameters
    split
    · rename_i h; injection h with h; subst h; simp at hs
    · rfl
  have hclose : ∀ x, closeArg x (c :: rest) = (.error "expected '}'".toList, []) := by
    intro x
    unfold closeArg
    split
    · rename_i h; injection h with h; subst h; simp at hs
    · rfl
  have hhead : ∃ d r, n = d :: r ∧ d ≠ '{' := by
    cases n with
    | nil => simp [isName] at hn
    | cons d r =>
      refine ⟨d, r, rfl, ?_⟩
      rintro rfl
      simp only [isName, Bool.and_eq_true, decide_eq_true_eq] at hn
      exact absurd hn.1.2 (by decide)
  obtain ⟨d, r, rfl, hd⟩ := hhead
  have := formatReq_next (k := k) (rec := rec) (p := '{' :: (d :: r ++ c :: rest)) (rest := []) (o := [])
    (x := .error "expected '}'".toList) (t := shown "expected '}'".toList) ?_ (by simp) rfl (by rw [formatReq_coded]; rfl)
  · simpa using this
  · intro m
    rw [List.cons_append, next]
    · rw [← List.cons_append, hname]
      simp only [if_true, hargs, hpar, hclose]
    · intro r' hr'; injection hr' with h1; exact hd h1

/-- for instance -/
example : formatReq exK exRec "{nope} ) \\a {} {X:5} {host}".toList = .ok
    ("{ERROR: unknown formatter `nope`} {ERROR: unexpected ')'} {ERROR: unexpected '\\'}a " ++
      "{ERROR: expected exactly one argument} {ERROR: missing MDC key} example.org").toList := by decide +kernel

example : formatReq exK exRec "{host(a)} {d(%Y)(mars)} {X()}{h(a)(b)}".toList = .ok
    ("{ERROR: unexpected arguments} {ERROR: invalid timezone `mars`} {ERROR: invalid MDC key}" ++
      "{ERROR: expected exactly one argument}").toList := by decide +kernel

example : formatReq exK exRec "{host } {path}".toList = .ok "{ERROR: expected '}'}".toList := by decide +kernel

example : Sketch exRec "a}b{nope}".toList "a{ERROR: unmatched '}'}b{ERROR: unknown formatter `nope`}".toList :=
  .plain 'a' _ _ (by decide) (.stray '}' "unmatched '}'".toList _ _ (by decide) (by decide) (.plain 'b' _ _ (by decide)
    (.unknown "nope".toList [] _ _ _ (by decide) (by decide) (by decide) .absent .nil)))

end Wm.Log
