import Verif.Props.Log
/-! Property C101: what a log pattern prints, from its text to the output. -/
namespace Wm.Log
open Wm

/-! ### Specification: the language of patterns -/

/-- the formatters by name, as documented -/
def formatters : List (Text × Field) :=
  [("l".toList, .level), ("level".toList, .level), ("m".toList, .message), ("message".toList, .message),
   ("M".toList, .module_), ("module".toList, .module_), ("n".toList, .newline), ("f".toList, .file), ("file".toList, .file),
   ("L".toList, .line), ("line".toList, .line), ("T".toList, .thread), ("thread".toList, .thread),
   ("I".toList, .threadId), ("thread_id".toList, .threadId), ("P".toList, .pid), ("pid".toList, .pid),
   ("i".toList, .tid), ("tid".toList, .tid), ("t".toList, .target), ("target".toList, .target),
   ("client_ip".toList, .clientIp), ("client_user".toList, .clientUser), ("url".toList, .url), ("path".toList, .path),
   ("query".toList, .query), ("host".toList, .host), ("status".toList, .status), ("up_status".toList, .upStatus),
   ("body_bytes_sent".toList, .bodyBytesSent), ("referer".toList, .referer), ("user_agent".toList, .userAgent),
   ("cookie".toList, .cookie), ("ssl_protocol".toList, .sslProtocol), ("ssl_cipher".toList, .sslCipher),
   ("up_addr".toList, .upAddr), ("request_time".toList, .requestTime), ("up_response_time".toList, .upResponseTime)]

/-- the value of a decimal number -/
def decValue (t : Text) : Nat := t.foldl (fun v c => v * 10 + (c.toNat - 48)) 0

/-- `t` is a decimal number with value `n` -/
def Decimal (t : Text) (n : Nat) : Prop := t ≠ [] ∧ (∀ c ∈ t, '0' ≤ c ∧ c ≤ '9') ∧ n = decValue t

/-- a width that may be left out -/
inductive OptWidth : Text → Option Nat → Prop
  | absent : OptWidth [] none
  | present (t : Text) (n : Nat) : Decimal t n → OptWidth t (some n)

/-- `.` and the maximal width, which may be left out -/
inductive OptMax : Text → Option Nat → Prop
  | absent : OptMax [] none
  | present (t : Text) (n : Nat) : Decimal t n → OptMax ('.' :: t) (some n)

/-- `Format t ps`: the text `t` after the name of a formatter asks for the format `ps` -/
inductive Format : Text → Params → Prop
  | absent : Format [] ⟨' ', .left, none, none⟩
  | widths (a b : Text) (mn mx : Option Nat) : OptWidth a mn → OptMax b mx → a ++ b ≠ [] →
      Format (':' :: a ++ b) ⟨' ', .left, mn, mx⟩
  | aligned (right : Bool) (a b : Text) (mn mx : Option Nat) : OptWidth a mn → OptMax b mx →
      Format (':' :: (if right then '>' else '<') :: a ++ b) ⟨' ', if right then .right else .left, mn, mx⟩
  | filled (fill : Char) (right : Bool) (a b : Text) (mn mx : Option Nat) : OptWidth a mn → OptMax b mx →
      Format (':' :: fill :: (if right then '>' else '<') :: a ++ b) ⟨fill, if right then .right else .left, mn, mx⟩

/-- `Shows rec inner p o`: the pattern `p` prints `o`; `inner`: it stands between parentheses, where a closing parenthesis
    cannot be escaped by doubling it -/
inductive Shows (rec : Rec) : Bool → Text → Text → Prop
  | nil (i : Bool) : Shows rec i [] []
  | plain (i : Bool) (c : Char) (p o : Text) : c ∉ ['{', '}', '(', ')', '\\'] → Shows rec i p o → Shows rec i (c :: p) (c :: o)
  | backslash (i : Bool) (c : Char) (p o : Text) : c ∈ ['{', '}', '(', ')', '\\'] → Shows rec i p o →
      Shows rec i ('\\' :: c :: p) (c :: o)
  | doubled (i : Bool) (c : Char) (p o : Text) : c ∈ ['{', '}', '(', ')'] → (i = true → c ≠ ')') → Shows rec i p o →
      Shows rec i (c :: c :: p) (c :: o)
  | field (i : Bool) (n : Text) (f : Field) (ft : Text) (ps : Params) (p o : Text) : (n, f) ∈ formatters → Format ft ps →
      ps.sane → Shows rec i p o →
      Shows rec i ('{' :: (n ++ (ft ++ '}' :: p))) (fitTo ps (rec.field f).flatten ++ o)
  | group (i : Bool) (n inner out ft : Text) (ps : Params) (p o : Text) : n ∈ [[], "h".toList, "highlight".toList] →
      Shows rec true inner out → Format ft ps → ps.sane → Shows rec i p o →
      Shows rec i ('{' :: (n ++ '(' :: (inner ++ ')' :: (ft ++ '}' :: p)))) (fitTo ps out ++ o)
  | date (i : Bool) (n fmt ft : Text) (ps : Params) (ts : List Text) (p o : Text) : n ∈ ["d".toList, "date".toList] →
      (∀ c ∈ fmt, c ∉ ['{', '}', '(', ')', '\\']) → rec.time fmt false = some ts → Format ft ps → ps.sane → Shows rec i p o →
      Shows rec i ('{' :: (n ++ '(' :: (fmt ++ ')' :: (ft ++ '}' :: p)))) (fitTo ps ts.flatten ++ o)
  | zone (i : Bool) (n fmt : Text) (utc : Bool) (ft : Text) (ps : Params) (ts : List Text) (p o : Text) :
      n ∈ ["d".toList, "date".toList] → (∀ c ∈ fmt, c ∉ ['{', '}', '(', ')', '\\']) → rec.time fmt utc = some ts →
      Format ft ps → ps.sane → Shows rec i p o →
      Shows rec i ('{' :: (n ++ '(' :: (fmt ++ ')' :: '(' :: ((if utc then "utc".toList else "local".toList) ++
        ')' :: (ft ++ '}' :: p))))) (fitTo ps ts.flatten ++ o)

/-- External: the classes of the ASCII characters -/
def Ascii (k : Classes) : Prop := ∀ c : Char, c.val < 128 → k.alphabetic c = c.isAlpha ∧ k.alphanumeric c = c.isAlphanum

/-! ### The parts of the parser -/

theorem digit_some {c : Char} (h : '0' ≤ c ∧ c ≤ '9') : digit c = some (c.toNat - 48) := by
  unfold digit; rw [if_pos h]

/-- a character that ends a number -/
def NoDigit (p : Text) : Prop := ∀ c ∈ p.head?, digit c = none

theorem integerFrom_stop {p : Text} (h : NoDigit p) (cur : Nat) (b : Bool) :
    integerFrom cur b p = (if b then some cur else none, p) := by
  cases p with
  | nil => rfl
  | cons c r => simp [integerFrom, h c rfl]

theorem integerFrom_digits (t : Text) : ∀ (cur : Nat) (b : Bool) (p : Text), (∀ c ∈ t, '0' ≤ c ∧ c ≤ '9') → NoDigit p →
    integerFrom cur b (t ++ p) = (if t ≠ [] ∨ b then some (t.foldl (fun v c => v * 10 + (c.toNat - 48)) cur) else none, p) := by
  induction t with
  | nil =>
    intro cur b p _ hp
    rw [List.nil_append, integerFrom_stop hp]; simp
  | cons c t ih =>
    intro cur b p ht hp
    rw [List.cons_append, integerFrom, digit_some (ht c List.mem_cons_self)]
    simp only
    rw [ih _ _ _ (fun x hx => ht x (List.mem_cons_of_mem _ hx)) hp]
    simp

theorem integer_width {t : Text} {w : Option Nat} (h : OptWidth t w) {p : Text} (hp : NoDigit p) : integer (t ++ p) = (w, p) := by
  unfold integer
  cases h with
  | absent => rw [List.nil_append, integerFrom_stop hp]; simp
  | present t n hd =>
    obtain ⟨h1, h2, h3⟩ := hd
    rw [integerFrom_digits t 0 false p h2 hp, h3]
    simp [h1, decValue]

theorem noDigit_brace (p : Text) : NoDigit ('}' :: p) := by
  intro c hc
  simp only [List.head?_cons, Option.mem_some_iff] at hc
  subst hc; decide

theorem noDigit_max {b : Text} {mx : Option Nat} (h : OptMax b mx) (p : Text) : NoDigit (b ++ '}' :: p) := by
  cases h with
  | absent => exact noDigit_brace p
  | present t n _ =>
    intro c hc
    simp only [List.cons_append, List.head?_cons, Option.mem_some_iff] at hc
    subst hc; decide

theorem maxOf_width {b : Text} {mx : Option Nat} (h : OptMax b mx) (p : Text) : maxOf (b ++ '}' :: p) = (mx, '}' :: p) := by
  cases h with
  | absent => simp [maxOf]
  | present t n hd =>
    simp only [List.cons_append, maxOf]
    exact integer_width (.present t n hd) (noDigit_brace p)

/-- the rest after fill and alignment -/
theorem widths_parse {a b : Text} {mn mx : Option Nat} (ha : OptWidth a mn) (hb : OptMax b mx) (p : Text) :
    (integer (a ++ (b ++ '}' :: p))) = (mn, b ++ '}' :: p) ∧ maxOf (b ++ '}' :: p) = (mx, '}' :: p) :=
  ⟨integer_width ha (noDigit_max hb p), maxOf_width hb p⟩

/-- the head and the second character of the widths are no arrows -/
theorem widths_heads {a b : Text} {mn mx : Option Nat} (ha : OptWidth a mn) (hb : OptMax b mx) (p : Text) :
    (∀ c ∈ (a ++ (b ++ '}' :: p)).head?, c ≠ '<' ∧ c ≠ '>') ∧
    (a ++ b ≠ [] → ∀ c ∈ (a ++ (b ++ '}' :: p)).tail.head?, c ≠ '<' ∧ c ≠ '>') := by
  have dig : ∀ c : Char, '0' ≤ c ∧ c ≤ '9' → c ≠ '<' ∧ c ≠ '>' := by
    rintro c ⟨h1, h2⟩
    constructor <;> (rintro rfl; revert h2; decide)
  have hb0 : ∀ c ∈ (b ++ '}' :: p).head?, c ≠ '<' ∧ c ≠ '>' := by
    cases hb with
    | absent => intro c hc; simp at hc; subst hc; decide
    | present t n _ => intro c hc; simp at hc; subst hc; decide
  cases ha with
  | absent =>
    refine ⟨hb0, ?_⟩
    intro hne
    cases hb with
    | absent => simp at hne
    | present t n hd =>
      intro c hc
      obtain ⟨h1, h2, _⟩ := hd
      cases t with
      | nil => exact absurd rfl h1
      | cons x t =>
        simp at hc; subst hc
        exact dig x (h2 x List.mem_cons_self)
  | present t n hd =>
    obtain ⟨h1, h2, _⟩ := hd
    cases a with
    | nil => exact absurd rfl h1
    | cons x t =>
      refine ⟨?_, ?_⟩
      · intro c hc; simp at hc; subst hc; exact dig x (h2 x List.mem_cons_self)
      · intro _ c hc
        cases t with
        | nil => simp only [List.cons_append, List.nil_append, List.tail_cons] at hc; exact hb0 c hc
        | cons y t => simp at hc; subst hc; exact dig y (h2 y (by simp))

theorem fillOf_none {p : Text} (h2 : ∀ c ∈ p.tail.head?, c ≠ '<' ∧ c ≠ '>') : fillOf p = (' ', p) := by
  unfold fillOf
  split
  · exact absurd rfl (h2 '<' rfl).1
  · exact absurd rfl (h2 '>' rfl).2
  · rfl

theorem alignOf_none {p : Text} (h : ∀ c ∈ p.head?, c ≠ '<' ∧ c ≠ '>') : alignOf p = (.left, p) := by
  unfold alignOf
  split
  · exact absurd rfl (h '<' rfl).1
  · exact absurd rfl (h '>' rfl).2
  · rfl

theorem parameters_format {t : Text} {ps : Params} (h : Format t ps) (p : Text) : parameters (t ++ '}' :: p) = (ps, '}' :: p) := by
  cases h with
  | absent => simp [parameters]
  | widths a b mn mx ha hb hne =>
    obtain ⟨h1, h2⟩ := widths_parse ha hb p
    obtain ⟨h3, h4⟩ := widths_heads ha hb p
    simp only [List.cons_append, List.append_assoc, parameters, fillOf_none (h4 hne), alignOf_none h3, h1, h2]
  | aligned right a b mn mx ha hb =>
    obtain ⟨h1, h2⟩ := widths_parse ha hb p
    obtain ⟨h3, h4⟩ := widths_heads ha hb p
    have hf : ∀ x : Char, fillOf (x :: (a ++ (b ++ '}' :: p))) = (' ', x :: (a ++ (b ++ '}' :: p))) :=
      fun x => fillOf_none h3
    cases right with
    | false => simp only [List.cons_append, List.append_assoc, parameters, Bool.false_eq_true, if_false, hf, alignOf, h1, h2]
    | true => simp only [List.cons_append, List.append_assoc, parameters, if_true, hf, alignOf, h1, h2]
  | filled fill right a b mn mx ha hb =>
    obtain ⟨h1, h2⟩ := widths_parse ha hb p
    have hf : ∀ r, fillOf (fill :: '<' :: r) = (fill, '<' :: r) ∧ fillOf (fill :: '>' :: r) = (fill, '>' :: r) := by
      intro r; constructor <;> simp [fillOf]
    cases right with
    | false =>
      simp only [List.cons_append, List.append_assoc, parameters, Bool.false_eq_true, if_false, (hf _).1, alignOf, h1, h2]
    | true => simp only [List.cons_append, List.append_assoc, parameters, if_true, (hf _).2, alignOf, h1, h2]

theorem format_head {t : Text} {ps : Params} (h : Format t ps) (p : Text) :
    (t ++ '}' :: p).head? = some ':' ∨ (t ++ '}' :: p).head? = some '}' := by
  cases h <;> simp

/-- what a name looks like -/
def isName : Text → Bool
  | [] => false
  | c :: r => c.val < 128 && c.isAlpha && r.all (fun c => c.val < 128 && (c.isAlphanum || c == '_'))

theorem name_eq {k : Classes} (hk : Ascii k) {n : Text} (hn : isName n = true) {p : Text}
    (hp : p.head? = some '(' ∨ p.head? = some ':' ∨ p.head? = some '}') : name k (n ++ p) = (n, p) := by
  cases n with
  | nil => simp [isName] at hn
  | cons c r =>
    simp only [isName, Bool.and_eq_true, decide_eq_true_eq, List.all_eq_true] at hn
    obtain ⟨⟨h1, h2⟩, h3⟩ := hn
    have hall : ∀ x ∈ r, (k.alphanumeric x || x == '_') = true := by
      intro x hx
      obtain ⟨h4, h5⟩ := h3 x hx
      rw [(hk x h4).2]; exact h5
    have hstop : p.takeWhile (fun c => k.alphanumeric c || c == '_') = [] := by
      cases p with
      | nil => rfl
      | cons d q =>
        have hd : d.val < 128 ∧ (d.isAlphanum || d == '_') = false := by
          simp only [List.head?_cons, Option.some.injEq] at hp
          rcases hp with rfl | rfl | rfl <;> decide
        rw [List.takeWhile_cons, (hk d hd.1).2, hd.2]; rfl
    have htw : (r ++ p).takeWhile (fun c => k.alphanumeric c || c == '_') = r := by
      rw [List.takeWhile_append_of_pos hall, hstop, List.append_nil]
    simp only [List.cons_append, name, (hk c h1).1, h2, Bool.true_or, if_true, htw, List.drop_left]

theorem name_empty {k : Classes} (hk : Ascii k) (p : Text) : name k ('(' :: p) = ([], '(' :: p) := by
  have h : (k.alphabetic '(' || '(' == '_') = false := by rw [(hk '(' (by decide)).1]; decide
  simp only [name, h]; rfl

theorem formatters_ok : ∀ x ∈ formatters, isName x.1 = true ∧ isDate x.1 = false ∧ isMdc x.1 = false ∧
    isHighlight x.1 = false ∧ fieldOf x.1 = some x.2 := by
  decide +kernel

theorem args_none (k : Classes) (m : Nat) {p : Text} (h : p.head? = some ':' ∨ p.head? = some '}') :
    args k (m + 1) p = (some [], p) := by
  rw [args_succ]
  split
  · simp at h
  · rfl

/-! ### The whole pattern -/

/-- how a pattern ends: with a closing parenthesis and something else inside a group -/
def ending (i : Bool) (q : Text) : Text := if i then ')' :: q else []

theorem next_argument {k : Classes} {m : Nat} {r : Text} (hr : r.head? ≠ some '{') {nm rest : Text} (hn : name k r = (nm, rest))
    {as : List (List Piece)} {ft X : Text} {ps : Params} (ha : args k m rest = (some as, ft ++ '}' :: X)) (hf : Format ft ps) :
    next k (m + 1) ('{' :: r) = some (.argument nm as ps, X) := by
  have : next k (m + 1) ('{' :: r) = (match args k m (name k r).2 with
        | (some as, p) => some (closeArg (.argument (name k r).1 as (parameters p).1) (parameters p).2)
        | (none, p) => some (closeArg (.error "unclosed '('".toList) p)) := by
    cases r with
    | nil => simp only [next, if_true]; rfl
    | cons d r =>
      have hd : d ≠ '{' := by simpa using hr
      rw [next]
      · simp only [if_true]
        split <;> next h => rw [h]
      · intro r' hr'; injection hr' with h1; exact hd h1
  rw [this, hn]
  simp only [ha, parameters_format hf, closeArg]

theorem Shows.text_split {rec : Rec} {i : Bool} {p o : Text} (h : Shows rec i p o) :
    ∃ o', Shows rec i (p.drop (p.takeWhile (fun c => !isSpecial c)).length) o' ∧ o = p.takeWhile (fun c => !isSpecial c) ++ o' := by
  have sp : ∀ c, c ∈ ['{', '}', '(', ')', '\\'] → isSpecial c = true := fun c => (isSpecial_iff c).mpr
  have st : ∀ {i : Bool} {c : Char} {p o : Text}, isSpecial c = true → Shows rec i (c :: p) o →
      ∃ o', Shows rec i ((c :: p).drop ((c :: p).takeWhile (fun c => !isSpecial c)).length) o' ∧
        o = (c :: p).takeWhile (fun c => !isSpecial c) ++ o' := by
    intro i c p o hs h
    have : (c :: p).takeWhile (fun c => !isSpecial c) = [] := by simp [List.takeWhile_cons, hs]
    rw [this]
    exact ⟨o, h, rfl⟩
  induction h with
  | nil i => exact ⟨[], .nil i, rfl⟩
  | plain i c p o hc h ih =>
    obtain ⟨o', h1, h2⟩ := ih
    have hs : isSpecial c = false := by
      cases hb : isSpecial c
      · rfl
      · exact absurd ((isSpecial_iff c).mp hb) hc
    refine ⟨o', ?_, ?_⟩
    · simpa [List.takeWhile_cons, hs] using h1
    · simp [List.takeWhile_cons, hs, ← h2]
  | backslash i c p o hc h ih => exact st rfl (.backslash i c p o hc h)
  | doubled i c p o hc hi h ih => exact st (sp c (by simp at hc ⊢; tauto)) (.doubled i c p o hc hi h)
  | field i n f ft ps p o h1 h2 h3 h ih => exact st rfl (.field i n f ft ps p o h1 h2 h3 h)
  | group i n inner out ft ps p o h1 h2 h3 h4 h ih1 ih => exact st rfl (.group i n inner out ft ps p o h1 h2 h3 h4 h)
  | date i n fmt ft ps ts p o h1 h2 h3 h4 h5 h ih => exact st rfl (.date i n fmt ft ps ts p o h1 h2 h3 h4 h5 h)
  | zone i n fmt utc ft ps ts p o h1 h2 h3 h4 h5 h ih => exact st rfl (.zone i n fmt utc ft ps ts p o h1 h2 h3 h4 h5 h)

theorem plain_isSpecial {c : Char} (hc : c ∉ ['{', '}', '(', ')', '\\']) : isSpecial c = false := by
  cases hb : isSpecial c
  · rfl
  · exact absurd ((isSpecial_iff c).mp hb) hc

theorem next_plain (k : Classes) (m : Nat) {c : Char} (r : Text) (hs : isSpecial c = false) :
    next k (m + 1) (c :: r) = some (textPiece (c :: r)) := by
  have h1 : c ≠ '{' := by rintro rfl; cases hs
  have h2 : c ≠ '}' := by rintro rfl; cases hs
  have h3 : c ≠ '(' := by rintro rfl; cases hs
  have h4 : c ≠ ')' := by rintro rfl; cases hs
  have h5 : c ≠ '\\' := by rintro rfl; cases hs
  simp [next, h1, h2, h3, h4, h5]

theorem next_backslash (k : Classes) (m : Nat) {c : Char} (r : Text) (hc : c ∈ ['{', '}', '(', ')', '\\']) :
    next k (m + 1) ('\\' :: c :: r) = some (.text [c], r) := by
  simp [next, Log.escaped, (isSpecial_iff c).mpr hc]

theorem next_doubled (k : Classes) (m : Nat) {c : Char} (r : Text) (hc : c ∈ ['{', '}', '(', ')']) :
    next k (m + 1) (c :: c :: r) = some (.text [c], r) := by
  simp only [List.mem_cons, List.not_mem_nil, or_false] at hc
  rcases hc with rfl | rfl | rfl | rfl <;> simp [next, Log.doubled]

/-- an argument of ordinary characters -/
theorem pieces_plain (k : Classes) (m : Nat) (fmt X : Text) (h : ∀ c ∈ fmt, c ∉ ['{', '}', '(', ')', '\\']) :
    pieces k (m + 3) true (fmt ++ ')' :: X) = (if fmt = [] then [] else [.text fmt], X, true) := by
  cases fmt with
  | nil => rw [pieces_succ]; simp
  | cons c r =>
    have hc := h c List.mem_cons_self
    have hs := plain_isSpecial hc
    have htw : (c :: r ++ ')' :: X).takeWhile (fun c => !isSpecial c) = c :: r := by
      rw [List.takeWhile_append_of_pos (by intro x hx; simp [plain_isSpecial (h x hx)])]
      simp [List.takeWhile_cons, isSpecial]
    simp only [List.mem_cons, not_or] at hc
    obtain ⟨h1, h2, h3, h4, h5, -⟩ := hc
    have hn : next k (m + 2) (c :: r ++ ')' :: X) = some (.text (c :: r), ')' :: X) := by
      rw [List.cons_append, next_plain k (m + 1) _ hs, ← List.cons_append, textPiece, htw, List.drop_left]
    rw [pieces_succ, hn]
    simp only [List.cons_append, List.head?_cons, Option.some.injEq, beq_iff_eq, h4, and_false, Bool.false_eq_true, if_false,
      Bool.true_and]
    rw [pieces_succ]
    simp

theorem dateText_plain (fmt : Text) : dateText (if fmt = [] then [] else [.text fmt]) = fmt := by
  by_cases h : fmt = []
  · rw [if_pos h, h]; rfl
  · rw [if_neg h]
    show dateTextOf (.text fmt) ++ [] = fmt
    rw [List.append_nil]; rfl

theorem chunkOf_field {n : Text} {f : Field} (g2 : isDate n = false) (g3 : isMdc n = false) (g4 : isHighlight n = false)
    (g6 : n.isEmpty = false) (g5 : fieldOf n = some f) (ps : Params) : chunkOf (.argument n [] ps) = .field f ps := by
  unfold chunkOf
  rw [g2, g3, g4, g6]
  simp only [Bool.false_eq_true, if_false, Bool.or_self]
  rw [g5]
  rfl

theorem next_field {k : Classes} (hk : Ascii k) (m : Nat) {n ft : Text} {f : Field} {ps : Params} (hf : (n, f) ∈ formatters)
    (hft : Format ft ps) (X : Text) :
    next k (m + 2) ('{' :: (n ++ (ft ++ '}' :: X))) = some (.argument n [] ps, X) ∧ chunkOf (.argument n [] ps) = .field f ps := by
  obtain ⟨g1, g2, g3, g4, g5⟩ := formatters_ok _ hf
  simp only at g1 g2 g3 g4 g5
  cases n with
  | nil => simp [isName] at g1
  | cons c r =>
    refine ⟨next_argument (ft := ft) ?_ (name_eq hk g1 (.inr (format_head hft X))) (args_none k m (format_head hft X)) hft, ?_⟩
    · simp only [List.cons_append, List.head?_cons, ne_eq, Option.some.injEq]
      rintro rfl
      simp only [isName, Bool.and_eq_true, decide_eq_true_eq] at g1
      exact absurd g1.1.2 (by decide)
    · exact chunkOf_field g2 g3 g4 rfl g5 ps

theorem next_group {k : Classes} (hk : Ascii k) (m : Nat) {n inner ft X : Text} {ps : Params} {pin : List Piece}
    (hn : n ∈ [[], "h".toList, "highlight".toList]) (hft : Format ft ps)
    (hp : pieces k (m + 1) true (inner ++ ')' :: (ft ++ '}' :: X)) = (pin, ft ++ '}' :: X, true)) :
    next k (m + 3) ('{' :: (n ++ '(' :: (inner ++ ')' :: (ft ++ '}' :: X)))) = some (.argument n [pin] ps, X) ∧
      chunkOf (.argument n [pin] ps) = .group (isHighlight n) (chunksOf pin) ps := by
  have ha : args k (m + 2) ('(' :: (inner ++ ')' :: (ft ++ '}' :: X))) = (some [pin], ft ++ '}' :: X) := by
    rw [args_succ]
    simp only [hp]
    rw [args_none k m (format_head hft X)]
  simp only [List.mem_cons, List.not_mem_nil, or_false] at hn
  rcases hn with rfl | rfl | rfl
  · exact ⟨next_argument (by simp) (name_empty hk _) ha hft, by simp [chunkOf, isDate, isMdc, isHighlight]⟩
  · exact ⟨next_argument (by simp) (name_eq hk (by decide) (.inl rfl)) ha hft, by simp [chunkOf, isDate, isMdc, isHighlight]⟩
  · exact ⟨next_argument (by simp) (name_eq hk (by decide) (.inl rfl)) ha hft, by simp [chunkOf, isDate, isMdc, isHighlight]⟩

theorem next_dated {k : Classes} (hk : Ascii k) (m : Nat) {n rest ft X : Text} {ps : Params} {as : List (List Piece)}
    (hn : n ∈ ["d".toList, "date".toList]) (hft : Format ft ps) (hr : rest.head? = some '(')
    (ha : args k m rest = (some as, ft ++ '}' :: X)) :
    next k (m + 1) ('{' :: (n ++ rest)) = some (.argument n as ps, X) ∧ chunkOf (.argument n as ps) = dateChunk as ps := by
  simp only [List.mem_cons, List.not_mem_nil, or_false] at hn
  rcases hn with rfl | rfl
  · exact ⟨next_argument (by simp) (name_eq hk (by decide) (.inl hr)) ha hft, by simp [chunkOf, isDate]⟩
  · exact ⟨next_argument (by simp) (name_eq hk (by decide) (.inl hr)) ha hft, by simp [chunkOf, isDate]⟩

theorem next_date {k : Classes} (hk : Ascii k) (m : Nat) {n fmt ft : Text} {ps : Params}
    (hn : n ∈ ["d".toList, "date".toList]) (hfmt : ∀ c ∈ fmt, c ∉ ['{', '}', '(', ')', '\\']) (hft : Format ft ps) (X : Text) :
    ∃ x, next k (m + 5) ('{' :: (n ++ '(' :: (fmt ++ ')' :: (ft ++ '}' :: X)))) = some (x, X) ∧
      chunkOf x = .time fmt false ps := by
  have ha : args k (m + 4) ('(' :: (fmt ++ ')' :: (ft ++ '}' :: X)))
      = (some [if fmt = [] then [] else [.text fmt]], ft ++ '}' :: X) := by
    rw [args_succ]
    simp only [pieces_plain k m fmt _ hfmt]
    rw [args_none k (m + 2) (format_head hft X)]
  obtain ⟨h1, h2⟩ := next_dated hk (m + 4) hn hft rfl ha
  refine ⟨_, h1, ?_⟩
  rw [h2]
  simp [dateChunk, zoneOf, dateText_plain]

theorem next_zone {k : Classes} (hk : Ascii k) (m : Nat) {n fmt z ft : Text} {ps : Params} (utc : Bool)
    (hz : z = if utc then "utc".toList else "local".toList)
    (hn : n ∈ ["d".toList, "date".toList]) (hfmt : ∀ c ∈ fmt, c ∉ ['{', '}', '(', ')', '\\']) (hft : Format ft ps) (X : Text) :
    ∃ x, next k (m + 6) ('{' :: (n ++ '(' :: (fmt ++ ')' :: '(' :: (z ++ ')' :: (ft ++ '}' :: X))))) = some (x, X) ∧
      chunkOf x = .time fmt utc ps := by
  have hzp : ∀ c ∈ z, c ∉ ['{', '}', '(', ')', '\\'] := by subst hz; cases utc <;> decide
  have hz0 : z ≠ [] := by subst hz; cases utc <;> decide
  have ha : args k (m + 5) ('(' :: (fmt ++ ')' :: '(' :: (z ++ ')' :: (ft ++ '}' :: X))))
      = (some [if fmt = [] then [] else [.text fmt], [.text z]], ft ++ '}' :: X) := by
    rw [args_succ]
    simp only [pieces_plain k (m + 1) fmt _ hfmt]
    rw [args_succ]
    simp only [pieces_plain k m z _ hzp, if_neg hz0]
    rw [args_none k (m + 2) (format_head hft X)]
  obtain ⟨h1, h2⟩ := next_dated hk (m + 5) hn hft rfl ha
  refine ⟨_, h1, ?_⟩
  rw [h2]
  subst hz
  cases utc <;> simp [dateChunk, zoneOf, dateText_plain]

/-- the pattern `p`, followed by its ending, is read completely and prints `o` -/
def Reads (k : Classes) (rec : Rec) (n : Nat) (i : Bool) (p o q : Text) : Prop :=
  ∃ ps, pieces k n i (p ++ ending i q) = (ps, if i then q else [], i) ∧ saneList (chunksOf ps) ∧
    printedList rec (chunksOf ps) = some o

/-- one piece, then the rest -/
theorem Reads.cons {k : Classes} {rec : Rec} {m : Nat} {i : Bool} {p p' o1 o' q : Text} {x : Piece}
    (hr : Reads k rec m i p' o' q) (hhead : i = true → (p ++ ending i q).head? ≠ some ')')
    (hnext : next k m (p ++ ending i q) = some (x, p' ++ ending i q)) (hsane : (chunkOf x).sane)
    (hpr : printed rec (chunkOf x) = some o1) : Reads k rec (m + 1) i p (o1 ++ o') q := by
  obtain ⟨ps, h1, h2, h3⟩ := hr
  refine ⟨x :: ps, ?_, ⟨hsane, h2⟩, ?_⟩
  · rw [pieces_succ]
    have : (i && (p ++ ending i q).head? == some ')') = false := by
      cases i with
      | false => rfl
      | true => simpa using hhead rfl
    rw [this]
    simp only [Bool.false_eq_true, if_false, hnext, h1]
  · simp only [chunksOf, printedList, hpr, h3]

theorem pieces_shows {k : Classes} (hk : Ascii k) (rec : Rec) (n : Nat) : ∀ (i : Bool) (p o q : Text), Shows rec i p o →
    2 * (p ++ ending i q).length + 2 ≤ n → Reads k rec n i p o q := by
  induction n using Nat.strongRecOn with
  | ind n ih =>
    intro i p o q h hn
    obtain ⟨m, rfl⟩ : ∃ m, n = m + 2 := ⟨n - 2, by omega⟩
    cases h with
    | nil =>
      refine ⟨[], ?_, trivial, rfl⟩
      cases i with
      | false => rw [pieces_succ]; simp [ending, next]
      | true => rw [pieces_succ]; simp [ending]
    | plain _ c p o hc h =>
      have hs := plain_isSpecial hc
      obtain ⟨o', e1, e2⟩ := h.text_split
      have hend : (ending i q).takeWhile (fun c => !isSpecial c) = [] := by
        cases i <;> simp [ending, isSpecial]
      have htw : (p ++ ending i q).takeWhile (fun c => !isSpecial c) = p.takeWhile (fun c => !isSpecial c) := by
        rw [List.takeWhile_append]
        split
        · next hl => rw [hend, List.append_nil]; exact ((List.takeWhile_prefix _).eq_of_length hl).symm
        · rfl
      have hle : (p.takeWhile (fun c => !isSpecial c)).length ≤ p.length := (List.takeWhile_prefix _).length_le
      have hr := ih (m + 1) (by omega) i _ o' q e1 (by
        simp only [List.length_append, List.length_drop, List.length_cons] at hn ⊢; omega)
      have ho : c :: o = (c :: p.takeWhile (fun c => !isSpecial c)) ++ o' := by rw [List.cons_append, ← e2]
      rw [ho]
      refine hr.cons (x := .text (c :: p.takeWhile (fun c => !isSpecial c))) ?_ ?_ trivial rfl
      · intro _; simp only [List.cons_append, List.head?_cons, ne_eq, Option.some.injEq]; rintro rfl; cases hs
      · rw [List.cons_append, next_plain k m _ hs, textPiece, List.takeWhile_cons, hs]
        simp only [Bool.not_false, if_true, htw]
        rw [List.length_cons, List.drop_succ_cons, List.drop_append_of_le_length hle]
    | backslash _ c p o hc h =>
      have hr := ih (m + 1) (by omega) i p o q h (by simp only [List.length_append, List.length_cons] at hn ⊢; omega)
      exact hr.cons (o1 := [c]) (fun _ => by simp) (next_backslash k m _ hc) trivial rfl
    | doubled _ c p o hc hi h =>
      have hr := ih (m + 1) (by omega) i p o q h (by simp only [List.length_append, List.length_cons] at hn ⊢; omega)
      exact hr.cons (o1 := [c]) (fun h => by simpa using hi h) (next_doubled k m _ hc) trivial rfl
    | field _ n f ft ps p o hf hft hps h =>
      have hr := ih (m + 1) (by omega) i p o q h (by simp only [List.length_append, List.length_cons] at hn ⊢; omega)
      obtain ⟨m, rfl⟩ : ∃ j, m = j + 1 := ⟨m - 1, by simp only [List.length_append, List.length_cons] at hn; omega⟩
      obtain ⟨h1, h2⟩ := next_field hk m hf hft (p ++ ending i q)
      refine hr.cons (x := .argument n [] ps) (fun _ => by simp) ?_ (by rw [h2]; exact hps) (by rw [h2]; rfl)
      rw [← h1]
      simp only [List.cons_append, List.append_assoc]
    | group _ n inner out ft ps p o hnm hin hft hps h =>
      simp only [List.length_append, List.length_cons] at hn
      have hr := ih (m + 1) (by omega) i p o q h (by simp only [List.length_append]; omega)
      obtain ⟨m, rfl⟩ : ∃ j, m = j + 2 := ⟨m - 2, by omega⟩
      obtain ⟨pin, e1, e2, e3⟩ := ih (m + 1) (by omega) true inner out (ft ++ '}' :: (p ++ ending i q)) hin
        (by simp only [ending, if_true, List.length_append, List.length_cons] at hn ⊢; omega)
      obtain ⟨h1, h2⟩ := next_group hk m hnm hft e1
      refine hr.cons (x := .argument n [pin] ps) (fun _ => by simp) ?_ (by rw [h2]; exact ⟨hps, e2⟩)
        (by rw [h2, printed, e3]; rfl)
      rw [← h1]
      simp only [List.cons_append, List.append_assoc]
    | date _ n fmt ft ps ts p o hnm hfmt hts hft hps h =>
      simp only [List.length_append, List.length_cons] at hn
      have hr := ih (m + 1) (by omega) i p o q h (by simp only [List.length_append]; omega)
      obtain ⟨m, rfl⟩ : ∃ j, m = j + 4 := ⟨m - 4, by omega⟩
      obtain ⟨x, h1, h2⟩ := next_date hk m hnm hfmt hft (p ++ ending i q)
      refine hr.cons (x := x) (fun _ => by simp) ?_ (by rw [h2]; exact hps) (by rw [h2, printed, hts]; rfl)
      rw [← h1]
      simp only [List.cons_append, List.append_assoc]
    | zone _ n fmt utc ft ps ts p o hnm hfmt hts hft hps h =>
      simp only [List.length_append, List.length_cons] at hn
      have hr := ih (m + 1) (by omega) i p o q h (by simp only [List.length_append]; omega)
      obtain ⟨m, rfl⟩ : ∃ j, m = j + 5 := ⟨m - 5, by omega⟩
      obtain ⟨x, h1, h2⟩ := next_zone hk m utc rfl hnm hfmt hft (p ++ ending i q)
      refine hr.cons (x := x) (fun _ => by simp) ?_ (by rw [h2]; exact hps) (by rw [h2, printed, hts]; rfl)
      rw [← h1]
      simp only [List.cons_append, List.append_assoc]

/-- **C101** A pattern made of literal text (escaped as documented), formatters by name, nested groups, highlighted groups
    and dates, each with or without fill character, alignment, minimal and maximal width, prints exactly what these stand for,
    in order. -/
theorem C101_pattern (k : Classes) (hk : Ascii k) (rec : Rec) (p o : Text) (h : Shows rec false p o) :
    formatReq k rec p = .ok o := by
  obtain ⟨ps, h1, h2, h3⟩ := pieces_shows hk rec (enough p) false p o [] h (by simp [ending, enough]; omega)
  have hp : parse k p = ps := by
    have : pieces k (enough p) false (p ++ ending false []) = pieces k (enough p) false p := by simp [ending]
    rw [parse, ← this, h1]
  rw [C57_pattern_partial k rec p (by rw [hp]; exact h2), hp, h3]

/-! concrete case -/

example : Ascii exK := fun _ _ => ⟨rfl, rfl⟩

/-- text, an escaped brace, a field with all widths, and a group with a field and a date -/
example : ∃ o, Shows exRec false "a{{{path:*<3.8}{(\\){host:.4}{d(%Y)(utc):6}):->9}".toList o ∧
    formatReq exK exRec "a{{{path:*<3.8}{(\\){host:.4}{d(%Y)(utc):6}):->9}".toList = .ok o := by
  have d3 : Decimal "3".toList 3 := ⟨by decide, by decide, by decide⟩
  have d8 : Decimal "8".toList 8 := ⟨by decide, by decide, by decide⟩
  have d4 : Decimal "4".toList 4 := ⟨by decide, by decide, by decide⟩
  have d6 : Decimal "6".toList 6 := ⟨by decide, by decide, by decide⟩
  have d9 : Decimal "9".toList 9 := ⟨by decide, by decide, by decide⟩
  have hs : Shows exRec false "a{{{path:*<3.8}{(\\){host:.4}{d(%Y)(utc):6}):->9}".toList _ :=
    .plain false 'a' _ _ (by decide) <| .doubled false '{' _ _ (by decide) (by simp) <|
    .field false "path".toList .path ":*<3.8".toList _ _ _ (by decide +kernel)
      (.filled '*' false "3".toList ".8".toList _ _ (.present _ _ d3) (.present _ _ d8))
      (by intro a b h1 h2; simp at h1 h2; omega) <|
    .group false [] "\\){host:.4}{d(%Y)(utc):6}".toList _ ":->9".toList _ _ _ (by decide)
      (.backslash true ')' _ _ (by decide) <|
        .field true "host".toList .host ":.4".toList _ _ _ (by decide +kernel)
          (.widths [] ".4".toList none _ .absent (.present _ _ d4) (by decide)) (by intro a b h1; simp at h1) <|
        .zone true "d".toList "%Y".toList true ":6".toList _ ["2026".toList] _ _ (by decide) (by decide) rfl
          (.widths "6".toList [] _ _ (.present _ _ d6) .absent (by decide)) (by intro a b _ h2; simp at h2) (.nil true))
      (.filled '-' true "9".toList [] _ _ (.present _ _ d9) .absent) (by intro a b _ h2; simp at h2)
      (.nil false)
  exact ⟨_, hs, C101_pattern exK (fun _ _ => ⟨rfl, rfl⟩) exRec _ _ hs⟩

example : formatReq exK exRec "a{{{path:*<3.8}{(\\){host:.4}{d(%Y)(utc):6}):->9}".toList
    = .ok "a{/index-é)exam2026  ".toList := by decide +kernel

/-! ### C155: values of the logging context -/

theorem next_mdc {k : Classes} (hk : Ascii k) (m : Nat) {n rest ft X : Text} {ps : Params} {as : List (List Piece)}
    (hn : n ∈ ["X".toList, "mdc".toList]) (hft : Format ft ps) (hr : rest.head? = some '(')
    (ha : args k m rest = (some as, ft ++ '}' :: X)) :
    next k (m + 1) ('{' :: (n ++ rest)) = some (.argument n as ps, X) ∧ chunkOf (.argument n as ps) = mdcChunk as ps := by
  simp only [List.mem_cons, List.not_mem_nil, or_false] at hn
  rcases hn with rfl | rfl
  · exact ⟨next_argument (by simp) (name_eq hk (by decide) (.inl hr)) ha hft, by simp [chunkOf, isDate, isMdc]⟩
  · exact ⟨next_argument (by simp) (name_eq hk (by decide) (.inl hr)) ha hft, by simp [chunkOf, isDate, isMdc]⟩

/-- a pattern of one piece that stands for nothing -/
theorem formatReq_nothing {k : Classes} (rec : Rec) {p : Text} {x : Piece} {ps : Params} {m : Nat} (he : enough p = m + 2)
    (h1 : next k (m + 1) p = some (x, [])) (h2 : chunkOf x = .group false [] ps) (hs : ps.sane) :
    formatReq k rec p = .ok (fitTo ps []) := by
  have hp : parse k p = [x] := by
    unfold parse
    rw [he, pieces_succ]
    simp only [Bool.false_and, Bool.false_eq_true, if_false, h1]
    rw [pieces_succ]
    cases m <;> simp [next]
  rw [C57_pattern_partial k rec p (by rw [hp]; simp only [chunksOf, h2]; exact ⟨⟨hs, trivial⟩, trivial⟩), hp]
  simp [chunksOf, h2, printedList, printed]

/-- **C155** fails: a default is never printed: `{X(key)(default)}` prints nothing, whatever the key and the default, and as wide a
    blank as a width asks for. -/
theorem C155_default_fails (k : Classes) (hk : Ascii k) (rec : Rec) (n key dflt ft : Text) (ps : Params)
    (hn : n ∈ ["X".toList, "mdc".toList]) (hkey : ∀ c ∈ key, c ∉ ['{', '}', '(', ')', '\\']) (h0 : key ≠ [])
    (hd : ∀ c ∈ dflt, c ∉ ['{', '}', '(', ')', '\\']) (hd0 : dflt ≠ []) (hft : Format ft ps) (hs : ps.sane) :
    formatReq k rec ('{' :: (n ++ '(' :: (key ++ ')' :: '(' :: (dflt ++ ')' :: (ft ++ ['}']))))) = .ok (fitTo ps []) := by
  obtain ⟨m, hm⟩ : ∃ m, enough ('{' :: (n ++ '(' :: (key ++ ')' :: '(' :: (dflt ++ ')' :: (ft ++ ['}']))))) = m + 7 :=
    ⟨enough ('{' :: (n ++ '(' :: (key ++ ')' :: '(' :: (dflt ++ ')' :: (ft ++ ['}']))))) - 7, by
      simp only [enough, List.length_append, List.length_cons]; omega⟩
  have ha : args k (m + 5) ('(' :: (key ++ ')' :: '(' :: (dflt ++ ')' :: (ft ++ ['}']))))
      = (some [[.text key], [.text dflt]], ft ++ ['}']) := by
    rw [args_succ]
    simp only [pieces_plain k (m + 1) key _ hkey, if_neg h0]
    rw [args_succ]
    simp only [pieces_plain k m dflt _ hd, if_neg hd0]
    rw [args_none k (m + 2) (format_head hft [])]
  obtain ⟨h1, h2⟩ := next_mdc hk (m + 5) hn hft rfl ha
  exact formatReq_nothing rec hm h1 (by rw [h2]; rfl) hs

/-- **C155**, partial: without a default a key stands for nothing, since this program never puts anything into the context.
    Missing: defaults, see `C155_default_fails`. -/
theorem C155_no_default_partial (k : Classes) (hk : Ascii k) (rec : Rec) (n key ft : Text) (ps : Params)
    (hn : n ∈ ["X".toList, "mdc".toList]) (hkey : ∀ c ∈ key, c ∉ ['{', '}', '(', ')', '\\']) (h0 : key ≠ [])
    (hft : Format ft ps) (hs : ps.sane) :
    formatReq k rec ('{' :: (n ++ '(' :: (key ++ ')' :: (ft ++ ['}'])))) = .ok (fitTo ps []) := by
  obtain ⟨m, hm⟩ : ∃ m, enough ('{' :: (n ++ '(' :: (key ++ ')' :: (ft ++ ['}'])))) = m + 6 :=
    ⟨enough ('{' :: (n ++ '(' :: (key ++ ')' :: (ft ++ ['}'])))) - 6, by
      simp only [enough, List.length_append, List.length_cons]; omega⟩
  have ha : args k (m + 4) ('(' :: (key ++ ')' :: (ft ++ ['}']))) = (some [[.text key]], ft ++ ['}']) := by
    rw [args_succ]
    simp only [pieces_plain k m key _ hkey, if_neg h0]
    rw [args_none k (m + 2) (format_head hft [])]
  obtain ⟨h1, h2⟩ := next_mdc hk (m + 4) hn hft rfl ha
  exact formatReq_nothing rec hm h1 (by rw [h2]; rfl) hs

example : formatReq exK exRec "{X(user)(no mapping)}".toList = .ok [] ∧
    formatReq exK exRec "{mdc(user):2}".toList = .ok "  ".toList := by decide +kernel

end Wm.Log
