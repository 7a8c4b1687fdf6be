import Verif.Model.ConfigText
import Verif.Proofs.Text
/-! Properties C28–C32, C35, C63: textual settings. -/
namespace Wm.Config
open Wm

/-! ### C35: quoted words -/

/-- how a word is written -/
inductive Quoting where
  | plain | double | single
deriving DecidableEq, Repr

/-- the word can be written that way -/
def Quoting.Fits : Quoting → Text → Prop
  | .plain, w => w ≠ [] ∧ ∀ c ∈ w, isWs c = false ∧ c ≠ '"' ∧ c ≠ '\''
  | .double, w => '"' ∉ w
  | .single, w => '\'' ∉ w

/-- the written word -/
def Quoting.write : Quoting → Text → Text
  | .plain, w => w
  | .double, w => '"' :: w ++ ['"']
  | .single, w => '\'' :: w ++ ['\'']

theorem ws_not_quote {c : Char} (h : isWs c = true) : c ≠ '"' ∧ c ≠ '\'' := by
  constructor <;> (rintro rfl; revert h; decide)

theorem isPlain_iff {c : Char} : isPlain c = true ↔ isWs c = false ∧ c ≠ '"' ∧ c ≠ '\'' := by
  simp [isPlain]; tauto

theorem splitQuoted_nil : splitQuoted [] = [] := rfl

theorem splitQuoted_ws {c : Char} (h : isWs c = true) (r : Text) : splitQuoted (c :: r) = splitQuoted r := by
  obtain ⟨h1, h2⟩ := ws_not_quote h
  rw [splitQuoted_cons, if_neg (by simp [isPlain, h]), if_neg (by simp [closes, h1, h2])]

theorem splitQuoted_wss (s r : Text) (h : ∀ c ∈ s, isWs c = true) : splitQuoted (s ++ r) = splitQuoted r := by
  induction s with
  | nil => rfl
  | cons c s ih => rw [List.cons_append, splitQuoted_ws (h c (by simp)), ih (fun x hx => h x (by simp [hx]))]

theorem takeDrop_append {f : Char → Bool} {w r : Text} (hw : ∀ c ∈ w, f c = true) (hr : ∀ c ∈ r.head?, f c = false) :
    (w ++ r).takeWhile f = w ∧ (w ++ r).dropWhile f = r := by
  rw [List.takeWhile_append_of_pos hw, List.dropWhile_append_of_pos hw]
  cases r with
  | nil => simp
  | cons c r =>
    have : f c = false := hr c (by simp)
    simp [List.takeWhile_cons, List.dropWhile_cons, this]

theorem splitQuoted_plain {w r : Text} (hne : w ≠ []) (hw : ∀ c ∈ w, isPlain c = true)
    (hr : ∀ c ∈ r.head?, isPlain c = false) : splitQuoted (w ++ r) = w :: splitQuoted r := by
  cases w with
  | nil => exact absurd rfl hne
  | cons c w =>
    obtain ⟨h1, h2⟩ := takeDrop_append (f := isPlain) (w := w) (r := r) (fun x hx => hw x (by simp [hx])) hr
    rw [List.cons_append, splitQuoted_cons, if_pos (hw c (by simp)), h1, h2]

theorem splitQuoted_quote {q : Char} (hq : q = '"' ∨ q = '\'') {w : Text} (hw : q ∉ w) (r : Text) :
    splitQuoted (q :: (w ++ q :: r)) = w :: splitQuoted r := by
  have hp : isPlain q = false := by rcases hq with rfl | rfl <;> decide
  obtain ⟨h1, h2⟩ := takeDrop_append (f := fun c => decide (c ≠ q)) (w := w) (r := q :: r)
    (by intro c hc; simp; rintro rfl; exact hw hc) (by simp)
  have hc : closes q (w ++ q :: r) = true := by rcases hq with rfl | rfl <;> simp [closes]
  rw [splitQuoted_cons, if_neg (by simp [hp]), if_pos hc, h1, afterQuote, h2]
  simp

theorem splitQuoted_word {q : Quoting} {w : Text} (hf : q.Fits w) {r : Text} (hr : ∀ c ∈ r.head?, isWs c = true) :
    splitQuoted (q.write w ++ r) = w :: splitQuoted r := by
  cases q with
  | plain =>
    refine splitQuoted_plain hf.1 (fun c hc => isPlain_iff.2 (hf.2 c hc)) ?_
    intro c hc; simp [isPlain, hr c hc]
  | double =>
    have := splitQuoted_quote (q := '"') (.inl rfl) hf r
    simpa [Quoting.write] using this
  | single =>
    have := splitQuoted_quote (q := '\'') (.inr rfl) hf r
    simpa [Quoting.write] using this

/-- **C35** A text made of words, each plain or in quotes it does not contain, separated (and possibly preceded and
    followed) by any whitespace, splits into exactly the words. -/
theorem C35_split_words (lead : Text) (hl : ∀ c ∈ lead, isWs c = true) (ws : List (Quoting × Text × Text))
    (hw : ∀ x ∈ ws, x.1.Fits x.2.1 ∧ x.2.2 ≠ [] ∧ ∀ c ∈ x.2.2, isWs c = true)
    (last : Option (Quoting × Text)) (hlast : ∀ x ∈ last, x.1.Fits x.2) :
    splitQuoted (lead ++ ws.flatMap (fun x => x.1.write x.2.1 ++ x.2.2) ++ last.toList.flatMap (fun x => x.1.write x.2))
      = ws.map (fun x => x.2.1) ++ last.toList.map Prod.snd := by
  rw [List.append_assoc, splitQuoted_wss _ _ hl]
  induction ws with
  | nil =>
    cases last with
    | none => simp [splitQuoted_nil]
    | some x =>
      have := splitQuoted_word (hlast x rfl) (r := []) (by simp)
      rw [List.append_nil] at this
      simpa [splitQuoted_nil] using this
  | cons x ws ih =>
    obtain ⟨h1, h2, h3⟩ := hw x (by simp)
    rw [List.flatMap_cons, List.append_assoc, List.append_assoc, splitQuoted_word h1, splitQuoted_wss _ _ h3,
      ih (fun y hy => hw y (by simp [hy]))]
    · rfl
    · intro c hc
      cases hs : x.2.2 with
      | nil => exact absurd hs h2
      | cons d ds => rw [hs] at hc h3; simp at hc; subst hc; exact h3 d (by simp)

example : splitQuoted "a  \"b c\" 'd\"e'\tf".toList = ["a".toList, "b c".toList, "d\"e".toList, "f".toList] := by decide +kernel
example : Quoting.Fits .double "b c".toList ∧ Quoting.Fits .single "d\"e".toList ∧ Quoting.Fits .plain "a".toList := by
  simp only [Quoting.Fits]; decide +kernel

/-! ### C30: header rules -/

/-- a word that needs no quotes -/
abbrev Plain (w : Text) : Prop := Quoting.Fits .plain w

theorem sp (w r : Text) (h : Plain w) : splitQuoted (w ++ ' ' :: r) = w :: splitQuoted r := by
  have := splitQuoted_word (q := .plain) h (r := ' ' :: r) (by simp; decide)
  rw [splitQuoted_ws (by decide)] at this
  exact this

theorem sp_end (w : Text) (h : Plain w) : splitQuoted w = [w] := by
  have := splitQuoted_word (q := .plain) h (r := []) (by simp)
  simpa [Quoting.write, splitQuoted_nil] using this

theorem sp_blank (r : Text) : splitQuoted (' ' :: r) = splitQuoted r := splitQuoted_ws (by decide) r

theorem plain_of_decide {w : Text} (h : w ≠ [] ∧ w.all isPlain = true) : Plain w :=
  ⟨h.1, fun c hc => isPlain_iff.1 (List.all_eq_true.1 h.2 c hc)⟩

theorem plain_proxy : Plain proxyWord := plain_of_decide (by decide)

/-- **C30**, partial: rules that add, remove or replace survive printing and parsing when name and value are plain
    words; so do removal rules for responses without value. Excluded is a replacement in responses of the header
    named "-". Missing: default rules (`C30_default_fails`), removal rules for requests without value
    (`C30_proxy_del_fails`), names and values with blanks or quotes (`C30_blank_fails`). -/
theorem C30_rule_roundtrip_partial (h : HeaderRule) (ho : h.oper ≠ .default) (hk : Plain h.key)
    (hv : Plain h.val ∨ (h.oper = .del ∧ h.isProxy = false ∧ h.val = []))
    (hr : h.oper = .replace → h.isProxy = false → h.key ≠ ['-']) : parseRule (showRule h) = .ok h := by
  obtain ⟨o, p, k, v⟩ := h
  simp only at ho hk hv hr
  have hplus : Plain ['+'] := plain_of_decide (by decide)
  have hminus : Plain ['-'] := plain_of_decide (by decide)
  have hk' : ∀ c, splitQuoted (k ++ ' ' :: c) = k :: splitQuoted c := fun c => sp k c hk
  unfold parseRule
  cases o with
  | default => exact absurd rfl ho
  | add =>
    have hv : Plain v := by rcases hv with hv | ⟨h1, _⟩ <;> [exact hv; cases h1]
    clear * - hv hk hk' hr hplus hminus
    cases p
    · rw [if_neg (by simp [showRule, showOper])]
      simp only [showRule, showOper, List.append_assoc, List.cons_append]
      rw [show ('+' :: ([] ++ ' ' :: (k ++ ' ' :: v))) = ['+'] ++ ' ' :: (k ++ ' ' :: v) from rfl, sp _ _ hplus, hk',
        sp_end _ hv]; rfl
    · rw [if_neg (by simp [showRule, showOper])]
      simp only [showRule, showOper, List.append_assoc, List.cons_append]
      rw [sp _ _ plain_proxy, List.nil_append, show ('+' :: ' ' :: (k ++ ' ' :: v)) = ['+'] ++ ' ' :: (k ++ ' ' :: v) from rfl,
        sp _ _ hplus, hk', sp_end _ hv]; rfl
  | replace =>
    have hv : Plain v := by rcases hv with hv | ⟨h1, _⟩ <;> [exact hv; cases h1]
    clear * - hv hk hk' hr hplus hminus
    cases p
    · rw [if_neg (by simp [showRule, showOper])]
      simp only [showRule, showOper, List.append_assoc, List.cons_append, List.nil_append]
      rw [sp_blank, hk', sp_end _ hv]
      simp [ruleOfWords, hr rfl rfl]
    · rw [if_neg (by simp [showRule, showOper])]
      simp only [showRule, showOper, List.append_assoc, List.cons_append, List.nil_append]
      rw [sp _ _ plain_proxy, sp_blank, hk', sp_end _ hv]; rfl
  | del =>
    cases p
    · rw [if_neg (by simp [showRule, showOper])]
      simp only [showRule, showOper, List.append_assoc, List.cons_append]
      rw [show ('-' :: ([] ++ ' ' :: (k ++ ' ' :: v))) = ['-'] ++ ' ' :: (k ++ ' ' :: v) from rfl, sp _ _ hminus, hk']
      rcases hv with hv | ⟨_, _, hv⟩
      · rw [sp_end _ hv]; rfl
      · rw [hv]; simp [splitQuoted_nil]; rfl
    · have hv : Plain v := by rcases hv with hv | ⟨_, h1, _⟩ <;> [exact hv; cases h1]
      rw [if_neg (by simp [showRule, showOper])]
      simp only [showRule, showOper, List.append_assoc, List.cons_append]
      rw [sp _ _ plain_proxy, List.nil_append, show ('-' :: ' ' :: (k ++ ' ' :: v)) = ['-'] ++ ' ' :: (k ++ ' ' :: v) from rfl,
        sp _ _ hminus, hk', sp_end _ hv]; rfl

example : parseRule (showRule ⟨.add, true, "X-Id".toList, "7".toList⟩) = .ok ⟨.add, true, "X-Id".toList, "7".toList⟩ := by
  decide +kernel
example : Plain "X-Id".toList := plain_of_decide (by decide +kernel)

/-- **C30** fails: no default rule survives: it comes back as something else, mostly as a replacement. -/
theorem C30_default_fails (p : Bool) (k v : Text) (hk : Plain k) (hv : Plain v) :
    parseRule (showRule ⟨.default, p, k, v⟩) ≠ .ok ⟨.default, p, k, v⟩ ∧
    (k ≠ ['-'] → parseRule (showRule ⟨.default, p, k, v⟩) = .ok ⟨.replace, p, k, v⟩) := by
  have hk' : ∀ c, splitQuoted (k ++ ' ' :: c) = k :: splitQuoted c := fun c => sp k c hk
  cases p
  · have e : parseRule (showRule ⟨.default, false, k, v⟩) = ruleOfWords [k, v] := by
      unfold parseRule
      rw [if_neg (by simp [showRule])]
      simp only [showRule]
      rw [hk', sp_end _ hv]
    rw [e]
    simp only [ruleOfWords]
    split
    · rename_i h; simp [h, parseOper]
    · simp
  · have e : parseRule (showRule ⟨.default, true, k, v⟩) = .ok ⟨.replace, true, k, v⟩ := by
      unfold parseRule
      rw [if_neg (by simp [showRule])]
      simp only [showRule, List.append_assoc, List.cons_append]
      rw [sp _ _ plain_proxy, hk', sp_end _ hv]; rfl
    rw [e]; simp

/-- **C30** fails: a request rule removing the header K comes back as a rule setting a header named "-" to K. -/
theorem C30_proxy_del_fails (k : Text) (hk : Plain k) :
    parseRule (showRule ⟨.del, true, k, []⟩) = .ok ⟨.replace, true, ['-'], k⟩ := by
  have hminus : Plain ['-'] := plain_of_decide (by decide)
  unfold parseRule
  rw [if_neg (by simp [showRule, showOper])]
  simp only [showRule, showOper, List.append_assoc, List.cons_append]
  rw [sp _ _ plain_proxy, List.nil_append, show ('-' :: ' ' :: (k ++ [' '])) = ['-'] ++ ' ' :: (k ++ ' ' :: []) from rfl,
    sp _ _ hminus, sp _ _ hk]
  simp [splitQuoted_nil, ruleOfWords]

/-- **C30** fails: a value with a blank is printed without quotes. For every name and every value of two words: the text of a rule that
    adds a request header is rejected, and that of a rule that replaces a response header comes back as a rule for another header,
    named like the first word. -/
theorem C30_blank_fails (k a b : Text) (hk : Plain k) (ha : Plain a) (hb : Plain b) :
    parseRule (showRule ⟨.add, true, k, a ++ ' ' :: b⟩) = .err .invalid ∧
    ∃ o p, parseRule (showRule ⟨.replace, false, k, a ++ ' ' :: b⟩) = .ok ⟨o, p, a, b⟩ := by
  have hplus : Plain ['+'] := plain_of_decide (by decide)
  constructor
  · unfold parseRule
    rw [if_neg (by simp [showRule, showOper])]
    simp only [showRule, showOper, List.append_assoc, List.cons_append]
    rw [sp _ _ plain_proxy, List.nil_append,
      show ('+' :: ' ' :: (k ++ ' ' :: (a ++ ' ' :: b))) = ['+'] ++ ' ' :: (k ++ ' ' :: (a ++ ' ' :: b)) from rfl,
      sp _ _ hplus, sp _ _ hk, sp _ _ ha, sp_end _ hb]
    rfl
  · unfold parseRule
    rw [if_neg (by simp [showRule, showOper])]
    simp only [showRule, showOper, List.append_assoc, List.cons_append, List.nil_append]
    rw [sp_blank, sp _ _ hk, sp _ _ ha, sp_end _ hb]
    simp only [ruleOfWords]
    split
    · exact ⟨_, _, rfl⟩
    · exact ⟨_, _, rfl⟩

example : parseRule (showRule ⟨.replace, false, "K".toList, "a b".toList⟩) = .ok ⟨.replace, false, "a".toList, "b".toList⟩ := by
  decide +kernel

/-- a text of blanks only makes the parser panic -/
theorem C30_blank_text_fails (s : Text) (hs : s ≠ []) (h : ∀ c ∈ s, isWs c = true) : parseRule s = .panic := by
  unfold parseRule
  have := splitQuoted_wss s [] h
  rw [List.append_nil] at this
  rw [if_neg hs, this]; simp [splitQuoted_nil, ruleOfWords]

/-! ### C28, C29: address lists -/

/-- the first `n` bits agree -/
def agree {w : Nat} (n : Nat) (a b : BitVec w) : Prop := ∀ i < n, a.getMsbD i = b.getMsbD i

/-- an entry (address and optional prefix length) covers an address -/
def Covers : Ip × Option Nat → Ip → Prop
  | (e, none), ip => ip = e
  | (.v4 e, some n), .v4 a => agree n a e
  | (.v6 e, some n), .v6 a => agree n a e
  | _, _ => False

/-- the text of an entry -/
def entryText (t : IpText) (e : Ip × Option Nat) : Text :=
  match e.2 with
  | none => t.render e.1
  | some n => t.render e.1 ++ '/' :: showNat n

/-- number of bits of an address -/
def Ip.bits : Ip → Nat
  | .v4 _ => 32
  | .v6 _ => 128

theorem shift_agree (n : Nat) (hn : n ≤ 32) (a b : BitVec 32) :
    a >>> (32 - n) = b >>> (32 - n) ↔ agree n a b := by
  constructor
  · intro h i hi
    have := congrArg (fun x : BitVec 32 => x.getLsbD (n - 1 - i)) h
    simp only [BitVec.getLsbD_ushiftRight] at this
    rw [BitVec.getMsbD_eq_getLsbD, BitVec.getMsbD_eq_getLsbD]
    have e : 32 - 1 - i = 32 - n + (n - 1 - i) := by omega
    rw [e, this]
  · intro h
    apply BitVec.eq_of_getLsbD_eq
    intro i hi
    simp only [BitVec.getLsbD_ushiftRight]
    by_cases hin : i < n
    · have := h (n - 1 - i) (by omega)
      rw [BitVec.getMsbD_eq_getLsbD, BitVec.getMsbD_eq_getLsbD] at this
      have e : 32 - 1 - (n - 1 - i) = 32 - n + i := by omega
      rw [e] at this
      simpa [show n - 1 - i < 32 by omega] using this
    · rw [BitVec.getLsbD_of_ge _ _ (by omega), BitVec.getLsbD_of_ge _ _ (by omega)]

theorem agree_all {w : Nat} (a b : BitVec w) : agree w a b ↔ a = b := by
  constructor
  · intro h; exact BitVec.eq_of_getMsbD_eq (fun i hi => h i hi)
  · rintro rfl; intro i _; rfl

theorem slash_free (t : IpText) (ip : Ip) : ∀ c ∈ t.render ip, (decide (c = '/')) = false := by
  intro c hc; simp [(t.render_plain ip c hc).1]

theorem digits_slash_free (n : Nat) : ∀ c ∈ showNat n, (decide (c = '/')) = false := by
  intro c hc
  rw [decide_eq_false_iff_not]; rintro rfl
  exact absurd (showNat_isDigit n _ hc) (by decide)

/-- what the parser makes of the text of an entry -/
theorem parse_entry_none (t : IpText) (ip : Ip) : parseGate t (entryText t (ip, none)) = .ok ⟨ip, 0⟩ := by
  unfold parseGate entryText
  simp only [splitOn_none _ _ (slash_free t ip), t.parse_render]

theorem parse_entry_some (t : IpText) (ip : Ip) (n : Nat) (hn : n < 2 ^ 8) :
    parseGate t (entryText t (ip, some n)) = if n ≤ ip.bits then .ok ⟨ip, n⟩ else .err .invalid := by
  unfold parseGate entryText
  simp only [splitOn_sep _ _ _ '/' (slash_free t ip) (by simp), splitOn_none _ _ (digits_slash_free n), t.parse_render,
    parseU_showNat hn]
  cases ip with
  | v4 a =>
    have hv : (Ip.v4 a).isV4 = true := rfl
    have hb : (Ip.v4 a).bits = 32 := rfl
    by_cases h1 : n ≤ 32
    · rw [if_neg (by omega), if_neg (by simp [hv]), if_pos (by omega)]
    · rw [if_pos ⟨hv, by omega⟩, if_neg (by omega)]
  | v6 a =>
    have hv : ¬ (Ip.v6 a).isV4 = true := by simp [Ip.isV4]
    have hb : (Ip.v6 a).bits = 128 := rfl
    by_cases h1 : n ≤ 128
    · rw [if_neg (fun h => hv h.1), if_neg (by omega), if_pos (by omega)]
    · rw [if_neg (fun h => hv h.1), if_pos ⟨hv, by omega⟩, if_neg (by omega)]

theorem containsAny_iff (gs : List IpGate) (ip : Ip) : containsAny gs ip = true ↔ ∃ g ∈ gs, g.contains ip = true := by
  induction gs with
  | nil => simp [containsAny]
  | cons g gs ih =>
    simp only [containsAny]
    split
    · rename_i h; simp [h]
    · rename_i h; simp [h, ih]

/-- an entry the code treats as written: no prefix length, an IPv4 length other than 0, or the full IPv6 length -/
def Handled : Ip × Option Nat → Prop
  | (_, none) => True
  | (.v4 _, some n) => 1 ≤ n ∧ n ≤ 32
  | (.v6 _, some n) => n = 128

/-- the gate of an entry -/
def gateOf (e : Ip × Option Nat) : IpGate := ⟨e.1, e.2.getD 0⟩

theorem contains_zero (e ip : Ip) : (⟨e, 0⟩ : IpGate).contains ip = true ↔ ip = e := by
  unfold IpGate.contains; rw [if_pos rfl]; exact decide_eq_true_iff

theorem contains_v4 {n : Nat} (h : n ≠ 0) (a b : BitVec 32) :
    (⟨.v4 a, n⟩ : IpGate).contains (.v4 b) = true ↔ b >>> (32 - n) = a >>> (32 - n) := by
  unfold IpGate.contains; rw [if_neg h]; exact decide_eq_true_iff

theorem contains_v6 (n : Nat) (a b : BitVec 128) : (⟨.v6 a, n⟩ : IpGate).contains (.v6 b) = true ↔ b = a := by
  unfold IpGate.contains; split
  · rw [decide_eq_true_iff]; simp
  · rw [decide_eq_true_iff]; simp

theorem contains_mixed (n : Nat) (a : BitVec 32) (b : BitVec 128) :
    (⟨.v4 a, n⟩ : IpGate).contains (.v6 b) = false ∧ (⟨.v6 b, n⟩ : IpGate).contains (.v4 a) = false := by
  unfold IpGate.contains
  constructor <;> split <;> simp

theorem gate_covers (e : Ip × Option Nat) (h : Handled e) (ip : Ip) : (gateOf e).contains ip = true ↔ Covers e ip := by
  obtain ⟨x, len⟩ := e
  cases len with
  | none => exact contains_zero x ip
  | some n =>
    cases x with
    | v4 a =>
      obtain ⟨h1, h2⟩ := h
      have h0 : n ≠ 0 := by omega
      cases ip with
      | v4 b => exact (contains_v4 h0 a b).trans (shift_agree n h2 b a)
      | v6 b => simp [gateOf, contains_mixed, Covers]
    | v6 a =>
      have h1 : n = 128 := h
      subst h1
      cases ip with
      | v4 b => simp [gateOf, contains_mixed, Covers]
      | v6 b => exact (contains_v6 128 a b).trans (agree_all b a).symm

/-- **C28**, partial: a list of entries, read from its text, contains exactly the addresses covered by an entry, when
    every entry is an address without prefix length, an IPv4 network with length 1 to 32, or an IPv6 address with
    length 128. Missing: length 0 and shorter IPv6 prefixes, see the `_fails` theorems. -/
theorem C28_membership_partial (t : IpText) (es : List (Ip × Option Nat)) (h : ∀ e ∈ es, Handled e) :
    ∃ gs, parseSets t (es.flatMap fun e => entryText t e ++ [' ']) = .ok gs ∧
      ∀ ip, containsAny gs ip = true ↔ ∃ e ∈ es, Covers e ip := by
  have hn : ∀ e ∈ es, ∀ n ∈ e.2, n < 256 ∧ n ≤ e.1.bits := by
    intro e he n hn
    obtain ⟨x, len⟩ := e
    cases len with
    | none => simp at hn
    | some m =>
      simp at hn; subst hn
      have := h _ he
      cases x with
      | v4 a => simp only [Handled] at this; simp only [Ip.bits]; omega
      | v6 a => simp only [Handled] at this; simp only [Ip.bits]; omega
  have hp : parseSets t (es.flatMap fun e => entryText t e ++ [' ']) = .ok (es.map gateOf) := by
    unfold parseSets
    clear h
    induction es with
    | nil => rfl
    | cons e es ih =>
      have hne : entryText t e ≠ [] := by
        unfold entryText; split
        · exact t.render_ne _
        · simp
      have hws : ∀ c ∈ entryText t e, isWs c = false := by
        unfold entryText; split
        · exact fun c hc => (t.render_plain _ c hc).2
        · intro c hc
          rcases List.mem_append.1 hc with hc | hc
          · exact (t.render_plain _ c hc).2
          · rcases List.mem_cons.1 hc with rfl | hc
            · decide
            · exact isDigit_not_ws (showNat_isDigit _ c hc)
      rw [List.flatMap_cons, List.append_assoc, List.singleton_append, splitWs_sep _ _ _ hne hws (by decide), parseGates,
        ih (fun x hx => hn x (by simp [hx]))]
      have : parseGate t (entryText t e) = .ok (gateOf e) := by
        obtain ⟨x, len⟩ := e
        cases len with
        | none => exact parse_entry_none t x
        | some n =>
          have := hn (x, some n) (by simp) n rfl
          rw [parse_entry_some t x n this.1, if_pos this.2]; rfl
      rw [this]; rfl
  refine ⟨_, hp, fun ip => ?_⟩
  rw [containsAny_iff]
  constructor
  · rintro ⟨g, hg, hc⟩
    obtain ⟨e, he, rfl⟩ := List.mem_map.1 hg
    exact ⟨e, he, (gate_covers e (h e he) ip).1 hc⟩
  · rintro ⟨e, he, hc⟩
    exact ⟨_, List.mem_map_of_mem he, (gate_covers e (h e he) ip).2 hc⟩

example : Handled (.v4 0xC0A80000, some 16) ∧ Covers (.v4 0xC0A80000, some 16) (.v4 0xC0A80105) ∧
    ¬ Covers (.v4 0xC0A80000, some 16) (.v4 0xC0A90105) := by
  refine ⟨by simp [Handled], ?_, ?_⟩
  · show agree 16 _ _
    unfold agree; decide
  · show ¬ agree 16 _ _
    unfold agree; decide

/-- **C28** (no address too many) Whatever its prefix length, an entry never lets in an address it does not cover. -/
theorem C28_sound (e : Ip × Option Nat) (ip : Ip) (hl : ∀ n ∈ e.2, n ≤ e.1.bits)
    (h : (gateOf e).contains ip = true) : Covers e ip := by
  obtain ⟨x, len⟩ := e
  cases len with
  | none => exact (contains_zero x ip).1 h
  | some n =>
    have hn : n ≤ x.bits := hl n rfl
    have hself : ∀ y : Ip, y = x → Covers (x, some n) y := by
      rintro y rfl; cases y <;> exact fun i _ => rfl
    by_cases h0 : n = 0
    · subst h0; exact hself ip ((contains_zero x ip).1 h)
    cases x with
    | v4 a =>
      cases ip with
      | v4 b => exact (shift_agree n hn b a).1 ((contains_v4 h0 a b).1 h)
      | v6 b => simp [gateOf, contains_mixed] at h
    | v6 a =>
      cases ip with
      | v4 b => simp [gateOf, contains_mixed] at h
      | v6 b => exact hself _ (congrArg _ ((contains_v6 n a b).1 h))

/-- **C28** fails for length 0: "e/0" covers every address of the family but is read as "e" and contains only `e`. -/
theorem C28_length_zero_fails (t : IpText) (a : BitVec 32) :
    parseSets t (entryText t (.v4 a, some 0)) = .ok [⟨.v4 a, 0⟩] ∧
    ∀ b, Covers (.v4 a, some 0) (.v4 b) ∧ (containsAny [⟨.v4 a, 0⟩] (.v4 b) = true ↔ b = a) := by
  constructor
  · unfold parseSets
    have hne : entryText t (.v4 a, some 0) ≠ [] := by simp [entryText]
    have hws : ∀ c ∈ entryText t (.v4 a, some 0), isWs c = false := by
      intro c hc
      rcases List.mem_append.1 hc with hc | hc
      · exact (t.render_plain _ c hc).2
      · rcases List.mem_cons.1 hc with rfl | hc
        · decide
        · exact isDigit_not_ws (showNat_isDigit _ c hc)
    rw [splitWs_single _ hne hws, parseGates, parse_entry_some t _ _ (by decide)]
    rfl
  · intro b
    exact ⟨fun i hi => absurd hi (Nat.not_lt_zero _), by simp [containsAny, IpGate.contains]⟩

/-- **C28** fails for IPv6 networks: an IPv6 entry of any length contains only its own address. -/
theorem C28_ipv6_fails (a b : BitVec 128) (n : Nat) :
    (⟨.v6 a, n⟩ : IpGate).contains (.v6 b) = true ↔ b = a := contains_v6 n a b

/-- for instance 2001:db8::/32 does not contain 2001:db8::1 though the entry covers it -/
example : Covers (.v6 (0x20010db8 <<< 96), some 32) (.v6 ((0x20010db8 <<< 96) + 1)) := by
  show agree 32 _ _
  unfold agree; decide +kernel

/-- **C29** Printing an address list and parsing the text gives the same list (so it matches the same addresses), for
    every list the parser can produce; and an entry with a prefix longer than the address is rejected. -/
theorem C29_list_roundtrip (t : IpText) (gs : List IpGate) (h : ∀ g ∈ gs, g.gate ≤ g.ip.bits) :
    parseSets t (showSets t gs) = .ok gs := by
  unfold parseSets showSets
  induction gs with
  | nil => rfl
  | cons g gs ih =>
    have hg := h g (by simp)
    have hb : g.gate < 256 := by cases hip : g.ip <;> simp [hip, Ip.bits] at hg <;> omega
    have e : showGate t g = entryText t (g.ip, if g.gate > 0 then some g.gate else none) := by
      unfold showGate entryText
      by_cases h0 : g.gate > 0
      · simp [h0]
      · simp [h0]
    have hne : showGate t g ≠ [] := by
      unfold showGate; split
      · simp
      · exact t.render_ne _
    have hws : ∀ c ∈ showGate t g, isWs c = false := by
      unfold showGate; split
      · intro c hc
        rcases List.mem_append.1 hc with hc | hc
        · exact (t.render_plain _ c hc).2
        · rcases List.mem_cons.1 hc with rfl | hc
          · decide
          · exact isDigit_not_ws (showNat_isDigit _ c hc)
      · exact fun c hc => (t.render_plain _ c hc).2
    rw [List.flatMap_cons, List.append_assoc, List.singleton_append, splitWs_sep _ _ _ hne hws (by decide), parseGates,
      ih (fun x hx => h x (by simp [hx])), e]
    have : parseGate t (entryText t (g.ip, if g.gate > 0 then some g.gate else none)) = .ok g := by
      by_cases h0 : g.gate > 0
      · rw [if_pos h0, parse_entry_some t _ _ hb, if_pos hg]
      · have h1 : g.gate = 0 := by omega
        rw [if_neg h0, parse_entry_none, ← h1]
    rw [this]; rfl

/-- **C29** (rejection) -/
theorem C29_too_long_rejected (t : IpText) (ip : Ip) (n : Nat) (hn : n < 256) (h : ip.bits < n) :
    parseGate t (entryText t (ip, some n)) = .err .invalid := by
  rw [parse_entry_some t ip n hn, if_neg (by omega)]

/-- an instance of the assumed printing and parsing of addresses exists -/
example : Nonempty IpText := by
  refine ⟨{ parse := fun s => match s with
              | 'a' :: r => (parseU 32 r).map fun n => .v4 (BitVec.ofNat 32 n)
              | 'b' :: r => (parseU 128 r).map fun n => .v6 (BitVec.ofNat 128 n)
              | _ => none
            render := fun ip => match ip with
              | .v4 a => 'a' :: showNat a.toNat
              | .v6 a => 'b' :: showNat a.toNat
            parse_render := ?_, render_ne := ?_, render_plain := ?_ }⟩
  · intro ip
    cases ip with
    | v4 a => simp [parseU_showNat a.isLt]
    | v6 a => simp [parseU_showNat a.isLt]
  · intro ip; cases ip <;> simp
  · have hd : ∀ n, ∀ c ∈ showNat n, c ≠ '/' ∧ isWs c = false := by
      intro n c hc
      have := showNat_isDigit n c hc
      exact ⟨by rintro rfl; revert this; decide, isDigit_not_ws this⟩
    intro ip c hc
    cases ip with
    | v4 a =>
      rcases List.mem_cons.1 hc with rfl | hc
      · decide
      · exact hd _ c hc
    | v6 a =>
      rcases List.mem_cons.1 hc with rfl | hc
      · decide
      · exact hd _ c hc

/-! ### C31: listen addresses -/

theorem pieces_join (f : Char → Bool) (ws : List Text) (sep : Char) (hsep : f sep = true)
    (h : ∀ w ∈ ws, w ≠ [] ∧ ∀ c ∈ w, f c = false) (last : Text) (hl : last ≠ [] ∧ ∀ c ∈ last, f c = false) :
    pieces f (ws.flatMap (fun w => w ++ [sep]) ++ last) = ws ++ [last] := by
  induction ws with
  | nil => simp only [pieces, List.flatMap_nil, List.nil_append]; rw [splitOn_none _ _ hl.2]; simp [hl.1]
  | cons w ws ih =>
    have := h w (by simp)
    rw [List.flatMap_cons, List.append_assoc, List.append_assoc, List.singleton_append]
    unfold pieces at *
    rw [splitOn_sep _ _ _ _ this.2 hsep, List.filter_cons, if_pos (by simpa using this.1),
      ih (fun x hx => h x (by simp [hx]))]
    rfl

theorem parseAddr_explicit (n : NetEnv) {s : Text} {a : Sock} (h : s.head? ≠ some ':') (hp : n.parseSock s = some a) :
    parseAddr n s = .ok [a] := by
  unfold parseAddr; rw [if_neg h, hp]; rfl

theorem parseAddr_port (n : NetEnv) {p : Nat} (hp : p < 2 ^ 16) :
    parseAddr n (':' :: showNat p) = .ok (n.ownIps.map fun ip => ⟨ip, p⟩) := by
  have h1 : trimStart (fun c => decide (c = ':')) (':' :: showNat p) = showNat p := by
    unfold trimStart
    rw [List.dropWhile_cons, if_pos (by simp)]
    apply dropWhile_none
    intro c hc
    rw [decide_eq_false_iff_not]; rintro rfl
    exact absurd (showNat_isDigit p _ hc) (by decide)
  unfold parseAddr
  rw [if_pos (by rfl), h1, parseU_showNat hp]

/-- **C31** (lists) A list of explicit addresses separated by commas (or blanks) listens on exactly these. -/
theorem C31_list (n : NetEnv) (sep : Char) (hsep : sep = ',' ∨ sep = ' ') (ws : List (Text × Sock)) (last : Text × Sock)
    (h : ∀ x ∈ ws ++ [last], x.1 ≠ [] ∧ (∀ c ∈ x.1, c ≠ ',' ∧ c ≠ ' ' ∧ c ≠ '-') ∧ x.1.head? ≠ some ':' ∧
      n.parseSock x.1 = some x.2) :
    parseListen n (ws.flatMap (fun x => x.1 ++ [sep]) ++ last.1) = .ok ((ws ++ [last]).map Prod.snd) := by
  have hl := h last (by simp)
  have hw : ∀ x ∈ ws, _ := fun x hx => h x (by simp [hx])
  unfold parseListen
  rw [if_neg ?_]
  · have e : ws.flatMap (fun x => x.1 ++ [sep]) = (ws.map Prod.fst).flatMap (fun w => w ++ [sep]) := by
      rw [List.flatMap_map]
    rw [e, pieces_join _ _ sep (by rcases hsep with rfl | rfl <;> decide) (by
        intro w hw'
        obtain ⟨x, hx, rfl⟩ := List.mem_map.1 hw'
        refine ⟨(hw x hx).1, fun c hc => ?_⟩
        have := (hw x hx).2.1 c hc
        simp [this.1, this.2.1]) last.1 ⟨hl.1, fun c hc => by
          have := hl.2.1 c hc
          simp [this.1, this.2.1]⟩]
    clear e
    have key : ∀ xs : List (Text × Sock), (∀ x ∈ xs, x.1.head? ≠ some ':' ∧ n.parseSock x.1 = some x.2) →
        parseAddrs n (xs.map Prod.fst) = .ok (xs.map Prod.snd) := by
      intro xs hxs
      induction xs with
      | nil => rfl
      | cons x xs ih =>
        have := hxs x (by simp)
        rw [List.map_cons, parseAddrs, parseAddr_explicit n this.1 this.2, ih (fun y hy => hxs y (by simp [hy]))]
        rfl
    have := key (ws ++ [last]) (fun x hx => (h x hx).2.2)
    simpa using this
  · simp only [List.mem_append, List.mem_flatMap, List.mem_singleton, not_or, not_exists, not_and]
    refine ⟨fun x hx => ⟨fun hc => ((hw x hx).2.1 _ hc).2.2 rfl, ?_⟩, fun hc => (hl.2.1 _ hc).2.2 rfl⟩
    rcases hsep with rfl | rfl <;> decide

theorem mem_portRange {a b p : Nat} : p ∈ portRange a b ↔ a ≤ p ∧ p ≤ b := by
  unfold portRange
  simp only [List.mem_map, List.mem_range]
  constructor
  · rintro ⟨i, hi, rfl⟩; omega
  · intro h; exact ⟨p - a, by omega, by omega⟩

theorem pieces_two {a b : Text} (ha : a ≠ []) (hb : b ≠ []) (ha' : '-' ∉ a) (hb' : '-' ∉ b) :
    pieces (fun c => decide (c = '-')) (a ++ '-' :: b) = [a, b] := by
  have := pieces_join (fun c => decide (c = '-')) [a] '-' (by simp) (by
    simp only [List.mem_singleton, forall_eq]
    refine ⟨ha, fun c hc => ?_⟩
    rw [decide_eq_false_iff_not]; rintro rfl; exact ha' hc) b ⟨hb, fun c hc => by
      rw [decide_eq_false_iff_not]; rintro rfl; exact hb' hc⟩
  simpa using this

theorem colon_digits_no_dash (p : Nat) : '-' ∉ (':' :: showNat p) := by
  intro hc
  rcases List.mem_cons.1 hc with hc | hc
  · exact absurd hc (by decide)
  · exact absurd (showNat_isDigit p _ hc) (by decide)

/-- **C31**, partial (ranges): "X-:b", where X is an explicit address with port a or ":a", listens on exactly the ports
    a to b, each once, of X's address (for ":a", of the addresses of this host and of 127.0.0.1), provided the host has an address besides the
    loopback one. Missing: ranges whose end is written with an address, see `C31_range_end_fails`, and hosts without
    own address, see `C31_no_own_address_fails`. -/
theorem C31_range_partial (n : NetEnv) (hown : n.localV4.isSome ∨ n.localV6.isSome) (x : Text) (a b : Nat)
    (ips : List Ip) (hb : b < 2 ^ 16)
    (hx : (x = ':' :: showNat a ∧ a < 2 ^ 16 ∧ ips = n.localV4.toList ++ n.localV6.toList ++ [.v4 0x7F000001#32]) ∨
      (x ≠ [] ∧ '-' ∉ x ∧ x.head? ≠ some ':' ∧ ∃ ip, ips = [ip] ∧ n.parseSock x = some ⟨ip, a⟩)) :
    ∃ l, parseListen n (x ++ '-' :: ':' :: showNat b) = .ok l ∧
      (∀ s, s ∈ l ↔ s.ip ∈ ips ∧ a ≤ s.port ∧ s.port ≤ b) ∧
      (∀ p, listenContains l p = true ↔ a ≤ p ∧ p ≤ b) ∧
      (∀ ip, ips = [ip] → l = (portRange a b).map fun p => ⟨ip, p⟩) := by
  have hx0 : x ≠ [] ∧ '-' ∉ x ∧ parseAddr n x = .ok (ips.map fun ip => ⟨ip, a⟩) ∧ ips ≠ [] := by
    rcases hx with ⟨rfl, ha, rfl⟩ | ⟨h1, h2, h3, ip, rfl, h4⟩
    · exact ⟨by simp, colon_digits_no_dash a, parseAddr_port n ha, by simp [NetEnv.ownIps]⟩
    · exact ⟨h1, h2, parseAddr_explicit n h3 h4, by simp⟩
  obtain ⟨hx1, hx2, hx3, hx4⟩ := hx0
  have hend : ∃ e0 e1 es, n.ownIps.map (fun ip => (⟨ip, b⟩ : Sock)) = e0 :: e1 :: es ∧ e1.port = b := by
    unfold NetEnv.ownIps
    cases h4 : n.localV4 with
    | some i4 =>
      cases h6 : n.localV6 with
      | some i6 => exact ⟨_, _, _, rfl, rfl⟩
      | none => exact ⟨_, _, _, rfl, rfl⟩
    | none =>
      cases h6 : n.localV6 with
      | some i6 => exact ⟨_, _, _, rfl, rfl⟩
      | none => simp [h4, h6] at hown
  obtain ⟨e0, e1, es, he, hp⟩ := hend
  obtain ⟨i0, irest, hi⟩ : ∃ i r, ips = i :: r := by
    cases ips with
    | nil => exact absurd rfl hx4
    | cons i r => exact ⟨i, r, rfl⟩
  refine ⟨(portRange a b).flatMap fun p => ips.map fun ip => ⟨ip, p⟩, ?_, ?_, ?_, ?_⟩
  · unfold parseListen
    rw [if_pos (by simp), pieces_two hx1 (by simp) hx2 (colon_digits_no_dash b)]
    simp only [hx3, Res.bind_ok, parseAddr_port n hb, he]
    rw [hi]
    simp only [List.map_cons, expandRange, hp, List.map_map]
    rfl
  · intro s
    simp only [List.mem_flatMap, mem_portRange, List.mem_map]
    constructor
    · rintro ⟨p, hp, ip, hip, rfl⟩; exact ⟨hip, hp⟩
    · rintro ⟨h1, h2⟩; exact ⟨s.port, h2, s.ip, h1, rfl⟩
  · have hcon : ∀ (l : List Sock) p, listenContains l p = true ↔ ∃ s ∈ l, s.port = p := by
      intro l p
      induction l with
      | nil => simp [listenContains]
      | cons v l ih =>
        simp only [listenContains]
        split
        · rename_i h; simp [h]
        · rename_i h; simp [h, ih]
    intro p
    rw [hcon]
    simp only [List.mem_flatMap, mem_portRange, List.mem_map]
    constructor
    · rintro ⟨s, ⟨q, hq, ip, _, rfl⟩, rfl⟩; exact hq
    · intro h
      exact ⟨⟨i0, p⟩, ⟨p, h, i0, by rw [hi]; simp, rfl⟩, rfl⟩
  · rintro ip rfl
    simp only [List.map_cons, List.map_nil]
    induction portRange a b with
    | nil => rfl
    | cons p ps ih => rw [List.flatMap_cons, ih]; rfl

/-- **C31** fails: a range whose end is written with an address ("127.0.0.1:8869-192.168.0.100:8871", as the source
    comment documents) panics, for all addresses and ports. -/
theorem C31_range_end_fails (n : NetEnv) (x y : Text) (sx sy : Sock) (hx : x ≠ [] ∧ '-' ∉ x ∧ x.head? ≠ some ':')
    (hy : y ≠ [] ∧ '-' ∉ y ∧ y.head? ≠ some ':') (h1 : n.parseSock x = some sx) (h2 : n.parseSock y = some sy) :
    parseListen n (x ++ '-' :: y) = .panic := by
  unfold parseListen
  rw [if_pos (by simp), pieces_two hx.1 hy.1 hx.2.1 hy.2.1]
  simp only [parseAddr_explicit n hx.2.2 h1, parseAddr_explicit n hy.2.2 h2, Res.bind_ok]
  rfl

/-- **C31** fails: on a host without an address of its own (no network) every range ":a-:b" panics. -/
theorem C31_no_own_address_fails (n : NetEnv) (h4 : n.localV4 = none) (h6 : n.localV6 = none) (a b : Nat)
    (ha : a < 2 ^ 16) (hb : b < 2 ^ 16) :
    parseListen n ((':' :: showNat a) ++ '-' :: ':' :: showNat b) = .panic := by
  unfold parseListen
  rw [if_pos (by simp), pieces_two (by simp) (by simp) (colon_digits_no_dash a) (colon_digits_no_dash b)]
  simp only [parseAddr_port n ha, parseAddr_port n hb, Res.bind_ok, NetEnv.ownIps, h4, h6]
  rfl

/-- **C31** fails: a text of dashes only panics instead of being rejected. -/
theorem C31_dashes_fails (n : NetEnv) : parseListen n "-".toList = .panic ∧ parseListen n "--".toList = .panic := by
  constructor <;> rfl

example : ∃ n : NetEnv, parseListen n ":8080-:8082".toList = .ok [⟨.v4 0xC0A80064, 8080⟩, ⟨loopback, 8080⟩,
    ⟨.v4 0xC0A80064, 8081⟩, ⟨loopback, 8081⟩, ⟨.v4 0xC0A80064, 8082⟩, ⟨loopback, 8082⟩] :=
  ⟨⟨fun _ => none, some (.v4 0xC0A80064), none⟩, by decide +kernel⟩

/-! ### C32, C63: protocol flags -/

/-- a set of proxy protocols -/
def protoSet (a b c : Bool) : Flag :=
  (if a then Flag.http else 0) ||| (if b then Flag.https else 0) ||| (if c then Flag.socks5 else 0)

/-- **C32**, partial (round trip): every non-empty set of http, https, socks5 survives printing and parsing. Missing:
    the empty set, see `C32_empty_fails`. -/
theorem C32_roundtrip_partial (a b c : Bool) (h : a = true ∨ b = true ∨ c = true) :
    Flag.parse (Flag.render (protoSet a b c)) = .ok (protoSet a b c) := by
  revert a b c; decide +kernel

/-- **C32** fails for the empty set, whose text is rejected. -/
theorem C32_empty_fails : Flag.parse (Flag.render (protoSet false false false)) = .err .invalid := by decide +kernel

theorem foldl_addWord (ws : List Text) (f : Flag) :
    ws.foldl Flag.addWord f = f ||| protoSet ("http".toList ∈ ws ∨ "HTTP".toList ∈ ws)
      ("https".toList ∈ ws ∨ "HTTPS".toList ∈ ws) ("socks5".toList ∈ ws ∨ "SOCKS5".toList ∈ ws) := by
  induction ws generalizing f with
  | nil => simp [protoSet]
  | cons w ws ih =>
    rw [List.foldl_cons, ih]
    have h3 : ∀ (a b c p q r : Bool), protoSet a b c ||| protoSet p q r = protoSet (a || p) (b || q) (c || r) := by decide
    have hw : Flag.addWord f w = f ||| protoSet (w = "http".toList ∨ w = "HTTP".toList)
        (w = "https".toList ∨ w = "HTTPS".toList) (w = "socks5".toList ∨ w = "SOCKS5".toList) := by
      unfold Flag.addWord
      split
      · rename_i h; rcases h with rfl | rfl <;> rfl
      · split
        · rename_i h; rcases h with rfl | rfl <;> rfl
        · split
          · rename_i h; rcases h with rfl | rfl <;> rfl
          · rename_i h1 h2 h3
            rw [decide_eq_false h1, decide_eq_false h2, decide_eq_false h3]
            simp [protoSet]
    rw [hw, BitVec.or_assoc, h3]
    congr 1
    have e : ∀ x y : Text, (decide (w = x ∨ w = y) || decide (x ∈ ws ∨ y ∈ ws)) = decide (x ∈ w :: ws ∨ y ∈ w :: ws) := by
      intro x y
      rw [Bool.eq_iff_iff]
      simp only [Bool.or_eq_true, decide_eq_true_iff, List.mem_cons]
      constructor
      · rintro ((h | h) | (h | h))
        · exact .inl (.inl h.symm)
        · exact .inr (.inl h.symm)
        · exact .inl (.inr h)
        · exact .inr (.inr h)
      · rintro ((h | h) | (h | h))
        · exact .inl (.inl h.symm)
        · exact .inr (.inl h)
        · exact .inl (.inr h.symm)
        · exact .inr (.inr h)
    rw [e, e, e]

/-- **C32** (parsing) A text enables exactly the protocols whose words (in lower or upper case) occur in it; order,
    repetition and other words do not matter. -/
theorem C32_parse_meaning (ws : List Text) (hw : ∀ w ∈ ws, w ≠ [] ∧ ∀ c ∈ w, isWs c = false) (hne : ws ≠ []) :
    Flag.parse (ws.flatMap fun w => w ++ [' ']) = .ok (protoSet ("http".toList ∈ ws ∨ "HTTP".toList ∈ ws)
      ("https".toList ∈ ws ∨ "HTTPS".toList ∈ ws) ("socks5".toList ∈ ws ∨ "SOCKS5".toList ∈ ws)) := by
  have hs : splitWs (ws.flatMap fun w => w ++ [' ']) = ws := by
    clear hne
    induction ws with
    | nil => rfl
    | cons w ws ih =>
      have := hw w (by simp)
      rw [List.flatMap_cons, List.append_assoc, List.singleton_append, splitWs_sep _ _ _ this.1 this.2 (by decide),
        ih (fun x hx => hw x (by simp [hx]))]
  unfold Flag.parse
  rw [if_neg ?_, hs, foldl_addWord]
  · simp
  · cases ws with
    | nil => exact absurd rfl hne
    | cons w ws => simp

example : Flag.parse "socks5 HTTP  http".toList = .ok (protoSet true false true) := by decide +kernel

/-- **C63**, partial: the three proxy protocols are independent: enabling one enables exactly that one. Missing: the
    UDP flag, see `C63_udp_fails`. -/
theorem C63_independent_partial (a b c : Bool) :
    ((protoSet a b c).has .http = a) ∧ ((protoSet a b c).has .https = b) ∧ ((protoSet a b c).has .socks5 = c) ∧
    (protoSet a b c).has .tcp = false ∧ (protoSet a b c).has .udp = false ∧
    Flag.ofNumber (protoSet a b c) = protoSet a b c := by
  revert a b c; decide

/-- **C63** fails: the flag for UDP has the value 0x16 and so includes https and socks5: every flag set with UDP also
    enables the https and socks5 proxy. -/
theorem C63_udp_fails (f : Flag) (h : f.has .udp = true) : f.has .https = true ∧ f.has .socks5 = true := by
  unfold Flag.has Flag.udp at h
  unfold Flag.has Flag.https Flag.socks5
  revert f; decide

end Wm.Config
