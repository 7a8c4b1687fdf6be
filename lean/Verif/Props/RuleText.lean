import Verif.Props.ConfigText
/-! Property C156: the text of a header rule means what it says. -/
namespace Wm.Config
open Wm

/-! ### Specification -/

/-- the text consists of these words, each plain or in quotes it does not contain, separated (and possibly preceded and followed)
    by blanks -/
inductive Words : Text → List Text → Prop
  | nil : Words [] []
  | blank (c : Char) (t : Text) (ws : List Text) : isWs c = true → Words t ws → Words (c :: t) ws
  | word (q : Quoting) (w t : Text) (ws : List Text) : q.Fits w → (∀ c ∈ t.head?, isWs c = true) → Words t ws →
      Words (q.write w ++ t) (w :: ws)

/-- the sign of an operation -/
inductive Sign : Text → HeaderOper → Prop
  | add : Sign "+".toList .add
  | del : Sign "-".toList .del
  | default : Sign "?".toList .default

/-- what the words of a rule mean: `proxy` is for requests to the upstream server, no sign is for replacing, and a removal
    needs no value -/
inductive RuleWords : List Text → HeaderRule → Prop
  | signed (s k v : Text) (o : HeaderOper) : Sign s o → RuleWords [s, k, v] ⟨o, false, k, v⟩
  | unsigned (k v : Text) : k ∉ ["+".toList, "-".toList, "?".toList, "proxy".toList] → RuleWords [k, v] ⟨.replace, false, k, v⟩
  | removal (k : Text) : RuleWords ["-".toList, k] ⟨.del, false, k, []⟩
  | proxySigned (s k v : Text) (o : HeaderOper) : Sign s o → RuleWords ["proxy".toList, s, k, v] ⟨o, true, k, v⟩
  | proxyUnsigned (k v : Text) : k ∉ ["+".toList, "-".toList, "?".toList] →
      RuleWords ["proxy".toList, k, v] ⟨.replace, true, k, v⟩
  | proxyRemoval (k : Text) : RuleWords ["proxy".toList, "-".toList, k] ⟨.del, true, k, []⟩

/-! ### -/

theorem proxy_word : proxyWord = "proxy".toList := rfl

theorem Words.split {t : Text} {ws : List Text} (h : Words t ws) : splitQuoted t = ws := by
  induction h with
  | nil => rfl
  | blank c t ws hc _ ih => rw [splitQuoted_ws hc, ih]
  | word q w t ws hf ht _ ih => rw [splitQuoted_word hf ht, ih]

theorem Words.parse {t : Text} {ws : List Text} (h : Words t ws) (hw : ws ≠ []) : parseRule t = ruleOfWords ws := by
  unfold parseRule
  rw [if_neg, h.split]
  rintro rfl
  exact hw h.split.symm

/-- **C156**, partial: a text of words that means a rule is read as that rule, but for removals from requests without value.
    Missing: these, see `C156_request_removal_fails`, and other texts are not always rejected, see `C156_wrong_fails`. -/
theorem C156_meaning_partial (t : Text) (ws : List Text) (h : Words t ws) (r : HeaderRule) (hr : RuleWords ws r)
    (hn : ¬ (r.isProxy = true ∧ r.oper = .del ∧ ws.length = 3)) : parseRule t = .ok r := by
  have hs : ∀ {s o}, Sign s o → parseOper s = o ∧ s ≠ "proxy".toList := by
    intro s o h
    cases h <;> exact ⟨rfl, by decide⟩
  cases hr with
  | signed s k v o ho =>
    rw [h.parse (by simp), ruleOfWords, proxy_word, if_neg (hs ho).2, (hs ho).1]
  | unsigned k v hk =>
    rw [h.parse (by simp), ruleOfWords, if_neg]
    rintro rfl; exact hk (by decide)
  | removal k => rw [h.parse (by simp)]; rfl
  | proxySigned s k v o ho =>
    rw [h.parse (by simp), ruleOfWords, proxy_word, if_pos rfl, (hs ho).1]
  | proxyUnsigned k v hk => rw [h.parse (by simp), ruleOfWords, proxy_word, if_pos rfl]
  | proxyRemoval k => exact absurd ⟨rfl, rfl, rfl⟩ hn

/-- **C156** fails: a removal of a header from requests without value is read as a rule that sets a header named `-`. -/
theorem C156_request_removal_fails (t k : Text) (h : Words t ["proxy".toList, "-".toList, k]) :
    parseRule t = .ok ⟨.replace, true, "-".toList, k⟩ := by
  rw [h.parse (by simp)]; rfl

/-- **C156** fails: with a first word that is no sign, three words are not rejected: the first one is ignored; and with a second
    word that is no sign after `proxy`, four words are not rejected either. -/
theorem C156_wrong_fails (t a k v : Text) (ha : a ∉ ["+".toList, "-".toList, "?".toList, "proxy".toList]) :
    (Words t [a, k, v] → parseRule t = .ok ⟨.replace, false, k, v⟩) ∧
    (Words t ["proxy".toList, a, k, v] → parseRule t = .ok ⟨.replace, true, k, v⟩) := by
  have ho : parseOper a = .replace := by
    unfold parseOper
    rw [if_neg, if_neg, if_neg]
    all_goals rintro rfl; exact ha (by decide)
  constructor
  · intro h
    rw [h.parse (by simp), ruleOfWords, proxy_word, if_neg, ho]
    rintro rfl; exact ha (by decide)
  · intro h
    rw [h.parse (by simp), ruleOfWords, proxy_word, if_pos rfl, ho]

/-- **C156** (rejection) A text of one word, of four words that do not begin with `proxy`, or of more than four is rejected. -/
theorem C156_rejects (t : Text) (ws : List Text) (h : Words t ws)
    (hw : ws.length = 1 ∨ (ws.length = 4 ∧ ws.head? ≠ some "proxy".toList) ∨ 4 < ws.length) : parseRule t = .err .invalid := by
  match ws with
  | [] => simp at hw
  | [a] => rw [h.parse (by simp)]; rfl
  | [a, b] => simp at hw
  | [a, b, c] => simp at hw
  | [a, b, c, d] =>
    rw [h.parse (by simp), ruleOfWords, proxy_word, if_neg]
    rintro rfl
    simp at hw
  | a :: b :: c :: d :: e :: r => rw [h.parse (by simp)]; rfl

/-- a rule for requests with a value in quotes -/
example : ∃ ws, Words "proxy + X-Id \"a b\"".toList ws ∧ RuleWords ws ⟨.add, true, "X-Id".toList, "a b".toList⟩ := by
  refine ⟨["proxy".toList, "+".toList, "X-Id".toList, "a b".toList], ?_, .proxySigned _ _ _ _ .add⟩
  have hp : ∀ w : Text, w ≠ [] ∧ w.all isPlain = true → Quoting.plain.Fits w := fun w h => plain_of_decide h
  have hb : ∀ c : Char, c ∈ (' ' :: ([] : Text)).head? → isWs c = true := by decide
  refine .word .plain "proxy".toList _ _ (hp _ (by decide)) (by decide) (.blank ' ' _ _ (by decide) ?_)
  refine .word .plain "+".toList _ _ (hp _ (by decide)) (by decide) (.blank ' ' _ _ (by decide) ?_)
  refine .word .plain "X-Id".toList _ _ (hp _ (by decide)) (by decide) (.blank ' ' _ _ (by decide) ?_)
  exact .word .double "a b".toList [] [] (by simp [Quoting.Fits]) (by simp) .nil

example : parseRule "proxy + X-Id \"a b\"".toList = .ok ⟨.add, true, "X-Id".toList, "a b".toList⟩ := by decide +kernel
example : parseRule "proxy - X-Id".toList = .ok ⟨.replace, true, "-".toList, "X-Id".toList⟩ := by decide +kernel

end Wm.Config
