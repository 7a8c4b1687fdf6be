import Verif.Model.Prot
import Verif.Model.BasicLemmas
/-! Helper lemmas about the tunnel codec. -/
namespace Wm.Prot
open Wm

/-- bytes of a short string -/
def shortStr (s : Text) : Bytes := putU8 (utf8 s).length ++ utf8 s

/-- the encoder result `e` appended exactly `bs` to `buf` and succeeded -/
def Appends (e : Enc) (buf bs : Bytes) : Prop := e = ⟨buf ++ bs, .ok bs.length⟩

theorem Appends.put (bs buf : Bytes) : Appends (put bs buf) buf bs := rfl

theorem Appends.andThen {a : Enc} {f : Bytes → Enc} {buf x y : Bytes}
    (ha : Appends a buf x) (hf : Appends (f (buf ++ x)) (buf ++ x) y) :
    Appends (a.andThen f) buf (x ++ y) := by
  unfold Appends at *
  subst ha
  simp [Enc.andThen, hf]

theorem writeShortString_fits (buf : Bytes) (s : Text) (h : (utf8 s).length ≤ 255) :
    Appends (writeShortString buf s) buf (shortStr s) := by
  unfold writeShortString Appends shortStr
  simp [Nat.not_lt.mpr h, List.append_assoc]
  try omega

theorem writeShortString_long (buf : Bytes) (s : Text) (h : 255 < (utf8 s).length) :
    writeShortString buf s = ⟨buf, .err .tooShort⟩ := by
  simp [writeShortString, h]

theorem readShortString_fits (s : Text) (r : Bytes) (h : (utf8 s).length ≤ 255) :
    readShortString (shortStr s ++ r) = .ok (s, r) := by
  unfold readShortString shortStr
  rw [if_neg (by simp), List.append_assoc, getU8_put]
  simp only [Res.bind_ok]
  have : (utf8 s).length % 256 = (utf8 s).length := by omega
  rw [this, if_neg (by simp)]
  split
  · rename_i h0
    have : utf8 s = [] := List.length_eq_zero_iff.mp h0
    have h2 := utf8_eq_nil.mp this
    subst h2; simp [utf8]
  · simp [lossy_utf8]

/-- 12 header bytes -/
theorem header_length (h : Header) : h.encode.length = 12 := by simp [Header.encode]

theorem getU24_header (h : Header) (r : Bytes) :
    getU24 (h.encode ++ r) = .ok (h.length % 2 ^ 24,
      putU8 h.kind.encode ++ (putU8 h.flag ++ (putU24 (h.sockMap % 2 ^ 32)
        ++ (putU32 (h.sockMap / 2 ^ 32) ++ r)))) := by
  simp only [Header.encode, List.append_assoc, getU24_put]

theorem kind_roundtrip (k : Kind) (hk : k ≠ .unregistered) : Kind.new (k.encode % 256) = k := by
  cases k <;> first | rfl | exact absurd rfl hk

theorem parseHeader_encode (h : Header) (len : Nat) (r : Bytes) (hk : h.kind ≠ .unregistered) (hf : h.flag = 0)
    :
    parseHeaderByLen (putU8 h.kind.encode ++ (putU8 h.flag ++ (putU24 (h.sockMap % 2 ^ 32)
        ++ (putU32 (h.sockMap / 2 ^ 32) ++ r)))) len
      = .ok (⟨len, h.kind, 0, calcSockMap (h.sockMap / 2 ^ 32 % 2 ^ 32) (h.sockMap % 2 ^ 24)⟩, r) := by
  unfold parseHeaderByLen
  rw [if_neg (by simp [frameHeaderBytes]; omega)]
  simp only [getU8_put, getU24_put, getU32_put, Res.bind_ok, kind_roundtrip _ hk, hf]
  have : h.sockMap % 2 ^ 32 % 2 ^ 24 = h.sockMap % 2 ^ 24 := by omega
  rw [this]; rfl

/-- Decoding a header followed by enough bytes runs the parser on everything after the header. -/
theorem decodeFrame_header (h : Header) (body : Bytes) (hk : h.kind ≠ .unregistered) (hf : h.flag = 0)
    (hl : h.length % 2 ^ 24 ≤ body.length) :
    decodeFrame (h.encode ++ body)
      = ((parseFrame ⟨h.length % 2 ^ 24, h.kind, 0,
            calcSockMap (h.sockMap / 2 ^ 32 % 2 ^ 32) (h.sockMap % 2 ^ 24)⟩ body) >>= fun f => .ok (some f),
          body.drop (h.length % 2 ^ 24)) := by
  unfold decodeFrame
  rw [if_neg (by simp [header_length]; omega), getU24_header]
  simp only
  rw [if_neg (by simp [header_length, frameHeaderBytes]; omega), parseHeader_encode _ _ _ hk hf]
  simp only [Res.bind_ok]
  rw [List.drop_append, header_length]
  simp [frameHeaderBytes, header_length, List.drop_eq_nil_of_le]

theorem decodeFrame_short {read : Bytes} (h : read.length < 12) : decodeFrame read = (.ok none, read) := by
  unfold decodeFrame
  split
  · rfl
  · match read, h with
    | a :: b :: c :: r, h =>
      simp only [getU24]
      rw [if_pos (by simp [frameHeaderBytes] at h ⊢; omega)]
    | [_, _], _ => simp at *
    | [_], _ => simp at *
    | [], _ => simp at *

theorem decodeFrame_header_short (h : Header) (body : Bytes)
    (hl : body.length < h.length % 2 ^ 24) :
    decodeFrame (h.encode ++ body) = (.ok none, h.encode ++ body) := by
  unfold decodeFrame
  rw [if_neg (by simp [header_length]; omega), getU24_header]
  simp only
  rw [if_pos (by simp [header_length, frameHeaderBytes]; omega)]

/-! ### rules and mappings -/

def ruleBytes (h : ConfigHeader) : Bytes :=
  putU8 (if h.isProxy then 1 else 0) ++ putU8 h.oper.toU8 ++ shortStr h.key ++ shortStr h.val

def mappingBytes (m : MappingConfig) : Bytes :=
  shortStr m.name ++ shortStr m.mode ++ shortStr m.domain ++ putU16 (m.headers.length % 2 ^ 16)
    ++ m.headers.flatMap ruleBytes

def RuleOk (h : ConfigHeader) : Prop := (utf8 h.key).length ≤ 255 ∧ (utf8 h.val).length ≤ 255

def MapOk (m : MappingConfig) : Prop :=
  (utf8 m.name).length ≤ 255 ∧ (utf8 m.mode).length ≤ 255 ∧ (utf8 m.domain).length ≤ 255 ∧
    m.headers.length < 2 ^ 16 ∧ ∀ h ∈ m.headers, RuleOk h

theorem encodeRule_ok (h : ConfigHeader) (buf : Bytes) (ok : RuleOk h) :
    Appends (encodeRule h buf) buf (ruleBytes h) := by
  unfold encodeRule ruleBytes
  exact (((Appends.put _ _).andThen (Appends.put _ _)).andThen (writeShortString_fits _ _ ok.1)).andThen
    (writeShortString_fits _ _ ok.2)

theorem encodeRules_ok (hs : List ConfigHeader) : ∀ (buf : Bytes), (∀ h ∈ hs, RuleOk h) →
    Appends (encodeRules hs buf) buf (hs.flatMap ruleBytes) := by
  induction hs with
  | nil => intro buf _; exact Appends.put _ _
  | cons h t ih =>
    intro buf ok
    exact (encodeRule_ok h buf (ok h (by simp))).andThen (ih _ (fun x hx => ok x (by simp [hx])))

theorem encodeOneMapping_ok (m : MappingConfig) (buf : Bytes) (ok : MapOk m) :
    Appends (encodeOneMapping m buf) buf (mappingBytes m) := by
  obtain ⟨h1, h2, h3, _, h5⟩ := ok
  unfold encodeOneMapping mappingBytes
  exact ((((writeShortString_fits _ _ h1).andThen (writeShortString_fits _ _ h2)).andThen
    (writeShortString_fits _ _ h3)).andThen (Appends.put _ _)).andThen (encodeRules_ok _ _ h5)

theorem encodeMappings_ok (ms : List MappingConfig) : ∀ (buf : Bytes), (∀ m ∈ ms, MapOk m) →
    Appends (encodeMappings ms buf) buf (ms.flatMap mappingBytes) := by
  induction ms with
  | nil => intro buf _; exact Appends.put _ _
  | cons h t ih =>
    intro buf ok
    exact (encodeOneMapping_ok h buf (ok h (by simp))).andThen (ih _ (fun x hx => ok x (by simp [hx])))

theorem oper_roundtrip (o : HeaderOper) : HeaderOper.fromU8 (o.toU8 % 256) = o := by cases o <;> rfl

theorem mustHave_ok {buf : Bytes} {n : Nat} (h : n ≤ buf.length) : mustHave buf n = .ok () := by
  simp [mustHave, Nat.not_lt.mpr h]

theorem parseRules_ok (hs : List ConfigHeader) : ∀ (r : Bytes), (∀ h ∈ hs, RuleOk h) →
    parseRules hs.length (hs.flatMap ruleBytes ++ r) = .ok (hs, r) := by
  induction hs with
  | nil => intro r _; rfl
  | cons h t ih =>
    intro r ok
    have hk := ok h (by simp)
    simp only [List.length_cons, parseRules, List.flatMap_cons, ruleBytes, List.append_assoc]
    rw [mustHave_ok (by simp; omega)]
    simp only [getU8_put, Res.bind_ok, readShortString_fits _ _ hk.1, readShortString_fits _ _ hk.2]
    have := ih r (fun x hx => ok x (by simp [hx]))
    rw [this]
    simp only [Res.bind_ok, oper_roundtrip]
    cases h with | mk o p k v => cases p <;> rfl

theorem parseMappings_ok (ms : List MappingConfig) : ∀ (r : Bytes), (∀ m ∈ ms, MapOk m) →
    parseMappings ms.length (ms.flatMap mappingBytes ++ r)
      = .ok (ms.map (fun m => { m with localAddr := none }), r) := by
  induction ms with
  | nil => intro r _; rfl
  | cons m t ih =>
    intro r ok
    obtain ⟨h1, h2, h3, h4, h5⟩ := ok m (by simp)
    simp only [List.length_cons, parseMappings, List.flatMap_cons]
    rw [show mappingBytes m ++ t.flatMap mappingBytes ++ r =
      shortStr m.name ++ (shortStr m.mode ++ (shortStr m.domain ++ (putU16 (m.headers.length % 2 ^ 16)
        ++ (m.headers.flatMap ruleBytes ++ (t.flatMap mappingBytes ++ r))))) by
        simp [mappingBytes, List.append_assoc]]
    simp only [readShortString_fits _ _ h1, readShortString_fits _ _ h2, readShortString_fits _ _ h3, Res.bind_ok]
    rw [mustHave_ok (by simp)]
    simp only [getU16_put, Res.bind_ok]
    rw [show m.headers.length % 2 ^ 16 % 2 ^ 16 = m.headers.length by omega, parseRules_ok _ _ h5]
    simp only [Res.bind_ok, ih r (fun x hx => ok x (by simp [hx]))]
    rfl

end Wm.Prot
