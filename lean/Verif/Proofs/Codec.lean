import Verif.Model.ProtLemmas
import Verif.Spec.Codec
/-! Lemmas for the codec properties. -/
namespace Wm.Prot
open Wm

/-! ### Encoder: what is appended -/

theorem short_length {s : Text} : (shortStr s).length = 1 + (utf8 s).length := by
  simp [shortStr]

theorem ruleBytes_length (h : ConfigHeader) : (ruleBytes h).length = ruleSize h := by
  simp [ruleBytes, ruleSize, short_length]; omega

theorem rules_length (hs : List ConfigHeader) : (hs.flatMap ruleBytes).length = (hs.map ruleSize).sum := by
  simp [List.length_flatMap, ruleBytes_length]

theorem mappingBytes_length (m : MappingConfig) : (mappingBytes m).length = mappingSize m := by
  simp only [mappingBytes, mappingSize, List.length_append, short_length, rules_length, putU16_length]

theorem mappings_length (ms : List MappingConfig) :
    (ms.flatMap mappingBytes).length = (ms.map mappingSize).sum := by
  simp [List.length_flatMap, mappingBytes_length]

/-- header and body bytes of a message -/
def headOf : Frame → Header
  | .create s d => ⟨1 + (match d with | some t => (utf8 t).length | none => 0), .create, 0, s⟩
  | .close s r => ⟨(utf8 r).length + 1, .close, 0, s⟩
  | .data s d => ⟨d.length, .data, 0, s⟩
  | .token u p => ⟨(utf8 u).length + 1 + (utf8 p).length + 1, .token, 0, 0⟩
  | .mapping s ms => ⟨2 + (ms.map mappingSize).sum, .mapping, 0, s⟩

def bodyOf : Frame → Bytes
  | .create _ d => match d with | some t => shortStr t | none => putU8 0
  | .close _ r => shortStr r
  | .data _ d => d
  | .token u p => shortStr u ++ shortStr p
  | .mapping _ ms => putU16 (ms.length % 2 ^ 16) ++ ms.flatMap mappingBytes

theorem body_length {f : Frame} : (bodyOf f).length = (headOf f).length := by
  cases f with
  | create s d => cases d <;> simp [bodyOf, headOf, short_length]
  | close s r => simp [bodyOf, headOf, short_length]; omega
  | data s d => rfl
  | token u p => simp [bodyOf, headOf, short_length]; omega
  | mapping s ms => simp only [bodyOf, headOf, List.length_append, mappings_length]; rfl

theorem encode_fits (f : Frame) (hf : BodyFits f) (buf : Bytes) :
    Appends (f.encode buf) buf ((headOf f).encode ++ bodyOf f) := by
  cases f with
  | create s d =>
    cases d with
    | none =>
      simp only [Frame.encode, encodeCreate, headOf, bodyOf]
      have := ((Appends.put (⟨1, .create, 0, s⟩ : Header).encode buf).andThen (Appends.put (putU8 0) _)).andThen
        (Appends.put [] _)
      simpa using this
    | some t =>
      have ht : (utf8 t).length ≤ 255 := hf t rfl
      simp only [Frame.encode, encodeCreate, headOf, bodyOf]
      have e : (utf8 t).length % 2 ^ 32 = (utf8 t).length := Nat.mod_eq_of_lt (by omega)
      have e2 : (1 + (utf8 t).length) % 2 ^ 32 = 1 + (utf8 t).length := Nat.mod_eq_of_lt (by omega)
      rw [e, e2]
      have := ((Appends.put (⟨1 + (utf8 t).length, .create, 0, s⟩ : Header).encode buf).andThen
        (Appends.put (putU8 (utf8 t).length) _)).andThen (Appends.put (utf8 t) _)
      simpa [shortStr, List.append_assoc] using this
  | close s r =>
    have hr : (utf8 r).length ≤ 255 := hf
    simp only [Frame.encode, encodeClose, headOf, bodyOf]
    have e2 : ((utf8 r).length % 2 ^ 32 + 1) % 2 ^ 32 = (utf8 r).length + 1 := by omega
    rw [e2]
    exact (Appends.put _ _).andThen (writeShortString_fits _ _ hr)
  | data s d =>
    have hd : d.length < 2 ^ 24 := hf
    simp only [Frame.encode, encodeData, headOf, bodyOf]
    rw [Nat.mod_eq_of_lt (by omega : d.length < 2 ^ 32)]
    exact (Appends.put _ _).andThen (Appends.put _ _)
  | token u p =>
    have hu : (utf8 u).length ≤ 255 := hf.1
    have hp : (utf8 p).length ≤ 255 := hf.2
    simp only [Frame.encode, encodeToken, headOf, bodyOf]
    have e2 : ((utf8 u).length % 2 ^ 32 + 1 + (utf8 p).length % 2 ^ 32 + 1) % 2 ^ 32
      = (utf8 u).length + 1 + (utf8 p).length + 1 := by omega
    rw [e2, ← List.append_assoc]
    exact ((Appends.put _ _).andThen (writeShortString_fits _ _ hu)).andThen (writeShortString_fits _ _ hp)
  | mapping s ms =>
    obtain ⟨h1, h2, h3⟩ := hf
    have hc : Appends ((put (putU16 (ms.length % 2 ^ 16)) []).andThen (encodeMappings ms)) []
        (putU16 (ms.length % 2 ^ 16) ++ ms.flatMap mappingBytes) :=
      (Appends.put _ _).andThen (encodeMappings_ok ms _ (fun m hm => h3 m hm))
    simp only [Frame.encode, encodeMapping, headOf, bodyOf]
    unfold Appends at hc
    rw [hc]
    simp only [List.nil_append]
    have hl : (putU16 (ms.length % 2 ^ 16) ++ ms.flatMap mappingBytes).length = 2 + (ms.map mappingSize).sum := by
      rw [List.length_append, mappings_length]; rfl
    rw [hl, Nat.mod_eq_of_lt (by omega)]
    exact (Appends.put _ _).andThen (Appends.put _ _)

theorem wire_fits (f : Frame) (hf : BodyFits f) : wire f = (headOf f).encode ++ bodyOf f := by
  have := encode_fits f hf []
  unfold Appends at this
  simp [wire, this]

theorem headOf_small {f : Frame} (hf : BodyFits f) : (headOf f).length < 2 ^ 24 := by
  cases f with
  | create s d =>
    cases d with
    | none => simp [headOf]
    | some t => have := hf t rfl; simp [headOf, Short] at *; omega
  | close s r => simp [headOf, BodyFits, Short] at *; omega
  | data s d => simpa [headOf, BodyFits] using hf
  | token u p => simp [headOf, BodyFits, Short] at *; omega
  | mapping s ms => simpa [headOf] using hf.2.1

theorem headOf_kind (f : Frame) : (headOf f).kind ≠ .unregistered := by cases f <;> simp [headOf]
theorem headOf_flag (f : Frame) : (headOf f).flag = 0 := by cases f <;> rfl

theorem parse_body (f : Frame) (hf : BodyFits f) (id : Nat) (rest : Bytes) :
    parseFrame ⟨(headOf f).length, (headOf f).kind, 0, id⟩ (bodyOf f ++ rest) = .ok (withId (asReceived f) id) := by
  cases f with
  | create s d =>
    simp only [headOf, parseFrame, parseCreate]
    cases d with
    | none => simp [bodyOf, asReceived, withId]
    | some t =>
      have ht : (utf8 t).length ≤ 255 := hf t rfl
      simp only [bodyOf, shortStr, List.append_assoc, getU8_put, Res.bind_ok]
      have e : (utf8 t).length % 256 = (utf8 t).length := by omega
      rw [e, if_neg (by simp)]
      cases t with
      | nil => simp [asReceived, withId, utf8]
      | cons c t =>
        have : 0 < (utf8 (c :: t)).length := by
          rcases Nat.eq_zero_or_pos (utf8 (c :: t)).length with h | h
          · exact absurd (utf8_eq_nil.mp (List.length_eq_zero_iff.mp h)) (by simp)
          · exact h
        simp [this, asReceived, withId, lossy_utf8]
  | close s r =>
    simp only [headOf, parseFrame, parseClose, bodyOf, readShortString_fits _ _ hf, Res.bind_ok]; rfl
  | data s d => simp [headOf, parseFrame, parseData, bodyOf, asReceived, withId]
  | token u p =>
    simp only [headOf, parseFrame, parseToken, bodyOf, List.append_assoc, readShortString_fits _ _ hf.1,
      readShortString_fits _ _ hf.2, Res.bind_ok]; rfl
  | mapping s ms =>
    obtain ⟨h1, h2, h3⟩ := hf
    simp only [headOf, parseFrame, parseMapping, bodyOf, List.append_assoc]
    rw [mustHave_ok (by simp)]
    simp only [getU16_put, Res.bind_ok]
    rw [show ms.length % 2 ^ 16 % 2 ^ 16 = ms.length by omega, parseMappings_ok _ _ (fun m hm => h3 m hm)]
    rfl


/-- C01/C04 for any 64-bit id: the receiver sees the same message with the id `wireId`, and exactly the following
    bytes are left. -/
theorem frame_roundtrip_any_id (f : Frame) (hf : BodyFits f) (hid : f.sockMap < 2 ^ 64) (pre rest : Bytes) :
    f.encode pre = ⟨pre ++ wire f, .ok (wire f).length⟩ ∧
      decodeFrame (wire f ++ rest) = (.ok (some (withId (asReceived f) (wireId f.sockMap))), rest) := by
  have hsmall := headOf_small hf
  constructor
  · have := encode_fits f hf pre
    unfold Appends at this
    rw [this, wire_fits f hf]
  · rw [wire_fits f hf, List.append_assoc,
      decodeFrame_header _ _ (headOf_kind f) (headOf_flag f)
        (by rw [Nat.mod_eq_of_lt hsmall, List.length_append, body_length]; omega)]
    rw [Nat.mod_eq_of_lt hsmall, parse_body f hf]
    have hid2 : calcSockMap ((headOf f).sockMap / 2 ^ 32 % 2 ^ 32) ((headOf f).sockMap % 2 ^ 24)
        = wireId f.sockMap := by
      have : (headOf f).sockMap = f.sockMap := by cases f <;> rfl
      rw [this]; unfold calcSockMap wireId
      rw [Nat.mod_eq_of_lt (by omega : f.sockMap / 2 ^ 32 < 2 ^ 32)]
    rw [hid2]
    simp only [Res.bind_ok, ← body_length]
    simp

theorem wireId_fits {id : Nat} (h : IdFits id) : wireId id = id := by
  obtain ⟨h1, h2⟩ := h; unfold wireId; omega

theorem withId_self (f : Frame) : withId (asReceived f) f.sockMap = asReceived f := by
  cases f with
  | create s d => cases d with
    | none => rfl
    | some t => cases t <;> rfl
  | _ => rfl

/-! ### complete and incomplete buffers -/

theorem announced_bound (read : Bytes) : announced read < 2 ^ 24 := by
  match read with
  | a :: b :: c :: r =>
    have := a.toNat_lt; have := b.toNat_lt; have := c.toNat_lt
    simp only [announced]; omega
  | [] | [_] | [_, _] => simp [announced]

theorem decodeFrame_complete (read : Bytes) (h : Complete read) :
    decodeFrame read = (do
      let (header, body) ← parseHeaderByLen (read.drop 3) (announced read)
      let f ← parseFrame header body
      .ok (some f), read.drop (announced read + 12)) := by
  unfold Complete at h
  unfold decodeFrame
  rw [if_neg (by omega)]
  match read, h with
  | a :: b :: c :: r, h =>
    have e : (a.toNat * 256 + b.toNat) * 256 + c.toNat = announced (a :: b :: c :: r) := by
      simp only [announced]; omega
    simp only [getU24, e]
    rw [if_neg (by simp only [frameHeaderBytes]; omega)]
    rfl
  | [], h => simp [announced] at h
  | [_], h => simp [announced] at h
  | [_, _], h => simp [announced] at h

theorem decodeFrame_incomplete (read : Bytes) (h : ¬ Complete read) : decodeFrame read = (.ok none, read) := by
  unfold Complete at h
  unfold decodeFrame
  split
  · rfl
  · match read, h with
    | a :: b :: c :: r, h =>
      have e : (a.toNat * 256 + b.toNat) * 256 + c.toNat = announced (a :: b :: c :: r) := by
        simp only [announced]; omega
      simp only [getU24, e]
      rw [if_pos (by simp only [frameHeaderBytes]; omega)]
    | [], h => simp [announced] at *
    | [_], h => simp [announced] at *
    | [_, _], h => simp [announced] at *


/-! ### success of encoders -/

def Enc.good (e : Enc) : Bool := match e.result with | .ok _ => true | _ => false

theorem good_iff (e : Enc) : e.good = true ↔ Succeeded e := by
  unfold Enc.good Succeeded; cases e.result <;> simp

theorem good_andThen (a : Enc) (f : Bytes → Enc) : (a.andThen f).good = (a.good && (f a.buf).good) := by
  unfold Enc.andThen Enc.good
  cases ha : a.result with
  | ok n => cases hb : (f a.buf).result <;> simp [hb]
  | _ => simp

theorem good_put (bs buf : Bytes) : (put bs buf).good = true := rfl

theorem good_short (buf : Bytes) (s : Text) : (writeShortString buf s).good = decide ((utf8 s).length ≤ 255) := by
  unfold writeShortString Enc.good
  by_cases h : (utf8 s).length ≤ 255
  · simp [h, Nat.not_lt.mpr h]
  · simp [h, Nat.lt_of_not_ge h]

def ruleGood (h : ConfigHeader) : Bool := decide ((utf8 h.key).length ≤ 255) && decide ((utf8 h.val).length ≤ 255)

theorem good_rule (h : ConfigHeader) (buf : Bytes) : (encodeRule h buf).good = ruleGood h := by
  simp [encodeRule, good_andThen, good_put, good_short, ruleGood]

theorem good_rules (hs : List ConfigHeader) : ∀ buf, (encodeRules hs buf).good = hs.all ruleGood := by
  induction hs with
  | nil => intro buf; rfl
  | cons h t ih => intro buf; simp [encodeRules, good_andThen, good_rule, ih]

def mapGood (m : MappingConfig) : Bool :=
  decide ((utf8 m.name).length ≤ 255) && decide ((utf8 m.mode).length ≤ 255) &&
    decide ((utf8 m.domain).length ≤ 255) && m.headers.all ruleGood

theorem good_oneMapping (m : MappingConfig) (buf : Bytes) : (encodeOneMapping m buf).good = mapGood m := by
  simp [encodeOneMapping, good_andThen, good_put, good_short, good_rules, mapGood]

theorem good_mappings (ms : List MappingConfig) : ∀ buf, (encodeMappings ms buf).good = ms.all mapGood := by
  induction ms with
  | nil => intro buf; rfl
  | cons h t ih => intro buf; simp [encodeMappings, good_andThen, good_oneMapping, ih]

theorem good_encodeMapping (s : Nat) (ms : List MappingConfig) (buf : Bytes) :
    (encodeMapping s ms buf).good = ms.all mapGood := by
  have h : ((put (putU16 (ms.length % 2 ^ 16)) []).andThen (encodeMappings ms)).good = ms.all mapGood := by
    simp [good_andThen, good_put, good_mappings]
  rw [← h]
  unfold encodeMapping
  dsimp only
  cases hr : ((put (putU16 (ms.length % 2 ^ 16)) []).andThen (encodeMappings ms)).result with
  | ok n =>
    rw [good_andThen, good_put, good_put]
    simp [Enc.good, hr]
  | err e => simp [Enc.good, hr]
  | panic => simp [Enc.good, hr]

theorem good_encode (f : Frame) (buf : Bytes) : (f.encode buf).good = true ↔ ¬ HasLongString f := by
  cases f with
  | create s d =>
    cases d <;> simp [Frame.encode, encodeCreate, good_andThen, good_put, HasLongString]
  | close s r => simp [Frame.encode, encodeClose, good_andThen, good_put, good_short, HasLongString, Short]
  | data s d => simp [Frame.encode, encodeData, good_andThen, good_put, HasLongString]
  | token u p =>
    simp [Frame.encode, encodeToken, good_andThen, good_put, good_short, HasLongString, Short]
  | mapping s ms =>
    simp only [Frame.encode, good_encodeMapping, HasLongString, List.all_eq_true, mapGood, ruleGood, Short,
      Bool.and_eq_true, decide_eq_true_eq]
    constructor
    · rintro h ⟨m, hm, hx⟩
      obtain ⟨⟨⟨h1, h2⟩, h3⟩, h4⟩ := h m hm
      rcases hx with hx | hx | hx | ⟨r, hr, hx⟩
      · exact hx h1
      · exact hx h2
      · exact hx h3
      · rcases hx with hx | hx
        · exact hx (h4 r hr).1
        · exact hx (h4 r hr).2
    · intro h m hm
      refine ⟨⟨⟨?_, ?_⟩, ?_⟩, fun r hr => ⟨?_, ?_⟩⟩ <;> refine Decidable.byContradiction fun hc => h ⟨m, hm, ?_⟩
      · exact .inl hc
      · exact .inr (.inl hc)
      · exact .inr (.inr (.inl hc))
      · exact .inr (.inr (.inr ⟨r, hr, .inl hc⟩))
      · exact .inr (.inr (.inr ⟨r, hr, .inr hc⟩))

/-! ### stability of parsers under longer input -/

def Stable {α : Type} (p : Bytes → Res (α × Bytes)) : Prop :=
  ∀ b a r t, p b = .ok (a, r) → p (b ++ t) = .ok (a, r ++ t)

theorem bind_eq_ok {α β : Type} {x : Res α} {f : α → Res β} {b : β} :
    (x >>= f) = .ok b ↔ ∃ a, x = .ok a ∧ f a = .ok b := by
  cases x <;> simp

theorem stable_u8 : Stable getU8 := by
  intro b a r t h
  match b, h with
  | x :: y, h => simp [getU8] at h ⊢; simp [h]

theorem stable_u16 : Stable getU16 := by
  intro b a r t h
  match b, h with
  | x :: y :: z, h => simp [getU16] at h ⊢; simp [h]

theorem stable_u24 : Stable getU24 := by
  intro b a r t h
  match b, h with
  | x :: y :: z :: w, h => simp [getU24] at h ⊢; simp [h]

theorem stable_u32 : Stable getU32 := by
  intro b a r t h
  match b, h with
  | x :: y :: z :: w :: v, h => simp [getU32] at h ⊢; simp [h]

theorem stable_short : Stable readShortString := by
  intro b a r t h
  unfold readShortString at h ⊢
  split at h
  · simp at h
  · rename_i hb
    rw [if_neg (by rw [List.length_append]; omega)]
    obtain ⟨⟨len, b'⟩, h1, h2⟩ := bind_eq_ok.mp h
    rw [stable_u8 _ _ _ t h1]
    simp only [Res.bind_ok] at h2 ⊢
    split at h2
    · simp at h2
    · rename_i hl
      rw [if_neg (by simp; omega)]
      split at h2
      · rename_i h0; rw [if_pos h0]; simp at h2 ⊢; simp [h2]
      · rename_i h0; rw [if_neg h0]
        simp only [Res.ok.injEq, Prod.mk.injEq] at h2 ⊢
        rw [List.take_append_of_le_length (by omega), List.drop_append_of_le_length (by omega)]
        simp [h2]

theorem mustHave_stable {b : Bytes} {n : Nat} {u : Unit} (t : Bytes) (h : mustHave b n = .ok u) :
    mustHave (b ++ t) n = .ok u := by
  unfold mustHave at h ⊢
  split at h
  · simp at h
  · rw [if_neg (by simp; omega)]

theorem stable_rules (n : Nat) : Stable (parseRules n) := by
  induction n with
  | zero => intro b a r t h; simp [parseRules] at h ⊢; simp [h]
  | succ n ih =>
    intro b a r t h
    unfold parseRules at h ⊢
    obtain ⟨u, h0, h⟩ := bind_eq_ok.mp h
    obtain ⟨⟨x1, b1⟩, h1, h⟩ := bind_eq_ok.mp h
    obtain ⟨⟨x2, b2⟩, h2, h⟩ := bind_eq_ok.mp h
    obtain ⟨⟨x3, b3⟩, h3, h⟩ := bind_eq_ok.mp h
    obtain ⟨⟨x4, b4⟩, h4, h⟩ := bind_eq_ok.mp h
    obtain ⟨⟨x5, b5⟩, h5, h⟩ := bind_eq_ok.mp h
    simp only [mustHave_stable t h0, stable_u8 _ _ _ t h1, stable_u8 _ _ _ t h2, stable_short _ _ _ t h3,
      stable_short _ _ _ t h4, ih _ _ _ t h5, Res.bind_ok]
    simp only [Res.ok.injEq, Prod.mk.injEq] at h ⊢
    simp [h]

theorem stable_mappings (n : Nat) : Stable (parseMappings n) := by
  induction n with
  | zero => intro b a r t h; simp [parseMappings] at h ⊢; simp [h]
  | succ n ih =>
    intro b a r t h
    unfold parseMappings at h ⊢
    obtain ⟨⟨x1, b1⟩, h1, h⟩ := bind_eq_ok.mp h
    obtain ⟨⟨x2, b2⟩, h2, h⟩ := bind_eq_ok.mp h
    obtain ⟨⟨x3, b3⟩, h3, h⟩ := bind_eq_ok.mp h
    obtain ⟨u, h0, h⟩ := bind_eq_ok.mp h
    obtain ⟨⟨x4, b4⟩, h4, h⟩ := bind_eq_ok.mp h
    obtain ⟨⟨x5, b5⟩, h5, h⟩ := bind_eq_ok.mp h
    obtain ⟨⟨x6, b6⟩, h6, h⟩ := bind_eq_ok.mp h
    simp only [mustHave_stable t h0, stable_short _ _ _ t h1, stable_short _ _ _ t h2, stable_short _ _ _ t h3,
      stable_u16 _ _ _ t h4, stable_rules _ _ _ _ t h5, ih _ _ _ t h6, Res.bind_ok]
    simp only [Res.ok.injEq, Prod.mk.injEq] at h ⊢
    simp [h]

theorem parseFrame_stable (h : Header) (b t : Bytes) (f : Frame) (hp : parseFrame h b = .ok f) :
    parseFrame h (b ++ t) = .ok f := by
  unfold parseFrame at hp ⊢
  cases hk : h.kind <;> simp only [hk] at hp ⊢
  · unfold parseData at hp ⊢
    split at hp
    · simp at hp
    · rw [if_neg (by simp; omega), List.take_append_of_le_length (by omega)]; exact hp
  · unfold parseCreate at hp ⊢
    obtain ⟨⟨x1, b1⟩, h1, hp⟩ := bind_eq_ok.mp hp
    simp only [stable_u8 _ _ _ t h1, Res.bind_ok]
    dsimp only at hp
    split at hp
    · simp at hp
    · rw [if_neg (by simp; omega), List.take_append_of_le_length (by omega)]; exact hp
  · unfold parseClose at hp ⊢
    obtain ⟨⟨x1, b1⟩, h1, hp⟩ := bind_eq_ok.mp hp
    simp only [stable_short _ _ _ t h1, Res.bind_ok]; exact hp
  · unfold parseMapping at hp ⊢
    obtain ⟨u, h0, hp⟩ := bind_eq_ok.mp hp
    obtain ⟨⟨x1, b1⟩, h1, hp⟩ := bind_eq_ok.mp hp
    obtain ⟨⟨x2, b2⟩, h2, hp⟩ := bind_eq_ok.mp hp
    simp only [mustHave_stable t h0, stable_u16 _ _ _ t h1, stable_mappings _ _ _ _ t h2, Res.bind_ok]
    exact hp
  · unfold parseToken at hp ⊢
    obtain ⟨⟨x1, b1⟩, h1, hp⟩ := bind_eq_ok.mp hp
    obtain ⟨⟨x2, b2⟩, h2, hp⟩ := bind_eq_ok.mp hp
    simp only [stable_short _ _ _ t h1, stable_short _ _ _ t h2, Res.bind_ok]; exact hp
  · simp at hp

/-- the header parser never fails on nine bytes -/
theorem parseHeaderByLen_eq (buf : Bytes) (len : Nat) (h : 9 ≤ buf.length) :
    ∃ s, parseHeaderByLen buf len =
      .ok (⟨len, Kind.new (buf.getD 0 0).toNat, Flag.new (buf.getD 1 0).toNat, s⟩, buf.drop 9) ∧
      ∀ t, parseHeaderByLen (buf ++ t) len =
      .ok (⟨len, Kind.new (buf.getD 0 0).toNat, Flag.new (buf.getD 1 0).toNat, s⟩, buf.drop 9 ++ t) := by
  match buf, h with
  | a :: b :: c :: d :: e :: f :: g :: i :: j :: r, _ =>
    refine ⟨calcSockMap (((f.toNat * 256 + g.toNat) * 256 + i.toNat) * 256 + j.toNat)
      ((c.toNat * 256 + d.toNat) * 256 + e.toNat), ?_, ?_⟩
    · unfold parseHeaderByLen
      rw [if_neg (by simp [frameHeaderBytes])]
      simp only [getU8, getU24, getU32, Res.bind_ok]
      rfl
    · intro t
      unfold parseHeaderByLen
      rw [if_neg (by simp [frameHeaderBytes])]
      simp only [List.cons_append, getU8, getU24, getU32, Res.bind_ok]
      rfl

/-! ### panics -/

theorem getU8_no_panic {b : Bytes} (h : 1 ≤ b.length) : getU8 b ≠ .panic := by
  cases b <;> simp [getU8] at *

theorem getU8_eq {b : Bytes} (h : 1 ≤ b.length) : ∃ x r, getU8 b = .ok (x, r) ∧ b.length = r.length + 1 := by
  cases b with
  | nil => simp at h
  | cons a t => exact ⟨_, _, rfl, by simp⟩

theorem getU16_eq {b : Bytes} (h : 2 ≤ b.length) : ∃ x r, getU16 b = .ok (x, r) := by
  match b, h with
  | a :: c :: t, _ => exact ⟨_, _, rfl⟩

theorem readShort_no_panic (b : Bytes) : readShortString b ≠ .panic := by
  unfold readShortString
  split
  · simp
  · obtain ⟨x, r, h, _⟩ := getU8_eq (b := b) (by omega)
    rw [h]; simp only [Res.bind_ok]
    split
    · simp
    · split <;> simp

theorem bind_no_panic {α β : Type} {x : Res α} {f : α → Res β} (hx : x ≠ .panic)
    (hf : ∀ a, x = .ok a → f a ≠ .panic) : (x >>= f) ≠ .panic := by
  cases x with
  | ok a => simpa using hf a rfl
  | err e => simp
  | panic => exact absurd rfl hx

theorem mustHave_no_panic (b : Bytes) (n : Nat) : mustHave b n ≠ .panic := by
  unfold mustHave; split <;> simp

theorem mustHave_len {b : Bytes} {n : Nat} {u : Unit} (h : mustHave b n = .ok u) : n ≤ b.length := by
  unfold mustHave at h; split at h
  · simp at h
  · omega

theorem parseRules_no_panic (n : Nat) : ∀ b, parseRules n b ≠ .panic := by
  induction n with
  | zero => intro b; simp [parseRules]
  | succ n ih =>
    intro b
    unfold parseRules
    refine bind_no_panic (mustHave_no_panic _ _) fun u hu => ?_
    have := mustHave_len hu
    obtain ⟨x, r, h, hl⟩ := getU8_eq (b := b) (by omega)
    rw [h]; simp only [Res.bind_ok]
    obtain ⟨x, r, h, hl⟩ := getU8_eq (b := r) (by omega)
    rw [h]; simp only [Res.bind_ok]
    refine bind_no_panic (readShort_no_panic _) fun _ _ => ?_
    refine bind_no_panic (readShort_no_panic _) fun _ _ => ?_
    refine bind_no_panic (ih _) fun _ _ => ?_
    simp

theorem parseMappings_no_panic (n : Nat) : ∀ b, parseMappings n b ≠ .panic := by
  induction n with
  | zero => intro b; simp [parseMappings]
  | succ n ih =>
    intro b
    unfold parseMappings
    refine bind_no_panic (readShort_no_panic _) fun _ _ => ?_
    refine bind_no_panic (readShort_no_panic _) fun _ _ => ?_
    refine bind_no_panic (readShort_no_panic _) fun _ _ => ?_
    refine bind_no_panic (mustHave_no_panic _ _) fun u hu => ?_
    have := mustHave_len hu
    obtain ⟨x, r, h⟩ := getU16_eq this
    rw [h]; simp only [Res.bind_ok]
    refine bind_no_panic (parseRules_no_panic _ _) fun _ _ => ?_
    refine bind_no_panic (ih _) fun _ _ => ?_
    simp

theorem parseFrame_panic_iff (h : Header) (b : Bytes) (hl : h.length ≤ b.length) :
    parseFrame h b = .panic ↔ h.kind = .unregistered ∨ (h.kind = .create ∧ b = []) := by
  unfold parseFrame
  cases hk : h.kind <;> simp only [reduceCtorEq, false_or, false_and, iff_false, true_and, true_or]
  · unfold parseData; rw [if_neg (by omega)]; simp
  · unfold parseCreate
    cases b with
    | nil => simp [getU8]
    | cons a t => simp only [getU8, Res.bind_ok]; split <;> simp
  · unfold parseClose
    exact bind_no_panic (readShort_no_panic _) fun _ _ => by simp
  · unfold parseMapping
    refine bind_no_panic (mustHave_no_panic _ _) fun u hu => ?_
    have := mustHave_len hu
    obtain ⟨x, r, h⟩ := getU16_eq this
    rw [h]; simp only [Res.bind_ok]
    exact bind_no_panic (parseMappings_no_panic _ _) fun _ _ => by simp
  · unfold parseToken
    refine bind_no_panic (readShort_no_panic _) fun _ _ => ?_
    exact bind_no_panic (readShort_no_panic _) fun _ _ => by simp

theorem kind_unregistered_iff (n : Nat) : Kind.new n = .unregistered ↔ 5 ≤ n := by
  match n with
  | 0 | 1 | 2 | 3 | 4 => simp [Kind.new]
  | n + 5 => simp [Kind.new]

theorem kind_create_iff (n : Nat) : Kind.new n = .create ↔ n = 1 := by
  unfold Kind.new; split <;> simp_all

end Wm.Prot
