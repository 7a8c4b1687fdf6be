import Verif.Proofs.Codec
/-!
Properties C01, C03, C04, C07, C08, C09: the tunnel message codec. Vocabulary in `Verif/Spec/Codec.lean`.
-/
namespace Wm.Prot
open Wm

/-- **C01** Encoding a message that fits the wire limits succeeds, appends some bytes to the outgoing buffer, and
    decoding these bytes, followed by anything, yields the message and leaves exactly what followed. -/
theorem C01_frame_roundtrip (f : Frame) (hf : Fits f) (pre rest : Bytes) :
    f.encode pre = ⟨pre ++ wire f, .ok (wire f).length⟩ ∧
      decodeFrame (wire f ++ rest) = (.ok (some (asReceived f)), rest) := by
  have h := frame_roundtrip_any_id f hf.1 hf.2.1 pre rest
  rw [wireId_fits hf.2, withId_self] at h
  exact h

example : Fits (.mapping 6 [⟨"web".toList, "http".toList, none, "a.com".toList,
    [⟨.add, true, "k".toList, "värde".toList⟩]⟩]) := by
  refine ⟨⟨?_, ?_, ?_⟩, ?_⟩ <;> simp [IdFits, Frame.sockMap, Short] <;> decide
example : Fits (.create ((7 : Nat) * 2 ^ 32 + 16777214) (some "b.org".toList)) := by
  refine ⟨?_, by unfold IdFits; decide⟩
  intro s hs; simp at hs; subst hs; unfold Short; decide
example : Fits (.data 3 [1, 2, 255]) := ⟨by simp [BodyFits], by unfold IdFits; decide⟩

/-- **C04** (first half) The id the receiver reconstructs equals the sender's exactly when bits 24..31 are zero. -/
theorem C04_id_preserved_iff (len : Nat) (k : Kind) (hk : k ≠ .unregistered) (id : Nat) (hid : id < 2 ^ 64)
    (rest : Bytes) :
    ∃ id', parseHeader ((⟨len, k, 0, id⟩ : Header).encode ++ rest) = .ok (⟨len % 2 ^ 24, k, 0, id'⟩, rest) ∧
      (id' = id ↔ id / 2 ^ 24 % 2 ^ 8 = 0) := by
  refine ⟨calcSockMap (id / 2 ^ 32 % 2 ^ 32) (id % 2 ^ 24), ?_, ?_⟩
  · unfold parseHeader
    rw [if_neg (by simp [header_length, frameHeaderBytes]), getU24_header]
    simp only [Res.bind_ok]
    rw [parseHeader_encode ⟨len, k, 0, id⟩ _ rest hk rfl]
  · unfold calcSockMap; omega

/-- **C04** (second half) Two messages whose ids differ are given the same id by the receiver exactly when the ids
    have the same server id and the same low 24 bits. Stated for data messages; `frame_roundtrip_any_id` covers the
    other kinds. -/
theorem C04_ids_confused_iff (s t : Nat) (hs : s < 2 ^ 64) (ht : t < 2 ^ 64) (d : Bytes) (hd : d.length < 2 ^ 24) :
    decodeFrame (wire (.data s d)) = decodeFrame (wire (.data t d)) ↔
      s / 2 ^ 32 = t / 2 ^ 32 ∧ s % 2 ^ 24 = t % 2 ^ 24 := by
  have h1 := (frame_roundtrip_any_id (.data s d) hd hs [] []).2
  have h2 := (frame_roundtrip_any_id (.data t d) hd ht [] []).2
  simp only [List.append_nil] at h1 h2
  rw [h1, h2]
  simp only [asReceived, withId, Frame.sockMap, Prod.mk.injEq, Res.ok.injEq, Option.some.injEq, Frame.data.injEq,
    and_true]
  unfold wireId; omega

/-- Two different ids that collide on the wire exist: witness for the limits of C04. -/
example : decodeFrame (wire (.data 2 [9])) = decodeFrame (wire (.data (2 + 2 ^ 24) [9])) :=
  (C04_ids_confused_iff _ _ (by decide) (by decide) _ (by decide)).mpr (by decide)

/-- **C03** On every buffer: if the announced message is not complete, decoding asks for more and leaves the buffer
    unchanged; otherwise it never asks for more and removes exactly the 12 header bytes and the announced payload
    from the front, whatever the outcome. -/
theorem C03_consumes_whole_frames (read : Bytes) :
    (¬ Complete read → decodeFrame read = (.ok none, read)) ∧
    (Complete read → (decodeFrame read).1 ≠ .ok none ∧ (decodeFrame read).2 = read.drop (12 + announced read)) := by
  refine ⟨decodeFrame_incomplete read, fun h => ?_⟩
  rw [decodeFrame_complete read h]
  refine ⟨?_, by simp [Nat.add_comm]⟩
  simp only
  cases hp : parseHeaderByLen (read.drop 3) (announced read) with
  | ok x =>
    simp only [Res.bind_ok]
    cases parseFrame x.1 x.2 <;> simp
  | err e => simp
  | panic => simp

example : Complete [0, 0, 1, 0, 0, 0, 0, 9, 0, 0, 0, 0, 77, 5] := by unfold Complete; decide
example : ¬ Complete [0, 0, 1, 0, 0, 0, 0, 9, 0, 0, 0, 0] := by unfold Complete; decide


/-! ### C07 -/

/-- Encoding fails exactly when a string does not fit its length prefix (open requests and data never fail). -/
theorem C07_encode_fails_iff (f : Frame) (buf : Bytes) : ¬ Succeeded (f.encode buf) ↔ HasLongString f := by
  rw [← good_iff, good_encode, Classical.not_not]

/-- the encoder ends with a count or an error -/
def NoPanic (e : Enc) : Prop := e.result ≠ .panic

theorem NoPanic.andThen {a : Enc} {f : Bytes → Enc} (ha : NoPanic a) (hf : ∀ b, NoPanic (f b)) : NoPanic (a.andThen f) := by
  unfold Enc.andThen
  split
  · have := hf a.buf
    unfold NoPanic at *
    dsimp only
    split
    · intro hc; cases hc
    · intro hc; cases hc
    · rename_i h; exact absurd h this
  · intro hc; cases hc
  · rename_i h; exact absurd h ha

theorem noPanic_put (bs b : Bytes) : NoPanic (put bs b) := by intro h; cases h

theorem noPanic_short (t : Text) (b : Bytes) : NoPanic (writeShortString b t) := by
  unfold writeShortString
  dsimp only
  split <;> (intro h; cases h)

theorem noPanic_rules (hs : List ConfigHeader) : ∀ b, NoPanic (encodeRules hs b) := by
  induction hs with
  | nil => exact noPanic_put []
  | cons h t ih =>
    intro b
    exact (((((noPanic_put _ b).andThen (noPanic_put _)).andThen (noPanic_short _)).andThen (noPanic_short _))).andThen ih

theorem noPanic_mappings (ms : List MappingConfig) : ∀ b, NoPanic (encodeMappings ms b) := by
  induction ms with
  | nil => exact noPanic_put []
  | cons m t ih =>
    intro b
    exact (((((noPanic_short _ b).andThen (noPanic_short _)).andThen (noPanic_short _)).andThen (noPanic_put _)).andThen
      (noPanic_rules _)).andThen ih

/-- **C07** (no panic) A message that cannot be encoded is an error for its sender; it never ends the task that writes. -/
theorem C07_no_panic (f : Frame) (buf : Bytes) :
    (∃ n, (f.encode buf).result = .ok n) ∨ ∃ e, (f.encode buf).result = .err e := by
  have h : NoPanic (f.encode buf) := by
    cases f with
    | data s d => exact (noPanic_put _ _).andThen (noPanic_put _)
    | create s d =>
      refine ((noPanic_put _ _).andThen (noPanic_put _)).andThen ?_
      cases d <;> exact noPanic_put _
    | close s r => exact (noPanic_put _ _).andThen (noPanic_short _)
    | token u p => exact ((noPanic_put _ _).andThen (noPanic_short _)).andThen (noPanic_short _)
    | mapping s ms =>
      have hc : NoPanic ((put (putU16 (ms.length % 2 ^ 16)) []).andThen (encodeMappings ms)) :=
        (noPanic_put _ _).andThen (noPanic_mappings ms)
      simp only [Frame.encode, encodeMapping]
      split
      · exact (noPanic_put _ _).andThen (noPanic_put _)
      · intro hx; cases hx
      · rename_i hx; exact absurd hx hc
  unfold NoPanic at h
  cases hr : (f.encode buf).result with
  | ok n => exact .inl ⟨n, rfl⟩
  | err e => exact .inr ⟨e, rfl⟩
  | panic => exact absurd hr h

/-- **C07, partial.** A port-mapping announcement that cannot be encoded leaves the outgoing buffer unchanged.
    Missing: close and token messages, for which the claim is false (`C07_close_fails`, `C07_token_fails`). -/
theorem C07_failed_encode_atomic_partial (s : Nat) (ms : List MappingConfig) (buf : Bytes)
    (h : ¬ Succeeded ((Frame.mapping s ms).encode buf)) :
    ((Frame.mapping s ms).encode buf).buf = buf := by
  rw [← good_iff] at h
  simp only [Frame.encode, good_encodeMapping] at h
  have h2 : ((put (putU16 (ms.length % 2 ^ 16)) []).andThen (encodeMappings ms)).good = ms.all mapGood := by
    simp [good_andThen, good_put, good_mappings]
  rw [← h2] at h
  simp only [Frame.encode, encodeMapping]
  cases hr : ((put (putU16 (ms.length % 2 ^ 16)) []).andThen (encodeMappings ms)).result with
  | ok n => simp [Enc.good, hr] at h
  | err e => rfl
  | panic => rfl

example : ¬ Succeeded ((Frame.mapping 0 [⟨List.replicate 256 'a', [], none, [], []⟩]).encode [7]) := by
  rw [C07_encode_fails_iff]
  refine ⟨_, List.mem_singleton.mpr rfl, .inl ?_⟩
  unfold Short; decide +kernel

/-- C07 is false for close messages: every over-long reason leaves 12 stray header bytes in the outgoing stream. -/
theorem C07_close_fails (s : Nat) (r : Text) (h : ¬ Short r) (buf : Bytes) :
    ¬ Succeeded ((Frame.close s r).encode buf) ∧
      ∃ stray, stray.length = 12 ∧ ((Frame.close s r).encode buf).buf = buf ++ stray := by
  refine ⟨(C07_encode_fails_iff _ _).mpr h,
    (⟨((utf8 r).length % 2 ^ 32 + 1) % 2 ^ 32, .close, 0, s⟩ : Header).encode, header_length _, ?_⟩
  simp only [Frame.encode, encodeClose, Enc.andThen, put]
  rw [writeShortString_long _ _ (by unfold Short at h; omega)]

/-- C07 is false for login tokens: an over-long password leaves the header and the user name in the stream. -/
theorem C07_token_fails (u p : Text) (hu : Short u) (hp : ¬ Short p) (buf : Bytes) :
    ¬ Succeeded ((Frame.token u p).encode buf) ∧
      ∃ stray, stray.length = 13 + (utf8 u).length ∧ ((Frame.token u p).encode buf).buf = buf ++ stray := by
  refine ⟨(C07_encode_fails_iff _ _).mpr (.inr hp),
    (⟨((utf8 u).length % 2 ^ 32 + 1 + (utf8 p).length % 2 ^ 32 + 1) % 2 ^ 32, .token, 0, 0⟩ : Header).encode
      ++ shortStr u, by simp [header_length, short_length]; omega, ?_⟩
  simp only [Frame.encode, encodeToken]
  have h1 := (Appends.put (⟨((utf8 u).length % 2 ^ 32 + 1 + (utf8 p).length % 2 ^ 32 + 1) % 2 ^ 32, .token, 0, 0⟩ :
    Header).encode buf).andThen (f := fun b => writeShortString b u) (writeShortString_fits _ _ hu)
  unfold Appends at h1
  rw [h1]
  simp only [Enc.andThen]
  rw [writeShortString_long _ _ (by unfold Short at hp; omega)]

example : Short "admin".toList ∧ ¬ Short (List.replicate 128 'é') := by unfold Short; decide +kernel

/-! ### C08 -/

/-- **C08, partial.** If the bytes of one complete message decode on their own, then they decode to the same message
    whatever follows, and exactly what follows is left. Missing: malformed messages (`C08_leak_fails`). -/
theorem C08_content_is_local_partial (own rest : Bytes) (f : Frame)
    (h : decodeFrame own = (.ok (some f), [])) : decodeFrame (own ++ rest) = (.ok (some f), rest) := by
  by_cases hc : Complete own
  · have hlen : own.length = 12 + announced own := by
      have := (C03_consumes_whole_frames own).2 hc
      rw [h] at this
      have h2 : own.length ≤ 12 + announced own := List.drop_eq_nil_iff.mp this.2.symm
      unfold Complete at hc; omega
    have ha : announced (own ++ rest) = announced own := by
      match own, hlen with
      | a :: b :: c :: r, _ => rfl
      | [], h => simp [announced] at h
      | [_], h => simp [announced] at h
      | [_, _], h => simp [announced] at h
    have hc2 : Complete (own ++ rest) := by
      unfold Complete at *; rw [ha]; simp; omega
    rw [decodeFrame_complete _ hc2, ha]
    rw [decodeFrame_complete _ hc] at h
    rw [List.drop_append_of_le_length (by omega), List.drop_append_of_le_length (by omega)]
    obtain ⟨s, e1, e2⟩ := parseHeaderByLen_eq (own.drop 3) (announced own) (by simp; omega)
    rw [e2 rest]
    rw [e1] at h
    simp only [Res.bind_ok, Prod.mk.injEq] at h ⊢
    obtain ⟨g, hg, h2⟩ := bind_eq_ok.mp h.1
    refine ⟨?_, by rw [h.2]; simp⟩
    rw [parseFrame_stable _ _ rest _ hg]
    exact h2
  · rw [decodeFrame_incomplete own hc] at h; simp at h

example : decodeFrame [0, 0, 2, 2, 0, 0, 0, 9, 0, 0, 0, 0, 1, 104] = (.ok (some (.close 9 ['h'])), []) := by decide

/-- **C08, data messages.** For data messages no well-formedness is needed. -/
theorem C08_data_is_local (own rest : Bytes) (hlen : own.length = 12 + announced own) (hk : kindByte own = 0) :
    ∃ s, decodeFrame (own ++ rest) = (.ok (some (.data s (own.drop 12))), rest) := by
  have hc : Complete own := by unfold Complete; omega
  obtain ⟨s, e1, _⟩ := parseHeaderByLen_eq (own.drop 3) (announced own) (by simp; omega)
  have hk0 : ((own.drop 3).getD 0 0).toNat = 0 := by
    simpa [kindByte, List.getD_eq_getElem?_getD, List.getElem?_drop] using hk
  refine ⟨s, C08_content_is_local_partial own rest _ ?_⟩
  rw [decodeFrame_complete _ hc, e1]
  simp only [Res.bind_ok, hk0, parseFrame, Kind.new, parseData]
  rw [if_neg (by simp; omega)]
  simp only [Res.bind_ok, List.drop_drop]
  rw [List.take_of_length_le (by simp; omega), List.drop_eq_nil_of_le (i := announced own + 12) (by omega)]

example : let own : Bytes := [0, 0, 1, 0, 0, 0, 0, 9, 0, 0, 0, 0, 104]
    own.length = 12 + announced own ∧ kindByte own = 0 := by decide

/-- **C08** fails for malformed messages: whatever the stream, a close message that announces an empty body takes its reason
    from the bytes that follow, which stay in the buffer: with every text behind it, this is the reason it is read with. -/
theorem C08_leak_fails (own : Bytes) (hlen : own.length = 12) (ha : announced own = 0) (hk : kindByte own = 2) :
    own.length = 12 + announced own ∧ ∃ s, ∀ (r : Text) (more : Bytes), (utf8 r).length < 256 →
      decodeFrame (own ++ (UInt8.ofNat (utf8 r).length :: utf8 r ++ more)) =
        (.ok (some (.close s r)), UInt8.ofNat (utf8 r).length :: utf8 r ++ more) := by
  refine ⟨by omega, ?_⟩
  obtain ⟨s, -, e⟩ := parseHeaderByLen_eq (own.drop 3) 0 (by simp; omega)
  have hk0 : ((own.drop 3).getD 0 0).toNat = 2 := by
    simpa [kindByte, List.getD_eq_getElem?_getD, List.getElem?_drop] using hk
  refine ⟨s, fun r more hr => ?_⟩
  have hp : UInt8.ofNat (utf8 r).length :: utf8 r ++ more = shortStr r ++ more := by
    simp [shortStr, putU8, byteAt, Nat.mod_eq_of_lt hr]
  rw [hp]
  generalize hb : shortStr r ++ more = b
  have ha2 : announced (own ++ b) = 0 := by
    rw [← ha]
    match own, hlen with
    | x :: y :: z :: t, _ => rfl
  rw [decodeFrame_complete _ (by unfold Complete; rw [ha2]; simp; omega), ha2, List.drop_append_of_le_length (by omega), e b]
  simp only [Res.bind_ok, hk0, parseFrame, Kind.new, parseClose]
  rw [List.drop_drop, List.drop_eq_nil_of_le (by omega), List.nil_append, ← hb, readShortString_fits _ _ (by omega), hb]
  simp only [Res.bind_ok, Prod.mk.injEq, true_and]
  rw [Nat.zero_add, List.drop_append_of_le_length (by omega), List.drop_eq_nil_of_le (by omega), List.nil_append]

example : let own : Bytes := [0, 0, 0, 2, 0, 0, 0, 9, 0, 0, 0, 0]
    announced own = 0 ∧ kindByte own = 2 ∧ (decodeFrame (own ++ [1, 104])).1 = .ok (some (.close 9 ['h'])) ∧
      (decodeFrame (own ++ [1, 105])).1 = .ok (some (.close 9 ['i'])) := by decide

/-! ### C09 -/

/-- **C09, partial.** Exactly which buffers crash the decoder: a complete message of unknown kind, or an open request
    with empty body at the very end of the buffer. Missing: those two cases do panic, so the claim itself is false
    (`C09_no_panic_fails`). -/
theorem C09_panic_iff_partial (read : Bytes) :
    (decodeFrame read).1 = .panic ↔
      Complete read ∧ (5 ≤ kindByte read ∨ (kindByte read = 1 ∧ read.length = 12)) := by
  by_cases hc : Complete read
  · rw [decodeFrame_complete _ hc]
    have hl : 12 + announced read ≤ read.length := hc
    obtain ⟨s, e1, _⟩ := parseHeaderByLen_eq (read.drop 3) (announced read) (by simp; omega)
    have hk0 : ((read.drop 3).getD 0 0) = read.getD 3 0 := by
      simp [List.getD_eq_getElem?_getD, List.getElem?_drop]
    rw [e1]
    simp only [Res.bind_ok, hc, true_and]
    have hiff := parseFrame_panic_iff ⟨announced read, Kind.new ((read.drop 3).getD 0 0).toNat,
      Flag.new ((read.drop 3).getD 1 0).toNat, s⟩ ((read.drop 3).drop 9) (by simp; omega)
    have e : ∀ x : Res Frame, (x >>= fun f => Res.ok (some f)) = .panic ↔ x = .panic := by
      intro x; cases x <;> simp
    rw [e, hiff]
    simp only [kind_unregistered_iff, kind_create_iff, hk0, kindByte]
    have : (List.drop 9 (List.drop 3 read)) = [] ↔ read.length = 12 := by
      rw [List.drop_drop, List.drop_eq_nil_iff]; omega
    rw [this]
  · rw [decodeFrame_incomplete _ hc]; simp [hc]

/-- **C09** fails: every complete message of a kind this version does not know crashes the decoding task, whatever else was
    read; and so does every open request without a body while nothing else has been read. -/
theorem C09_no_panic_fails (read rest : Bytes) (hc : Complete read) :
    (5 ≤ kindByte read → (decodeFrame (read ++ rest)).1 = .panic) ∧
    (kindByte read = 1 → read.length = 12 → (decodeFrame read).1 = .panic) := by
  refine ⟨fun h => ?_, fun h1 h2 => (C09_panic_iff_partial read).2 ⟨hc, .inr ⟨h1, h2⟩⟩⟩
  refine (C09_panic_iff_partial _).2 ⟨?_, .inl ?_⟩
  · unfold Complete at *
    match read, hc with
    | x :: y :: z :: t, hc =>
      have : announced (x :: y :: z :: t ++ rest) = announced (x :: y :: z :: t) := rfl
      rw [this]; simp only [List.length_append]; omega
    | [], hc => simp [announced] at hc
    | [_], hc => simp [announced] at hc
    | [_, _], hc => simp [announced] at hc
  · unfold Complete at hc
    unfold kindByte at *
    rw [List.getD_eq_getElem?_getD, List.getElem?_append_left (by omega), ← List.getD_eq_getElem?_getD]; exact h

example : Complete [0, 0, 0, 5, 0, 0, 0, 9, 0, 0, 0, 0] ∧ kindByte [0, 0, 0, 5, 0, 0, 0, 9, 0, 0, 0, 0] = 5 ∧
    (decodeFrame [0, 0, 0, 5, 0, 0, 0, 9, 0, 0, 0, 0]).1 = .panic ∧
    (decodeFrame [0, 0, 0, 1, 0, 0, 0, 9, 0, 0, 0, 0]).1 = .panic := by unfold Complete; decide

end Wm.Prot
