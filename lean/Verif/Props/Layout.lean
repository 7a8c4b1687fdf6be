import Verif.Props.Codec
import Verif.Props.Socks
/-! Property C218: the bytes of the messages of the tunnel, written down without the encoder. -/
namespace Wm.Prot
open Wm

/-- a number as `n` bytes, the highest first; what does not fit is cut off -/
def be (n v : Nat) : Bytes := (List.range n).reverse.map fun k => UInt8.ofNat (v / 256 ^ k % 256)

/-- UTF-8 as Lean has it -/
def inUtf8 (s : Text) : Bytes := s.flatMap String.utf8EncodeChar

/-- a text behind its length in one byte -/
def str (s : Text) : Bytes := be 1 (inUtf8 s).length ++ inUtf8 s

/-- a header rule: 1 if it is for the side of the proxy, the number of the operation, key and value -/
def ruleLayout (h : ConfigHeader) : Bytes :=
  be 1 (if h.isProxy = true then 1 else 0) ++
    be 1 (match h.oper with | .add => 1 | .del => 2 | .default => 3 | .replace => 4) ++ str h.key ++ str h.val

/-- a mapping: name, mode and domain, then the number of its header rules in two bytes and the rules -/
def mappingLayout (m : MappingConfig) : Bytes :=
  str m.name ++ str m.mode ++ str m.domain ++ be 2 m.headers.length ++ m.headers.flatMap ruleLayout

/-- number of the kind, id and payload of a message -/
def parts : Frame → Nat × Nat × Bytes
  | .data id d => (0, id, d)
  | .create id d => (1, id, str (d.getD []))
  | .close id r => (2, id, str r)
  | .mapping id ms => (3, id, be 2 ms.length ++ ms.flatMap mappingLayout)
  | .token u p => (4, 0, str u ++ str p)

/-- twelve bytes in front of the payload: its length in three, the kind in one, one that is zero, the lower half of the id in three
    and its upper half in four -/
def layout (f : Frame) : Bytes :=
  be 3 (parts f).2.2.length ++ be 1 (parts f).1 ++ [0] ++ be 3 ((parts f).2.1 % 2 ^ 32) ++ be 4 ((parts f).2.1 / 2 ^ 32) ++
    (parts f).2.2

theorem ofNat_mod (n : Nat) : UInt8.ofNat (n % 256) = UInt8.ofNat n := by
  apply UInt8.toNat_inj.1
  simp

theorem be_1 (v : Nat) : be 1 v = putU8 v := by simp [be, putU8, byteAt, ofNat_mod, List.range_succ]
theorem be_2 (v : Nat) : be 2 v = putU16 v := by simp [be, putU16, byteAt, ofNat_mod, List.range_succ]
theorem be_3 (v : Nat) : be 3 v = putU24 v := by simp [be, putU24, byteAt, ofNat_mod, List.range_succ]
theorem be_4 (v : Nat) : be 4 v = putU32 v := by simp [be, putU32, byteAt, ofNat_mod, List.range_succ]

theorem char_utf8 (c : Char) : String.utf8EncodeChar c = utf8Char c := by
  have hlt : c.toNat < 0x110000 := by
    rcases c.valid with h | h
    · exact Nat.lt_trans h (by decide)
    · exact h.2
  have hc : c.val.toNat = c.toNat := rfl
  unfold String.utf8EncodeChar utf8Char
  simp only [hc]
  by_cases h1 : c.toNat < 0x80
  · rw [if_pos (by omega), if_pos h1]
  · rw [if_neg (by omega), if_neg h1]
    by_cases h2 : c.toNat < 0x800
    · rw [if_pos (by omega), if_pos h2, Nat.add_comm, Nat.add_comm (_ % _), Nat.mod_eq_of_lt (by omega)]
    · rw [if_neg (by omega), if_neg h2]
      by_cases h3 : c.toNat < 0x10000
      · rw [if_pos (by omega), if_pos h3, Nat.mod_eq_of_lt (by omega : c.toNat / 4096 < 16)]
        simp only [Nat.add_comm]
      · rw [if_neg (by omega), if_neg h3, Nat.mod_eq_of_lt (by omega : c.toNat / 262144 < 8)]
        simp only [Nat.add_comm]

theorem text_utf8 (s : Text) : inUtf8 s = utf8 s := by
  unfold inUtf8 utf8
  rw [show String.utf8EncodeChar = utf8Char from funext char_utf8]

theorem str_short (s : Text) : str s = shortStr s := by rw [str, shortStr, be_1, text_utf8]

theorem rule_layout (h : ConfigHeader) : ruleLayout h = ruleBytes h := by
  obtain ⟨o, p, k, v⟩ := h
  unfold ruleLayout ruleBytes
  rw [str_short, str_short, be_1, be_1]
  cases o <;> rfl

theorem mapping_layout (m : MappingConfig) (h : m.headers.length < 2 ^ 16) : mappingLayout m = mappingBytes m := by
  unfold mappingLayout mappingBytes
  rw [str_short, str_short, str_short, be_2, Nat.mod_eq_of_lt h, show ruleLayout = ruleBytes from funext rule_layout]

theorem flatMap_eq {α β : Type} {f g : α → List β} : ∀ {l : List α}, (∀ a ∈ l, f a = g a) → l.flatMap f = l.flatMap g
  | [], _ => rfl
  | a :: l, h => by
    rw [List.flatMap_cons, List.flatMap_cons, h a (by simp), flatMap_eq fun b hb => h b (by simp [hb])]

theorem parts_body (f : Frame) (hf : BodyFits f) : (parts f).2.2 = bodyOf f := by
  cases f with
  | create s d =>
    cases d with
    | none => simp [parts, bodyOf, str_short, shortStr, utf8, putU8]
    | some t => simp [parts, bodyOf, str_short]
  | close s r => simp [parts, bodyOf, str_short]
  | data s d => rfl
  | token u p => simp [parts, bodyOf, str_short]
  | mapping s ms =>
    simp only [parts, bodyOf, be_2]
    rw [Nat.mod_eq_of_lt hf.1, flatMap_eq fun m hm => mapping_layout m (hf.2.2 m hm).2.2.2.1]

theorem layout_wire (f : Frame) (hf : BodyFits f) : layout f = wire f := by
  rw [wire_fits f hf]
  unfold layout
  rw [parts_body f hf, body_length, be_1, be_3, be_3, be_4]
  unfold Header.encode
  rw [headOf_flag, show putU8 0 = [0] from rfl]
  congr 1
  cases f <;> rfl

/-- **C218** A message whose payload fits its limits appears on the wire as the stated bytes, behind whatever was waiting to be
    sent, whatever its id. -/
theorem C218_sent (f : Frame) (hf : BodyFits f) (pre : Bytes) :
    f.encode pre = ⟨pre ++ layout f, .ok (layout f).length⟩ := by
  have := encode_fits f hf pre
  unfold Appends at this
  rw [layout_wire f hf, wire_fits f hf]
  exact this

/-- **C218** The stated bytes, followed by anything, are read as this message if its id fits too. -/
theorem C218_read (f : Frame) (hf : Fits f) (rest : Bytes) :
    decodeFrame (layout f ++ rest) = (.ok (some (asReceived f)), rest) := by
  rw [layout_wire f hf.1]
  exact (C01_frame_roundtrip f hf [] rest).2

example : layout (.create (7 * 2 ^ 32 + 258) (some "b.å".toList)) =
    [0, 0, 5, 1, 0, 0, 1, 2, 0, 0, 0, 7, 4, 98, 46, 0xC3, 0xA5] := by decide +kernel
example : layout (.close 3 "".toList) = [0, 0, 1, 2, 0, 0, 0, 3, 0, 0, 0, 0, 0] := by decide +kernel
example : layout (.token "u".toList "pw".toList) = [0, 0, 5, 4, 0, 0, 0, 0, 0, 0, 0, 0, 1, 117, 2, 112, 119] := by decide +kernel
example : layout (.mapping 0 [⟨"w".toList, "tcp".toList, none, "".toList, [⟨.del, true, "k".toList, "".toList⟩]⟩]) =
    [0, 0, 16, 3, 0, 0, 0, 0, 0, 0, 0, 0, 0, 1, 1, 119, 3, 116, 99, 112, 0, 0, 1, 1, 2, 1, 107, 0] := by decide +kernel
example : Fits (.token "u".toList "pw".toList) := by
  refine ⟨⟨?_, ?_⟩, ?_⟩ <;> simp [IdFits, Frame.sockMap, Short] <;> decide

end Wm.Prot

namespace Wm.Socks
open Wm.Prot (be be_1 be_2 be_4 ofNat_mod)

/-- an address in SOCKS form: 1 and four bytes or 4 and sixteen bytes, then the port in two, the highest byte first each time -/
def addrLayout (a : SockAddr) : Bytes :=
  (match a.ip with
    | .v4 ip => [1] ++ be 4 ip.toNat
    | .v6 ip => [4] ++ be 16 ip.toNat) ++ be 2 a.port.toNat

theorem seg_bytes (a : BitVec 128) (k : Nat) :
    putU16 (seg a k) = [UInt8.ofNat (a.toNat / 256 ^ (2 * k + 1)), UInt8.ofNat (a.toNat / 256 ^ (2 * k))] := by
  have e : (65536 : Nat) ^ k = 256 ^ (2 * k) := by rw [Nat.pow_mul]
  have h1 : UInt8.ofNat (seg a k / 256) = UInt8.ofNat (a.toNat / 256 ^ (2 * k + 1)) := by
    rw [seg, e, Nat.pow_succ, ← Nat.div_div_eq_div_mul, ← ofNat_mod, ← ofNat_mod (_ / 256 ^ _ / 256)]
    congr 1
    omega
  have h0 : UInt8.ofNat (seg a k) = UInt8.ofNat (a.toNat / 256 ^ (2 * k)) := by
    rw [seg, e, ← ofNat_mod, ← ofNat_mod (_ / 256 ^ _)]
    congr 1
    omega
  rw [putU16, byteAt, byteAt, Nat.pow_one, Nat.pow_zero, Nat.div_one, h1, h0]

/-- **C51** The form of an address is the one of RFC 1928. -/
theorem C51_layout (a : SockAddr) : encodeAddr a = addrLayout a := by
  obtain ⟨ip, port⟩ := a
  cases ip with
  | v4 ip => simp only [encodeAddr, addrLayout, be_4, be_2]; rfl
  | v6 ip =>
    simp only [encodeAddr, addrLayout, be_2]
    congr 1
    simp only [seg_bytes, be, ofNat_mod]
    rfl

/-- **C78** The datagram handed to the client has two bytes and a fragment number that are zero, the address of the sender and the
    data. -/
theorem C78_layout (a : SockAddr) (data : Bytes) : udpReply a data = [0, 0, 0] ++ addrLayout a ++ data := by
  rw [udpReply, C51_layout]

example : addrLayout ⟨.v4 0x0A000001, 80⟩ = [1, 10, 0, 0, 1, 0, 80] := by decide +kernel
example : addrLayout ⟨.v6 1, 443⟩ = [4, 0, 0, 0, 0, 0, 0, 0, 0, 0, 0, 0, 0, 0, 0, 0, 1, 1, 187] := by decide +kernel

end Wm.Socks
