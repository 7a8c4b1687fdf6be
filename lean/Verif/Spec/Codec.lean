import Verif.Model.Prot
/-!
Specification vocabulary for the tunnel codec (C01-C04, C07-C09): what fits on the wire (`Fits`), what the receiver is
supposed to see (`asReceived`), the id as seen by the receiver (`wireId`), the length announced by the first three
bytes (`announced`).
-/
namespace Wm.Prot
open Wm

/-- a text that fits a one-byte length prefix -/
def Short (s : Text) : Prop := (utf8 s).length ≤ 255

/-- serialized size of a header rule: side, operation, two length-prefixed strings -/
def ruleSize (h : ConfigHeader) : Nat := 2 + (1 + (utf8 h.key).length) + (1 + (utf8 h.val).length)

/-- serialized size of a mapping -/
def mappingSize (m : MappingConfig) : Nat :=
  (1 + (utf8 m.name).length) + (1 + (utf8 m.mode).length) + (1 + (utf8 m.domain).length) + 2
    + (m.headers.map ruleSize).sum

/-- The message respects the wire limits, apart from the id: strings of at most 255 bytes, counts below 2^16,
    payloads below 2^24 bytes. -/
def BodyFits : Frame → Prop
  | .create _ d => ∀ s, d = some s → Short s
  | .close _ r => Short r
  | .data _ d => d.length < 2 ^ 24
  | .token u p => Short u ∧ Short p
  | .mapping _ ms => ms.length < 2 ^ 16 ∧ 2 + (ms.map mappingSize).sum < 2 ^ 24 ∧
      ∀ m ∈ ms, Short m.name ∧ Short m.mode ∧ Short m.domain ∧ m.headers.length < 2 ^ 16 ∧
        ∀ h ∈ m.headers, Short h.key ∧ Short h.val

/-- The id fits: a 64-bit id whose low 32-bit half is below 2^24. -/
def IdFits (id : Nat) : Prop := id < 2 ^ 64 ∧ id % 2 ^ 32 < 2 ^ 24

def Fits (f : Frame) : Prop := BodyFits f ∧ IdFits f.sockMap

/-- What the receiver is supposed to see: the same message; an empty domain is the same as none, and the local
    address of a mapping is private to the sender. -/
def asReceived : Frame → Frame
  | .create s (some []) => .create s none
  | .mapping s ms => .mapping s (ms.map fun m => { m with localAddr := none })
  | f => f

/-- replace the id of a message (tokens carry none) -/
def withId : Frame → Nat → Frame
  | .create _ d, i => .create i d
  | .close _ r, i => .close i r
  | .data _ d, i => .data i d
  | .token u p, _ => .token u p
  | .mapping _ ms, i => .mapping i ms

/-- the id seen by the receiver: bits 24..31 are lost -/
def wireId (id : Nat) : Nat := id / 2 ^ 32 * 2 ^ 32 + id % 2 ^ 24

/-- the bytes of a message on the wire -/
def wire (f : Frame) : Bytes := (f.encode []).buf

/-- payload length announced by the first three bytes -/
def announced : Bytes → Nat
  | a :: b :: c :: _ => a.toNat * 65536 + b.toNat * 256 + c.toNat
  | _ => 0

/-- the buffer starts with a complete message -/
def Complete (read : Bytes) : Prop := 12 + announced read ≤ read.length

/-- a string of the message is too long for its length prefix -/
def HasLongString : Frame → Prop
  | .create _ _ => False
  | .close _ r => ¬ Short r
  | .data _ _ => False
  | .token u p => ¬ Short u ∨ ¬ Short p
  | .mapping _ ms => ∃ m ∈ ms, ¬ Short m.name ∨ ¬ Short m.mode ∨ ¬ Short m.domain ∨
      ∃ h ∈ m.headers, ¬ Short h.key ∨ ¬ Short h.val

/-- the encoder reported success -/
def Succeeded (e : Enc) : Prop := ∃ n, e.result = .ok n

/-- the kind byte of a buffered message -/
def kindByte (read : Bytes) : Nat := (read.getD 3 0).toNat

end Wm.Prot
