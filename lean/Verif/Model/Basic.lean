/-
Shared vocabulary of the model: outcomes, byte buffers, big-endian integers, texts and UTF-8.
-/
namespace Wm

/-- A byte buffer (`BinaryMut`, `&[u8]`, `Vec<u8>`), front first. -/
abbrev Bytes := List UInt8

/-- A Rust `String`/`&str` as its sequence of characters. -/
abbrev Text := List Char

/-- The error values of `ProxyResult` that the modelled code distinguishes
    (src/error.rs: `ProxyError`). Payloads (io errors, messages) are dropped. -/
inductive Err where
  | tooShort | sizeNotMatch | protErr | protNoSupport | verifyFail | ioError | extension | invalid
deriving DecidableEq, Repr

/-- The outcome of a Rust call: a value, an `Err`, or a panic (`todo!()`, failed assertion, index out of range,
    `unwrap` on `None`). -/
inductive Res (α : Type) where
  | ok (a : α)
  | err (e : Err)
  | panic
deriving DecidableEq, Repr

namespace Res
def bind {α β : Type} : Res α → (α → Res β) → Res β
  | .ok a, f => f a
  | .err e, _ => .err e
  | .panic, _ => .panic

instance : Monad Res where
  pure := .ok
  bind := bind

@[simp] theorem bind_ok {α β : Type} (a : α) (f : α → Res β) : (Res.ok a >>= f) = f a := rfl
@[simp] theorem bind_err {α β : Type} (e : Err) (f : α → Res β) : (Res.err e >>= f) = Res.err e := rfl
@[simp] theorem bind_panic {α β : Type} (f : α → Res β) : ((Res.panic : Res α) >>= f) = Res.panic := rfl
@[simp] theorem pure_eq {α : Type} (a : α) : (pure a : Res α) = Res.ok a := rfl
end Res

/-! ### Big-endian integers (external: `webparse::{Buf, BufMut}`, `read_u24`, `encode_u24`)

Assumed behaviour: `put_*` append the big-endian bytes of the value truncated to the width, `get_*` take the same
number of bytes from the front and panic when fewer remain. -/

/-- byte `k` (counted from the least significant) of `n` -/
def byteAt (n k : Nat) : UInt8 := UInt8.ofNat (n / 256 ^ k)

def putU8 (n : Nat) : Bytes := [byteAt n 0]
def putU16 (n : Nat) : Bytes := [byteAt n 1, byteAt n 0]
def putU24 (n : Nat) : Bytes := [byteAt n 2, byteAt n 1, byteAt n 0]
def putU32 (n : Nat) : Bytes := [byteAt n 3, byteAt n 2, byteAt n 1, byteAt n 0]

def getU8 : Bytes → Res (Nat × Bytes)
  | a :: r => .ok (a.toNat, r)
  | _ => .panic
def getU16 : Bytes → Res (Nat × Bytes)
  | a :: b :: r => .ok (a.toNat * 256 + b.toNat, r)
  | _ => .panic
def getU24 : Bytes → Res (Nat × Bytes)
  | a :: b :: c :: r => .ok ((a.toNat * 256 + b.toNat) * 256 + c.toNat, r)
  | _ => .panic
def getU32 : Bytes → Res (Nat × Bytes)
  | a :: b :: c :: d :: r => .ok (((a.toNat * 256 + b.toNat) * 256 + c.toNat) * 256 + d.toNat, r)
  | _ => .panic

/-! ### UTF-8

`utf8` is `str::as_bytes`; `lossy` is `String::from_utf8_lossy` (Rust standard library,
`core::str::lossy::Utf8Chunks`): every maximal invalid part becomes one U+FFFD. -/

/-- UTF-8 bytes of one character. -/
def utf8Char (c : Char) : Bytes :=
  let n := c.toNat
  if n < 0x80 then [UInt8.ofNat n]
  else if n < 0x800 then [UInt8.ofNat (0xC0 + n / 64), UInt8.ofNat (0x80 + n % 64)]
  else if n < 0x10000 then
    [UInt8.ofNat (0xE0 + n / 4096), UInt8.ofNat (0x80 + n / 64 % 64), UInt8.ofNat (0x80 + n % 64)]
  else [UInt8.ofNat (0xF0 + n / 262144), UInt8.ofNat (0x80 + n / 4096 % 64),
        UInt8.ofNat (0x80 + n / 64 % 64), UInt8.ofNat (0x80 + n % 64)]

/-- UTF-8 bytes of a text (`str::as_bytes`). -/
def utf8 (s : Text) : Bytes := s.flatMap utf8Char

/-- continuation byte 10xxxxxx -/
def isCont (b : Nat) : Bool := 0x80 ≤ b && b < 0xC0

/-- One step of `Utf8Chunks`: the character found (`none` for an invalid part) and the number of bytes used. -/
def utf8Step (b0 : Nat) (rest : List Nat) : Option Char × Nat :=
  let b1 := rest.getD 0 0
  let b2 := rest.getD 1 0
  let b3 := rest.getD 2 0
  if b0 < 0x80 then (some (Char.ofNat b0), 1)
  else if 0xC2 ≤ b0 ∧ b0 < 0xE0 then
    if isCont b1 then (some (Char.ofNat ((b0 - 0xC0) * 64 + (b1 - 0x80))), 2) else (none, 1)
  else if 0xE0 ≤ b0 ∧ b0 < 0xF0 then
    let ok1 := (b0 = 0xE0 ∧ 0xA0 ≤ b1 ∧ b1 < 0xC0) ∨ (0xE1 ≤ b0 ∧ b0 ≤ 0xEC ∧ 0x80 ≤ b1 ∧ b1 < 0xC0)
      ∨ (b0 = 0xED ∧ 0x80 ≤ b1 ∧ b1 < 0xA0) ∨ (0xEE ≤ b0 ∧ 0x80 ≤ b1 ∧ b1 < 0xC0)
    if ok1 then
      if isCont b2 then
        (some (Char.ofNat ((b0 - 0xE0) * 4096 + (b1 - 0x80) * 64 + (b2 - 0x80))), 3)
      else (none, 2)
    else (none, 1)
  else if 0xF0 ≤ b0 ∧ b0 ≤ 0xF4 then
    let ok1 := (b0 = 0xF0 ∧ 0x90 ≤ b1 ∧ b1 < 0xC0) ∨ (0xF1 ≤ b0 ∧ b0 ≤ 0xF3 ∧ 0x80 ≤ b1 ∧ b1 < 0xC0)
      ∨ (b0 = 0xF4 ∧ 0x80 ≤ b1 ∧ b1 < 0x90)
    if ok1 then
      if isCont b2 then
        if isCont b3 then
          (some (Char.ofNat ((b0 - 0xF0) * 262144 + (b1 - 0x80) * 4096 + (b2 - 0x80) * 64 + (b3 - 0x80))), 4)
        else (none, 3)
      else (none, 2)
    else (none, 1)
  else (none, 1)

/-- `Utf8Chunks` iterated; the second argument counts the bytes still to be skipped. -/
def lossyAux : List Nat → Nat → Text
  | [], _ => []
  | _ :: r, k + 1 => lossyAux r k
  | b :: r, 0 =>
    let st := utf8Step b r
    (st.1.getD '�') :: lossyAux r (st.2 - 1)

/-- `String::from_utf8_lossy`. -/
def lossy (bs : Bytes) : Text := lossyAux (bs.map UInt8.toNat) 0

end Wm
