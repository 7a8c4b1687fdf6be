import Verif.Model.Types
/-!
The tunnel protocol: src/prot/*.rs and `Helper::decode_frame` (src/helper.rs:53-75).

Parsers take the bytes in front of the cursor and return the value with the bytes left. Encoders take the
outgoing buffer and return the new buffer with the `ProxyResult<usize>`; a failing encoder may already have
appended bytes, as in the code. `u32` lengths wrap at 2^32 (release build).
-/
namespace Wm.Prot
open Wm

/-- src/prot/kind.rs:15 `ProtKind` -/
inductive Kind where
  | data | create | close | mapping | token | unregistered
deriving DecidableEq, Repr

/-- src/prot/kind.rs:25-34 `ProtKind::new` -/
def Kind.new (b : Nat) : Kind :=
  match b with
  | 0 => .data | 1 => .create | 2 => .close | 3 => .mapping | 4 => .token | _ => .unregistered

/-- src/prot/kind.rs:36-45 `ProtKind::encode` -/
def Kind.encode : Kind → Nat
  | .data => 0 | .create => 1 | .close => 2 | .mapping => 3 | .token => 4 | .unregistered => 255

/-- src/prot/flag.rs `ProtFlag::new`: unknown bits make the flag empty. Flags are the bits ACK 1, CREATE 2,
    CLOSE 4, DATA 8; `ProtFlag::zero()` is 0. -/
def Flag.new (b : Nat) : Nat := if b < 16 then b else 0

/-- src/prot/frame.rs:22 `ProtFrameHeader` (numbers are `u32`, `u8`, `u64` in the code) -/
structure Header where
  length : Nat
  kind : Kind
  flag : Nat
  sockMap : Nat
deriving DecidableEq, Repr

/-- src/prot/frame.rs:35 `ProtFrame` with the message structs inlined
    (create.rs:24, close.rs:24, data.rs:24, token.rs:24, mapping.rs:25; the constant `mode` of create is dropped). -/
inductive Frame where
  | create (sockMap : Nat) (domain : Option Text)
  | close (sockMap : Nat) (reason : Text)
  | data (sockMap : Nat) (bytes : Bytes)
  | token (username password : Text)
  | mapping (sockMap : Nat) (mappings : List MappingConfig)
deriving DecidableEq, Repr

/-- src/prot/frame.rs:191-199 `ProtFrame::sock_map` (token: token.rs:68) -/
def Frame.sockMap : Frame → Nat
  | .create s _ => s | .close s _ => s | .data s _ => s | .token _ _ => 0 | .mapping s _ => s

/-- src/helper.rs:512-514 `Helper::calc_sock_map` -/
def calcSockMap (serverId id : Nat) : Nat := serverId * 2 ^ 32 + id

/-- src/prot/frame.rs:49 -/
def frameHeaderBytes : Nat := 12

/-- src/prot/frame.rs:78-92 `ProtFrameHeader::parse_by_len` -/
def parseHeaderByLen (buf : Bytes) (length : Nat) : Res (Header × Bytes) :=
  if buf.length < frameHeaderBytes - 3 then .err .tooShort
  else do
    let (kind, buf) ← getU8 buf
    let (flag, buf) ← getU8 buf
    let (sm, buf) ← getU24 buf
    let (sid, buf) ← getU32 buf
    .ok (⟨length, Kind.new kind, Flag.new flag, calcSockMap sid sm⟩, buf)

/-- src/prot/frame.rs:69-75 `ProtFrameHeader::parse` -/
def parseHeader (buf : Bytes) : Res (Header × Bytes) :=
  if buf.length < frameHeaderBytes then .err .tooShort
  else do
    let (length, buf) ← getU24 buf
    parseHeaderByLen buf length

/-- src/prot/frame.rs:95-103 `ProtFrameHeader::encode`: the bytes appended (never fails, always 12 bytes).
    `sock_map as u32` keeps the low 32 bits, `encode_u24` the low 24 of them. -/
def Header.encode (h : Header) : Bytes :=
  putU24 h.length ++ putU8 h.kind.encode ++ putU8 h.flag ++ putU24 (h.sockMap % 2 ^ 32)
    ++ putU32 (h.sockMap / 2 ^ 32)

/-- src/prot/mod.rs:36-49 `read_short_string` -/
def readShortString (buf : Bytes) : Res (Text × Bytes) :=
  if buf.length < 1 then .err .tooShort
  else do
    let (len, buf) ← getU8 buf
    if buf.length < len then .err .tooShort
    else if len = 0 then .ok ([], buf)
    else .ok (lossy (buf.take len), buf.drop len)

/-- Result of an encoder: the outgoing buffer afterwards and the returned size or error. -/
structure Enc where
  buf : Bytes
  result : Res Nat
deriving DecidableEq, Repr

/-- src/prot/mod.rs:51-60 `write_short_string` -/
def writeShortString (buf : Bytes) (val : Text) : Enc :=
  let bytes := utf8 val
  if bytes.length > 255 then ⟨buf, .err .tooShort⟩
  else ⟨buf ++ putU8 bytes.length ++ bytes, .ok (1 + bytes.length)⟩

/-- Sequencing of encoders writing to the same buffer with `?` and `size += …`. -/
def Enc.andThen (a : Enc) (f : Bytes → Enc) : Enc :=
  match a.result with
  | .ok n =>
    let b := f a.buf
    ⟨b.buf, match b.result with | .ok m => .ok (n + m) | .err e => .err e | .panic => .panic⟩
  | .err e => ⟨a.buf, .err e⟩
  | .panic => ⟨a.buf, .panic⟩

/-- `buf.put_*` / `put_slice` as an encoder. -/
def put (bs : Bytes) (buf : Bytes) : Enc := ⟨buf ++ bs, .ok bs.length⟩

/-- src/prot/create.rs:58-77 `ProtCreate::encode`. The length byte is `domain_len as u8`. -/
def encodeCreate (sockMap : Nat) (domain : Option Text) (buf : Bytes) : Enc :=
  let domainLen := match domain with
    | some s => (utf8 s).length % 2 ^ 32
    | none => 0
  let head : Header := ⟨(1 + domainLen) % 2 ^ 32, .create, 0, sockMap⟩
  ((put head.encode buf).andThen (put (putU8 domainLen))).andThen
    (match domain with | some s => put (utf8 s) | none => put [])

/-- src/prot/close.rs:46-53 `ProtClose::encode` -/
def encodeClose (sockMap : Nat) (reason : Text) (buf : Bytes) : Enc :=
  let head : Header := ⟨((utf8 reason).length % 2 ^ 32 + 1) % 2 ^ 32, .close, 0, sockMap⟩
  (put head.encode buf).andThen (fun b => writeShortString b reason)

/-- src/prot/data.rs:42-50 `ProtData::encode` (`Vec<u8>::serialize` of webparse appends the raw bytes) -/
def encodeData (sockMap : Nat) (bytes : Bytes) (buf : Bytes) : Enc :=
  let head : Header := ⟨bytes.length % 2 ^ 32, .data, 0, sockMap⟩
  (put head.encode buf).andThen (put bytes)

/-- src/prot/token.rs:40-48 `ProtToken::encode` -/
def encodeToken (username password : Text) (buf : Bytes) : Enc :=
  let head : Header :=
    ⟨((utf8 username).length % 2 ^ 32 + 1 + (utf8 password).length % 2 ^ 32 + 1) % 2 ^ 32, .token, 0, 0⟩
  ((put head.encode buf).andThen (fun b => writeShortString b username)).andThen
    (fun b => writeShortString b password)

/-- src/prot/mapping.rs:77-80: one header rule -/
def encodeRule (h : ConfigHeader) (buf : Bytes) : Enc :=
  (((put (putU8 (if h.isProxy then 1 else 0)) buf).andThen (put (putU8 h.oper.toU8))).andThen
    (fun b => writeShortString b h.key)).andThen (fun b => writeShortString b h.val)

/-- src/prot/mapping.rs:76-81: the loop over the header rules -/
def encodeRules : List ConfigHeader → Bytes → Enc
  | [], buf => put [] buf
  | h :: t, buf => (encodeRule h buf).andThen (encodeRules t)

/-- src/prot/mapping.rs:72-81: one mapping -/
def encodeOneMapping (m : MappingConfig) (buf : Bytes) : Enc :=
  ((((writeShortString buf m.name).andThen (fun b => writeShortString b m.mode)).andThen
    (fun b => writeShortString b m.domain)).andThen (put (putU16 (m.headers.length % 2 ^ 16)))).andThen
    (encodeRules m.headers)

/-- src/prot/mapping.rs:71-82: the loop over the mappings -/
def encodeMappings : List MappingConfig → Bytes → Enc
  | [], buf => put [] buf
  | m :: t, buf => (encodeOneMapping m buf).andThen (encodeMappings t)

/-- src/prot/mapping.rs:66-88 `ProtMapping::encode`: everything goes to `cache_buf` first. -/
def encodeMapping (sockMap : Nat) (ms : List MappingConfig) (buf : Bytes) : Enc :=
  let cache := (put (putU16 (ms.length % 2 ^ 16)) []).andThen (encodeMappings ms)
  match cache.result with
  | .ok _ =>
    let head : Header := ⟨cache.buf.length % 2 ^ 32, .mapping, 0, sockMap⟩
    (put head.encode buf).andThen (put cache.buf)
  | .err e => ⟨buf, .err e⟩
  | .panic => ⟨buf, .panic⟩

/-- src/prot/frame.rs:125-137 `ProtFrame::encode` -/
def Frame.encode (f : Frame) (buf : Bytes) : Enc :=
  match f with
  | .data s d => encodeData s d buf
  | .create s d => encodeCreate s d buf
  | .close s r => encodeClose s r buf
  | .mapping s ms => encodeMapping s ms buf
  | .token u p => encodeToken u p buf

/-- src/prot/create.rs:41-56 `ProtCreate::parse`; the first `get_u8` is unguarded. -/
def parseCreate (h : Header) (buf : Bytes) : Res Frame := do
  let (len, buf) ← getU8 buf
  if len > buf.length then .err .tooShort
  else .ok (.create h.sockMap (if len > 0 then some (lossy (buf.take len)) else none))

/-- src/prot/close.rs:38-44 `ProtClose::parse` -/
def parseClose (h : Header) (buf : Bytes) : Res Frame := do
  let (reason, _) ← readShortString buf
  .ok (.close h.sockMap reason)

/-- src/prot/data.rs:34-40 `ProtData::parse` (`advance_chunk` panics when too few bytes remain) -/
def parseData (h : Header) (buf : Bytes) : Res Frame :=
  if buf.length < h.length then .panic else .ok (.data h.sockMap (buf.take h.length))

/-- src/prot/token.rs:34-38 `ProtToken::parse` -/
def parseToken (buf : Bytes) : Res Frame := do
  let (u, buf) ← readShortString buf
  let (p, _) ← readShortString buf
  .ok (.token u p)

/-- external macro `webparse::must_have!`: error unless `n` bytes remain -/
def mustHave (buf : Bytes) (n : Nat) : Res Unit := if buf.length < n then .err .tooShort else .ok ()

/-- src/prot/mapping.rs:50-57 -/
def parseRules : Nat → Bytes → Res (List ConfigHeader × Bytes)
  | 0, buf => .ok ([], buf)
  | n + 1, buf => do
    let _ ← mustHave buf 2
    let (isProxy, buf) ← getU8 buf
    let (oper, buf) ← getU8 buf
    let (key, buf) ← readShortString buf
    let (val, buf) ← readShortString buf
    let (t, buf) ← parseRules n buf
    .ok (⟨HeaderOper.fromU8 oper, isProxy != 0, key, val⟩ :: t, buf)

/-- src/prot/mapping.rs:43-59 -/
def parseMappings : Nat → Bytes → Res (List MappingConfig × Bytes)
  | 0, buf => .ok ([], buf)
  | n + 1, buf => do
    let (name, buf) ← readShortString buf
    let (mode, buf) ← readShortString buf
    let (domain, buf) ← readShortString buf
    let _ ← mustHave buf 2
    let (len, buf) ← getU16 buf
    let (headers, buf) ← parseRules len buf
    let (t, buf) ← parseMappings n buf
    .ok (⟨name, mode, none, domain, headers⟩ :: t, buf)

/-- src/prot/mapping.rs:38-64 `ProtMapping::parse` -/
def parseMapping (h : Header) (buf : Bytes) : Res Frame := do
  let _ ← mustHave buf 2
  let (len, buf) ← getU16 buf
  let (ms, _) ← parseMappings len buf
  .ok (.mapping h.sockMap ms)

/-- src/prot/frame.rs:109-122 `ProtFrame::parse`; `Unregistered => todo!()` -/
def parseFrame (h : Header) (buf : Bytes) : Res Frame :=
  match h.kind with
  | .data => parseData h buf
  | .create => parseCreate h buf
  | .close => parseClose h buf
  | .mapping => parseMapping h buf
  | .token => parseToken buf
  | .unregistered => .panic

/-- src/helper.rs:53-75 `Helper::decode_frame`: the outcome and the buffer afterwards.
    The parser gets the *whole* rest of the buffer (`copy`), not only this frame's bytes. -/
def decodeFrame (read : Bytes) : Res (Option Frame) × Bytes :=
  if read.length < 8 then (.ok none, read)
  else
    match getU24 read with
    | .ok (length, copy) =>
      let allLen := length + frameHeaderBytes
      if allLen > read.length then (.ok none, read)
      else
        (do
          let (header, body) ← parseHeaderByLen copy length
          let f ← parseFrame header body
          .ok (some f), read.drop allLen)
    | .err e => (.err e, read)
    | .panic => (.panic, read)

/-- src/prot/token.rs:58-66 `ProtToken::is_check_succ` -/
def isCheckSucc (username password : Text) (wantUser wantPass : Option Text) : Bool :=
  if wantUser.isSome && wantUser.getD [] != username then false
  else if wantPass.isSome && wantPass.getD [] != password then false
  else true

end Wm.Prot
