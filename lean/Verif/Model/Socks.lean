import Verif.Model.Types
import Verif.Model.Text
/-! SOCKS5 (src/proxy/socks5.rs). -/
namespace Wm.Socks
open Wm

/-- The connection as the handshake sees it: the bytes already in the buffer, and what the following reads return, one
    piece per read. An empty piece, or none left, is the end of the stream. -/
structure Src where
  buf : Bytes
  pending : List Bytes
deriving DecidableEq, Repr

/-- src/proxy/socks5.rs:114-138 `read_len`: reads until `n` bytes are buffered; `false` is the error at the end of the
    stream (the buffer keeps what was read). The space offered to a read (`chunk_mut`) limits the size of a piece, which
    the pieces being arbitrary covers. -/
def readLen (n : Nat) (buf : Bytes) : List Bytes → Src × Bool
  | [] => if n ≤ buf.length then (⟨buf, []⟩, true) else (⟨buf, []⟩, false)
  | p :: ps =>
    if n ≤ buf.length then (⟨buf, p :: ps⟩, true)
    else if p = [] then (⟨buf, ps⟩, false)
    else readLen n (buf ++ p) ps

/-- `read_len(..).await?` -/
def need (n : Nat) (s : Src) : Res Src :=
  match readLen n s.buf s.pending with
  | (s', true) => .ok s'
  | (_, false) => .err .ioError

/-- `buffer.get_u8()` -/
def takeU8 (s : Src) : Res (Nat × Src) := do
  let (v, r) ← getU8 s.buf
  pure (v, { s with buf := r })

def takeU16 (s : Src) : Res (Nat × Src) := do
  let (v, r) ← getU16 s.buf
  pure (v, { s with buf := r })

/-- `buffer.advance(n)` (external, panics beyond the end) -/
def advance (n : Nat) (s : Src) : Res Src :=
  if n ≤ s.buf.length then .ok { s with buf := s.buf.drop n } else .panic

/-- src/proxy/socks5.rs:28-32 `ProxySocks5`; the credentials as bytes -/
structure Cfg where
  username : Option Bytes
  password : Option Bytes
  bindIp : Option IpAddr
deriving Repr

/-- src/proxy/socks5.rs:330-332 -/
def Cfg.isUserPassword (c : Cfg) : Bool := c.username.isSome && c.password.isSome

/-- src/proxy/socks5.rs:57-82 `read_head_len` -/
def head (c : Cfg) (s : Src) : Res (Nat × Src) := do
  let s := (readLen 2 s.buf s.pending).1
  let (v, s) ← takeU8 s
  if v ≠ 5 then .err .sizeNotMatch
  else
    let (len, s) ← takeU8 s
    let s := (readLen len s.buf s.pending).1
    let verify := if c.isUserPassword then (if (2 : UInt8) ∈ s.buf then 2 else 0xFF) else 0
    let s ← advance len s
    pure (verify, s)

/-- src/proxy/socks5.rs:95-100, 104-109: one credential of `len` bytes at the front of the buffer; `none`: wrong -/
def cred (v : Option Bytes) (len : Nat) (s : Src) : Option Src :=
  match v with
  | none => some s
  | some w => if len = 0 ∨ w ≠ s.buf.take len then none else some { s with buf := s.buf.drop len }

/-- src/proxy/socks5.rs:85-111 `read_verify` -/
def verify (c : Cfg) (s : Src) : Res (Bool × Src) := do
  let s ← need 2 s
  let (v, s) ← takeU8 s
  if v ≠ 1 then .err .protErr
  else
    let (ulen, s) ← takeU8 s
    let s ← need ulen s
    match cred c.username ulen s with
    | none => pure (false, s)
    | some s => do
      let s ← need 1 s
      let (plen, s) ← takeU8 s
      let s ← need plen s
      match cred c.password plen s with
      | none => pure (false, s)
      | some s => pure (true, s)

/-- External: name resolution (`to_socket_addrs`; `none` is its error) and whether connecting works. -/
structure Net where
  resolve : Text → Option (List SockAddr)
  connect : SockAddr → Bool

/-- the segments of an IPv6 address -/
def seg (a : BitVec 128) (k : Nat) : Nat := a.toNat / 65536 ^ k % 65536

/-- `Ipv6Addr::new` -/
def ofSegs (s7 s6 s5 s4 s3 s2 s1 s0 : Nat) : BitVec 128 :=
  BitVec.ofNat 128 (((((((s7 * 65536 + s6) * 65536 + s5) * 65536 + s4) * 65536 + s3) * 65536 + s2) * 65536 + s1) * 65536 + s0)

/-- src/proxy/socks5.rs:168-171: `format!("{}:{}", name, port)` -/
def nameText (name : Bytes) (port : Nat) : Text := lossy name ++ ':' :: showNat port

/-- src/proxy/socks5.rs:146-194 `read_addr` -/
def readAddr (net : Net) (s : Src) : Res (SockAddr × Src) := do
  let (atyp, s) ← takeU8 s
  if atyp = 1 then
    let s ← need 6 s
    let (a, s) ← takeU8 s
    let (b, s) ← takeU8 s
    let (c, s) ← takeU8 s
    let (d, s) ← takeU8 s
    let (port, s) ← takeU16 s
    pure (⟨.v4 (BitVec.ofNat 32 (((a * 256 + b) * 256 + c) * 256 + d)), BitVec.ofNat 16 port⟩, s)
  else if atyp = 3 then
    let s ← need 1 s
    let (len, s) ← takeU8 s
    let s ← need (len + 2) s
    let name := s.buf.take len
    let s ← advance len s
    let (port, s) ← takeU16 s
    match net.resolve (nameText name port) with
    | none => .err .ioError
    | some [] => .panic
    | some (a :: _) => pure (a, s)
  else if atyp = 4 then
    let s ← need 18 s
    let (s7, s) ← takeU16 s
    let (s6, s) ← takeU16 s
    let (s5, s) ← takeU16 s
    let (s4, s) ← takeU16 s
    let (s3, s) ← takeU16 s
    let (s2, s) ← takeU16 s
    let (s1, s) ← takeU16 s
    let (s0, s) ← takeU16 s
    let (port, s) ← takeU16 s
    pure (⟨.v6 (ofSegs s7 s6 s5 s4 s3 s2 s1 s0), BitVec.ofNat 16 port⟩, s)
  else .err .protErr

/-- src/proxy/socks5.rs:202-220 `encode_socket_addr` (the octets of an IPv6 address are the big-endian bytes of its
    segments) -/
def encodeAddr (a : SockAddr) : Bytes :=
  match a.ip with
  | .v4 ip => putU8 1 ++ putU32 ip.toNat ++ putU16 a.port.toNat
  | .v6 ip => putU8 4 ++ (putU16 (seg ip 7) ++ putU16 (seg ip 6) ++ putU16 (seg ip 5) ++ putU16 (seg ip 4)
      ++ putU16 (seg ip 3) ++ putU16 (seg ip 2) ++ putU16 (seg ip 1) ++ putU16 (seg ip 0)) ++ putU16 a.port.toNat

/-- src/proxy/socks5.rs:228-245 `tcp_read_request` -/
def readRequest (net : Net) (s : Src) : Res ((Nat × SockAddr) × Src) := do
  let s ← need 4 s
  let (v, s) ← takeU8 s
  if v ≠ 5 then .err .protErr
  else
    let (cmd, s) ← takeU8 s
    let (rsv, s) ← takeU8 s
    if rsv ≠ 0 then .err .protErr
    else
      let (a, s) ← readAddr net s
      pure ((cmd, a), s)

/-- how the handshake ends -/
inductive End where
  /-- `Continue`: not this protocol -/
  | notSocks
  /-- connected, and relaying: `lost` are bytes of the client that are in the buffer and not relayed, `pending` the
      following ones, which are -/
  | relayed (lost : Bytes) (pending : List Bytes)
  /-- connecting failed -/
  | unreachable
  /-- UDP association -/
  | udp
  | err (e : Err)
  | panic
deriving DecidableEq, Repr

/-- what was sent to the client and to where a connection was attempted -/
structure Out where
  written : Bytes
  connects : List SockAddr
  fin : End
deriving DecidableEq, Repr

/-- src/proxy/socks5.rs:287-327: the request. (Writing to the client is taken to succeed.) -/
def serve (c : Cfg) (net : Net) (w : Bytes) (s : Src) : Out :=
  match readRequest net s with
  | .err e => ⟨w, [], .err e⟩
  | .panic => ⟨w, [], .panic⟩
  | .ok ((cmd, a), s) =>
    if cmd = 1 then
      if net.connect a then ⟨w ++ [5, 0, 0, 1, 0, 0, 0, 0, 0, 0], [a], .relayed s.buf s.pending⟩
      else ⟨w ++ [5, 1, 0, 1, 0, 0, 0, 0, 0, 0], [a], .unreachable⟩
    else if cmd = 2 then ⟨w, [], .err .protNoSupport⟩
    else if cmd = 3 then
      if c.bindIp.isNone then ⟨w, [], .err .protNoSupport⟩ else ⟨w, [], .udp⟩
    else ⟨w, [], .err .protErr⟩

/-- src/proxy/socks5.rs:247-328 `process` -/
def process (c : Cfg) (net : Net) (s : Src) : Out :=
  match head c s with
  | .err .sizeNotMatch => ⟨[], [], .notSocks⟩
  | .err e => ⟨[], [], .err e⟩
  | .panic => ⟨[], [], .panic⟩
  | .ok (v, s) =>
    let w : Bytes := [5, UInt8.ofNat v]
    if v = 0xFF then ⟨w, [], .err .verifyFail⟩
    else if v = 2 then
      match verify c s with
      | .err e => ⟨w, [], .err e⟩
      | .panic => ⟨w, [], .panic⟩
      | .ok (false, _) => ⟨w ++ [1, 1], [], .err .verifyFail⟩
      | .ok (true, s) => serve c net (w ++ [1, 0]) s
    else serve c net w s

/-! ### UDP association -/

/-- src/proxy/socks5.rs:375-384 `udp_parse_request`: the address and the data of a datagram of the client. There is
    nothing to read behind the datagram. -/
def udpParse (net : Net) (d : Bytes) : Res ((Nat × SockAddr) × Bytes) :=
  if d.length < 3 then .err .protErr
  else do
    let (_, s) ← takeU16 ⟨d, []⟩
    let (flag, s) ← takeU8 s
    let (a, s) ← readAddr net s
    pure ((flag, a), s.buf)

/-- src/proxy/socks5.rs:437-442: what happens with a datagram of the client; `none`: the association ends -/
def udpForward (net : Net) (d : Bytes) : Option (SockAddr × Bytes) :=
  match udpParse net d with
  | .ok ((flag, a), data) => if flag ≠ 0 then none else some (a, data)
  | _ => none

/-- src/proxy/socks5.rs:412-444 `udp_handle_request`: what is sent for the datagrams received in turn (sending is taken to
    succeed; the end of the association by the TCP connection is the end of the list) -/
def udpRun (net : Net) : List Bytes → List (SockAddr × Bytes)
  | [] => []
  | d :: ds =>
    match udpForward net d with
    | none => []
    | some x => x :: udpRun net ds

/-- src/proxy/socks5.rs:473-479: the datagram sent to the client for one from `a` -/
def udpReply (a : SockAddr) (data : Bytes) : Bytes := [0, 0, 0] ++ encodeAddr a ++ data

end Wm.Socks
