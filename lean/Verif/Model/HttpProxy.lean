import Verif.Model.Socks
/-! The HTTP proxy (src/proxy/http.rs), the choice of the protocol (src/proxy/server.rs) and the protocol flags
(src/flag.rs). -/
namespace Wm.HttpProxy
open Wm

/-! ### Base64 (external: crate `base64`, `general_purpose::STANDARD`; canonical padding required) -/

/-- the value of a character of the standard alphabet -/
def b64Val (c : Char) : Option Nat :=
  let n := c.toNat
  if 65 ≤ n ∧ n ≤ 90 then some (n - 65)
  else if 97 ≤ n ∧ n ≤ 122 then some (n - 71)
  else if 48 ≤ n ∧ n ≤ 57 then some (n + 4)
  else if n = 43 then some 62
  else if n = 47 then some 63
  else none

/-- four characters; the flag says that they are the last ones, which may be padded -/
def b64Group (a b c d : Char) (final : Bool) : Option Bytes :=
  match b64Val a, b64Val b with
  | some x, some y =>
    match b64Val c, b64Val d with
    | some z, some w =>
      some [UInt8.ofNat (x * 4 + y / 16), UInt8.ofNat (y % 16 * 16 + z / 4), UInt8.ofNat (z % 4 * 64 + w)]
    | some z, none =>
      if final ∧ d = '=' ∧ z % 4 = 0 then some [UInt8.ofNat (x * 4 + y / 16), UInt8.ofNat (y % 16 * 16 + z / 4)]
      else none
    | none, _ =>
      if final ∧ c = '=' ∧ d = '=' ∧ y % 16 = 0 then some [UInt8.ofNat (x * 4 + y / 16)] else none
  | _, _ => none

/-- `DecoderReader::read_to_end`; `none` is its error -/
def b64Decode : Text → Option Bytes
  | [] => some []
  | a :: b :: c :: d :: r =>
    match b64Group a b c d (r == []), b64Decode r with
    | some x, some y => some (x ++ y)
    | _, _ => none
  | _ => none

/-- `String::from_utf8` -/
def fromUtf8 (b : Bytes) : Option Text := if utf8 (lossy b) = b then some (lossy b) else none

/-- src/proxy/http.rs:42-72 `check_basic_auth` (called only with both credentials configured) -/
def checkBasicAuth (u p : Text) (value : Text) : Res Bool :=
  match splitWs value with
  | [_] => .ok false
  | _ :: cred :: _ =>
    match b64Decode cred with
    | none => .panic
    | some b =>
      match fromUtf8 b with
      | none => .ok false
      | some t =>
        match splitOn (· = ':') t with
        | [x, y] => .ok (x = u && y = p)
        | _ => .ok false
  | [] => .panic

/-- A request as the handler sees it after the configured header rules were applied to it
    (src/proxy/http.rs:94; the rules are in `Verif.Model.Helper`). `host`: what `get_connect_url` (external) gives; `auth`: the
    header `Proxy-Authorization`, inside `none` if it is not text. -/
structure Req where
  host : Option Text
  connect : Bool
  auth : Option (Option Text)
deriving DecidableEq, Repr

/-- what the handler keeps between the requests of a connection: the target of the kept client connection
    (`sender`/`receiver`), and of the tunnel to be joined (`stream`) -/
structure St where
  kept : Option Text
  tunnel : Option Text
deriving DecidableEq, Repr

/-- src/proxy/http.rs:202-209 -/
def St.init : St := ⟨none, none⟩

inductive Answer where
  /-- made by the proxy -/
  | status (n : Nat)
  /-- the target's response -/
  | upstream
  | err
  | panic
deriving DecidableEq, Repr

/-- what a request causes: the targets connected to, the targets it was forwarded to (with the `Proxy-Authorization` it then
    carries), and the answer -/
structure Eff where
  connects : List Text
  forwards : List (Text × Option (Option Text))
  answer : Answer
deriving DecidableEq, Repr

/-- src/proxy/http.rs:118-128: whether the request may pass -/
def authorized (u p : Option Text) (r : Req) : Res Bool :=
  match u, p with
  | some u, some p =>
    match r.auth with
    | some (some v) => checkBasicAuth u p v
    | _ => .ok false
  | _, _ => .ok true

/-- the credentials header of a request that passed: removed when it was checked -/
def authLeft (u p : Option Text) (r : Req) : Option (Option Text) :=
  if u.isSome && p.isSome then none else r.auth

/-- what the connection to the target gives for a request sent on it (`recv.recv()`, http.rs:98, 140): a response, an error,
    or nothing because it is over -/
inductive Reply where
  | response | failed | over
deriving DecidableEq, Repr

/-- src/proxy/http.rs:93-153 `operate`. Chosen by the environment: `reach`, whether connecting works, and `reply`. The
    connection is kept (line 142) also when the target's answer is an error. -/
def operate (u p : Option Text) (st : St) (r : Req) (reach : Bool) (reply : Reply) : St × Eff :=
  match st.kept with
  | some h => (st, ⟨[], [(h, r.auth)], if reply = .response then .upstream else .err⟩)
  | none =>
    match r.host with
    | none => (st, ⟨[], [], .err⟩)
    | some h =>
      if ¬ reach then (st, ⟨[h], [], .err⟩)
      else
        match authorized u p r with
        | .panic => (st, ⟨[h], [], .panic⟩)
        | .err _ => (st, ⟨[h], [], .err⟩)
        | .ok false => (st, ⟨[h], [], .status 407⟩)
        | .ok true =>
          if r.connect then ({ st with tunnel := some h }, ⟨[h], [], .status 200⟩)
          else match reply with
            | .response => ({ st with kept := some h }, ⟨[h], [(h, authLeft u p r)], .upstream⟩)
            | .failed => ({ st with kept := some h }, ⟨[h], [(h, authLeft u p r)], .err⟩)
            | .over => (st, ⟨[h], [(h, authLeft u p r)], .err⟩)

/-- the requests of one connection in turn, each with the environment's choices -/
def run (u p : Option Text) : St → List (Req × Bool × Reply) → St × List Eff
  | st, [] => (st, [])
  | st, (r, reach, reply) :: rs =>
    let (st', e) := operate u p st r reach reply
    let (st'', es) := run u p st' rs
    (st'', e :: es)

/-! ### Choice of the protocol -/

/-- src/flag.rs:18-32 -/
abbrev Flag := BitVec 8
def Flag.http : Flag := 0x1
def Flag.https : Flag := 0x2
def Flag.socks5 : Flag := 0x4
def Flag.tcp : Flag := 0x8
def Flag.udp : Flag := 0x16
/-- `Flag::contains` -/
def Flag.has (f x : Flag) : Bool := f &&& x == x

/-- how a connection to the proxy port is treated: with the bytes already taken from it and the pieces still to come -/
inductive Served where
  | http (read : Bytes) (pending : List Bytes)
  | socks (read : Bytes) (pending : List Bytes)
  /-- closed without a word -/
  | closed
  /-- the client sent nothing -/
  | empty
deriving DecidableEq, Repr

/-- src/proxy/server.rs:34-91 `deal_proxy`, `process_http`, `process_socks5` with src/proxy/http.rs:174-200: which handler
    gets the connection. (What the handlers do is above and in `Verif.Model.Socks`.) -/
def serve (f : Flag) (pieces : List Bytes) : Served :=
  if f.has Flag.http || f.has Flag.https then
    match pieces with
    | [] => .empty
    | p :: ps =>
      match p with
      | [] => .empty
      | b :: _ => if b = 5 then (if f.has Flag.socks5 then .socks p ps else .closed) else .http p ps
  else if f.has Flag.socks5 then .socks [] pieces
  else .closed

/-- src/flag.rs:66-81: one word -/
def flagWord (f : Flag) (w : Text) : Flag :=
  if w = "http".toList ∨ w = "HTTP".toList then f ||| Flag.http
  else if w = "https".toList ∨ w = "HTTPS".toList then f ||| Flag.https
  else if w = "socks5".toList ∨ w = "SOCKS5".toList then f ||| Flag.socks5
  else f

/-- src/flag.rs:58-84 `from_str` -/
def parseFlag (s : Text) : Option Flag :=
  if s = [] then none else some ((splitWs s).foldl flagWord 0)

/-- src/flag.rs:87-111: one part -/
def showPart (v w : Text) : Text := if v ≠ [] then v ++ ' ' :: w else w

/-- src/flag.rs:87-111 `fmt` -/
def showFlag (f : Flag) : Text :=
  let v := if f.has Flag.http then "http".toList else []
  let v := if f.has Flag.https then showPart v "https".toList else v
  if f.has Flag.socks5 then showPart v "socks5".toList else v

/-- src/flag.rs:48-55: a number in the configuration (`from_bits`: `None` if a bit is unknown; the known bits are those
    of the five constants) -/
def flagOfNumber (n : BitVec 8) : Flag := if n &&& 0x1F == n then n else Flag.http

end Wm.HttpProxy
