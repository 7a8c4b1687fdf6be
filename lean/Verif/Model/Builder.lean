import Verif.Model.Types
import Verif.Model.ConfigText

/-!
The settings of a proxy as made by a program through `ProxyConfig::builder()`: src/option.rs:37-194, 314-348; and opening
addresses: src/helper.rs:89-147.
-/

namespace Wm.Builder
open Wm Wm.Config

/-- src/option.rs:200-266 `ProxyConfig` -/
structure Proxy where
  serverId : Nat
  bind : Option SockAddr
  center : Option SockAddr
  flag : Flag
  server : Option Text
  username : Option Text
  password : Option Text
  udpBind : Option IpAddr
  mapHttp : Option SockAddr
  mapHttps : Option SockAddr
  mapTcp : Option SockAddr
  mapProxy : Option SockAddr
  mapCert : Option Text
  mapKey : Option Text
  ts : Bool
  tc : Bool
  twoWay : Bool
  domain : Option Text
  cert : Option Text
  key : Option Text
  mappings : List MappingConfig

/-- src/option.rs:196-198 `default_bind_addr` -/
def defaultBind : SockAddr := ⟨.v4 0x7f000001, 8090⟩

/-- src/option.rs:314-343 -/
def Proxy.default : Proxy :=
  { serverId := 0
    flag := Flag.http ||| Flag.https ||| Flag.socks5
    bind := some defaultBind
    center := none
    server := none
    username := none
    password := none
    udpBind := none
    mapHttp := none
    mapHttps := none
    mapTcp := none
    mapProxy := none
    mapCert := none
    mapKey := none
    ts := false
    tc := false
    twoWay := false
    domain := none
    cert := none
    key := none
    mappings := [] }

/-- the methods of `Builder` (src/option.rs:49-180) -/
inductive Call where
  | flag (f : Flag)
  | addFlag (f : Flag)
  | bind (a : SockAddr)
  | center (a : SockAddr)
  | server (a : Option Text)
  | ts (b : Bool)
  | tc (b : Bool)
  | cert (t : Option Text)
  | key (t : Option Text)
  | domain (t : Option Text)
  | username (t : Option Text)
  | password (t : Option Text)
  | udpBind (a : Option IpAddr)
  | mapHttp (a : Option SockAddr)
  | mapHttps (a : Option SockAddr)
  | mapTcp (a : Option SockAddr)
  | mapProxy (a : Option SockAddr)
  | mapping (m : MappingConfig)

/-- src/option.rs:49-180; `Flag::set(f, true)` (crate `bitflags`) adds the bits. None of the functions returns an error, so that
    `inner` is always `Ok`. -/
def Proxy.call (p : Proxy) : Call → Proxy
  | .flag f => { p with flag := f }
  | .addFlag f => { p with flag := p.flag ||| f }
  | .bind a => { p with bind := some a }
  | .center a => { p with center := some a }
  | .server a => { p with server := a }
  | .ts b => { p with ts := b }
  | .tc b => { p with tc := b }
  | .cert t => { p with cert := t }
  | .key t => { p with key := t }
  | .domain t => { p with domain := t }
  | .username t => { p with username := t }
  | .password t => { p with password := t }
  | .udpBind a => { p with udpBind := a }
  | .mapHttp a => { p with mapHttp := a }
  | .mapHttps a => { p with mapHttps := a }
  | .mapTcp a => { p with mapTcp := a }
  | .mapProxy a => { p with mapProxy := a }
  | .mapping m => { p with mappings := p.mappings ++ [m] }

/-- src/option.rs:43-47, 182-193, 346-348: `ProxyConfig::builder()`, the calls, `into_value()` -/
def build (cs : List Call) : Proxy := cs.foldl Proxy.call .default

/-! ### Opening addresses -/

inductive Family where
  | v4 | v6
deriving DecidableEq, Repr

def familyOf (a : SockAddr) : Family := match a.ip with
  | .v4 _ => .v4
  | .v6 _ => .v6

/-- the operating system: creating a socket with its options (src/helper.rs:93-105, 132-137), binding it, listening -/
structure Net where
  socket : Family → Bool
  bind : Family → SockAddr → Bool
  listen : SockAddr → Bool

/-- src/helper.rs:89-125 `bind`: the address that is listened on. Errors up to line 106 leave the function, one of `listen` only the
    turn of the loop. -/
def bindTcp (n : Net) : List SockAddr → Option SockAddr
  | [] => none
  | a :: as =>
    if !n.socket (familyOf a) then none
    else if !n.bind (familyOf a) a then none
    else if n.listen a then some a
    else bindTcp n as

/-- src/helper.rs:128-147 `bind_upd`: the socket is always one for IPv4 -/
def bindUdp (n : Net) : List SockAddr → Option SockAddr
  | [] => none
  | a :: _ => if n.socket .v4 && n.bind .v4 a then some a else none

end Wm.Builder
