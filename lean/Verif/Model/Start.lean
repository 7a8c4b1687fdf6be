import Verif.Model.Listen
/-!
The start of a service: `WMCore::ready_serve` (src/wmcore.rs:209-249) with `ProxyConfig::bind` (src/option.rs:568-627),
`ProxyConfig::bind_map` (src/option.rs:629-677), and `bind` of the HTTP and stream sections (`Wm.Listen`).

The operating system, the network and the TLS library are parameters. That a listener can be opened may depend on those that
are open already; on the systems the program is written for it does not (`set_reuse_port`, src/helper.rs:101-105).
-/
namespace Wm.Listen
open Wm

/-- what a listener is for -/
inductive Role where
  | proxy | center | mapHttp | mapHttps | mapTcp | mapProxy
  | http (tls : Bool)
  | stream (udp : Bool)
deriving DecidableEq, Repr

/-- src/option.rs:203-266 `ProxyConfig`, what is needed here -/
structure ProxyPart where
  bind : Option SockAddr
  center : Option SockAddr
  /-- the server above -/
  server : Option Text
  mapHttp : Option SockAddr
  mapHttps : Option SockAddr
  mapTcp : Option SockAddr
  mapProxy : Option SockAddr
  mapCert : Option (Option (List PemItem))
  mapKey : Option (Option (List PemItem))
  tls : TunnelTls

/-- src/option.rs:275-297 `ConfigOption` -/
structure Conf where
  proxy : Option ProxyPart
  http : Option (List Block)
  stream : Option (List StreamBlock)

structure Env where
  /-- `Helper::bind`, `Helper::bind_upd` -/
  grants : List SockAddr → SockAddr → Bool
  /-- `HealthCheck::connect` and the TLS handshake (src/streams/center_client.rs:92-114) succeed -/
  reaches : Text → Bool
  rustls : Rustls

/-- listeners with their roles -/
abbrev Doors := List (Role × SockAddr)

/-- `exit`: `process::exit(1)`; `up`: the service runs, with these listeners and, if `server` is something, with a tunnel
    connection to this server -/
inductive Started where
  | exit
  | failed
  | panicked
  | up (ls : Doors) (server : Option Text)
deriving DecidableEq, Repr

/-- `Some(Helper::bind(..).await?)` if an address is given -/
def openOne (e : Env) (r : Role) (ls : Doors) : Option SockAddr → Option Doors
  | none => some ls
  | some a => if e.grants (ls.map (·.2)) a then some (ls ++ [(r, a)]) else none

/-- src/option.rs:580-606: whether the server above is connected to; `none`: the process exits -/
def goUp (e : Env) (p : ProxyPart) : Option (Option Text) :=
  if p.bind.isSome then
    match p.server with
    | some s => if e.reaches s then some (some s) else none
    | none => some none
  else some none

/-- src/option.rs:607-627: the listeners of `bind` -/
def openProxy (e : Env) (p : ProxyPart) : Option Doors :=
  (openOne e .proxy [] p.bind).bind fun ls => openOne e .center ls p.center

/-- src/option.rs:647-658: the listener for HTTPS visitors is closed again if there are no usable certificates -/
def openHttps (e : Env) (p : ProxyPart) (ls : Doors) : Started :=
  match p.mapHttps with
  | none => .up ls none
  | some a =>
    match openOne e .mapHttps ls (some a) with
    | none => .failed
    | some ls' =>
      match mapAccept e.rustls p.mapCert p.mapKey with
      | .ok _ => .up ls' none
      | .err _ => .up ls none
      | .panic => .panicked

/-- src/option.rs:629-677 `bind_map` -/
def openMaps (e : Env) (p : ProxyPart) (ls : Doors) : Started :=
  match openOne e .mapHttp ls p.mapHttp with
  | none => .failed
  | some ls =>
    match openHttps e p ls with
    | .up ls _ =>
      match (openOne e .mapTcp ls p.mapTcp).bind fun ls => openOne e .mapProxy ls p.mapProxy with
      | none => .failed
      | some ls => .up ls none
    | o => o

/-- the whole of the proxy section (src/wmcore.rs:210-228) -/
def startProxy (e : Env) : Option ProxyPart → Started
  | none => .up [] none
  | some p =>
    match acceptedOver e.rustls p.tls, connectedOver e.rustls p.tls with
    | some _, some _ =>
      match goUp e p with
      | none => .exit
      | some server =>
        match openProxy e p with
        | none => .failed
        | some ls =>
          match openMaps e p ls with
          | .up ls _ => .up ls server
          | o => o
    | _, _ => .panicked

/-- src/wmcore.rs:209-249 `ready_serve` -/
def startAll (e : Env) (c : Conf) : Started :=
  match startProxy e c.proxy with
  | .up ls server =>
    match bindHttp (fun o a => e.grants (ls.map (·.2) ++ o) a) (c.http.getD []) [] with
    | none => .failed
    | some hs =>
      let ls := ls ++ hs.map fun l => (.http l.2, l.1)
      match streamBind (fun o a => e.grants (ls.map (·.2) ++ o) a) (c.stream.getD []) [] with
      | none => .failed
      | some ss => .up (ls ++ ss.map fun l => (.stream l.2.udp, l.1)) server
  | o => o

end Wm.Listen
