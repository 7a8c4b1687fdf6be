import Verif.Model.World
import Verif.Model.TransHttp
/-!
The main task of the service (src/wmcore.rs): it accepts all connections, hands visitors to the tunnel connections of
clients, and waits for some things itself.
-/
namespace Wm.Core
open Wm

/-! ### Which client gets a visitor -/

/-- `is_close` (src/streams/center_server.rs:82-84): the task of the connection is over, so that its receivers are dropped -/
def closed (c : Tunnel.St) : Bool := c.phase != .running && c.phase != .stuck

/-- src/wmcore.rs:375-377, 379-392 (`server_new_http`; the other kinds 394-438 are alike): the connections of clients, in the
    order in which they were accepted; closed ones are forgotten, the first of the others gets the visitor. -/
def handTo (cs : List Tunnel.St) : Option Tunnel.St := (cs.filter fun c => !closed c).find? fun c => !closed c

/-- what becomes of a visitor to the listener for `tcp` or `proxy` (src/trans/tcp.rs:48-65): the name under which its stream
    is announced to which client; `none`: the connection is dropped -/
def visitTcp (cs : List Tunnel.St) (mode : Text) : Option (Tunnel.St × Text) :=
  match handTo cs with
  | none => none
  | some c => (World.pickName c.mappings mode).map fun n => (c, n)

/-- the same for the first request of a visitor to the listeners for HTTP (src/trans/http.rs:89-114) -/
def visitHttp (cs : List Tunnel.St) (host : Text) : Option (Tunnel.St × MappingConfig) :=
  match handTo cs with
  | none => none
  | some c => (TransHttp.pickDomain c.mappings host).map fun m => (c, m)

/-! ### What the main task waits for -/

/-- kinds of connections that the main task accepts -/
inductive Conn where
  /-- of a client of the tunnel -/
  | center
  /-- to the proxy's own listener -/
  | proxy
  /-- of visitors of tunnelled services, to HTTP and stream listeners -/
  | other
deriving DecidableEq, Repr

structure Cfg where
  /-- clients of the tunnel connect over TLS -/
  tls : Bool
  /-- connections of clients are passed on to another server -/
  upstream : Bool
  /-- connections to the proxy go through a tunnel to a server -/
  client : Bool

/-- `ready`: connections established by the operating system that the task has not taken; `awaiting`: the connection for which it
    waits outside of its `select!`; `work`: messages in the channel `sender_work` of the tunnel client. -/
structure St where
  ready : List Conn
  stopAsked : Bool
  awaiting : Option Conn
  work : Nat
  handled : List Conn
  stopped : Bool
deriving DecidableEq, Repr

inductive Event where
  | arrive (c : Conn)
  /-- the control server asks the service to stop -/
  | askStop
  /-- the task takes the `n`-th connection that is ready -/
  | take (n : Nat)
  /-- the task sees that it is to stop (src/wmcore.rs:355-358) -/
  | seeStop
  /-- the handshake with a client, or the connection to the upper server, has come about or failed -/
  | settled
  /-- the tunnel client's loop takes a message from `sender_work` -/
  | drain
deriving DecidableEq, Repr

def init : St := ⟨[], false, none, 0, [], false⟩

/-- capacity of `sender_work` (src/streams/center_client.rs:73) -/
def workCap : Nat := 10

/-- src/wmcore.rs:251-362 `run_serve`. A client's connection is handled after its handshake (264-273) and after the
    connection to the upper server (`CenterTrans::serve`, src/streams/center_trans.rs:44-71), both awaited here; a connection to the
    proxy is handled when the tunnel client's channel has taken it (src/streams/center_client.rs:378-381); the others are given to
    new tasks. -/
def step (cfg : Cfg) (s : St) : Event → St
  | .arrive c => { s with ready := s.ready ++ [c] }
  | .askStop => { s with stopAsked := true }
  | .take n =>
    if s.stopped || s.awaiting.isSome then s
    else match s.ready[n]? with
      | none => s
      | some .center =>
        if cfg.tls || cfg.upstream then { s with ready := s.ready.eraseIdx n, awaiting := some .center }
        else { s with ready := s.ready.eraseIdx n, handled := s.handled ++ [.center] }
      | some .proxy =>
        if cfg.client then
          if s.work < workCap then { s with ready := s.ready.eraseIdx n, work := s.work + 1, handled := s.handled ++ [.proxy] }
          else { s with ready := s.ready.eraseIdx n, awaiting := some .proxy }
        else { s with ready := s.ready.eraseIdx n, handled := s.handled ++ [.proxy] }
      | some .other => { s with ready := s.ready.eraseIdx n, handled := s.handled ++ [.other] }
  | .seeStop => if s.stopAsked && s.awaiting.isNone then { s with stopped := true } else s
  | .settled =>
    match s.awaiting with
    | some .center => { s with awaiting := none, handled := s.handled ++ [.center] }
    | _ => s
  | .drain =>
    match s.awaiting with
    | some .proxy => { s with awaiting := none, handled := s.handled ++ [.proxy] }
    | _ => { s with work := s.work - 1 }

def run (cfg : Cfg) (es : List Event) : St := es.foldl (step cfg) init

end Wm.Core
