import Verif.Model.World
import Verif.Model.Virtual
/-!
The tunnel used the other way round: the users of a client (src/wmcore.rs:119-144) whose
connections are served by the proxy of the server the client is connected to. Users come to the client, each with its
relay (src/streams/trans_stream.rs); the client's end of the tunnel connection (src/streams/center_client.rs), the bytes
under way, the server's end (src/streams/center_server.rs) and the proxy's tasks at the server, which use the stream
through `VirtualStream` (src/streams/virtual_stream.rs). One event is one step of one of these tasks, or of the network;
they are interleaved arbitrarily.

The parts are those of `Verif.Model.Tunnel`, `Verif.Model.Relay` and `Verif.Model.Virtual`; this file only connects them.
What the proxy does with the bytes is `Verif.Model.Socks` and `Verif.Model.HttpProxy`; here its task reads, writes and
leaves as it likes.

Simplifications: one connection (the client's reconnecting is in `Verif.Model.Life`); the connection carries the bytes in
order and unaltered, possibly never (TCP/TLS); the server has no visitors of its own; every other task is an "other",
which submits and takes messages as it likes, but not from the channels of the streams modelled here; a user whose stream
the loop has not yet taken may be ended as soon as the connection is over; a poll of `VirtualStream` that goes on to the
next message because the first carried nothing is two events.
-/
namespace Wm.Chain
open Wm Wm.Prot
open Wm.World (Cfg LoopEv RelayEv OtherEv loopStep relayStep otherStep submitted workCap)

/-- the relay of a user; `handle` is the number of the stream's channel at the client's end, once the loop has taken the
    stream from `receiver_work` (center_client.rs:158-163) -/
structure User where
  relay : Relay.St
  handle : Option Nat

/-- a task of the proxy at the server (center_server.rs:188-208): its stream, and the number of the stream's channel -/
structure Task where
  io : Virtual.St
  chan : Nat
  /-- the task is over, the stream is dropped -/
  gone : Bool

structure St where
  srv : Tunnel.St
  cli : Tunnel.St
  /-- bytes under way to the client -/
  down : Bytes
  /-- bytes under way to the server -/
  up : Bytes
  /-- `receiver_work` of the client: places of users -/
  works : List Nat
  users : List User
  tasks : List Task
  /-- messages submitted by other tasks, at the server and at the client -/
  otherS : List Frame
  otherC : List Frame

/-- what a task of the proxy does with its stream -/
inductive TaskEv where
  | read (n : Nat) | write (bs : Bytes) | flush
  /-- the task is over; `poll_shutdown` does nothing and there is no `Drop` (virtual_stream.rs:136-141), so nothing but
      the receiver's end goes away -/
  | drop
deriving DecidableEq, Repr

inductive Event where
  /-- a user's connection is accepted and handed to the client's end (center_client.rs:371-388) -/
  | accept
  /-- the client's loop takes the next new stream (center_client.rs:158-163) -/
  | work
  | srv (e : LoopEv)
  | cli (e : LoopEv)
  | otherS (e : OtherEv)
  | otherC (e : OtherEv)
  | user (n : Nat) (e : RelayEv)
  /-- the task spawned for stream `h` by the server begins (center_server.rs:205-208) -/
  | start (id h : Nat)
  | task (n : Nat) (e : TaskEv)
deriving DecidableEq, Repr

/-- streams given to the server's proxy: id and channel -/
def proxied (t : List Tunnel.Obs) : List (Nat × Nat) :=
  t.filterMap fun | .opened id h (.proxy _) => some (id, h) | _ => none

/-- what `poll_reserve` finds: the outgoing channel of an end with room, full, or closed because the end is over -/
def slotOf (s : Tunnel.St) : Virtual.Slot :=
  if s.phase = .running then
    if s.outq.length < Tunnel.outCap then .ready else .wait
  else .closed

/-- One step of a task at a tunnel end: the new state of the end and of the stream. -/
def taskStep (T : Tunnel.St → Tunnel.Event → Tunnel.St) (s : Tunnel.St) (v : Virtual.St) (h : Nat) :
    TaskEv → Tunnel.St × Virtual.St
  | .read n =>
    match (s.chan h).q with
    | f :: _ =>
      if (s.chan h).rx ∧ v.closed = false then
        (T s (.take h), Virtual.step (Virtual.step v (.arrive f)) (.read n))
      else (s, v)
    | [] =>
      if (s.chan h).tx then (s, Virtual.step v (.read n))
      else (s, Virtual.step (Virtual.step v .close) (.read n))
  | .write bs =>
    (if slotOf s = .ready then T s (.submit (.data v.id (v.write ++ bs))) else s, Virtual.step v (.write bs (slotOf s)))
  | .flush =>
    (if slotOf s = .ready ∧ v.write ≠ [] then T s (.submit (.data v.id v.write)) else s,
      Virtual.step v (.flush (slotOf s)))
  | .drop => (T s (.dropRx h), v)

def init (cfg : Cfg) : St where
  srv := Tunnel.serverInit cfg.server
  cli := Tunnel.clientInit cfg.client []
  down := []
  up := []
  works := []
  users := []
  tasks := []
  otherS := []
  otherC := []

def step (cfg : Cfg) (w : St) : Event → St
  | .accept =>
    let u : User := ⟨Relay.init ((Tunnel.clientIds cfg.serverId).nth w.users.length), none⟩
    if w.cli.phase = .panicked then { w with users := w.users ++ [u] }
    else if w.works.length < workCap then
      { w with
        works := w.works ++ [w.users.length]
        users := w.users ++ [u] }
    else w
  | .work =>
    match w.works with
    | [] => w
    | n :: rest =>
      match w.users[n]? with
      | none => w
      | some u =>
        if w.cli.phase = .running ∧ w.cli.pending = none then
          { w with
            cli := Tunnel.clientStep cfg.client w.cli (.work u.relay.id none)
            works := rest
            users := w.users.set n { u with handle := some w.cli.next } }
        else w
  | .srv e =>
    let r := loopStep (Tunnel.serverStep cfg.server) w.srv w.up e
    { w with
      srv := r.1
      up := r.2.1
      down := w.down ++ r.2.2 }
  | .cli e =>
    let r := loopStep (Tunnel.clientStep cfg.client) w.cli w.down e
    { w with
      cli := r.1
      down := r.2.1
      up := w.up ++ r.2.2 }
  | .otherS e =>
    { w with
      srv := otherStep (Tunnel.serverStep cfg.server) w.srv ((proxied w.srv.trace).map (·.2)) e
      otherS := w.otherS ++ submitted e }
  | .otherC e =>
    { w with
      cli := otherStep (Tunnel.clientStep cfg.client) w.cli (w.users.filterMap (·.handle)) e
      otherC := w.otherC ++ submitted e }
  | .user n e =>
    match w.users[n]? with
    | none => w
    | some u =>
      let r := relayStep (Tunnel.clientStep cfg.client) false w.cli u.relay u.handle e
      { w with
        cli := r.1
        users := w.users.set n { u with relay := r.2 } }
  | .start id h =>
    if (id, h) ∈ proxied w.srv.trace ∧ h ∉ w.tasks.map (·.chan) then
      { w with tasks := w.tasks ++ [⟨Virtual.init id, h, false⟩] }
    else w
  | .task n e =>
    match w.tasks[n]? with
    | none => w
    | some t =>
      if t.gone then w
      else
        let r := taskStep (Tunnel.serverStep cfg.server) w.srv t.io t.chan e
        { w with
          srv := r.1
          tasks := w.tasks.set n { t with io := r.2, gone := e = .drop } }

def run (cfg : Cfg) (es : List Event) : St := es.foldl (step cfg) (init cfg)

end Wm.Chain
