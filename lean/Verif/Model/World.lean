import Verif.Model.Tunnel
import Verif.Model.Relay
import Verif.Model.Ids
/-!
The tunnel end to end: visitors of the server, each with its relay (src/streams/trans_stream.rs), the server's end of
the tunnel connection (src/streams/center_server.rs), the bytes under way, the client's end
(src/streams/center_client.rs), and the client's relays to the local services. One event is one step of one of these
tasks, or of the network; they are interleaved arbitrarily.

The parts are those of `Verif.Model.Tunnel` and `Verif.Model.Relay`; this file only connects them: a relay takes its
messages from the channel of its stream and puts its messages into the outgoing channel of its end.

Simplifications: one connection (the client's reconnecting is in `Verif.Model.Life`); the connection carries the bytes
in order and unaltered, possibly never (TCP/TLS); the client opens no streams of its own; streams served by the
client's proxy and every other task are "others", which submit and take messages as they like, but not from the
channels of the relays.
-/
namespace Wm.World
open Wm Wm.Prot

/-- What is configured: both ends, and the server's `server_id`. -/
structure Cfg where
  server : Tunnel.Cfg
  client : Tunnel.Cfg
  serverId : Nat

/-- the relay of a visitor; `handle` is the number of the stream's channel at the tunnel end, once the loop has taken
    the stream from `receiver_work` (center_server.rs:116-125); `mode` is the mode of the listener it came to -/
structure Visitor where
  relay : Relay.St
  handle : Option Nat
  mode : Text

structure St where
  srv : Tunnel.St
  cli : Tunnel.St
  /-- bytes under way to the client -/
  down : Bytes
  /-- bytes under way to the server -/
  up : Bytes
  /-- how many ids `calc_next_id` has handed out (center_server.rs:86-90) -/
  used : Nat
  /-- ids of visitors whose task has not yet looked for a mapping -/
  idle : List Nat
  /-- `receiver_work`: place of the visitor, requested name -/
  works : List (Nat × Text)
  visitors : List Visitor
  /-- the client's relays, with the channel of their stream -/
  locals : List (Relay.St × Nat)
  /-- messages submitted by other tasks, at the server and at the client -/
  otherS : List Frame
  otherC : List Frame

/-- `TransTcp::process` (src/trans/tcp.rs:49-65): the name of the last mapping of the wanted mode -/
def pickName (ms : List MappingConfig) (mode : Text) : Option Text :=
  ms.foldl (fun acc m => if m.mode == mode then some m.name else acc) none

/-- capacity of `receiver_work` (center_server.rs:62) -/
def workCap : Nat := 10

/-- size of the relay's read buffer (trans_stream.rs:77-78) -/
def readMax : Nat := 20480

/-- a branch of the tunnel loop's `select!` other than new streams -/
inductive LoopEv where
  | recv | wrote (n : Nat) | writeErr | readEnd | read (n : Nat)
deriving DecidableEq, Repr

/-- a step of a relay -/
inductive RelayEv where
  | read (bs : Bytes) | readEnd | wrote (n : Nat) | writeErr | recv | slot
  /-- the relay has left its loop, its channel end is dropped -/
  | drop
deriving DecidableEq, Repr

/-- a step of another task -/
inductive OtherEv where
  | submit (f : Frame) | take (h : Nat) | dropRx (h : Nat)
deriving DecidableEq, Repr

inductive Event where
  /-- a visitor's connection is accepted: an id is allocated (center_server.rs:304-310) -/
  | accept
  /-- the task of the `n`-th waiting visitor looks for a mapping of mode `mode` and registers -/
  | visit (n : Nat) (mode : Text)
  /-- the server's loop takes the next new stream (center_server.rs:116-125) -/
  | work
  | srv (e : LoopEv)
  | cli (e : LoopEv)
  | otherS (e : OtherEv)
  | otherC (e : OtherEv)
  | vis (n : Nat) (e : RelayEv)
  /-- the task spawned for stream `h` by the client has connected to the local service (center_client.rs:249-274);
      a connection that fails (263-272) behaves like one that ends at once -/
  | start (id h : Nat)
  | loc (n : Nat) (e : RelayEv)
deriving DecidableEq, Repr

/-- the message a relay would hand over next: the head of `link`, or the final close (trans_stream.rs:121-130, 142) -/
def offer (r : Relay.St) : Option Frame :=
  if r.alive then
    match r.phase with
    | .running => (Relay.top r).link.head?
    | .closing => some (.close r.id [])
    | .done => none
  else none

/-- One branch of a tunnel end. `inb` are the bytes under way to it; the result contains those left, and those it has
    written. -/
def loopStep (T : Tunnel.St → Tunnel.Event → Tunnel.St) (s : Tunnel.St) (inb : Bytes) :
    LoopEv → Tunnel.St × Bytes × Bytes
  | .recv => (T s .recv, inb, [])
  | .wrote n =>
    (T s (.wrote n), inb, if s.phase = .running ∧ s.pending = none then s.writeBuf.take n else [])
  | .writeErr => (T s .writeErr, inb, [])
  | .readEnd => (T s .readEnd, inb, [])
  | .read n =>
    if s.phase = .running ∧ s.pending = none ∧ inb.take n ≠ [] then (T s (.read (inb.take n)), inb.drop n, [])
    else (s, inb, [])

/-- One step of a relay `r` at a tunnel end; `h` is its stream's channel. `dies` tells whether the outgoing channel is
    closed when the end is over: it is at the server; the client's outlives the connection (center_client.rs:318-320),
    what is put into it then belongs to the next connection. -/
def relayStep (T : Tunnel.St → Tunnel.Event → Tunnel.St) (dies : Bool) (s : Tunnel.St) (r : Relay.St)
    (h : Option Nat) : RelayEv → Tunnel.St × Relay.St
  | .read bs => if bs ≠ [] ∧ bs.length ≤ readMax then (s, Relay.step r (.read bs)) else (s, r)
  | .readEnd => (s, Relay.step r .readEnd)
  | .wrote n => (s, Relay.step r (.wrote n))
  | .writeErr => (s, Relay.step r .writeErr)
  | .recv =>
    if r.phase = .running then
      match h with
      | some h =>
        match (s.chan h).q with
        | f :: _ => if (s.chan h).rx then (T s (.take h), Relay.step r (.recv (some f))) else (s, r)
        | [] => if (s.chan h).tx then (s, r) else (s, Relay.step r (.recv none))
      | none => if s.phase = .running then (s, r) else (s, Relay.step r (.recv none))
    else (s, r)
  | .slot =>
    if s.phase = .running then
      match offer r with
      | some f => if s.outq.length < Tunnel.outCap then (T s (.submit f), Relay.step r .slot) else (s, r)
      | none => (s, r)
    else if dies then (s, Relay.step (Relay.step r .gone) .slot)
    else (s, r)
  | .drop =>
    match h with
    | some h => if r.phase = .running then (s, r) else (T s (.dropRx h), r)
    | none => (s, r)

/-- streams of the client connected to a local service: id and channel -/
def connects (t : List Tunnel.Obs) : List (Nat × Nat) :=
  t.filterMap fun | .opened id h (.connect _) => some (id, h) | _ => none

/-- A step of another task. `mine` are the channels of the relays. -/
def otherStep (T : Tunnel.St → Tunnel.Event → Tunnel.St) (s : Tunnel.St) (mine : List Nat) : OtherEv → Tunnel.St
  | .submit f => T s (.submit f)
  | .take h => if h ∈ mine then s else T s (.take h)
  | .dropRx h => if h ∈ mine then s else T s (.dropRx h)

def submitted : OtherEv → List Frame
  | .submit f => [f]
  | _ => []

def init (cfg : Cfg) : St where
  srv := Tunnel.serverInit cfg.server
  cli := Tunnel.clientInit cfg.client []
  down := []
  up := []
  used := 0
  idle := []
  works := []
  visitors := []
  locals := []
  otherS := []
  otherC := []

def step (cfg : Cfg) (w : St) : Event → St
  | .accept =>
    { w with
      idle := w.idle ++ [(Tunnel.serverIds cfg.serverId).nth w.used]
      used := w.used + 1 }
  | .visit n mode =>
    match w.idle[n]? with
    | none => w
    | some id =>
      match pickName w.srv.mappings mode with
      | none => { w with idle := w.idle.eraseIdx n }
      | some name =>
        if w.srv.phase = .running then
          if w.works.length < workCap then
            { w with
              idle := w.idle.eraseIdx n
              works := w.works ++ [(w.visitors.length, name)]
              visitors := w.visitors ++ [⟨Relay.init id, none, mode⟩] }
          else w
        else
          { w with
            idle := w.idle.eraseIdx n
            visitors := w.visitors ++ [⟨Relay.init id, none, mode⟩] }
  | .work =>
    match w.works with
    | [] => w
    | (n, name) :: rest =>
      match w.visitors[n]? with
      | none => w
      | some v =>
        if w.srv.phase = .running ∧ w.srv.pending = none then
          { w with
            srv := Tunnel.serverStep cfg.server w.srv (.work v.relay.id (some name))
            works := rest
            visitors := w.visitors.set n { v with handle := some w.srv.next } }
        else w
  | .srv e =>
    let r := loopStep (Tunnel.serverStep cfg.server) w.srv w.up e
    { w with
      srv := r.1
      up := r.2.1
      down := w.down ++ r.2.2 }
  | .cli e =>
    let r := loopStep (Tunnel.clientStep cfg.client) w.cli w.down e
    { w with
      cli := r.1
      down := r.2.1
      up := w.up ++ r.2.2 }
  | .otherS e =>
    { w with
      srv := otherStep (Tunnel.serverStep cfg.server) w.srv (w.visitors.filterMap (·.handle)) e
      otherS := w.otherS ++ submitted e }
  | .otherC e =>
    { w with
      cli := otherStep (Tunnel.clientStep cfg.client) w.cli ((connects w.cli.trace).map (·.2)) e
      otherC := w.otherC ++ submitted e }
  | .vis n e =>
    match w.visitors[n]? with
    | none => w
    | some v =>
      let r := relayStep (Tunnel.serverStep cfg.server) true w.srv v.relay v.handle e
      { w with
        srv := r.1
        visitors := w.visitors.set n { v with relay := r.2 } }
  | .start id h =>
    if (id, h) ∈ connects w.cli.trace ∧ h ∉ w.locals.map (·.2) then
      { w with locals := w.locals ++ [(Relay.init id, h)] }
    else w
  | .loc n e =>
    match w.locals[n]? with
    | none => w
    | some l =>
      let r := relayStep (Tunnel.clientStep cfg.client) false w.cli l.1 (some l.2) e
      { w with
        cli := r.1
        locals := w.locals.set n (r.2, l.2) }

def run (cfg : Cfg) (es : List Event) : St := es.foldl (step cfg) (init cfg)

end Wm.World
