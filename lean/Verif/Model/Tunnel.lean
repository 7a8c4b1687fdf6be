import Verif.Model.Reader
/-!
The two ends of a tunnel connection as state machines:
`CenterServer::inner_serve` (src/streams/center_server.rs:92-236) and
`CenterClient::inner_serve` (src/streams/center_client.rs:125-308).

One `Event` is one completed branch of the `select!` (chosen by the environment; the `biased` priority is
modelled in `Verif.Model.Select`; here every order is allowed, so those the code can produce are covered), or an action of another task: putting a message into the
outgoing channel, a stream task taking a message from its channel, a stream task going away.
`send().await` on a full channel blocks the loop (`pending`), `try_send` drops. The trace records what happened, in
order; it is the only thing the properties talk about.

Simplifications: hash maps are association lists (iteration order at shutdown is therefore fixed); a stream is
identified by a handle number; the tasks spawned for a stream are represented by `opened` records and by the
`take`/`dropRx` events of their channel end.
-/
namespace Wm.Tunnel
open Wm Wm.Prot

/-- capacity of a stream's channel (`channel::<ProtFrame>(10)`: center_server.rs:189, center_client.rs:221, 377,
    src/trans/http.rs, src/trans/tcp.rs) -/
def streamCap : Nat := 10
/-- capacity of the channel of outgoing messages (`channel::<ProtFrame>(100)`: center_server.rs:61,
    center_client.rs:72) -/
def outCap : Nat := 100

/-- What serves a stream opened by the peer: the proxy (center_server.rs:197-207, center_client.rs:225-241) or a
    connection to a local address (center_client.rs:249-274). -/
inductive How where
  | proxy (headers : Option (List ConfigHeader))
  | connect (addr : SockAddr)
deriving DecidableEq, Repr

/-- Observable happenings. -/
inductive Obs where
  /-- bytes were read from the connection -/
  | arrived (bs : Bytes)
  /-- a message of the peer was decoded and looked at -/
  | got (f : Frame)
  /-- stream `h` was registered under `id` -/
  | reg (id h : Nat)
  /-- a task was started for stream `h`, opened by the peer -/
  | opened (id h : Nat) (how : How)
  /-- a message was put into the channel of stream `h` -/
  | put (h : Nat) (f : Frame)
  /-- a message for stream `h` was discarded because its task is gone -/
  | lost (h : Nat) (f : Frame)
  /-- a message for stream `h` was discarded because its channel was full -/
  | overflow (h : Nat) (f : Frame)
  /-- the task of stream `h` took a message from its channel -/
  | took (h : Nat) (f : Frame)
  /-- the task of stream `h` dropped its channel end -/
  | rxGone (h : Nat)
  /-- this end dropped its end of the channel of stream `h`: the task sees the end of its input -/
  | hangup (h : Nat)
  /-- the peer's port mappings were stored -/
  | setMap (ms : List MappingConfig)
  /-- some task submitted a message for the peer -/
  | submitted (f : Frame)
  /-- a message was encoded into the outgoing byte buffer; `sub` tells whether it came from the channel of submitted
      messages -/
  | queued (sub : Bool) (f : Frame)
  /-- the connection was found closed or broken while reading -/
  | connLost
  /-- bytes were written to the connection -/
  | wrote (bs : Bytes)
deriving DecidableEq, Repr

/-- Life of the task: running, returned `Ok`, returned an error, panicked, or blocked forever on itself. -/
inductive Phase where
  | running | ended | failed (e : Err) | panicked | stuck
deriving DecidableEq, Repr

/-- A stream's channel: queued messages, receiver alive, sender alive. -/
structure Chan where
  q : List Frame
  rx : Bool
  tx : Bool

structure St where
  /-- `map: HashMap<u64, Sender<ProtFrame>>` -/
  map : List (Nat × Nat)
  chan : Nat → Chan
  next : Nat
  readBuf : Bytes
  writeBuf : Bytes
  /-- the outgoing channel `receiver` -/
  outq : List Frame
  verify : Bool
  readyShutdown : Bool
  mappings : List MappingConfig
  /-- message on which the loop is blocked in `send().await` -/
  pending : Option (Nat × Frame)
  phase : Phase
  trace : List Obs

/-- the credentials of `ProxyConfig` (src/option.rs:203-266) used here, and the client's own mappings -/
structure Cfg where
  username : Option Text
  password : Option Text
  mappings : List MappingConfig

def emit (o : Obs) (s : St) : St := { s with trace := s.trace ++ [o] }

/-- `HashMap::get` -/
def lookup (id : Nat) : List (Nat × Nat) → Option Nat
  | [] => none
  | (i, h) :: t => if i = id then some h else lookup id t

def setChan (h : Nat) (c : Chan) (s : St) : St := { s with chan := fun k => if k = h then c else s.chan k }

/-- dropping the sender of stream `h` -/
def hangup (h : Nat) (s : St) : St := emit (.hangup h) (setChan h { s.chan h with tx := false } s)

/-- `map.insert(id, sender)` with a fresh channel; a previous sender under the same id is dropped. -/
def register (id : Nat) (s : St) : St :=
  let h := s.next
  let s1 := match lookup id s.map with
    | some old => hangup old s
    | none => s
  emit (.reg id h)
    { setChan h ⟨[], true, true⟩ s1 with
      map := (id, h) :: s.map.filter (fun p => p.1 ≠ id)
      next := h + 1 }

/-- `let _ = f.encode(&mut write_buf)` -/
def enqueue (f : Frame) (s : St) (sub : Bool := false) : St :=
  emit (.queued sub f) { s with writeBuf := (f.encode s.writeBuf).buf }

/-- putting into the channel -/
def putChan (h : Nat) (f : Frame) (s : St) : St :=
  emit (.put h f) (setChan h { s.chan h with q := (s.chan h).q ++ [f] } s)

/-- `let _ = sender.send(f).await`; the flag says that the loop is now blocked. -/
def sendAwait (h : Nat) (f : Frame) (s : St) : St × Bool :=
  if (s.chan h).rx = false then (emit (.lost h f) s, false)
  else if (s.chan h).q.length < streamCap then (putChan h f s, false)
  else ({ s with pending := some (h, f) }, true)

/-- `let _ = sender.try_send(f)` -/
def trySend (h : Nat) (f : Frame) (s : St) : St :=
  if (s.chan h).rx = false then emit (.lost h f) s
  else if (s.chan h).q.length < streamCap then putChan h f s
  else emit (.overflow h f) s

/-- leaving the task: the map and with it every sender is dropped -/
def finish (p : Phase) (s : St) : St :=
  { s.map.foldl (fun s x => hangup x.2 s) s with phase := p, map := [] }

/-- center_server.rs:230-234, center_client.rs:302-306: on a closed connection every stream is sent a close first -/
def closeAll (s : St) : St :=
  s.map.foldl (fun s x => trySend x.2 (.close x.1 []) s) s

/-- the refusal reason (center_server.rs:182) -/
def notVerify : Text := "not verify so close".toList

/-- center_server.rs:170-180: the message is a token that logs the peer in now -/
def loginNow (cfg : Cfg) (s : St) : Frame → Bool
  | .token u p => !s.verify && isCheckSucc u p cfg.username cfg.password
  | _ => false

/-- center_server.rs:170-219: one decoded message at the server; the flag stops the decode loop. -/
def serverHandle (cfg : Cfg) (s0 : St) (f : Frame) : St × Bool :=
  let s := emit (.got f) s0
  if loginNow cfg s f then ({ s with verify := true }, false)
  else if !s.verify then ({ enqueue (.close 0 notVerify) s with readyShutdown := true }, true)
  else match f with
    | .create id _ => (emit (.opened id s.next (.proxy none)) (register id s), false)
    | .close id _ | .data id _ =>
      match lookup id s.map with
      | some h => sendAwait h f s
      | none => (s, false)
    | .mapping _ ms => (emit (.setMap ms) { s with mappings := ms }, false)
    | .token _ _ => (s, false)

/-- center_client.rs:208-214: the last mapping whose domain or name is the requested one -/
def findMapping (ms : List MappingConfig) (d : Text) : Option MappingConfig :=
  ms.foldl (fun acc m => if m.domain == d || m.name == d then some m else acc) none

/-- `sender.send(f).await` into the client's own outgoing channel (center_client.rs:218), which only this task
    drains: on a full channel it blocks forever. -/
def selfSend (f : Frame) (s : St) : St × Bool :=
  if s.outq.length < outCap then (emit (.submitted f) { s with outq := s.outq ++ [f] }, false)
  else ({ s with phase := .stuck }, true)

/-- center_client.rs:206-291: one decoded message at the client -/
def clientHandle (cfg : Cfg) (s0 : St) (f : Frame) : St × Bool :=
  let s := emit (.got f) s0
  match f with
  | .create id dom =>
    match findMapping cfg.mappings (dom.getD []) with
    | none => selfSend (.close id []) s
    | some m =>
      let s1 := register id s
      if m.isProxy then (emit (.opened id s.next (.proxy (some m.headers))) s1, false)
      else match m.localAddr with
        | none =>
          -- `continue`: the receiver of the new channel is dropped (center_client.rs:243-247)
          (emit (.rxGone s.next) (setChan s.next ⟨[], false, true⟩ s1), false)
        | some a => (emit (.opened id s.next (.connect a)) s1, false)
  | .data id _ =>
    match lookup id s.map with
    | some h => (trySend h f s, false)
    | none => (s, false)
  | .close id _ =>
    if id = 0 then (s, false)
    else match lookup id s.map with
      | some h => (trySend h f s, false)
      | none => (s, false)
  | .mapping _ _ => (s, false)
  | .token _ _ => (finish .panicked s, true)

/-- One branch of the `select!`, or an action of another task. -/
inductive Event where
  /-- `receiver_work.recv()` returned a new local stream -/
  | work (id : Nat) (domain : Option Text)
  /-- another task sent a message into the outgoing channel -/
  | submit (f : Frame)
  /-- `receiver.recv()` -/
  | recv
  /-- `reader.read` returned bytes -/
  | read (bs : Bytes)
  /-- `reader.read` returned 0 or an error -/
  | readEnd
  /-- `writer.write` accepted `n` bytes -/
  | wrote (n : Nat)
  /-- `writer.write` failed -/
  | writeErr
  /-- the task of a stream takes the next message from its channel -/
  | take (h : Nat)
  /-- the task of a stream goes away -/
  | dropRx (h : Nat)
deriving DecidableEq, Repr

/-- the decode loop after a branch (center_server.rs:163-225, center_client.rs:202-297) -/
def resume (H : St → Frame → St × Bool) (s : St) : St :=
  if s.phase = .running ∧ s.readyShutdown = false ∧ s.pending = none then
    let r := pump H s s.readBuf
    let s' : St := { r.1 with readBuf := r.2.1 }
    match r.2.2 with
    | .err e => finish (.failed e) s'
    | .panic => finish .panicked s'
    | _ => s'
  else s

/-- after a consumer made room (or left), a blocked `send().await` is tried again -/
def resumePending (H : St → Frame → St × Bool) (s : St) : St :=
  match s.pending with
  | none => s
  | some (h, f) =>
    let r := sendAwait h f { s with pending := none }
    if r.2 then r.1 else resume H r.1

/-- One step. `H` handles a decoded message; `we` is the effect of a write error (`todo!()` panics on the server,
    center_server.rs:159; only logged on the client, center_client.rs:195). -/
def step (H : St → Frame → St × Bool) (we : St → St) (s : St) (e : Event) : St :=
  match e with
  | .submit f =>
    if s.phase = .running ∧ s.outq.length < outCap then
      emit (.submitted f) { s with outq := s.outq ++ [f] }
    else s
  | .take h =>
    match (s.chan h).q with
    | [] => s
    | f :: q =>
      if (s.chan h).rx then
        resumePending H (emit (.took h f) (setChan h { s.chan h with q := q } s))
      else s
  | .dropRx h =>
    if (s.chan h).rx then
      resumePending H (emit (.rxGone h) (setChan h { s.chan h with q := [], rx := false } s))
    else s
  | e =>
    if s.phase = .running ∧ s.pending = none then
      match e with
      | .work id d => resume H (enqueue (.create id d) (register id s))
      | .recv =>
        match s.outq with
        | [] => s
        | f :: q => resume H (enqueue f { s with outq := q } true)
      | .read bs => resume H (emit (.arrived bs) { s with readBuf := s.readBuf ++ bs })
      | .readEnd => finish .ended (closeAll (emit .connLost s))
      | .wrote n =>
        if s.writeBuf = [] then s
        else
          let s1 := emit (.wrote (s.writeBuf.take n)) { s with writeBuf := s.writeBuf.drop n }
          if s1.writeBuf = [] ∧ s1.readyShutdown = true then finish .ended s1
          else resume H s1
      | .writeErr => if s.writeBuf = [] then s else we s
      | _ => s
    else s

def emptyChan : Chan := ⟨[], false, false⟩

/-- center_server.rs:103-112 -/
def serverInit (cfg : Cfg) : St where
  map := []
  chan := fun _ => emptyChan
  next := 0
  readBuf := []
  writeBuf := []
  outq := []
  verify := cfg.username.isNone && cfg.password.isNone
  readyShutdown := false
  mappings := []
  pending := none
  phase := .running
  trace := []

def serverStep (cfg : Cfg) : St → Event → St := step (serverHandle cfg) (finish .panicked)

/-- every reachable state of a server end -/
def serverRun (cfg : Cfg) (es : List Event) : St := es.foldl (serverStep cfg) (serverInit cfg)

/-- the state before the introduction; `outq` are messages left in the outgoing channel by an earlier connection
    (the channel outlives the connection, center_client.rs:318-320) -/
def clientBlank (outq : List Frame) : St where
  map := []
  chan := fun _ => emptyChan
  next := 0
  readBuf := []
  writeBuf := []
  outq := outq
  verify := true
  readyShutdown := false
  mappings := []
  pending := none
  phase := .running
  trace := []

/-- `frame.encode(&mut write_buf)?` -/
def introduce (f : Frame) (s : St) : St :=
  if s.phase = .running then
    match (f.encode s.writeBuf).result with
    | .ok _ => enqueue f s
    | .err e => { s with phase := .failed e }
    | .panic => { s with phase := .panicked }
  else s

/-- center_client.rs:136-152: token (when both credentials are set), then mappings (when there are any) -/
def clientInit (cfg : Cfg) (outq : List Frame) : St :=
  let s := clientBlank outq
  let s := match cfg.username, cfg.password with
    | some u, some p => introduce (.token u p) s
    | _, _ => s
  if cfg.mappings = [] then s else introduce (.mapping 0 cfg.mappings) s

def clientStep (cfg : Cfg) : St → Event → St :=
  step (clientHandle cfg) (fun s => resume (clientHandle cfg) s)

/-- every reachable state of a client end during one connection -/
def clientRun (cfg : Cfg) (outq : List Frame) (es : List Event) : St :=
  es.foldl (clientStep cfg) (clientInit cfg outq)

end Wm.Tunnel
