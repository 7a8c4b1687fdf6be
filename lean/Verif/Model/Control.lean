import Verif.Model.Basic
/-!
Model of the control server and the life cycle of services: src/control/server.rs and src/wmcore.rs:251-373.

A *service* is one `WMCore` started by `inner_start_server`; services are numbered in order of their start. The channel by
which a service is told to close has capacity 1 and one sender, held by the control server (for the latest service) or by
the next service until this is ready.

Simplifications: whether a service can start (its listeners can be bound) and when a running service ends with an error or a
panic is chosen by the environment; serving connections is not part of this model; the control server's own lock only
restricts the order of events, all orders are allowed here. With `disable_control` (src/control/server.rs:159-163) there are no
requests, and the process ends with its only service: not modelled.
-/
namespace Wm.Control
open Wm

inductive Phase where
  /-- `ready_serve` (src/wmcore.rs:209-249) is running -/
  | starting
  /-- the listeners are bound, the previous service is not told yet (src/wmcore.rs:256-258) -/
  | bound
  /-- in the loop of `run_serve` (src/wmcore.rs:260-361) -/
  | running
  /-- the task is gone -/
  | ended
deriving DecidableEq, Repr

structure Svc (α : Type) where
  cfg : α
  phase : Phase
  /-- `sender_close`: holds the sender of the previous service -/
  prev : Option Nat
  /-- a message to close is in the channel -/
  inbox : Bool
deriving DecidableEq, Repr

/-- src/control/server.rs:28-39, with the spawned services -/
structure St (α : Type) where
  /-- `option` -/
  option : α
  svcs : List (Svc α)
  /-- `server_sender_close`: the sender of this service -/
  current : Option Nat
  count : Int
  /-- messages "a service is gone" not received yet -/
  notices : Nat
  /-- whether the control port could be bound (src/control/server.rs:166-174) -/
  listening : Bool
  exited : Bool
  /-- record: replies to `/reload` and `/now` -/
  reloadReplies : List Bool
  nowReplies : List α
deriving DecidableEq, Repr

variable {α : Type}

/-- src/control/server.rs:80-97 `inner_start_server` -/
def start (s : St α) (cfg : α) : St α :=
  { s with
    count := s.count + 1
    svcs := s.svcs ++ [⟨cfg, .starting, s.current, false⟩]
    current := some s.svcs.length }

/-- src/control/server.rs:55-71: `new`, `start_serve`; `listening`: the control port is free -/
def init (cfg : α) (listening : Bool) : St α :=
  start ⟨cfg, [], none, 0, 0, listening, false, [], []⟩ cfg

def upd (s : St α) (k : Nat) (f : Svc α → Svc α) : St α := { s with svcs := s.svcs.modify k f }

/-- src/control/server.rs:73-78, 105-112 `/reload`: `parsed` is the result of reading the configuration again; the reply is
    the same in both cases -/
def reload (s : St α) (parsed : Option α) : St α :=
  let s' := match parsed with
    | none => s
    | some cfg => start s cfg
  { s' with reloadReplies := s'.reloadReplies ++ [true] }

def phaseOf (s : St α) (k : Nat) : Option Phase := (s.svcs[k]?).map (·.phase)

/-- src/control/server.rs:113-119 `/stop` (a second message waits until the first is taken: then the event is not there yet;
    the channel of an ended service is closed) -/
def stop (s : St α) : St α :=
  match s.current with
  | none => s
  | some k => if phaseOf s k = some .ended then s else upd s k (fun v => { v with inbox := true })

/-- src/control/server.rs:120-128 `/now` -/
def now (s : St α) : St α := { s with nowReplies := s.nowReplies ++ [s.option] }

/-- src/wmcore.rs:370: `ready_serve` succeeds -/
def ready (s : St α) (k : Nat) : St α :=
  if phaseOf s k = some .starting then upd s k (fun v => { v with phase := .bound }) else s

/-- `ready_serve` fails: the task drops the sender it holds, and announces its end (src/control/server.rs:89-93) -/
def fail (s : St α) (k : Nat) : St α :=
  if phaseOf s k = some .starting then
    { upd s k (fun v => { v with phase := .ended, prev := none }) with notices := s.notices + 1 }
  else s

/-- the message to the previous service; nothing happens if its channel is closed -/
def tell (s : St α) : Option Nat → St α
  | none => s
  | some p => if phaseOf s p = some .ended then s else upd s p (fun v => { v with inbox := true })

/-- the message to the previous service need not wait: its channel is empty or closed -/
def room (s : St α) : Option Nat → Bool
  | none => true
  | some p => phaseOf s p == some .ended || (s.svcs[p]?).all (fun v => !v.inbox)

/-- src/wmcore.rs:256-258: service `k` tells the previous one to close (`take` drops the sender afterwards), and enters the
    loop; as long as a message is in the channel, it waits (before its loop) -/
def begin_ (s : St α) (k : Nat) : St α :=
  match s.svcs[k]? with
  | none => s
  | some v =>
    if v.phase = .bound ∧ room s v.prev = true then upd (tell s v.prev) k (fun v => { v with phase := .running, prev := none }) else s

/-- somebody holds a sender of service `k` -/
def held (s : St α) (k : Nat) : Bool := s.current == some k || s.svcs.any (fun v => v.prev == some k)

/-- src/wmcore.rs:355-358: `receiver_close.recv()` gives a message, or nothing as all senders are gone: the service ends -/
def close (s : St α) (k : Nat) : St α :=
  match s.svcs[k]? with
  | none => s
  | some v =>
    if v.phase = .running ∧ (v.inbox = true ∨ held s k = false) then
      { upd s k (fun v => { v with phase := .ended }) with notices := s.notices + 1 }
    else s

/-- src/wmcore.rs:263-345: an error leaves the loop (`?`) -/
def crash (s : St α) (k : Nat) : St α :=
  if phaseOf s k = some .running then
    { upd s k (fun v => { v with phase := .ended }) with notices := s.notices + 1 }
  else s

/-- a panic in the task of the service: src/control/server.rs:93 is not reached -/
def panic (s : St α) (k : Nat) : St α :=
  if phaseOf s k = some .starting ∨ phaseOf s k = some .bound ∨ phaseOf s k = some .running then
    upd s k (fun v => { v with phase := .ended, prev := none })
  else s

/-- src/option.rs:589-603, called from `ready_serve` (src/wmcore.rs:217): the server of the tunnel cannot be reached;
    `process::exit(1)` -/
def abort (s : St α) (k : Nat) : St α :=
  if phaseOf s k = some .starting then { s with exited := true } else s

/-- src/control/server.rs:199-207: the control server takes one message -/
def collect (s : St α) : St α :=
  if s.listening = true ∧ s.exited = false ∧ 0 < s.notices then
    { s with notices := s.notices - 1, count := s.count - 1, exited := decide (s.count - 1 ≤ 0) }
  else s

inductive Ev (α : Type) where
  | reload (parsed : Option α)
  | stop
  | now
  | ready (k : Nat)
  | fail (k : Nat)
  | begin_ (k : Nat)
  | close (k : Nat)
  | crash (k : Nat)
  | panic (k : Nat)
  | abort (k : Nat)
  | collect
deriving DecidableEq, Repr

/-- After the control server has returned, or the process was made to exit, nothing happens any more; requests need the control port. -/
def step (s : St α) (e : Ev α) : St α :=
  if s.exited then s
  else match e with
    | .reload p => if s.listening then reload s p else s
    | .stop => if s.listening then stop s else s
    | .now => if s.listening then now s else s
    | .ready k => ready s k
    | .fail k => fail s k
    | .begin_ k => begin_ s k
    | .close k => close s k
    | .crash k => crash s k
    | .panic k => panic s k
    | .abort k => abort s k
    | .collect => collect s

def run (s : St α) (evs : List (Ev α)) : St α := evs.foldl step s

end Wm.Control
