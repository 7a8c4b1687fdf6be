import Verif.Model.Tunnel
/-!
The `select!` of a tunnel end, branch by branch (src/streams/center_server.rs:113-160,
src/streams/center_client.rs:153-198): `biased`, so the branches are polled in the order
new local streams, submitted messages, reading, writing; the first ready one is run and the loop starts again; when
none is ready the task sleeps until something wakes it. `Verif.Model.Tunnel` leaves this order out and lets the
environment choose any branch; here it is modelled, as a refinement.

Other tasks run on other threads, so they may act between two polls of the same `select!`.
The channel of new local streams has capacity 10 (center_server.rs:62, center_client.rs:73).
Simplification: a task whose send has to wait for room is represented by its send not having happened yet.
-/
namespace Wm.Select
open Wm Wm.Prot Wm.Tunnel

/-- what another task does -/
inductive Act where
  /-- `sender_work.send((ProtCreate::new(id, domain), stream_sender))` (src/trans/tcp.rs:70, src/trans/http.rs:114,
      center_client.rs:378-381) -/
  | work (id : Nat) (d : Option Text)
  /-- `sender.send(frame)` -/
  | submit (f : Frame)
  | take (h : Nat)
  | dropRx (h : Nat)
deriving DecidableEq, Repr

/-- what the connection answers when it is polled -/
inductive Answer where
  | pending
  | bytes (bs : Bytes)
  | closed
  | accepts (n : Nat)
  | broken
deriving DecidableEq, Repr

inductive Ev where
  | task (a : Act)
  | poll (r : Answer)
deriving DecidableEq, Repr

/-- the branch polled next -/
inductive Pc where
  | work | recv | read | write | asleep
deriving DecidableEq, Repr

structure St where
  tun : Tunnel.St
  works : List (Nat × Option Text)
  pc : Pc
  /-- the sends of other tasks, in the order in which they took effect -/
  log : List Act

def workCap : Nat := 10

/-- the loop is at its `select!` -/
def atSelect (t : Tunnel.St) : Bool := t.phase = .running && t.pending = none

/-- `T` is the effect of a completed branch or of another task (`serverStep` or `clientStep`) -/
def taskStep (T : Tunnel.St → Event → Tunnel.St) (s : St) : Act → St
  | .work id d =>
    if s.tun.phase = .running ∧ s.works.length < workCap then
      { s with works := s.works ++ [(id, d)], log := s.log ++ [.work id d] }
    else s
  | .submit f =>
    if s.tun.phase = .running ∧ s.tun.outq.length < outCap then
      { s with tun := T s.tun (.submit f), log := s.log ++ [.submit f] }
    else s
  | .take h => { s with tun := T s.tun (.take h) }
  | .dropRx h => { s with tun := T s.tun (.dropRx h) }

def pollStep (T : Tunnel.St → Event → Tunnel.St) (s : St) (r : Answer) : St :=
  match s.pc with
  | .work =>
    match s.works with
    | [] => { s with pc := .recv }
    | (id, d) :: w => { s with works := w, tun := T s.tun (.work id d) }
  | .recv => if s.tun.outq = [] then { s with pc := .read } else { s with tun := T s.tun .recv, pc := .work }
  | .read =>
    match r with
    | .bytes bs => { s with tun := T s.tun (.read bs), pc := .work }
    | .closed => { s with tun := T s.tun .readEnd, pc := .work }
    | _ => { s with pc := .write }
  | .write =>
    if s.tun.writeBuf = [] then { s with pc := .asleep }
    else match r with
      | .accepts n => { s with tun := T s.tun (.wrote n), pc := .work }
      | .broken => { s with tun := T s.tun .writeErr, pc := .work }
      | _ => { s with pc := .asleep }
  | .asleep => { s with pc := .work }

def step (T : Tunnel.St → Event → Tunnel.St) (s : St) : Ev → St
  | .task a => taskStep T s a
  | .poll r => if atSelect s.tun then pollStep T s r else s

def run (T : Tunnel.St → Event → Tunnel.St) (s0 : Tunnel.St) (evs : List Ev) : St :=
  evs.foldl (step T) ⟨s0, [], .work, []⟩

/-- every reachable state of a server end -/
def server (cfg : Cfg) (evs : List Ev) : St := run (serverStep cfg) (serverInit cfg) evs

/-- every reachable state of a client end during one connection -/
def client (cfg : Cfg) (q : List Frame) (evs : List Ev) : St := run (clientStep cfg) (clientInit cfg q) evs

end Wm.Select
