import Verif.Model.Control
/-!
Connections of visitors while services are started, replaced and stopped: the listeners of `Wm.Control`'s services with the
connections that the operating system keeps for them.

Each service has its own listeners; those of two services for the same address exist side by side (`set_reuse_port`,
src/helper.rs:101-105), and the operating system gives a new connection to one of them (its choice is an event). A connection waits at
its listener until the loop of the service takes it (src/wmcore.rs:260-345), and is then served by a task of its own
(src/reverse/http.rs:475, src/wmcore.rs:312, 335, 137, src/streams/center_server.rs:269, 289, 311, 328). When the task of a service ends,
its listeners are closed with it (src/control/server.rs:86-94, `proxy` is dropped), and the connections that wait there are reset by the
operating system. When the process ends, everything does.

Simplifications: a listener is opened somewhere in `ready_serve`, so connections may wait from the beginning of the start on; the
listeners of one service are taken together.
-/
namespace Wm.Control
open Wm

inductive Move (α : Type) where
  | ctl (e : Ev α)
  /-- the operating system gives the new connection `c` to a listener of service `k` -/
  | arrive (c k : Nat)
  /-- service `k` takes the connection that waits longest -/
  | take (k : Nat)
  /-- the task of connection `c` is done -/
  | done (c : Nat)
deriving DecidableEq, Repr

structure Conns (α : Type) where
  ctl : St α
  /-- connections waiting at the listeners of a service -/
  waiting : Nat → List Nat
  served : List Nat
  /-- reset, or ended with the process -/
  lost : List Nat

variable {α : Type}

/-- the listeners of service `k` do not exist any more -/
def shut (s : St α) (k : Nat) : Bool := s.exited || phaseOf s k == some .ended

/-- the listeners that do not exist any more lose their connections, the end of the process all of them -/
def sweep (s : Conns α) (c : St α) : Conns α :=
  { ctl := c
    waiting := fun k => if shut c k then [] else s.waiting k
    served := if c.exited then [] else s.served
    lost := s.lost ++ ((List.range c.svcs.length).filter (shut c)).flatMap s.waiting ++ if c.exited then s.served else [] }

def moveStep (s : Conns α) : Move α → Conns α
  | .ctl e => sweep s (step s.ctl e)
  | .arrive c k =>
    if k < s.ctl.svcs.length ∧ shut s.ctl k = false then
      { s with waiting := fun j => if j = k then s.waiting k ++ [c] else s.waiting j }
    else s
  | .take k =>
    if phaseOf s.ctl k = some .running ∧ s.ctl.exited = false then
      match s.waiting k with
      | [] => s
      | c :: cs => { s with waiting := fun j => if j = k then cs else s.waiting j, served := s.served ++ [c] }
    else s
  | .done c => { s with served := s.served.erase c }

def moves (s : Conns α) (ms : List (Move α)) : Conns α := ms.foldl moveStep s

/-- a process that has just started -/
def fresh (cfg : α) (listening : Bool) : Conns α := ⟨init cfg listening, fun _ => [], [], []⟩

end Wm.Control
