import Verif.Model.Control
/-!
The requests at the control port, one at a time: src/control/server.rs:99-145, 178-210. A request has the lock of the
`ControlServer` from its beginning to its end (line 103; the lock is a fair one), and so has the loop of the control server at each turn
(179-182, 194, 199). `/stop` sends its message while it has the lock (113-118): if a message is in the channel already, it waits, and
so does everyone else.

Simplifications: requests that wait to be accepted, to be read, or for the lock are one line, in the order of their arrival. A service
that takes a message ends in the same step.
-/
namespace Wm.Control
open Wm

/-- what a request asks for (by its path) -/
inductive Wish (α : Type) where
  | reload (parsed : Option α)
  | stop
  | now
  | other
deriving DecidableEq, Repr

structure Desk (α : Type) where
  ctl : St α
  /-- requests that wait for the lock -/
  line : List (Nat × Wish α)
  /-- a `/stop` that has the lock and waits -/
  stuck : Option Nat
  /-- the requests that were answered -/
  answers : List Nat
deriving DecidableEq, Repr

inductive Turn (α : Type) where
  | ask (id : Nat) (w : Wish α)
  /-- the first of the line gets the lock -/
  | serve
  /-- the `/stop` that waits can go on -/
  | unblock
  /-- a service does something -/
  | svc (e : Ev α)
  | collect
deriving DecidableEq, Repr

variable {α : Type}

/-- events of services -/
def isSvc : Ev α → Bool
  | .ready _ | .fail _ | .begin_ _ | .close _ | .crash _ | .panic _ | .abort _ => true
  | _ => false

def deskStep (s : Desk α) (t : Turn α) : Desk α :=
  if s.ctl.exited then s
  else match t with
    | .ask id w => if s.ctl.listening then { s with line := s.line ++ [(id, w)] } else s
    | .serve =>
      match s.stuck, s.line with
      | none, (id, w) :: rest =>
        match w with
        | .reload p => { s with ctl := step s.ctl (.reload p), line := rest, answers := s.answers ++ [id] }
        | .now => { s with ctl := step s.ctl .now, line := rest, answers := s.answers ++ [id] }
        | .other => { s with line := rest, answers := s.answers ++ [id] }
        | .stop =>
          if room s.ctl s.ctl.current then { s with ctl := step s.ctl .stop, line := rest, answers := s.answers ++ [id] }
          else { s with line := rest, stuck := some id }
      | _, _ => s
    | .unblock =>
      match s.stuck with
      | some id =>
        if room s.ctl s.ctl.current then { s with ctl := step s.ctl .stop, stuck := none, answers := s.answers ++ [id] } else s
      | none => s
    | .svc e => if isSvc e then { s with ctl := step s.ctl e } else s
    | .collect => if s.stuck = none then { s with ctl := step s.ctl .collect } else s

def deskRun (s : Desk α) (ts : List (Turn α)) : Desk α := ts.foldl deskStep s

/-- a process that has just started -/
def desk (cfg : α) (listening : Bool) : Desk α := ⟨init cfg listening, [], none, []⟩

end Wm.Control
