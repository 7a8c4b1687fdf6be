import Verif.Model.Text
/-!
The command `stop` without arguments, and the pid file it goes by: src/arg.rs:412-424, 317-333, src/main.rs:16-25,
src/helper.rs:151-168.

All processes that run on the machine, those of this program (with the same pid file, as by default, src/option.rs:272-274) and others;
a number may be used again after its process has ended. A process of this program writes its number at the start (main.rs:20) and
removes the file, if it holds its own number, when serving has returned properly (main.rs:22-23); there is no signal handler in the
program, and `process::exit` (src/option.rs:593, 601), the `?` of line 22 and a panic pass line 23 by.

Simplifications: writing the file, and removing it, is one step each (see `Verif.Model.Helper` for the steps in between).
-/
namespace Wm.PidFile
open Wm

/-- `live`: the processes, in the order of their start, and whether they are of this program; `hit`: the processes to which `stop` sent
    its signal -/
structure St where
  live : List (Nat × Bool)
  file : Option Text
  hit : List (Nat × Bool)
deriving DecidableEq, Repr

inductive Event where
  /-- a process of this program starts; the operating system gives it a number that is free -/
  | start (p : Nat)
  /-- another process starts -/
  | other (p : Nat)
  /-- serving returns properly in a process of this program -/
  | quit (p : Nat)
  /-- a process of this program ends otherwise: by `exit`, a panic or a signal -/
  | die (p : Nat)
  /-- another process ends -/
  | ends (p : Nat)
  /-- somebody runs the command `stop` -/
  | stop
deriving DecidableEq, Repr

def init : St := ⟨[], none, []⟩

def free (s : St) (p : Nat) : Bool := !s.live.any (fun e => e.1 == p)

/-- `kill -TERM id` (src/arg.rs:327-330): the process of this number gets the signal; one of this program ends at once -/
def kill (s : St) (id : Text) : St :=
  match s.live.find? (fun e => showNat e.1 == id) with
  | none => s
  | some e => { s with live := if e.2 then s.live.filter (fun x => x.1 != e.1) else s.live, hit := s.hit ++ [e] }

def step (s : St) : Event → St
  | .start p => if free s p then { s with live := s.live ++ [(p, true)], file := some (showNat p) } else s
  | .other p => if free s p then { s with live := s.live ++ [(p, false)] } else s
  | .quit p =>
    if (p, true) ∈ s.live then
      { s with live := s.live.filter (fun x => x.1 != p), file := if s.file = some (showNat p) then none else s.file }
    else s
  | .die p => if (p, true) ∈ s.live then { s with live := s.live.filter (fun x => x.1 != p) } else s
  | .ends p => if (p, false) ∈ s.live then { s with live := s.live.filter (fun x => x.1 != p) } else s
  | .stop =>
    match s.file with
    | none => s
    | some id => if id = [] then s else kill s id

def run (es : List Event) : St := es.foldl step init

end Wm.PidFile
