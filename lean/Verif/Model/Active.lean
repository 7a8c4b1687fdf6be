import Verif.Model.Health
/-! The loop of the active health check: src/check/active.rs:60-147. Times are natural numbers (nanoseconds); the time a
    record starts with (`now - interval`, active.rs:40) may lie before the origin, so it is an integer. The HTTP exchange
    itself (active.rs:43-59) is external: its outcome is a parameter. -/
namespace Wm.Health
open Wm

variable {A : Type} [DecidableEq A]

/-- src/check/active.rs:26-35 `OneHealth` -/
structure One (A : Type) where
  addr : A
  http : Bool
  interval : Nat
  last : Int
deriving DecidableEq, Repr

/-- src/check/active.rs:39-41 `OneHealth::new` at time `now` -/
def One.new (a : A) (http : Bool) (interval now : Nat) : One A := ⟨a, http, interval, (now : Int) - interval⟩

/-- what came back for one check: a response with its status, or nothing usable (error, timeout) -/
inductive Reply where
  | status (code : Nat)
  | broken
  | late
deriving DecidableEq, Repr

/-- src/check/active.rs:65-104: is this outcome recorded as a success? -/
def Reply.good (http : Bool) : Reply → Bool
  | .status c => if http then !(decide (500 ≤ c ∧ c < 600)) else true
  | .broken => false
  | .late => false

/-- src/check/active.rs:60-106 `do_check`: asked at `now`, answered at `done` with `r`; the flag says if a request was made -/
def doCheck (h : Check A) (o : One A) (now done : Nat) (r : Reply) : Check A × Bool :=
  let q := h.canRequest o.addr o.interval now
  if q.2 then (if r.good o.http then q.1.rise o.addr done else q.1.fall o.addr done, true) else (q.1, false)

/-- src/check/active.rs:136-142: is a check of this entry started at `now`; the entry afterwards -/
def One.tick (o : One A) (now : Nat) : One A × Bool :=
  if (now : Int) - o.last > o.interval then ({ o with last := now }, true) else (o, false)

/-- src/check/active.rs:124-143: one turn of the loop; `recv` is a list received since the last turn. The second
    component is the list of entries for which a check is spawned. -/
def turn (l : List (One A)) (recv : Option (List (One A))) (now : Nat) : List (One A) × List (One A) :=
  let l := recv.getD l
  (l.map fun o => (o.tick now).1, l.filterMap fun o => if (o.tick now).2 then some (o.tick now).1 else none)

end Wm.Health
