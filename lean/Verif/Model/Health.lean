import Verif.Model.Basic
/-! Health records and upstream selection: src/check/health.rs, src/reverse/upstream.rs.
    Times and durations are natural numbers (nanoseconds of the monotonic clock); several clock readings within one call
    are taken as one. The HashMap is a function. The lock is never poisoned. `A` is the type of socket addresses. -/
namespace Wm.Health
open Wm

/-- one second -/
def sec (n : Nat) : Nat := n * 1000000000

/-- src/check/health.rs:29-42 `HealthRecord` -/
structure Record where
  lastRequest : Option Nat
  lastRecord : Nat
  failTimeout : Nat
  fallTimes : Nat
  riseTimes : Nat
  failed : Bool
deriving DecidableEq, Repr

/-- src/check/health.rs:45-54 `HealthRecord::new` -/
def Record.new (failTimeout now : Nat) : Record := ⟨none, now, failTimeout, 0, 0, false⟩

/-- src/check/health.rs:56-60 `clear_status`, when the record is too old (165-167, 191-193) -/
def Record.fresh (r : Record) (now : Nat) : Record :=
  if now - r.lastRecord > r.failTimeout then { r with fallTimes := 0, riseTimes := 0, failed := false } else r

/-- src/check/health.rs:64-73 `HealthCheck` (`fail_timeout` in nanoseconds) -/
structure Check (A : Type) where
  failTimeout : Nat
  maxFails : Nat
  minRises : Nat
  map : A → Option Record

variable {A : Type} [DecidableEq A]

def Check.new (failTimeout maxFails minRises : Nat) : Check A := ⟨failTimeout, maxFails, minRises, fun _ => none⟩

/-- src/check/health.rs:25 the one instance of the program -/
def Check.global : Check A := .new (sec 60) 3 2

def Check.put (h : Check A) (a : A) (r : Record) : Check A :=
  { h with map := fun b => if b = a then some r else h.map b }

/-- src/check/health.rs:89-111 `check_can_request` -/
def Check.canRequest (h : Check A) (a : A) (interval now : Nat) : Check A × Bool :=
  match h.map a with
  | none => (h.put a { Record.new (sec 30) now with lastRequest := some now }, true)
  | some r =>
    let can := match r.lastRequest with
      | some i => decide (now - i > interval)
      | none => true
    (if can then h.put a { r with lastRequest := some now } else h, can)

/-- src/check/health.rs:114-128 `is_fall_down` -/
def Check.isDown (h : Check A) (a : A) (now : Nat) : Bool :=
  match h.map a with
  | none => false
  | some r => if now - r.lastRecord > r.failTimeout then false else r.failed

/-- src/check/health.rs:131-151 `check_fall_down` -/
def Check.checkDown (h : Check A) (a : A) (failTimeout falls rises now : Nat) : Bool :=
  match h.map a with
  | none => false
  | some r =>
    if now - r.lastRecord > failTimeout then false
    else if r.fallTimes ≥ falls then true
    else if r.riseTimes ≥ rises then false
    else r.failed

/-- src/check/health.rs:154-177 `add_fall_down` -/
def Check.fall (h : Check A) (a : A) (now : Nat) : Check A :=
  match h.map a with
  | none => h.put a { Record.new h.failTimeout now with fallTimes := 1 }
  | some r0 =>
    let r := r0.fresh now
    h.put a { r with lastRecord := now, fallTimes := r.fallTimes + 1, riseTimes := 0,
                     failed := if r.fallTimes + 1 ≥ h.maxFails then true else r.failed }

/-- src/check/health.rs:180-203 `add_rise_up` -/
def Check.rise (h : Check A) (a : A) (now : Nat) : Check A :=
  match h.map a with
  | none => h.put a { Record.new h.failTimeout now with riseTimes := 1 }
  | some r0 =>
    let r := r0.fresh now
    h.put a { r with lastRecord := now, riseTimes := r.riseTimes + 1, fallTimes := 0,
                     failed := if r.riseTimes + 1 ≥ h.minRises then false else r.failed }

/-- what happens to the records: an outcome for an address, or the question of the active check -/
inductive Op (A : Type) where
  | outcome (a : A) (time : Nat) (ok : Bool)
  | request (a : A) (time interval : Nat)
deriving Repr

def Check.step (h : Check A) : Op A → Check A
  | .outcome a t true => h.rise a t
  | .outcome a t false => h.fall a t
  | .request a t i => (h.canRequest a i t).1

def Check.run (h : Check A) (ops : List (Op A)) : Check A := ops.foldl Check.step h

/-! ### connecting -/

/-- what the network answers to one attempt; `hang` is no answer before the caller's time is over -/
inductive Answer where
  | ok | fail | hang
deriving DecidableEq, Repr

/-- one address of the list, with the time it is looked at, the answer it would give, and the time of the answer -/
structure Attempt (A : Type) where
  addr : A
  time : Nat
  answer : Answer
  done : Nat
deriving Repr

inductive Outcome (A : Type) where
  | connected (a : A)
  /-- none of the addresses worked (src/check/health.rs:237-242) -/
  | error
  /-- src/check/health.rs:256; the rest of the work is dropped -/
  | timedOut
deriving DecidableEq, Repr

/-- src/check/health.rs:206-243 `connect` under 247-259 `connect_timeout`: the records, the addresses tried, the result.
    (Without a time limit an attempt does not hang: the operating system ends it with a failure.) -/
def connect (h : Check A) : List (Attempt A) → Check A × List A × Outcome A
  | [] => (h, [], .error)
  | t :: ts =>
    if h.isDown t.addr t.time then connect h ts
    else match t.answer with
      | .ok => (h.rise t.addr t.done, [t.addr], .connected t.addr)
      | .fail =>
        let r := connect (h.fall t.addr t.done) ts
        (r.1, t.addr :: r.2.1, r.2.2)
      | .hang => (h, [t.addr], .timedOut)

/-! ### upstream groups -/

/-- src/reverse/upstream.rs:40-59 `SingleStreamConfig` -/
structure Server (A : Type) where
  addr : A
  weight : Nat
  failTimeout : Nat
  fallTimes : Nat
  riseTimes : Nat
deriving Repr

/-- src/reverse/upstream.rs:125-134 `new_simple` -/
def Server.simple (a : A) : Server A := ⟨a, 100, sec 60, 3, 2⟩

/-- src/reverse/upstream.rs:22-36 a server configured with its address only -/
def Server.default (a : A) : Server A := ⟨a, 100, sec 30, 2, 2⟩

/-- `u16` addition: panics with overflow checks, wraps without -/
def addU16 (checked : Bool) (a b : Nat) : Res Nat :=
  if a + b < 65536 then .ok (a + b) else if checked then .panic else .ok ((a + b) % 65536)

/-- src/reverse/upstream.rs:111-121 `calc_sum_weight` -/
def sumWeight (checked : Bool) (h : Check A) (now : Nat) : List (Server A) → Nat → Nat → Res (Nat × Nat)
  | [], sum, all => .ok (sum, all)
  | s :: ss, sum, all => do
    let sum ← if h.isDown s.addr now then .ok sum else addU16 checked sum s.weight
    let all ← addU16 checked all s.weight
    sumWeight checked h now ss sum all

/-- src/reverse/upstream.rs:86-98 (`usable` the test of 87-92) and 101-106 (`usable` always true): the loop -/
def choose (usable : Server A → Bool) : List (Server A) → Nat → Option A
  | [], _ => none
  | s :: ss, r =>
    if usable s then
      if r ≤ s.weight then some s.addr else choose usable ss (r - s.weight)
    else choose usable ss r

/-- src/reverse/upstream.rs:87-92 the test of the loop -/
def Check.usable (h : Check A) (now : Nat) (s : Server A) : Bool :=
  !h.checkDown s.addr s.failTimeout s.fallTimes s.riseTimes now

/-- src/reverse/upstream.rs:78-109 `get_server_addr`; `draw n` is the random number drawn by `gen_range(0..n)`, which
    panics for `n = 0` and is otherwise below `n` -/
def getServer (checked : Bool) (h : Check A) (now : Nat) (servers : List (Server A)) (draw : Nat → Nat) :
    Res (Option A) :=
  if servers.isEmpty then .ok none
  else do
    let s ← sumWeight checked h now servers 0 0
    if s.1 ≠ 0 then .ok (choose (h.usable now) servers (draw s.1))
    else if s.2 = 0 then .panic
    else .ok (choose (fun _ => true) servers (draw s.2))

end Wm.Health
