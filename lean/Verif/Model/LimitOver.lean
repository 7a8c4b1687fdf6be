import Verif.Model.Limit
/-! Request limiting with the overflows that `Verif/Model/Limit.lean` leaves out, and with the lock around all zones:
    src/data/limit_req_data.rs. The counter of a client (`nums += 1`, line 65) would need 2^64 requests to overflow and is taken
    as a natural number. `checked`: built with overflow checks. -/
namespace Wm.Limit
open Wm

/-- src/data/limit_req_data.rs:91 `100 * self.per`: `Duration` counts whole seconds in a `u64`, and its multiplication panics on
    overflow in every build (standard library). 50 * per (line 101) is only reached if this one fits. -/
def perFits (per : Nat) : Bool := 100 * per / 1000000000 < 2 ^ 64

/-- src/data/limit_req_data.rs:83-108 `try_remove_unuse`; `none` is a panic -/
def Zone.cleanupO (z : Zone) (now : Nat) : Option Zone :=
  if z.ips.length < z.limit / 10 then some z
  else if perFits z.per then some (z.cleanup now) else none

/-- src/data/limit_req_data.rs:117-123; `none` is a panic -/
def Zone.verdictO (checked : Bool) (z : Zone) (burst n : Nat) : Option Decision :=
  if n ≤ z.nums then some .ok
  else if checked ∧ 2 ^ 64 ≤ z.nums + burst then none
  else if n ≤ (z.nums + burst) % 2 ^ 64 then some (.delay z.per) else some .refuse

/-- src/data/limit_req_data.rs:110-128 `inner_recv_new_req`; `none` is a panic -/
def Zone.recvO (checked : Bool) (z0 : Zone) (r : Req) : Option (Zone × Decision) :=
  match z0.cleanupO r.time with
  | none => none
  | some z =>
    if z.ips.length ≥ z.limit then some (z, .refuse)
    else match get z.ips r.ip with
      | some v =>
        let v' := v.recv z.per r.time
        match z.verdictO checked r.burst v'.nums with
        | none => none
        | some d => some ({ z with ips := set z.ips r.ip v' }, d)
      | none => some ({ z with ips := z.ips ++ [(r.ip, ⟨r.time, 1⟩)] }, .ok)

/-- src/data/limit_req_data.rs:20-24: the zones and whether a panic while they were locked for writing has poisoned the lock
    (standard library) -/
structure Shared where
  zones : Zones
  poisoned : Bool
deriving DecidableEq, Repr

/-- a configuration is loaded, or a request to a location limited by `zone` comes -/
inductive Event where
  | load (key : Text) (limit nums per now : Nat)
  | ask (zone : Text) (r : Req)
deriving DecidableEq, Repr

/-- what the caller gets: `ended` is a panic of its task, `locked` the error "unlock error" -/
inductive Told where
  | loaded | decided (d : Decision) | ended | locked
deriving DecidableEq, Repr

/-- src/data/limit_req_data.rs:130-149 `cache`, `recv_new_req` -/
def Shared.step (checked : Bool) (s : Shared) : Event → Shared × Told
  | .load key limit nums per now =>
    if s.poisoned then (s, .locked) else ({ s with zones := s.zones.cache key limit nums per now }, .loaded)
  | .ask key r =>
    if s.poisoned then (s, .locked)
    else match s.zones.find? (fun e => e.1 == key) with
      | none => (s, .decided .ok)
      | some e => match e.2.recvO checked r with
        | none => ({ s with poisoned := true }, .ended)
        | some x => ({ s with zones := s.zones.map fun y => if y.1 = key then (y.1, x.1) else y }, .decided x.2)

/-- what the callers get, one after the other -/
def Shared.told (checked : Bool) (s : Shared) : List Event → List Told
  | [] => []
  | e :: es => (s.step checked e).2 :: (s.step checked e).1.told checked es

end Wm.Limit
