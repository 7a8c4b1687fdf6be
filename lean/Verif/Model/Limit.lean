import Verif.Model.Text
/-! Request limiting: src/data/limit_req_data.rs.
    Times are natural numbers (nanoseconds of the monotonic clock). The several clock readings within one call are taken
    as one. The table (a HashMap) is a list of entries; `Verif/Props/Limit.lean` shows keys never repeat. Counters and
    products are natural numbers: `nums += 1` would need 2^64 requests, `nums + burst`, `100 * per` and `50 * per` are
    taken as not overflowing; `Verif/Model/LimitOver.lean` has them with overflow, and C174 says when both agree. -/
namespace Wm.Limit
open Wm

/-- src/data/limit_req_data.rs:41-45 -/
inductive Decision where
  | ok | refuse | delay (d : Nat)
deriving DecidableEq, Repr

/-- src/data/limit_req_data.rs:47-50 `InnerLimit` -/
structure Inner where
  last : Nat
  nums : Nat
deriving DecidableEq, Repr

/-- src/data/limit_req_data.rs:60-69 `recv_req` -/
def Inner.recv (v : Inner) (per now : Nat) : Inner :=
  ⟨now, if now - v.last > per then 1 else v.nums + 1⟩

/-- src/data/limit_req_data.rs:26-38 `LimitReqData` -/
structure Zone where
  ips : List (Text × Inner)
  limit : Nat
  nums : Nat
  per : Nat
  lastRemove : Nat
deriving DecidableEq, Repr

/-- src/data/limit_req_data.rs:73-81 `new`, at time `now` -/
def Zone.new (limit nums per now : Nat) : Zone := ⟨[], limit, nums, per, now⟩

/-- `ips.get(ip)` -/
def get (ips : List (Text × Inner)) (ip : Text) : Option Inner :=
  (ips.find? (fun e => e.1 == ip)).map Prod.snd

/-- writing through `ips.get_mut(ip)` -/
def set (ips : List (Text × Inner)) (ip : Text) (v : Inner) : List (Text × Inner) :=
  ips.map fun e => if e.1 = ip then (ip, v) else e

/-- src/data/limit_req_data.rs:83-108 `try_remove_unuse` -/
def Zone.cleanup (z : Zone) (now : Nat) : Zone :=
  if z.ips.length < z.limit / 10 then z
  else if now - z.lastRemove < 100 * z.per then z
  else { z with lastRemove := now, ips := z.ips.filter fun e => !(decide (now - e.2.last > 50 * z.per)) }

/-- src/data/limit_req_data.rs:117-123 -/
def Zone.verdict (z : Zone) (burst n : Nat) : Decision :=
  if n ≤ z.nums then .ok else if n ≤ z.nums + burst then .delay z.per else .refuse

/-- one request of a client: `inner_recv_new_req(ip, burst)` called at `time` -/
structure Req where
  ip : Text
  time : Nat
  burst : Nat
deriving DecidableEq, Repr

/-- src/data/limit_req_data.rs:110-128 `inner_recv_new_req` -/
def Zone.recv (z0 : Zone) (r : Req) : Zone × Decision :=
  let z := z0.cleanup r.time
  if z.ips.length ≥ z.limit then (z, .refuse)
  else match get z.ips r.ip with
    | some v =>
      let v' := v.recv z.per r.time
      ({ z with ips := set z.ips r.ip v' }, z.verdict r.burst v'.nums)
    | none => ({ z with ips := z.ips ++ [(r.ip, ⟨r.time, 1⟩)] }, .ok)

/-- the decisions on a sequence of requests -/
def Zone.decisions (z : Zone) : List Req → List (Req × Decision)
  | [] => []
  | r :: rs => (r, (z.recv r).2) :: (z.recv r).1.decisions rs

/-- the zone after a sequence of requests -/
def Zone.after (z : Zone) (rs : List Req) : Zone := rs.foldl (fun z r => (z.recv r).1) z

/-- src/data/limit_req_data.rs:20-24 `GLOBAL_LIMIT_REQ`; kept for the lifetime of the process -/
abbrev Zones := List (Text × Zone)

/-- src/data/limit_req_data.rs:130-139 `cache` (the lock is never poisoned) -/
def Zones.cache (zs : Zones) (key : Text) (limit nums per now : Nat) : Zones :=
  if zs.any (fun e => e.1 == key) then zs else zs ++ [(key, .new limit nums per now)]

/-- src/data/limit_req_data.rs:141-149 `recv_new_req` -/
def Zones.recv (zs : Zones) (key : Text) (r : Req) : Zones × Decision :=
  match zs.find? (fun e => e.1 == key) with
  | none => (zs, .ok)
  | some e => (zs.map fun x => if x.1 = key then (x.1, (e.2.recv r).1) else x, (e.2.recv r).2)

end Wm.Limit
