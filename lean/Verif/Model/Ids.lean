import Verif.Model.Prot
/-! Allocation of stream ids. -/
namespace Wm.Tunnel
open Wm Wm.Prot

/-- the fields of an endpoint used by `calc_next_id`: `option.server_id` and `next_id`, both `u32` -/
structure IdGen where
  serverId : Nat
  nextId : Nat

/-- `CenterServer::new` (src/streams/center_server.rs:69) -/
def serverIds (serverId : Nat) : IdGen := ⟨serverId, 2⟩

/-- `CenterClient::new` (src/streams/center_client.rs:83) -/
def clientIds (serverId : Nat) : IdGen := ⟨serverId, 1⟩

/-- `calc_next_id` (center_server.rs:86-90, center_client.rs:365-369): the id handed out, and the new state -/
def IdGen.calcNextId (g : IdGen) : Nat × IdGen :=
  (calcSockMap g.serverId g.nextId, { g with nextId := (g.nextId + 2) % 2 ^ 32 })

/-- the id handed out by the `n`-th call (counting from 0) -/
def IdGen.nth (g : IdGen) : Nat → Nat
  | 0 => g.calcNextId.1
  | n + 1 => IdGen.nth g.calcNextId.2 n

end Wm.Tunnel
