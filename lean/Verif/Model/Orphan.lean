import Verif.Model.Select
/-!
A tunnel end and those who may open streams through it. The channel of new local streams (`sender_work`,
src/streams/center_server.rs:50, 62, src/streams/center_client.rs:54, 73) has a sending end at the service that keeps the
tunnel end (`WMCore::center_servers`, `WMCore::center_client`: src/wmcore.rs:42-43), and at the server one at every
visitor that is being served (src/trans/tcp.rs:24, 44-75: `self` lives until the end of `process`; src/trans/http.rs:53, 151;
made at center_server.rs:265, 285, 307, 324). At the client the task of a local stream has none (center_client.rs:371-386).

The service ends when its configuration is replaced: `run_serve` returns (src/wmcore.rs:355-358) and the `WMCore` is dropped
with its tunnel ends (src/control/server.rs:86-94). The loop of a tunnel end is a task of its own
(center_server.rs:252-258, center_client.rs:321-362) and goes on. Once no sending end is left, `receiver_work.recv()` is ready
at once each time it is polled, with `None`, which the branch takes no notice of (center_server.rs:117-122,
center_client.rs:157-162).

Simplifications: after such an empty turn the decode loop runs too; the bytes kept hold no complete message
(`Wm.Tunnel.server_fed`, `client_fed`), so that it does nothing. The runtime makes a task that never sleeps pause now and then
by letting every branch of one turn seem not ready; the next turn begins with the first branch again, so that such a turn
changes nothing either.
-/
namespace Wm.Select
open Wm Wm.Prot Wm.Tunnel

/-- what happens around a tunnel end -/
inductive Move where
  | ev (e : Ev)
  /-- a visitor is accepted and given a sending end (only at the server) -/
  | visit
  /-- the task of a visitor has ended -/
  | leave
  /-- the service that keeps the tunnel end has ended -/
  | replaced
deriving DecidableEq, Repr

structure Owned where
  st : St
  /-- the service has not ended -/
  service : Bool
  visitors : Nat

/-- some sending end is left -/
def Owned.isOpen (s : Owned) : Bool := s.service || 0 < s.visitors

/-- one event at a tunnel end whose channel of new streams has no sending end any more -/
def orphanStep (T : Tunnel.St → Event → Tunnel.St) (s : St) : Ev → St
  | .task (.work _ _) => s
  | .poll r => if s.pc = .work ∧ s.works = [] then s else step T s (.poll r)
  | e => step T s e

def moveStep (T : Tunnel.St → Event → Tunnel.St) (s : Owned) : Move → Owned
  | .visit => if s.service then { s with visitors := s.visitors + 1 } else s
  | .leave => { s with visitors := s.visitors - 1 }
  | .replaced => { s with service := false }
  | .ev e => { s with st := if s.isOpen then step T s.st e else orphanStep T s.st e }

def moves (T : Tunnel.St → Event → Tunnel.St) (s0 : Tunnel.St) (ms : List Move) : Owned :=
  ms.foldl (moveStep T) ⟨⟨s0, [], .work, []⟩, true, 0⟩

/-- every reachable state of a server end -/
def serverMoves (cfg : Cfg) (ms : List Move) : Owned := moves (serverStep cfg) (serverInit cfg) ms

/-- every reachable state of a client end during one connection; at the client no task but the service can open streams -/
def clientMoves (cfg : Cfg) (q : List Frame) (ms : List Move) : Owned :=
  moves (clientStep cfg) (clientInit cfg q) (ms.filter (· ≠ .visit))

end Wm.Select
