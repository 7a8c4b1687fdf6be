import Verif.Model.Types
/-!
Model of the list of addresses to be health-checked: src/option.rs:705-757.
Only the parts of the configuration that name upstream addresses are kept.
-/
namespace Wm.HealthList
open Wm

/-- src/reverse/upstream.rs:61-68 `UpstreamConfig` (weights and status of the servers left out) -/
structure Group where
  name : Text
  bind : Text
  server : List SockAddr
deriving DecidableEq, Repr

/-- src/reverse/location.rs:49: a location may have its own upstream groups -/
structure Location where
  upstream : List Group

/-- src/reverse/server.rs:56 -/
structure Server where
  upstream : List Group
  location : List Location

/-- src/reverse/http.rs:95 -/
structure Http where
  upstream : List Group
  server : List Server

/-- src/reverse/stream.rs:47 and its servers (src/reverse/server.rs:56 again; their locations are not used) -/
structure Stream where
  upstream : List Group
  server : List Server

/-- src/option.rs `ConfigOption`: the two parts used -/
structure Config where
  http : Option Http
  stream : Option Stream

/-- src/check/active.rs:26-35 `OneHealth`, without the time of the last check -/
structure OneHealth where
  addr : SockAddr
  method : Text
  seconds : Nat
deriving DecidableEq, Repr

/-- src/option.rs:714-724: the loop over the servers of one group; state: result, already -/
def addServers (st : List OneHealth × List SockAddr) : List SockAddr → List OneHealth × List SockAddr
  | [] => st
  | a :: r =>
    if a ∈ st.2 then addServers st r
    else addServers (st.1 ++ [⟨a, "http".toList, 1⟩], a :: st.2) r

/-- src/option.rs:705-726 `try_add_upstream` -/
def tryAdd (st : List OneHealth × List SockAddr) : List Group → List OneHealth × List SockAddr
  | [] => st
  | g :: r => if g.bind = "udp".toList then tryAdd st r else tryAdd (addServers st g.server) r

/-- src/option.rs:744-746, 751-753: the loop over the servers -/
def addAll (st : List OneHealth × List SockAddr) : List Server → List OneHealth × List SockAddr
  | [] => st
  | s :: r => addAll (tryAdd st s.upstream) r

/-- src/option.rs:742-747 -/
def addHttp (st : List OneHealth × List SockAddr) : Option Http → List OneHealth × List SockAddr
  | none => st
  | some h => addAll (tryAdd st h.upstream) h.server

/-- src/option.rs:749-754 -/
def addStream (st : List OneHealth × List SockAddr) : Option Stream → List OneHealth × List SockAddr
  | none => st
  | some h => addAll (tryAdd st h.upstream) h.server

/-- src/option.rs:729-757 `get_health_check` -/
def getHealthCheck (c : Config) : List OneHealth := (addStream (addHttp ([], []) c.http) c.stream).1

end Wm.HealthList
