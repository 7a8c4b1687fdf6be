import Verif.Model.Tunnel
/-!
How a tunnel client comes back after its connection was lost: the task of `CenterClient::serve`
(src/streams/center_client.rs:310-358), with the time that passes.

The first connection has been made when the task begins (center_client.rs:114-124, called first by src/wmcore.rs). A
connection ends when `inner_serve` returns, with or without an error (`let _ =`); then the task sleeps 1000 ms and connects;
when that fails it sleeps 1000 ms and connects again. A panic inside `inner_serve` ends the task: nothing connects any more.
Simplifications: time is counted in milliseconds, and a step of the task takes no time of its own; `inner_connect`
(center_client.rs:92-112) is one event, the answer, that may come at any time or never (whether it contacts the server
at all is decided by the health records, see `Verif.Model.Contact`); the channel of new local streams is
left out, as in `Verif.Model.Life`.
-/
namespace Wm.Redial
open Wm Wm.Prot

/-- what the task does, as seen from outside -/
inductive Act where
  /-- a millisecond passes -/
  | ms
  /-- the connection has ended -/
  | lost
  /-- the task begins to connect (calls `inner_connect`) -/
  | dialed
  /-- connecting failed -/
  | refused
  /-- there is a new connection -/
  | connected
deriving DecidableEq, Repr

/-- where the task is; the messages are those in the channel of submitted messages, which outlives the connection -/
inductive Place where
  /-- `inner_serve(..).await` -/
  | serving (s : Tunnel.St)
  /-- `tokio::time::sleep(Duration::from_millis(1000)).await`, so many milliseconds are left -/
  | sleeping (left : Nat) (q : List Frame)
  /-- `inner_connect(..).await` -/
  | dialing (q : List Frame)
  /-- the task has panicked; the last state of its connection -/
  | gone (s : Tunnel.St)

structure St where
  at_ : Place
  trace : List Act

inductive Event where
  /-- something happens on the connection -/
  | tun (e : Tunnel.Event)
  /-- a millisecond passes -/
  | tick
  /-- the connection that was tried came about, or did not -/
  | answered (ok : Bool)
  /-- a task submits a message while there is no connection -/
  | submit (f : Frame)
deriving DecidableEq, Repr

/-- center_client.rs:336, 347, 356 -/
def pause : Nat := 1000

/-- `inner_serve` goes on, has returned, or has panicked -/
def settle (s : St) (t : Tunnel.St) : St :=
  match t.phase with
  | .running | .stuck => { s with at_ := .serving t }
  | .ended | .failed _ => ⟨.sleeping pause t.outq, s.trace ++ [.lost]⟩
  | .panicked => { s with at_ := .gone t }

/-- center_client.rs:321-358 -/
def step (cfg : Tunnel.Cfg) (s : St) : Event → St
  | .tun e =>
    match s.at_ with
    | .serving t => settle s (Tunnel.clientStep cfg t e)
    | _ => s
  | .tick =>
    match s.at_ with
    | .sleeping n q =>
      if n ≤ 1 then ⟨.dialing q, s.trace ++ [.ms, .dialed]⟩ else ⟨.sleeping (n - 1) q, s.trace ++ [.ms]⟩
    | _ => { s with trace := s.trace ++ [.ms] }
  | .answered ok =>
    match s.at_ with
    | .dialing q =>
      if ok then settle { s with trace := s.trace ++ [.connected] } (Tunnel.clientInit cfg q)
      else ⟨.sleeping pause q, s.trace ++ [.refused]⟩
    | _ => s
  | .submit f =>
    match s.at_ with
    | .sleeping n q => if q.length < Tunnel.outCap then { s with at_ := .sleeping n (q ++ [f]) } else s
    | .dialing q => if q.length < Tunnel.outCap then { s with at_ := .dialing (q ++ [f]) } else s
    | _ => s

/-- the task begins with a connection -/
def init (cfg : Tunnel.Cfg) : St := settle ⟨.dialing [], [.connected]⟩ (Tunnel.clientInit cfg [])

def run (cfg : Tunnel.Cfg) (es : List Event) : St := es.foldl (step cfg) (init cfg)

end Wm.Redial
