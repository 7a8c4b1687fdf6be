import Verif.Model.Tunnel
/-!
The life of a tunnel client over several connections: `CenterClient::serve` (src/streams/center_client.rs:310-358).
The channel of submitted messages is created once (center_client.rs:72) and handed to every connection, so what one
connection did not take is there for the next one; tasks go on submitting while there is no connection.
A connection ends by `Ok` or an error (both ignored, `let _ =`); a panic ends the task that reconnects, a client stuck
in its own queue stays stuck.
Simplification: the channel of new local streams, kept likewise, is left out; a submission that finds the channel full
is represented by not having happened yet.
-/
namespace Wm.Tunnel
open Wm Wm.Prot

/-- Connections one after the other: the events of each, and the messages tasks want to submit after it. Returns the
    final state of each connection together with the messages submitted after it. -/
def life (cfg : Cfg) : List Frame → List (List Event × List Frame) → List (St × List Frame)
  | _, [] => []
  | q, (es, between) :: rest =>
    let s := clientRun cfg q es
    let took := between.take (outCap - s.outq.length)
    (s, took) :: match s.phase with
      | .ended | .failed _ => life cfg (s.outq ++ took) rest
      | _ => []

end Wm.Tunnel
