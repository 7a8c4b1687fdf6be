import Verif.Model.Tunnel
/-!
A stream opened by the client and served by the proxy at the server (src/streams/center_server.rs:188-208): the server's
end of the tunnel, the proxy's task, which copies between its stream and a target (`copy_bidirectional`,
src/proxy/http.rs:226, src/proxy/socks5.rs:303), and a target that sends back what it receives. One event is one step of one of them.

Simplifications: the target (with the connection to it) holds at most `room` bytes that it has received and that were not
yet read back; `copy_bidirectional` (tokio) has one buffer of `cap` bytes for each direction, into which it reads whenever
there is room; a write to the stream that has to wait is tried again with the same bytes (that the code then sends bytes
twice is C23). Every other task may submit and take messages as it likes.
-/
namespace Wm.Ring
open Wm Wm.Prot

structure Cfg where
  server : Tunnel.Cfg
  /-- id of the stream, and number of its channel at the server -/
  id : Nat
  chan : Nat
  /-- size of the copy buffers -/
  cap : Nat
  room : Nat

structure St where
  srv : Tunnel.St
  /-- `VirtualStream::read`: bytes taken from the channel, not yet given to the reader (src/streams/virtual_stream.rs:36) -/
  read : Bytes
  /-- bytes to be written to the target -/
  out : Bytes
  /-- bytes the target has received and has to send back -/
  hold : Bytes
  /-- bytes read from the target, to be written to the stream -/
  inn : Bytes

inductive Event where
  /-- a step of the loop of the tunnel's end -/
  | loop (e : Tunnel.Event)
  /-- a step of another task -/
  | submit (f : Frame) | take (h : Nat) | dropRx (h : Nat)
  /-- the proxy's task reads from its stream -/
  | fetch
  /-- the target takes up to `n` bytes -/
  | give (n : Nat)
  /-- up to `n` bytes are read from the target -/
  | back (n : Nat)
  /-- the proxy's task writes to its stream -/
  | answer
deriving DecidableEq, Repr

/-- the steps of the loop itself (center_server.rs:115-162), as opposed to those of other tasks -/
def ofLoop : Tunnel.Event → Bool
  | .submit _ | .take _ | .dropRx _ => false
  | _ => true

def step (c : Cfg) (s : St) : Event → St
  | .loop e => if ofLoop e then { s with srv := Tunnel.serverStep c.server s.srv e } else s
  | .submit f => { s with srv := Tunnel.serverStep c.server s.srv (.submit f) }
  | .take h => if h = c.chan then s else { s with srv := Tunnel.serverStep c.server s.srv (.take h) }
  | .dropRx h => if h = c.chan then s else { s with srv := Tunnel.serverStep c.server s.srv (.dropRx h) }
  -- src/streams/virtual_stream.rs:57-95: one message per poll, then as many bytes as there is room for
  | .fetch =>
    if s.out.length < c.cap then
      match (s.srv.chan c.chan).q with
      | .data _ d :: _ =>
        { s with
          srv := Tunnel.serverStep c.server s.srv (.take c.chan)
          read := (s.read ++ d).drop (c.cap - s.out.length)
          out := s.out ++ (s.read ++ d).take (c.cap - s.out.length) }
      | [] =>
        { s with
          read := s.read.drop (c.cap - s.out.length)
          out := s.out ++ s.read.take (c.cap - s.out.length) }
      | _ => s
    else s
  | .give n =>
    let k := min n (c.room - s.hold.length)
    { s with
      out := s.out.drop k
      hold := s.hold ++ s.out.take k }
  | .back n =>
    let k := min n (c.cap - s.inn.length)
    { s with
      hold := s.hold.drop k
      inn := s.inn ++ s.hold.take k }
  -- src/streams/virtual_stream.rs:102-117
  | .answer =>
    if s.inn ≠ [] ∧ s.srv.phase = .running ∧ s.srv.outq.length < Tunnel.outCap then
      { s with
        srv := Tunnel.serverStep c.server s.srv (.submit (.data c.id s.inn))
        inn := [] }
    else s

def init (c : Cfg) : St := ⟨Tunnel.serverInit c.server, [], [], [], []⟩

def run (c : Cfg) (es : List Event) : St := es.foldl (step c) (init c)

end Wm.Ring
