import Verif.Model.Prot
/-!
`TransStream` (src/streams/trans_stream.rs): relays a local connection through the tunnel.
One event is one completed branch of the (unbiased) `select!`, or an action of the environment.
-/
namespace Wm.Relay
open Wm Wm.Prot

/-- Observable happenings at a relay. -/
inductive Obs where
  /-- bytes read from the local connection -/
  | input (bs : Bytes)
  /-- bytes accepted by the local connection -/
  | output (bs : Bytes)
  /-- a message received for the stream -/
  | got (f : Frame)
  /-- a message handed over to the tunnel -/
  | sent (f : Frame)
deriving DecidableEq, Repr

/-- `running`: in `inner_copy_wait`; `closing`: it has returned, the close is being sent (line 142); `done`. -/
inductive Phase where
  | running | closing | done
deriving DecidableEq, Repr

structure St where
  id : Nat
  /-- `self.read` -/
  read : Bytes
  /-- `self.write` -/
  write : Bytes
  /-- `link` -/
  link : List Frame
  /-- the tunnel end still receives on `in_sender` -/
  alive : Bool
  phase : Phase
  trace : List Obs

inductive Event where
  /-- `reader.read` returned bytes -/
  | read (bs : Bytes)
  /-- `reader.read` returned 0 or failed -/
  | readEnd
  /-- `writer.write` accepted `n` bytes -/
  | wrote (n : Nat)
  | writeErr
  /-- `out_receiver.recv()` returned a message, or `None` -/
  | recv (f : Option Frame)
  /-- `in_sender.reserve()` / `sender.send()` completed: a slot of the queue became free, or the queue was closed -/
  | slot
  /-- the tunnel end closes the queue -/
  | gone
deriving DecidableEq, Repr

def emit (o : Obs) (s : St) : St := { s with trace := s.trace ++ [o] }

/-- trans_stream.rs:83-86, the head of the loop -/
def top (s : St) : St :=
  if s.read = [] then s else { s with link := s.link ++ [.data s.id s.read], read := [] }

/-- trans_stream.rs:88-134, one branch of the `select!` -/
def branch (s : St) : Event → St
  | .read bs => if bs = [] then { s with phase := .closing } else emit (.input bs) { s with read := s.read ++ bs }
  | .readEnd => { s with phase := .closing }
  | .wrote n =>
    if s.write = [] then s else emit (.output (s.write.take n)) { s with write := s.write.drop n }
  | .writeErr => if s.write = [] then s else { s with phase := .closing }
  | .recv (some f) =>
    let s := emit (.got f) s
    match f with
    | .close .. | .create .. => { s with phase := .closing }
    | .data _ d => { s with write := s.write ++ d }
    | _ => s
  | .recv none => { s with phase := .closing }
  | .slot =>
    match s.link with
    | [] => s
    | f :: l => if s.alive then emit (.sent f) { s with link := l } else { s with phase := .closing }
  | .gone => { s with alive := false }

/-- one event; when the loop has been left, only the close remains to be sent (trans_stream.rs:138-144) -/
def step (s : St) (e : Event) : St :=
  match s.phase with
  | .running => branch (top s) e
  | .closing =>
    match e with
    | .slot => if s.alive then emit (.sent (.close s.id [])) { s with phase := .done } else { s with phase := .done }
    | .gone => { s with alive := false }
    | _ => s
  | .done => s

/-- trans_stream.rs:52-66 -/
def init (id : Nat) : St := ⟨id, [], [], [], true, .running, []⟩

def run (id : Nat) (es : List Event) : St := es.foldl step (init id)

end Wm.Relay
