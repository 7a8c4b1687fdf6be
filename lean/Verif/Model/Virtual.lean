import Verif.Model.Prot
/-!
`VirtualStream` (src/streams/virtual_stream.rs): a stream of the tunnel seen as a byte stream by a local task.
One event is one poll by the local task, or an action of the tunnel end. What `poll_recv` sees is the modelled
channel; the outcome of `PollSender::poll_reserve` (tokio-util) is chosen by the environment.
-/
namespace Wm.Virtual
open Wm Wm.Prot

inductive Obs where
  /-- the tunnel end put a message into the stream's channel -/
  | arrived (f : Frame)
  /-- a read returned these bytes (at least one, unless the buffer was empty) -/
  | returned (bs : Bytes)
  /-- a read reported the end of input -/
  | eof
  /-- a read had to wait -/
  | readWait
  /-- bytes offered to a write -/
  | offered (bs : Bytes)
  /-- the write reported all offered bytes as accepted -/
  | accepted (bs : Bytes)
  /-- the write had to wait: the caller must offer the bytes again -/
  | writeWait
  /-- a message was handed over to the tunnel -/
  | sent (f : Frame)
  /-- a flush reported success / had to wait -/
  | flushed | flushWait
deriving DecidableEq, Repr

structure St where
  id : Nat
  /-- messages in `self.receiver` -/
  inbox : List Frame
  /-- all senders of `self.receiver` are gone -/
  closed : Bool
  read : Bytes
  write : Bytes
  trace : List Obs

/-- outcome of `self.sender.poll_reserve` -/
inductive Slot where
  | ready | wait | closed
deriving DecidableEq, Repr

inductive Event where
  | arrive (f : Frame)
  | close
  /-- `poll_read` with a buffer of `n` bytes -/
  | read (n : Nat)
  /-- `poll_write` -/
  | write (bs : Bytes) (o : Slot)
  /-- `poll_flush` -/
  | flush (o : Slot)
deriving DecidableEq, Repr

def emit (o : Obs) (s : St) : St := { s with trace := s.trace ++ [o] }

/-- virtual_stream.rs:87-92 -/
def copyOut (n : Nat) (s : St) : St :=
  emit (.returned (s.read.take n)) { s with read := s.read.drop n }

/-- virtual_stream.rs:57-95; the loop takes one message per turn -/
def pollRead (n : Nat) (s : St) : St :=
  match h : s.inbox with
  | [] =>
    if s.closed then emit .eof s
    else if s.read = [] then emit .readWait s
    else copyOut n s
  | f :: rest =>
    let s1 := { s with inbox := rest }
    match f with
    | .close .. | .create .. => emit .eof s1
    | .data _ d =>
      let s2 := { s1 with read := s1.read ++ d }
      if s2.read = [] then pollRead n s2 else copyOut n s2
    | _ => if s1.read = [] then pollRead n s1 else copyOut n s1
termination_by s.inbox.length
decreasing_by all_goals simp_all

/-- virtual_stream.rs:102-117. After `poll_reserve` was ready `send_item` cannot fail. -/
def pollWrite (bs : Bytes) (o : Slot) (s : St) : St :=
  let s1 := emit (.offered bs) { s with write := s.write ++ bs }
  match o with
  | .wait | .closed => emit .writeWait s1
  | .ready => emit (.accepted bs) (emit (.sent (.data s1.id s1.write)) { s1 with write := [] })

/-- virtual_stream.rs:119-134 -/
def pollFlush (o : Slot) (s : St) : St :=
  if s.write = [] then emit .flushed s
  else match o with
    | .wait | .closed => emit .flushWait s
    | .ready => emit .flushed (emit (.sent (.data s.id s.write)) { s with write := [] })

def step (s : St) : Event → St
  | .arrive f => if s.closed then s else emit (.arrived f) { s with inbox := s.inbox ++ [f] }
  | .close => { s with closed := true }
  | .read n => pollRead n s
  | .write bs o => pollWrite bs o s
  | .flush o => pollFlush o s

/-- virtual_stream.rs:43-51 -/
def init (id : Nat) : St := ⟨id, [], false, [], [], []⟩

def run (id : Nat) (es : List Event) : St := es.foldl step (init id)

end Wm.Virtual
