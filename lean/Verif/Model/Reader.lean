import Verif.Model.Prot
/-!
The decode loop shared by both tunnel ends: `loop { match Helper::decode_frame(&mut read_buf)? { … } }`
(src/streams/center_server.rs:166-225, src/streams/center_client.rs:186-293).
-/
namespace Wm.Prot
open Wm

theorem decodeFrame_shrinks {read rest : Bytes} {f : Frame}
    (h : decodeFrame read = (.ok (some f), rest)) : rest.length < read.length := by
  unfold decodeFrame at h
  split at h
  · simp at h
  · split at h
    · dsimp only at h
      split at h
      · simp at h
      · simp only [Prod.mk.injEq] at h
        rw [← h.2, List.length_drop]
        simp only [frameHeaderBytes] at *
        omega
    · simp at h
    · simp at h

/-- How one run of the decode loop ends: no whole message left, stopped by the handler (`break`), decode error
    (`?` leaves the task), or panic. -/
inductive PumpEnd where
  | more | stopped | err (e : Err) | panic
deriving DecidableEq, Repr

/-- Decode messages from the front of the buffer and hand each to `h` until no whole message is left or `h` stops. -/
def pump {σ : Type} (h : σ → Frame → σ × Bool) (st : σ) (buf : Bytes) : σ × Bytes × PumpEnd :=
  match hd : decodeFrame buf with
  | (.ok none, b) => (st, b, .more)
  | (.ok (some f), b) =>
    have : b.length < buf.length := decodeFrame_shrinks hd
    match h st f with
    | (st', true) => (st', b, .stopped)
    | (st', false) => pump h st' b
  | (.err e, b) => (st, b, .err e)
  | (.panic, b) => (st, b, .panic)
termination_by buf.length

/-- A reader that appends each received piece to its buffer (`read_buf.put_slice`) and then runs the decode loop;
    after an error or a stop no further pieces are looked at. -/
def feedAll {σ : Type} (h : σ → Frame → σ × Bool) : σ × Bytes × PumpEnd → List Bytes → σ × Bytes × PumpEnd
  | r, [] => r
  | (st, buf, .more), c :: cs => feedAll h (pump h st (buf ++ c)) cs
  | r, _ :: _ => r

/-- The reader that just collects the messages. -/
def collect (acc : List Frame) (f : Frame) : List Frame × Bool := (acc ++ [f], false)

/-- Everything a collecting reader has after receiving the given pieces. -/
def readChunks (chunks : List Bytes) : List Frame × Bytes × PumpEnd := feedAll collect ([], [], .more) chunks

end Wm.Prot
