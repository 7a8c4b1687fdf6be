import Verif.Model.Life
import Verif.Props.Codec
import Verif.Props.TunnelProgress
/-! Messages over several connections of a tunnel client (C95). -/
namespace Wm.Tunnel
open Wm Wm.Prot

/-- the messages accepted for sending over all connections, in order -/
def lifeSent (l : List (St × List Frame)) : List Frame := l.flatMap fun x => relayed x.1.trace

/-- the messages submitted during and between all connections, in order -/
def lifeSubmitted (l : List (St × List Frame)) : List Frame := l.flatMap fun x => submissions x.1.trace ++ x.2

/-- **C95**, partial: over all connections of a client together, messages are accepted for sending in the order in which
    they were submitted, none twice and none left out. Missing: a message submitted during one connection may be sent
    on a later one, see `C95_stale_message_fails`. -/
theorem C95_in_order_at_most_once_partial (cfg : Cfg) (q : List Frame) (cs : List (List Event × List Frame)) :
    lifeSent (life cfg q cs) <+: q ++ lifeSubmitted (life cfg q cs) := by
  induction cs generalizing q with
  | nil => simp [life, lifeSent]
  | cons c cs ih =>
    obtain ⟨es, between⟩ := c
    have hB := (client_inv cfg q es).2.2.relay
    have key : ∀ l : List (St × List Frame),
        lifeSent l <+: (clientRun cfg q es).outq ++ between.take (outCap - (clientRun cfg q es).outq.length) ++ lifeSubmitted l →
        lifeSent ((clientRun cfg q es, between.take (outCap - (clientRun cfg q es).outq.length)) :: l) <+:
          q ++ lifeSubmitted ((clientRun cfg q es, between.take (outCap - (clientRun cfg q es).outq.length)) :: l) := by
      intro l hl
      have e1 : lifeSent ((clientRun cfg q es, between.take (outCap - (clientRun cfg q es).outq.length)) :: l)
          = relayed (clientRun cfg q es).trace ++ lifeSent l := rfl
      have e2 : lifeSubmitted ((clientRun cfg q es, between.take (outCap - (clientRun cfg q es).outq.length)) :: l)
          = submissions (clientRun cfg q es).trace ++ between.take (outCap - (clientRun cfg q es).outq.length)
            ++ lifeSubmitted l := rfl
      rw [e1, e2, ← List.append_assoc, ← List.append_assoc, ← hB, List.append_assoc, List.append_assoc,
        List.prefix_append_right_inj, ← List.append_assoc]
      exact hl
    unfold life
    dsimp only
    split
    · exact key _ (ih _)
    · exact key _ (ih _)
    · exact key [] (by simp [lifeSent])

/-- two connections; the second message waits when the first connection breaks -/
example : let l := life ⟨none, none, []⟩ [] [([.submit (.data 3 [1]), .recv, .submit (.data 3 [2]), .readEnd], [.close 3 []]),
      ([.recv, .recv], [])]
    l.length = 2 ∧ lifeSent l = [.data 3 [1], .data 3 [2], .close 3 []] := by
  decide +kernel

/-- **C95** fails: a data message left over from a broken connection is sent on the next one, although no task submitted
    anything there; and if the server has given the same id to a new visitor on that connection, the visitor receives
    bytes that belong to somebody else. For every id and every payload that can be sent at all. -/
theorem C95_stale_message_fails (id : Nat) (bs : Bytes) (hf : Fits (.data id bs)) :
    let open_ : Cfg := ⟨none, none, []⟩
    let l := life open_ [] [([.submit (.data id bs), .readEnd], []), ([.recv, .wrote (wire (.data id bs)).length], [])]
    ∃ s1 s2, l = [(s1, []), (s2, [])] ∧ s1.phase = .ended ∧ submissions s2.trace = [] ∧
      written s2.trace = wire (.data id bs) ∧
      received 0 (serverRun open_ [.work id none, .read (written s2.trace), .take 0]).trace = [.data id bs] := by
  intro open_ l
  have hdn : decodeFrame [] = (.ok none, []) := by decide
  have hd : decodeFrame (wire (.data id bs)) = (.ok (some (.data id bs)), []) := by
    have := (C01_frame_roundtrip (.data id bs) hf [] []).2
    simpa [asReceived] using this
  have hne : wire (.data id bs) ≠ [] := by
    intro h
    have := wire_length hf.1
    rw [h] at this; simp at this; omega
  have h1 : clientRun open_ [] [.submit (.data id bs), .readEnd] =
      { clientBlank [] with outq := [.data id bs], trace := [.submitted (.data id bs), .connLost], phase := .ended } := by
    simp [clientRun, clientInit, open_, clientBlank, clientStep, step, outCap, emit, closeAll, finish]
  have h2 : (clientRun open_ [.data id bs] [.recv, .wrote (wire (.data id bs)).length]).trace =
      [.queued true (.data id bs), .wrote (wire (.data id bs))] := by
    have he : ((Frame.data id bs).encode []).buf = wire (.data id bs) := by simpa using encode_append (.data id bs) []
    have hr : resume (clientHandle open_) (enqueue (.data id bs) (clientBlank []) true) =
        enqueue (.data id bs) (clientBlank []) true := by
      unfold resume
      simp [enqueue, emit, clientBlank, pump_none _ _ hdn]
    have hs1 : clientStep open_ (clientInit open_ [.data id bs]) .recv = enqueue (.data id bs) (clientBlank []) true := by
      rw [← hr]
      simp [clientStep, step, clientInit, open_, clientBlank]
    have hw : (enqueue (.data id bs) (clientBlank []) true).writeBuf = wire (.data id bs) := he
    simp only [clientRun, List.foldl_cons, List.foldl_nil, hs1]
    simp only [clientStep, step]
    rw [if_pos ⟨rfl, rfl⟩, hw, if_neg hne]
    simp only [List.take_length, List.drop_length]
    rw [if_neg (by simp [enqueue, emit, clientBlank])]
    unfold resume
    simp [emit, enqueue, clientBlank, pump_none _ _ hdn]
  refine ⟨clientRun open_ [] [.submit (.data id bs), .readEnd],
    clientRun open_ [.data id bs] [.recv, .wrote (wire (.data id bs)).length], ?_, ?_, ?_, ?_, ?_⟩
  · show life _ _ _ = _
    unfold life
    have hp : (clientRun open_ [] [.submit (.data id bs), .readEnd]).phase = .ended := by rw [h1]
    have hq : (clientRun open_ [] [.submit (.data id bs), .readEnd]).outq = [.data id bs] := by rw [h1]
    simp only [hp, hq, List.take_nil, List.append_nil]
    unfold life
    simp only [List.take_nil]
    congr 2
    split
    · rfl
    · rfl
    · rfl
  · rw [h1]
  · rw [h2]; rfl
  · rw [h2]; simp [written]
  · have hwr : written (clientRun open_ [.data id bs] [.recv, .wrote (wire (.data id bs)).length]).trace
        = wire (.data id bs) := by rw [h2]; simp [written]
    rw [hwr]
    have hlive : Live (serverRun open_ [.work id none]) ∧ (serverRun open_ [.work id none]).readBuf = [] ∧
        lookup id (serverRun open_ [.work id none]).map = some 0 ∧
        (serverRun open_ [.work id none]).chan 0 = ⟨[], true, true⟩ ∧ (serverRun open_ [.work id none]).verify = true ∧
        received 0 (serverRun open_ [.work id none]).trace = [] := by
      simp [serverRun, serverInit, open_, serverStep, step, resume, register, enqueue, emit, setChan, lookup,
        pump_none _ _ hdn, Live, received]
    obtain ⟨⟨l1, l2, l3⟩, hrb, hlk, hch, hv, hrec⟩ := hlive
    have hrun : serverRun open_ [.work id none, .read (wire (.data id bs)), .take 0] =
        serverStep open_ (serverStep open_ (serverRun open_ [.work id none]) (.read (wire (.data id bs)))) (.take 0) := rfl
    rw [hrun]
    generalize serverRun open_ [.work id none] = s at *
    have hs2 : (serverStep open_ s (.read (wire (.data id bs)))).trace =
        s.trace ++ [.arrived (wire (.data id bs)), .got (.data id bs), .put 0 (.data id bs)] ∧
        (serverStep open_ s (.read (wire (.data id bs)))).chan 0 = ⟨[.data id bs], true, true⟩ ∧
        (serverStep open_ s (.read (wire (.data id bs)))).pending = none := by
      simp [serverStep, step, l1, l2, l3, resume, emit, hrb, pump_some _ _ hd, pump_none _ _ hdn, serverHandle, loginNow,
        hv, hlk, sendAwait, hch, streamCap, putChan, setChan]
    obtain ⟨t1, t2, t3⟩ := hs2
    generalize serverStep open_ s (.read (wire (.data id bs))) = s2 at *
    simp [serverStep, step, t2, resumePending, emit, setChan, t3, t1, received, List.filterMap_append]
    simpa [received] using hrec

example : Fits (.data 2 [1, 2, 3]) := ⟨by simp [BodyFits], by unfold IdFits; decide⟩

end Wm.Tunnel
