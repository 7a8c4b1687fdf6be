import Verif.Props.Tunnel
import Verif.Proofs.TunnelProgress
/-! What a tunnel end achieves step by step (C15, C18), announcing local streams (C92), bounded queues (C93). -/
namespace Wm.Tunnel
open Wm Wm.Prot

theorem serverRun_snoc (cfg : Cfg) (es : List Event) (e : Event) :
    serverRun cfg (es ++ [e]) = serverStep cfg (serverRun cfg es) e := by simp [serverRun]

theorem clientRun_snoc (cfg : Cfg) (q : List Frame) (es : List Event) (e : Event) :
    clientRun cfg q (es ++ [e]) = clientStep cfg (clientRun cfg q es) e := by simp [clientRun]

/-- **C15** (server) No message is skipped and no byte withheld: what is not yet accepted, or not yet written, is a
    definite rest; each turn of the loop that takes a submitted message accepts the first of the rest, and each write
    that the connection accepts `n` bytes of writes the next `n` bytes of the rest. -/
theorem C15_server_progress (cfg : Cfg) (es : List Event) (hi : Idle (serverRun cfg es)) (n : Nat) :
    (∃ rest, relayed (serverRun cfg es).trace ++ rest = submissions (serverRun cfg es).trace ∧
      relayed (serverRun cfg es).trace ++ rest.take 1 <+: relayed (serverRun cfg (es ++ [.recv])).trace) ∧
    (∃ rest, written (serverRun cfg es).trace ++ rest = (accepted (serverRun cfg es).trace).flatMap wire ∧
      written (serverRun cfg es).trace ++ rest.take n <+: written (serverRun cfg (es ++ [.wrote n])).trace) := by
  have hI := server_inv cfg es
  have hB := hI.2.2
  rw [serverRun_snoc, serverRun_snoc]
  exact ⟨⟨_, by simpa using hB.relay, recv_next (server_preserved cfg) hI hi⟩,
    ⟨_, hB.bytes, write_next (server_preserved cfg) hI hi n⟩⟩

/-- **C15** (client) -/
theorem C15_client_progress (cfg : Cfg) (q : List Frame) (es : List Event) (hi : Idle (clientRun cfg q es)) (n : Nat) :
    (∃ rest, relayed (clientRun cfg q es).trace ++ rest = q ++ submissions (clientRun cfg q es).trace ∧
      relayed (clientRun cfg q es).trace ++ rest.take 1 <+: relayed (clientRun cfg q (es ++ [.recv])).trace) ∧
    (∃ rest, written (clientRun cfg q es).trace ++ rest = (accepted (clientRun cfg q es).trace).flatMap wire ∧
      written (clientRun cfg q es).trace ++ rest.take n <+: written (clientRun cfg q (es ++ [.wrote n])).trace) := by
  have hI := client_inv cfg q es
  have hB := hI.2.2
  rw [clientRun_snoc, clientRun_snoc]
  exact ⟨⟨_, hB.relay, recv_next (client_preserved cfg _ q) hI hi⟩,
    ⟨_, hB.bytes, write_next (client_preserved cfg _ q) hI hi n⟩⟩

example : let s := serverRun ⟨none, none, []⟩ [.submit (.data 3 [1]), .submit (.data 5 [2]), .recv]
    Idle s ∧ relayed s.trace = [.data 3 [1]] ∧ submissions s.trace = [.data 3 [1], .data 5 [2]] ∧
    written s.trace = [] := by
  refine ⟨⟨by decide +kernel, by decide +kernel⟩, by decide +kernel⟩

/-- **C18** (both ends): when a loop that is not waiting for a slow stream finds the connection lost, every stream that
    owns its id is handed exactly one close carrying its id; a stream whose task lives and has less than 10 messages
    waiting gets it. -/
theorem C18_server_close_handed_over (cfg : Cfg) (es : List Event) (hi : Idle (serverRun cfg es)) (id h : Nat)
    (ho : owner (serverRun cfg es).trace id = some h) :
    ∃ u, (serverRun cfg (es ++ [.readEnd])).trace = (serverRun cfg es).trace ++ .connLost :: u ∧
      attempts h u = [.close id []] ∧
      (.rxGone h ∉ (serverRun cfg es).trace →
        (puts h (serverRun cfg es).trace).length < (received h (serverRun cfg es).trace).length + 10 →
        .put h (.close id []) ∈ u) := by
  rw [serverRun_snoc]
  exact lost_next (server_inv cfg es).1.1 hi ho

/-- **C18** (client) -/
theorem C18_client_close_handed_over (cfg : Cfg) (q : List Frame) (es : List Event) (hi : Idle (clientRun cfg q es))
    (id h : Nat) (ho : owner (clientRun cfg q es).trace id = some h) :
    ∃ u, (clientRun cfg q (es ++ [.readEnd])).trace = (clientRun cfg q es).trace ++ .connLost :: u ∧
      attempts h u = [.close id []] ∧
      (.rxGone h ∉ (clientRun cfg q es).trace →
        (puts h (clientRun cfg q es).trace).length < (received h (clientRun cfg q es).trace).length + 10 →
        .put h (.close id []) ∈ u) := by
  rw [clientRun_snoc]
  exact lost_next (client_inv cfg q es).1 hi ho

example : let s := serverRun ⟨none, none, []⟩ [.work 2 none, .work 4 none]
    Idle s ∧ owner s.trace 4 = some 1 ∧ .rxGone 1 ∉ s.trace ∧
    (puts 1 s.trace).length < (received 1 s.trace).length + 10 := by
  refine ⟨⟨by decide +kernel, by decide +kernel⟩, by decide +kernel⟩

/-- **C92** (server) A stream opened locally is registered under its id (replacing an older one of that id) and, before
    anything else is accepted for sending, announced to the peer with the requested name. -/
theorem C92_server_announces (cfg : Cfg) (es : List Event) (hi : Idle (serverRun cfg es)) (id : Nat) (d : Option Text) :
    ∃ pre k r, (serverRun cfg (es ++ [.work id d])).trace =
        (serverRun cfg es).trace ++ pre ++ .reg id k :: .queued false (.create id d) :: r ∧
      (pre = [] ∨ ∃ old, pre = [.hangup old]) := by
  rw [serverRun_snoc]
  exact work_next (server_preserved cfg) (server_inv cfg es) hi id d

/-- **C92** (client) -/
theorem C92_client_announces (cfg : Cfg) (q : List Frame) (es : List Event) (hi : Idle (clientRun cfg q es)) (id : Nat)
    (d : Option Text) :
    ∃ pre k r, (clientRun cfg q (es ++ [.work id d])).trace =
        (clientRun cfg q es).trace ++ pre ++ .reg id k :: .queued false (.create id d) :: r ∧
      (pre = [] ∨ ∃ old, pre = [.hangup old]) := by
  rw [clientRun_snoc]
  exact work_next (client_preserved cfg _ q) (client_inv cfg q es) hi id d

/-- **C93** (server) At every moment at most 10 messages have been put into a stream's channel and not taken out of it,
    and at most 100 submitted messages wait to be accepted. -/
theorem C93_server_bounded (cfg : Cfg) (es : List Event) (h : Nat) (hg : .rxGone h ∉ (serverRun cfg es).trace) :
    (puts h (serverRun cfg es).trace).length ≤ (received h (serverRun cfg es).trace).length + 10 ∧
    (submissions (serverRun cfg es).trace).length ≤ (relayed (serverRun cfg es).trace).length + 100 := by
  obtain ⟨hI, hb⟩ := server_bounded cfg es
  refine ⟨?_, ?_⟩
  · have hD := hI.1.1.1
    cases hr : ((serverRun cfg es).chan h).rx with
    | true =>
      rw [← (hD.open_ h hr).1, List.length_append]
      have := hb.streams h
      simp only [streamCap] at this
      omega
    | false =>
      by_cases hn : h < (serverRun cfg es).next
      · exact absurd ((hD.gone h hr).2 hn) hg
      · have := (hD.fresh h (by omega)).2
        have hp : puts h (serverRun cfg es).trace = [] := by
          cases hp : puts h (serverRun cfg es).trace with
          | nil => rfl
          | cons f t =>
            have hm : f ∈ puts h (serverRun cfg es).trace := by rw [hp]; simp
            obtain ⟨o, ho, hf⟩ := List.mem_filterMap.1 hm
            have := this o ho
            cases o <;> simp_all [Names]
        simp [hp]
  · have := congrArg List.length hI.2.2.relay
    simp only [List.length_append, List.length_nil] at this
    have := hb.out
    simp only [outCap] at this
    omega

/-- **C93** (client); an earlier connection leaves at most 100 messages, by the same bound -/
theorem C93_client_bounded (cfg : Cfg) (q : List Frame) (hq : q.length ≤ 100) (es : List Event) (h : Nat)
    (hg : .rxGone h ∉ (clientRun cfg q es).trace) :
    (puts h (clientRun cfg q es).trace).length ≤ (received h (clientRun cfg q es).trace).length + 10 ∧
    (q ++ submissions (clientRun cfg q es).trace).length ≤ (relayed (clientRun cfg q es).trace).length + 100 := by
  have hI := client_inv cfg q es
  have hb := client_bounded cfg q hq es
  refine ⟨?_, ?_⟩
  · have hD := hI.1.1
    cases hr : ((clientRun cfg q es).chan h).rx with
    | true =>
      rw [← (hD.open_ h hr).1, List.length_append]
      have := hb.streams h
      simp only [streamCap] at this
      omega
    | false =>
      by_cases hn : h < (clientRun cfg q es).next
      · exact absurd ((hD.gone h hr).2 hn) hg
      · have := (hD.fresh h (by omega)).2
        have hp : puts h (clientRun cfg q es).trace = [] := by
          cases hp : puts h (clientRun cfg q es).trace with
          | nil => rfl
          | cons f t =>
            have hm : f ∈ puts h (clientRun cfg q es).trace := by rw [hp]; simp
            obtain ⟨o, ho, hf⟩ := List.mem_filterMap.1 hm
            have := this o ho
            cases o <;> simp_all [Names]
        simp [hp]
  · rw [← hI.2.2.relay, List.length_append]
    have := hb.out
    simp only [outCap] at this
    omega

end Wm.Tunnel
