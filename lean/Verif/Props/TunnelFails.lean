import Verif.Props.Slow
import Verif.Props.Tunnel
import Verif.Proofs.TunnelHeld
/-! Failures of the tunnel's ends for all histories (C14, C17, C18). -/
namespace Wm.Tunnel
open Wm Wm.Prot
open scoped List

/-- when whole messages arrived, no part of a message waits to be completed -/
theorem client_idle {cfg : Cfg} {q : List Frame} {es : List Event} {fs : List Frame} (hf : ∀ f ∈ fs, Fits f)
    (ha : arrived (clientRun cfg q es).trace = fs.flatMap wire) (hl : (clientRun cfg q es).phase = .running) :
    (clientRun cfg q es).readBuf = [] := by
  have hS : Stream fs [] := ⟨hf, by intro p hp; rw [List.prefix_nil.1 hp]; unfold Complete; decide⟩
  have hL : Live (clientRun cfg q es) := ⟨hl, client_not_ready cfg q es, client_never_waits cfg q es⟩
  have h := client_at hS cfg q es
  have hp : arrived (clientRun cfg q es).trace <+: fs.flatMap wire ++ [] := by
    rw [ha, List.append_nil]; exact List.prefix_refl _
  obtain ⟨c, rest, e1, _, e3⟩ := h.1 hp
  have hc := h.2 hp hL
  rw [ha, e1, List.flatMap_append, List.append_cancel_left_eq] at e3
  cases rest with
  | nil => simpa using e3.symm
  | cons f rest =>
    refine absurd ?_ hc
    rw [← e3, List.flatMap_cons]
    exact complete_wire (hf f (by rw [e1]; simp)) _

/-- one whole message is read and dealt with -/
theorem client_one {cfg : Cfg} {q : List Frame} {es : List Event} (hl : (clientRun cfg q es).phase = .running)
    (hb : (clientRun cfg q es).readBuf = []) {f : Frame} (hf : Fits f) :
    clientRun cfg q (es ++ [.read (wire f)]) =
      { (clientHandle cfg (emit (.arrived (wire f)) { clientRun cfg q es with readBuf := wire f }) (asReceived f)).1 with
        readBuf := [] } := by
  have hstep : clientRun cfg q (es ++ [.read (wire f)]) = clientStep cfg (clientRun cfg q es) (.read (wire f)) := by
    simp [clientRun]
  have hd : decodeFrame (wire f) = (.ok (some (asReceived f)), []) := by
    have h := frame_roundtrip_any_id f hf.1 hf.2.1 [] []
    rw [wireId_fits hf.2, withId_self, List.append_nil] at h
    exact h.2
  have hp := client_never_waits cfg q es
  have hs := client_not_ready cfg q es
  rw [hstep]
  generalize clientRun cfg q es = s at *
  have he : pump (clientHandle cfg) (emit (.arrived (wire f)) { s with readBuf := wire f }) (wire f) =
      ((clientHandle cfg (emit (.arrived (wire f)) { s with readBuf := wire f }) (asReceived f)).1, [],
        if (clientHandle cfg (emit (.arrived (wire f)) { s with readBuf := wire f }) (asReceived f)).2 then .stopped
        else .more) := by
    rw [pump_some _ _ hd]
    split
    · rfl
    · exact pump_incomplete _ _ (by unfold Complete; decide)
  simp only [clientStep, step]
  rw [if_pos ⟨hl, hp⟩, hb, List.nil_append]
  unfold resume
  rw [if_pos ⟨hl, hs, hp⟩]
  dsimp only
  rw [show (emit (.arrived (wire f)) { s with readBuf := wire f }).readBuf = wire f from rfl, he]
  dsimp only
  split <;> first | rfl | (rename_i h; split at h <;> cases h)

theorem client_grows (cfg : Cfg) (q : List Frame) (es es' : List Event) :
    (clientRun cfg q es).trace <+: (clientRun cfg q (es ++ es')).trace := by
  have h := run_inv (client_preserved cfg (accepted (clientInit cfg q).trace) q (clientRun cfg q es).trace) es'
    (clientRun cfg q es) ⟨client_inv cfg q es, List.prefix_refl _⟩
  have e : clientRun cfg q (es ++ es') = es'.foldl (clientStep cfg) (clientRun cfg q es) := by simp [clientRun]
  rw [e]
  exact h.2

/-! ### C17 -/

/-- **C17** fails for a mapping without local address: whatever happened before, a request to open a stream for which the
    last matching mapping has no local address (and is not for the proxy) is swallowed: nothing is submitted for the peer and
    no service is started; the client goes on. -/
theorem C17_no_address_fails (cfg : Cfg) (q : List Frame) (es : List Event) (fs : List Frame) (hf : ∀ f ∈ fs, Fits f)
    (ha : arrived (clientRun cfg q es).trace = fs.flatMap wire) (hl : (clientRun cfg q es).phase = .running)
    (id : Nat) (c : Char) (d : Text) (hfit : Fits (.create id (some (c :: d)))) (m : MappingConfig)
    (hm : LastMatch cfg.mappings (c :: d) m) (hp : m.mode.map Char.toLower ≠ "proxy".toList) (hn : m.localAddr = none) :
    let s := clientRun cfg q (es ++ [.read (wire (.create id (some (c :: d))))])
    s.phase = .running ∧ submissions s.trace = submissions (clientRun cfg q es).trace ∧
    ∃ old k, s.trace = (clientRun cfg q es).trace ++ [.arrived (wire (.create id (some (c :: d)))), .got (.create id (some (c :: d)))] ++
      old ++ [.reg id k, .rxGone k] ∧ (old = [] ∨ ∃ h, old = [.hangup h]) := by
  intro s
  have hs : s = _ := client_one hl (client_idle hf ha hl) hfit
  have hfm : findMapping cfg.mappings (c :: d) = some m := ((findMapping_spec cfg.mappings (c :: d)).2 m).2 hm
  have hpr : m.isProxy = false := by
    have := outcome_eq m 0 0
    unfold outcome at this
    rw [if_neg hp, hn] at this
    cases hb : m.isProxy with
    | false => rfl
    | true => rw [hb] at this; simp at this
  rw [show asReceived (.create id (some (c :: d))) = .create id (some (c :: d)) from rfl] at hs
  generalize clientRun cfg q es = s0 at *
  simp only [clientHandle, Option.getD_some, hfm, hpr, hn, Bool.false_eq_true, if_false] at hs
  have key : s.phase = .running ∧ ∃ old k, s.trace = s0.trace ++ [.arrived (wire (.create id (some (c :: d)))),
      .got (.create id (some (c :: d)))] ++ old ++ [.reg id k, .rxGone k] ∧ (old = [] ∨ ∃ h, old = [.hangup h]) := by
    rw [hs]
    unfold register
    dsimp only [emit]
    cases hlk : lookup id s0.map with
    | none => exact ⟨hl, [], s0.next, by simp [setChan], .inl rfl⟩
    | some h => exact ⟨hl, [.hangup h], s0.next, by simp [setChan, hangup, emit], .inr ⟨h, rfl⟩⟩
  refine ⟨key.1, ?_, key.2⟩
  obtain ⟨old, k, h1, h2⟩ := key.2
  rw [h1]
  rcases h2 with rfl | ⟨h, rfl⟩ <;> simp [submissions, List.filterMap_append]

/-- a mapping without address, after other traffic -/
example : let cfg : Cfg := ⟨none, none, [⟨"web".toList, "tcp".toList, none, "d".toList, []⟩]⟩
    let es : List Event := [.read (wire (.data 7 [1]))]
    arrived (clientRun cfg [] es).trace = [Frame.data 7 [1]].flatMap wire ∧ (clientRun cfg [] es).phase = .running ∧
    LastMatch cfg.mappings "d".toList ⟨"web".toList, "tcp".toList, none, "d".toList, []⟩ := by
  refine ⟨by decide +kernel, by decide +kernel, [], [], rfl, .inl rfl, by simp⟩

/-- a stuck client does nothing; tasks still take what waits for them, or end -/
theorem stuck_stays (cfg : Cfg) (es : List Event) : ∀ s : St, s.phase = .stuck → s.pending = none →
    (es.foldl (clientStep cfg) s).phase = .stuck ∧
    ∃ u, (es.foldl (clientStep cfg) s).trace = s.trace ++ u ∧ ∀ o ∈ u, (∃ h f, o = .took h f) ∨ ∃ h, o = .rxGone h := by
  induction es with
  | nil => intro s hs _; exact ⟨hs, [], by simp, by simp⟩
  | cons e es ih =>
    intro s hs hp
    have hrp : ∀ x : St, x.pending = none → resumePending (clientHandle cfg) x = x := by
      intro x hx; unfold resumePending; rw [hx]
    have key : (clientStep cfg s e).phase = .stuck ∧ (clientStep cfg s e).pending = none ∧
        ∃ u, (clientStep cfg s e).trace = s.trace ++ u ∧ ∀ o ∈ u, (∃ h f, o = .took h f) ∨ ∃ h, o = .rxGone h := by
      have triv : s.phase = .stuck ∧ s.pending = none ∧
          ∃ u, s.trace = s.trace ++ u ∧ ∀ o ∈ u, (∃ h f, o = .took h f) ∨ ∃ h, o = .rxGone h := ⟨hs, hp, [], by simp, by simp⟩
      have hnr : ¬ (s.phase = .running ∧ s.pending = none) := by rw [hs]; simp
      unfold clientStep
      cases e with
      | submit f => 
        have hn : ¬ (s.phase = .running ∧ s.outq.length < outCap) := by rw [hs]; simp
        simp only [step, if_neg hn]; exact triv
      | take h =>
        simp only [step]
        split
        · exact triv
        · rename_i f r _
          split
          · rw [hrp _ (by exact hp)]
            exact ⟨hs, hp, [.took h f], rfl, by intro o ho; rw [List.mem_singleton.1 ho]; exact .inl ⟨h, f, rfl⟩⟩
          · exact triv
      | dropRx h =>
        simp only [step]
        split
        · rw [hrp _ (by exact hp)]
          exact ⟨hs, hp, [.rxGone h], rfl, by intro o ho; rw [List.mem_singleton.1 ho]; exact .inr ⟨h, rfl⟩⟩
        · exact triv
      | work id d => simp only [step, if_neg hnr]; exact triv
      | recv => simp only [step, if_neg hnr]; exact triv
      | read bs => simp only [step, if_neg hnr]; exact triv
      | readEnd => simp only [step, if_neg hnr]; exact triv
      | wrote n => simp only [step, if_neg hnr]; exact triv
      | writeErr => simp only [step, if_neg hnr]; exact triv
    obtain ⟨k1, k2, u, k3, k4⟩ := key
    obtain ⟨i1, v, i2, i3⟩ := ih _ k1 k2
    refine ⟨i1, u ++ v, by rw [List.foldl_cons, i2, k3, List.append_assoc], ?_⟩
    intro o ho
    rcases List.mem_append.1 ho with ho | ho
    · exact k4 o ho
    · exact i3 o ho

/-- **C17** fails when the client's own outgoing queue is full: whatever happened before, when a hundred submitted messages wait
    and a request to open a stream without a matching mapping arrives, the answer is sent by the only task that could empty the
    queue. The client never does anything again: in every continuation nothing is answered, read, looked at or written. -/
theorem C17_stuck_fails (cfg : Cfg) (q : List Frame) (es : List Event) (fs : List Frame) (hf : ∀ f ∈ fs, Fits f)
    (ha : arrived (clientRun cfg q es).trace = fs.flatMap wire) (hl : (clientRun cfg q es).phase = .running)
    (hfull : (relayed (clientRun cfg q es).trace).length + 100 ≤ (q ++ submissions (clientRun cfg q es).trace).length)
    (id : Nat) (d : Option Text) (hfit : Fits (.create id d)) (hno : NoMatch cfg.mappings (d.getD [])) (more : List Event) :
    let s := clientRun cfg q (es ++ [.read (wire (.create id d))] ++ more)
    s.phase = .stuck ∧ submissions s.trace = submissions (clientRun cfg q es).trace ∧
    written s.trace = written (clientRun cfg q es).trace ∧
    arrived s.trace = arrived (clientRun cfg q es).trace ++ wire (.create id d) ∧
    gots s.trace = gots (clientRun cfg q es).trace ++ [asReceived (.create id d)] := by
  intro s
  have hone := client_one hl (client_idle hf ha hl) hfit
  have hB := (client_inv cfg q es).2.2.relay
  have hout : 100 ≤ (clientRun cfg q es).outq.length := by
    have := congrArg List.length hB
    rw [List.length_append] at this
    omega
  have hrec : ∃ d', asReceived (.create id d) = .create id d' ∧ d'.getD [] = d.getD [] := by
    rcases d with _ | (_ | ⟨c, d⟩)
    · exact ⟨none, rfl, rfl⟩
    · exact ⟨none, rfl, rfl⟩
    · exact ⟨_, rfl, rfl⟩
  obtain ⟨d', hrec1, hrec2⟩ := hrec
  have hfm : findMapping cfg.mappings (d'.getD []) = none := by
    rw [hrec2]; exact (findMapping_spec cfg.mappings _).1.2 hno
  have hst : clientRun cfg q (es ++ [.read (wire (.create id d))] ++ more) =
      more.foldl (clientStep cfg) (clientRun cfg q (es ++ [.read (wire (.create id d))])) := by
    simp [clientRun]
  have h1 : (clientRun cfg q (es ++ [.read (wire (.create id d))])).phase = .stuck ∧
      (clientRun cfg q (es ++ [.read (wire (.create id d))])).trace = (clientRun cfg q es).trace ++
        [.arrived (wire (.create id d)), .got (.create id d')] := by
    rw [hone, hrec1]
    generalize clientRun cfg q es = s0 at *
    have hlt : ¬ s0.outq.length < outCap := by unfold outCap; omega
    simp [clientHandle, hfm, selfSend, emit, hlt]
  obtain ⟨g1, u, g2, g3⟩ := stuck_stays cfg more _ h1.1 (client_never_waits cfg q _)
  rw [← hst] at g1 g2
  have e1 : submissions u = [] := List.filterMap_eq_nil_iff.2 fun o ho => by
    rcases g3 o ho with ⟨h, f, rfl⟩ | ⟨h, rfl⟩ <;> rfl
  have e2 : written u = [] := List.flatMap_eq_nil_iff.2 fun o ho => by
    rcases g3 o ho with ⟨h, f, rfl⟩ | ⟨h, rfl⟩ <;> rfl
  have e3 : arrived u = [] := List.flatMap_eq_nil_iff.2 fun o ho => by
    rcases g3 o ho with ⟨h, f, rfl⟩ | ⟨h, rfl⟩ <;> rfl
  have e4 : gots u = [] := List.filterMap_eq_nil_iff.2 fun o ho => by
    rcases g3 o ho with ⟨h, f, rfl⟩ | ⟨h, rfl⟩ <;> rfl
  refine ⟨g1, ?_, ?_, ?_, ?_⟩
  all_goals
    rw [show s.trace = _ from g2, h1.2]
  · unfold submissions at *; simp [List.filterMap_append, e1]
  · unfold written at *; simp [List.flatMap_append, e2]
  · unfold arrived at *; simp [List.flatMap_append, e3]
  · rw [hrec1]; unfold gots at *; simp [List.filterMap_append, e4]

/-- a hundred messages left by an earlier connection -/
example (f : Frame) : let s := clientRun ⟨none, none, []⟩ (List.replicate 100 f) []
    arrived s.trace = ([] : List Frame).flatMap wire ∧ s.phase = .running ∧
    (relayed s.trace).length + 100 ≤ (List.replicate 100 f ++ submissions s.trace).length ∧
    NoMatch [] ((none : Option Text).getD []) := by
  refine ⟨rfl, rfl, by simp [clientRun, clientInit, clientBlank, relayed], by simp [NoMatch]⟩

/-! ### C14 -/

/-- **C14** fails: whatever happened before, when ten messages wait for the task of a stream and another data message for
    the stream arrives, this message never reaches the task: in every continuation, what the task receives is a beginning of
    the messages before it followed by some of those after it. The stream, the connection and the client go on. -/
theorem C14_client_lossless_fails (cfg : Cfg) (q : List Frame) (es : List Event) (fs : List Frame) (hf : ∀ f ∈ fs, Fits f)
    (ha : arrived (clientRun cfg q es).trace = fs.flatMap wire) (hl : (clientRun cfg q es).phase = .running)
    (id h : Nat) (ho : owner (clientRun cfg q es).trace id = some h) (hg : .rxGone h ∉ (clientRun cfg q es).trace)
    (hten : (puts h (clientRun cfg q es).trace).length = (received h (clientRun cfg q es).trace).length + 10)
    (d : Bytes) (hfit : Fits (.data id d)) (more : List Event) :
    (clientRun cfg q (es ++ [.read (wire (.data id d))])).phase = .running ∧
    .hangup h ∉ (clientRun cfg q (es ++ [.read (wire (.data id d))])).trace.drop (clientRun cfg q es).trace.length ∧
    ∃ later some_,
      due clientAccepts h (clientRun cfg q (es ++ [.read (wire (.data id d))] ++ more)).trace =
        due clientAccepts h (clientRun cfg q es).trace ++ .data id d :: later ∧
      received h (clientRun cfg q (es ++ [.read (wire (.data id d))] ++ more)).trace <+:
        puts h (clientRun cfg q es).trace ++ some_ ∧
      some_ <+ later := by
  have hI := client_inv cfg q es
  have hD : DInv clientAccepts _ (clientRun cfg q es) := hI.1.1
  have hone := client_one hl (client_idle hf ha hl) hfit
  have hmap := hD.mapOwner hl id
  rw [ho] at hmap
  have hh : h < (clientRun cfg q es).next := by
    have hx : ∃ i, .reg i h ∈ (clientRun cfg q es).trace := ⟨id, owner_mem ho⟩
    by_contra hc
    obtain ⟨i, hi⟩ := hx
    exact (hD.fresh h (by omega)).2 _ hi rfl
  have hrx : ((clientRun cfg q es).chan h).rx = true := by
    cases hr : ((clientRun cfg q es).chan h).rx with
    | true => rfl
    | false => exact absurd ((hD.gone h hr).2 hh) hg
  have hq : ((clientRun cfg q es).chan h).q.length = 10 := by
    have h1 := (hD.open_ h hrx).1
    rw [← h1, List.length_append] at hten
    omega
  have htr : (clientRun cfg q (es ++ [.read (wire (.data id d))])).trace = (clientRun cfg q es).trace ++
        [.arrived (wire (.data id d)), .got (.data id d), .overflow h (.data id d)] ∧
      (clientRun cfg q (es ++ [.read (wire (.data id d))])).phase = .running := by
    rw [hone]
    generalize clientRun cfg q es = s0 at *
    rw [show asReceived (.data id d) = .data id d from rfl]
    simp only [clientHandle, emit, hmap, trySend, hrx, hq, streamCap]
    simp [hl]
  refine ⟨htr.2, by rw [htr.1, List.drop_left]; simp, ?_⟩
  have hatt : ∀ es', attempts h (clientRun cfg q es').trace = due clientAccepts h (clientRun cfg q es').trace :=
    fun es' => C153_client cfg q es' h
  obtain ⟨u, hu⟩ := client_grows cfg q (es ++ [.read (wire (.data id d))]) more
  have happ : ∀ a b : List Obs, attempts h (a ++ b) = attempts h a ++ attempts h b := by
    intro a b; unfold attempts; rw [List.filterMap_append]
  have hpap : ∀ a b : List Obs, puts h (a ++ b) = puts h a ++ puts h b := by
    intro a b; unfold puts; rw [List.filterMap_append]
  refine ⟨attempts h u, puts h u, ?_, ?_, puts_sub_attempts h u⟩
  · rw [← hatt, ← hatt, ← hu, htr.1, happ, happ]
    simp [attempts]
  · have hD2 : DInv clientAccepts _ (clientRun cfg q (es ++ [.read (wire (.data id d))] ++ more)) := (client_inv cfg q _).1.1
    have hpre : received h (clientRun cfg q (es ++ [.read (wire (.data id d))] ++ more)).trace <+:
        puts h (clientRun cfg q (es ++ [.read (wire (.data id d))] ++ more)).trace := by
      cases hr : ((clientRun cfg q (es ++ [.read (wire (.data id d))] ++ more)).chan h).rx with
      | true => exact ⟨_, (hD2.open_ h hr).1⟩
      | false => exact (hD2.gone h hr).1
    refine hpre.trans ?_
    rw [← hu, htr.1, hpap, hpap]
    simp [puts]

/-- a client whose stream has ten untaken messages -/
def tenWait : List Event :=
  [.read (wire (.create 2 (some "d".toList)))] ++ (List.range 10).map fun n => .read (wire (.data 2 [UInt8.ofNat n]))

/-- message 10 is lost, the messages before and after it arrive -/
example : let s := clientRun oneMapping [] tenWait
    arrived s.trace = (.create 2 (some "d".toList) :: (List.range 10).map fun n => .data 2 [UInt8.ofNat n]).flatMap wire ∧
    s.phase = .running ∧ owner s.trace 2 = some 0 ∧ .rxGone 0 ∉ s.trace ∧
    (puts 0 s.trace).length = (received 0 s.trace).length + 10 ∧
    received 0 (clientRun oneMapping [] (tenWait ++ [.read (wire (.data 2 [10])), .take 0, .read (wire (.data 2 [99]))] ++
      List.replicate 10 (.take 0))).trace = ((List.range 10).map fun n => .data 2 [UInt8.ofNat n]) ++ [.data 2 [99]] := by
  refine ⟨by decide +kernel, by decide +kernel, by decide +kernel, by decide +kernel, by decide +kernel, by decide +kernel⟩

/-! ### C18 -/

/-- **C18** fails at a server that waits for a slow stream: a message for one stream has been decoded and could not be handed
    over, because ten wait for the stream's task. Whatever happens then, until that task takes a message or ends, and however
    often the loss of the connection is signalled: the server does not notice it, goes on, and no stream is told. -/
theorem C18_blocked_fails (cfg : Cfg) (es es' : List Event) (h : Nat) (hr : (serverRun cfg es).phase = .running)
    (hw : attempts h (serverRun cfg es).trace ≠ due (serverAccepts cfg) h (serverRun cfg es).trace)
    (he : ∀ e ∈ es', e ≠ .take h ∧ e ≠ .dropRx h) (n : Nat) :
    (serverRun cfg (es ++ (es' ++ List.replicate n .readEnd))).phase = .running ∧
    ∀ k, attempts k (serverRun cfg (es ++ (es' ++ List.replicate n .readEnd))).trace = attempts k (serverRun cfg es).trace := by
  have g := C153_waiting_fails cfg es (es' ++ List.replicate n .readEnd) h hr hw (by
    intro e hm
    rcases List.mem_append.1 hm with hm | hm
    · exact he e hm
    · rw [(List.mem_replicate.1 hm).2]; exact ⟨by simp, by simp⟩)
  exact ⟨g.1, g.2.2.2.1⟩

/-- eleven messages for one stream, another stream waits to be told -/
example : let s := serverRun ⟨none, none, []⟩ [.work 2 none, .work 4 none,
      .read ((List.range 11).flatMap fun n => wire (.data 2 [UInt8.ofNat n]))]
    s.phase = .running ∧ attempts 0 s.trace ≠ due (serverAccepts ⟨none, none, []⟩) 0 s.trace ∧ .reg 4 1 ∈ s.trace ∧
    attempts 1 s.trace = [] := by
  decide +kernel

end Wm.Tunnel
