import Verif.Proofs.TunnelMore
/-!
Properties C10-C18: the two ends of a tunnel connection. `(serverRun cfg es).trace` and
`(clientRun cfg q es).trace` are the observable histories; `es` ranges over all schedules.
-/
namespace Wm.Tunnel
open Wm Wm.Prot

/-! ## C10 -/

/-- **C10** When a username or password is configured, whatever is done for the peer (a stream opened, a message
    delivered, port mappings stored), the very first message of the peer was a token agreeing with every configured
    credential. (Streams of local visitors are sent a close when the connection is lost; that is not a service to the
    peer.) -/
theorem C10_nothing_before_login (cfg : Cfg) (hp : Protected cfg) (es : List Event) (t1 t2 : List Obs) (o : Obs)
    (h : (serverRun cfg es).trace = t1 ++ o :: t2) (ho : Served o) (hc : .connLost ∉ t1) :
    ∃ f fs, gots t1 = f :: fs ∧ IsLogin cfg f := by
  have hG := (server_inv cfg es).1.2
  rcases hG.served t1 o t2 h ho hc with hn | ⟨f, hf, hl⟩
  · exact absurd hp hn
  · have hpre : gots t1 <+: gots (serverRun cfg es).trace := by rw [h, gots_append]; exact List.prefix_append _ _
    cases hg : gots t1 with
    | nil => rw [hg] at hf; simp at hf
    | cons x xs =>
      rw [hg] at hpre
      obtain ⟨r, hr⟩ := hpre
      refine ⟨x, xs, rfl, ?_⟩
      rcases hG.first hp with ⟨h1, _⟩ | ⟨y, ys, h1, h2, _⟩ | ⟨y, h1, ⟨u1, u2, e, g1, g2⟩, _⟩
      · rw [h1] at hr; simp at hr
      · rw [h1] at hr; simp at hr; exact hr.1 ▸ h2
      · exfalso
        have : gots (serverRun cfg es).trace = [y] := by
          rw [e, gots_append, g1]; simpa [gots] using g2
        rw [this] at hr
        simp at hr
        rw [hg, hr.2.1] at hf
        simp at hf
        exact h1 (by rw [← hr.1, ← hf]; exact hl)

/-- **C10**, in terms of the bytes of the peer: if what the peer sends begins with a message that is not a matching
    token, then in every segmentation and schedule nothing is done for it. -/
theorem C10_no_token_no_service (cfg : Cfg) (hp : Protected cfg) (f : Frame) (fs : List Frame) (part : Bytes)
    (hS : Stream (f :: fs) part) (hf : ¬ IsLogin cfg (asReceived f)) (es : List Event)
    (ha : arrived (serverRun cfg es).trace <+: (f :: fs).flatMap wire ++ part) (t1 t2 : List Obs) (o : Obs)
    (h : (serverRun cfg es).trace = t1 ++ o :: t2) (hc : .connLost ∉ t1) : ¬ Served o := by
  intro ho
  obtain ⟨g, gs, hg, hl⟩ := C10_nothing_before_login cfg hp es t1 t2 o h ho hc
  have h1 := (looked_at hS (server_at hS cfg es) ha).1
  rw [h, gots_append, hg] at h1
  obtain ⟨r, hr⟩ := h1
  simp at hr
  exact hf (hr.1 ▸ hl)

/-- a peer that logs in and opens a stream is served -/
example : (serverRun ⟨some "u".toList, none, []⟩
    [.read (wire (.token "u".toList [])), .read (wire (.create 3 none))]).trace
    = [.arrived (wire (.token "u".toList [])), .got (.token "u".toList []), .arrived (wire (.create 3 none)),
       .got (.create 3 none), .reg 3 0, .opened 3 0 (.proxy none)] := by decide +kernel

example : Protected ⟨some "u".toList, none, []⟩ := .inl (by simp)

/-! ## C11 -/

/-- **C11** A first message that is not a matching token is refused: exactly one close message for id 0 is queued by
    the server for its own part, directly after that message; no further message of the peer is ever looked at; and
    the task ends as soon as everything queued has been written. -/
theorem C11_refused (cfg : Cfg) (hp : Protected cfg) (es : List Event) (f : Frame) (fs : List Frame)
    (hg : gots (serverRun cfg es).trace = f :: fs) (hf : ¬ IsLogin cfg f) :
    fs = [] ∧
    (∃ t1 t2, (serverRun cfg es).trace
        = t1 ++ .got f :: .queued false (.close 0 "not verify so close".toList) :: t2) ∧
    refusals (serverRun cfg es).trace = [.close 0 "not verify so close".toList] ∧
    ((serverRun cfg es).phase = .running →
      written (serverRun cfg es).trace ≠ (accepted (serverRun cfg es).trace).flatMap wire) := by
  have hI := server_inv cfg es
  have hR := server_refusal cfg es
  have hB := hI.2.2
  rcases hI.1.2.first hp with ⟨h1, _⟩ | ⟨y, ys, h1, h2, _⟩ | ⟨y, h1, ⟨u1, u2, e, g1, g2⟩, h3, h4⟩
  · rw [h1] at hg; cases hg
  · rw [h1] at hg; cases hg; exact absurd h2 hf
  · have : gots (serverRun cfg es).trace = [y] := by
      rw [e, gots_append, g1]; simpa [gots] using g2
    rw [this] at hg
    cases hg
    refine ⟨rfl, ⟨u1, u2, e⟩, ?_, ?_⟩
    · unfold RInv at hR; rw [h3] at hR; exact hR
    · intro hr hw
      have := hB.bytes
      rw [hw] at this
      exact h4 hr (by simpa using this)

/-- **C11** the queued bytes are all that keeps a refusing server alive: writing them ends the task. -/
theorem C11_ends_when_flushed (cfg : Cfg) (hp : Protected cfg) (es : List Event) (f : Frame) (fs : List Frame)
    (hg : gots (serverRun cfg es).trace = f :: fs) (hf : ¬ IsLogin cfg f) (n : Nat)
    (hn : ((accepted (serverRun cfg es).trace).flatMap wire).length ≤ n) :
    (serverRun cfg (es ++ [.wrote n])).phase ≠ .running := by
  have hI := server_inv cfg es
  have hb := hI.2.2.bytes
  have hlen : (serverRun cfg es).writeBuf.length ≤ n := by
    have := congrArg List.length hb
    rw [List.length_append] at this; omega
  rcases hI.1.2.first hp with ⟨h1, _⟩ | ⟨y, ys, h1, h2, _⟩ | ⟨y, h1, ⟨u1, u2, e, g1, g2⟩, h3, h4⟩
  · rw [h1] at hg; cases hg
  · rw [h1] at hg; cases hg; exact absurd h2 hf
  · have hgy : gots (serverRun cfg es).trace = [y] := by
      rw [e, gots_append, g1]; simpa [gots] using g2
    have hstep : serverRun cfg (es ++ [.wrote n]) = serverStep cfg (serverRun cfg es) (.wrote n) := by
      simp [serverRun]
    rw [hstep]
    by_cases hr : (serverRun cfg es).phase = .running
    · have hpe : (serverRun cfg es).pending = none := by
        by_contra hc
        rcases hI.1.2.pend hc with hl | ⟨x, hx, hl⟩
        · exact hl hp
        · rw [hgy] at hx; simp at hx; exact h1 (hx ▸ hl)
      have hd : (serverRun cfg es).writeBuf.drop n = [] := List.drop_eq_nil_of_le hlen
      simp [serverStep, step, hr, hpe, h4 hr, emit, hd, h3]
    · simp [serverStep, step, hr]

/-- a peer that begins with an open request is refused, and its later token is ignored -/
example : (serverRun ⟨some "u".toList, none, []⟩
    [.read (wire (.create 3 none)), .read (wire (.token "u".toList [])), .read (wire (.create 3 none)),
     .wrote 100]).trace
    = [.arrived (wire (.create 3 none)), .got (.create 3 none), .queued false (.close 0 notVerify),
       .arrived (wire (.token "u".toList [])), .arrived (wire (.create 3 none)),
       .wrote (wire (.close 0 notVerify))] := by decide +kernel

/-! ## C12 -/

/-- **C12** (server) Whatever is handed to a stream is a message of the peer whose id belonged to that stream when the
    message was looked at - the stream was the one most recently registered under the id -, or the final close. -/
theorem C12_server_routing (cfg : Cfg) (es : List Event) (h : Nat) (f : Frame)
    (hf : f ∈ attempts h (serverRun cfg es).trace) :
    (∃ t1 t2, (serverRun cfg es).trace = t1 ++ .got f :: t2 ∧ owner t1 f.sockMap = some h) ∨
    (∃ t1 t2 i, (serverRun cfg es).trace = t1 ++ .connLost :: t2 ∧ f = .close i [] ∧ owner t1 i = some h) := by
  rcases routed (server_inv cfg es).1.1 hf with ⟨t1, t2, e, _, ho⟩ | h2
  · exact .inl ⟨t1, t2, e, ho⟩
  · exact .inr h2

/-- **C12** (client) -/
theorem C12_client_routing (cfg : Cfg) (q : List Frame) (es : List Event) (h : Nat) (f : Frame)
    (hf : f ∈ attempts h (clientRun cfg q es).trace) :
    (∃ t1 t2, (clientRun cfg q es).trace = t1 ++ .got f :: t2 ∧ owner t1 f.sockMap = some h) ∨
    (∃ t1 t2 i, (clientRun cfg q es).trace = t1 ++ .connLost :: t2 ∧ f = .close i [] ∧ owner t1 i = some h) := by
  rcases routed (client_inv cfg q es).1 hf with ⟨t1, t2, e, _, ho⟩ | h2
  · exact .inl ⟨t1, t2, e, ho⟩
  · exact .inr h2

/-- **C12** (server) a stream only ever receives messages that carry its own id -/
theorem C12_server_own_id (cfg : Cfg) (es : List Event) (h : Nat) (f : Frame)
    (hf : f ∈ received h (serverRun cfg es).trace) : idOf (serverRun cfg es).trace h = some f.sockMap :=
  own_id (server_inv cfg es).1.1 (server_inv cfg es).2.1 hf

/-- **C12** (client) -/
theorem C12_client_own_id (cfg : Cfg) (q : List Frame) (es : List Event) (h : Nat) (f : Frame)
    (hf : f ∈ received h (clientRun cfg q es).trace) : idOf (clientRun cfg q es).trace h = some f.sockMap :=
  own_id (client_inv cfg q es).1 (client_inv cfg q es).2.1 hf

/-- two streams under the same id one after the other: each receives what arrived in its time -/
example : let t := (serverRun ⟨none, none, []⟩ [.work 2 none, .read (wire (.data 2 [1]) ++ wire (.data 4 [7])),
      .work 2 none, .read (wire (.data 2 [2])), .take 0, .take 1]).trace
    received 0 t = [.data 2 [1]] ∧ received 1 t = [.data 2 [2]] := by decide +kernel

/-! ## C13 -/

/-- The bytes of the peer determine what the server looks at: if the peer sends the messages `fs` (and part of another
    one), the messages looked at are at any time a beginning of `fs`, and all of `fs` when everything has arrived and
    the server is neither refusing the peer, nor ended, nor waiting for a slow stream. -/
theorem C13_server_looks_at_everything {fs : List Frame} {part : Bytes} (hS : Stream fs part) (cfg : Cfg)
    (es : List Event) (ha : arrived (serverRun cfg es).trace <+: fs.flatMap wire ++ part) :
    gots (serverRun cfg es).trace <+: fs.map asReceived ∧
    (arrived (serverRun cfg es).trace = fs.flatMap wire ++ part → Live (serverRun cfg es) →
      gots (serverRun cfg es).trace = fs.map asReceived) :=
  looked_at hS (server_at hS cfg es) ha

/-- **C13** (safety) As long as the stream's task lives and the connection is up, what the task has received is a
    beginning of the messages due to it: the data and close messages looked at while the stream owned their id, in
    order. What is missing waits for it, and (progress) each time the task asks it gets the next waiting message. -/
theorem C13_server_lossless (cfg : Cfg) (es : List Event) (id h : Nat) (hreg : .reg id h ∈ (serverRun cfg es).trace)
    (hg : .rxGone h ∉ (serverRun cfg es).trace) (hc : .connLost ∉ (serverRun cfg es).trace) :
    ∃ wait, received h (serverRun cfg es).trace ++ wait = due (serverAccepts cfg) h (serverRun cfg es).trace ∧
      received h (serverRun cfg es).trace ++ wait.take 1 <+: received h (serverRun cfg (es ++ [.take h])).trace := by
  have hI := server_inv cfg es
  have ho : ∀ f, .overflow h f ∉ (serverRun cfg es).trace := fun f hf => hc (hI.1.2.noOver h f hf)
  obtain ⟨hrx, hw⟩ := received_waiting hI.1.1 hI.2.1 hreg hg ho
  refine ⟨waiting h (serverRun cfg es), hw, ?_⟩
  have := take_next (P := fun t => server_preserved cfg t) hI (server_full cfg es) hrx
  simpa [serverRun, serverStep] using this

/-- a slow stream: 12 messages arrive at once, the stream takes them later; none is lost -/
example : received 0 (serverRun ⟨none, none, []⟩ ([.work 2 none,
      .read ((List.range 12).flatMap fun n => wire (.data 2 [UInt8.ofNat n]))] ++ List.replicate 12 (.take 0))).trace
    = (List.range 12).map fun n => .data 2 [UInt8.ofNat n] := by decide +kernel

/-! ## C14 -/

/-- the messages looked at by a client, as for the server -/
theorem C14_client_looks_at_everything {fs : List Frame} {part : Bytes} (hS : Stream fs part) (cfg : Cfg)
    (q : List Frame) (es : List Event) (ha : arrived (clientRun cfg q es).trace <+: fs.flatMap wire ++ part) :
    gots (clientRun cfg q es).trace <+: fs.map asReceived ∧
    (arrived (clientRun cfg q es).trace = fs.flatMap wire ++ part → Live (clientRun cfg q es) →
      gots (clientRun cfg q es).trace = fs.map asReceived) :=
  looked_at hS (client_at hS cfg q es) ha

/-- **C14**, partial: as for the server (C13), provided no message was dropped because the stream's queue was full.
    Missing: the full claim has no such proviso; see `C14_client_lossless_fails`. -/
theorem C14_client_lossless_partial (cfg : Cfg) (q : List Frame) (es : List Event) (id h : Nat)
    (hreg : .reg id h ∈ (clientRun cfg q es).trace) (hg : .rxGone h ∉ (clientRun cfg q es).trace)
    (ho : ∀ f, .overflow h f ∉ (clientRun cfg q es).trace) :
    ∃ wait, received h (clientRun cfg q es).trace ++ wait = due clientAccepts h (clientRun cfg q es).trace ∧
      received h (clientRun cfg q es).trace ++ wait.take 1
        <+: received h (clientRun cfg q (es ++ [.take h])).trace := by
  have hI := client_inv cfg q es
  obtain ⟨hrx, hw⟩ := received_waiting hI.1 hI.2.1 hreg hg ho
  refine ⟨waiting h (clientRun cfg q es), hw, ?_⟩
  have := take_next (P := fun t => client_preserved cfg _ _ t) hI (client_full cfg q es) hrx
  simpa [clientRun, clientStep] using this

/-- a client with one mapping -/
def oneMapping : Cfg :=
  ⟨none, none, [⟨"web".toList, "tcp".toList, some ⟨.v4 0x7f000001#32, 80⟩, "d".toList, []⟩]⟩

example : let t := (clientRun oneMapping [] [.read (wire (.create 2 (some "d".toList))),
      .read (wire (.data 2 [1]) ++ wire (.data 2 [2])), .take 0, .take 0]).trace
    .reg 2 0 ∈ t ∧ .rxGone 0 ∉ t ∧ received 0 t = [.data 2 [1], .data 2 [2]] := by decide +kernel

/-! ## C15 -/

/-- **C15** (server) The bytes written are at every moment a beginning of the encodings of the messages accepted so
    far, in order; and the messages accepted from local tasks are a beginning of the messages they submitted. -/
theorem C15_server_order (cfg : Cfg) (es : List Event) :
    written (serverRun cfg es).trace <+: (accepted (serverRun cfg es).trace).flatMap wire ∧
    relayed (serverRun cfg es).trace <+: submissions (serverRun cfg es).trace := by
  have hB := (server_inv cfg es).2.2
  exact ⟨⟨_, hB.bytes⟩, ⟨_, by simpa using hB.relay⟩⟩

/-- **C15** (client); `q` are messages submitted during an earlier connection and not yet accepted -/
theorem C15_client_order (cfg : Cfg) (q : List Frame) (es : List Event) :
    written (clientRun cfg q es).trace <+: (accepted (clientRun cfg q es).trace).flatMap wire ∧
    relayed (clientRun cfg q es).trace <+: q ++ submissions (clientRun cfg q es).trace := by
  have hB := (client_inv cfg q es).2.2
  exact ⟨⟨_, hB.bytes⟩, ⟨_, hB.relay⟩⟩

example : let t := (serverRun ⟨none, none, []⟩ [.submit (.data 3 [1]), .submit (.data 5 [2]), .recv, .wrote 4, .recv,
      .wrote 10, .wrote 100]).trace
    written t = wire (.data 3 [1]) ++ wire (.data 5 [2]) ∧ relayed t = [.data 3 [1], .data 5 [2]] := by
  decide +kernel

/-! ## C16 -/

/-- **C16** Whatever a client has written on a connection begins with its introduction (token, when both credentials
    are set; mappings, when there are any), or is still a part of it. -/
theorem C16_introduction_first (cfg : Cfg) (q : List Frame) (es : List Event) :
    written (clientRun cfg q es).trace <+: (introduction cfg).flatMap wire ∨
    (introduction cfg).flatMap wire <+: written (clientRun cfg q es).trace := by
  by_cases hr : (clientInit cfg q).phase = .running
  · have hB := (client_inv cfg q es).2.2
    have h1 := hB.intro_
    rw [clientInit_accepted cfg q hr] at h1
    obtain ⟨r, hr'⟩ := h1
    have h2 : written (clientRun cfg q es).trace <+: (introduction cfg).flatMap wire ++ r.flatMap wire := by
      rw [← List.flatMap_append, hr']; exact ⟨_, hB.bytes⟩
    exact List.prefix_or_prefix_of_prefix h2 (List.prefix_append _ _)
  · exact .inl (by rw [clientInit_failed cfg q es hr]; simp)

example : let cfg : Cfg := { oneMapping with username := some "u".toList, password := some "p".toList }
    written (clientRun cfg [.data 7 [1]] [.recv, .wrote 1000]).trace
      = wire (.token "u".toList "p".toList) ++ wire (.mapping 0 oneMapping.mappings) ++ wire (.data 7 [1]) := by
  decide +kernel

/-! ## C17 -/

/-- **C17**, partial. An open request is answered at once, before anything else is looked at: without a matching
    mapping by submitting a close for the id - unless the client's outgoing queue is full, then the client is stuck
    forever -; otherwise a stream is registered under the id (replacing an older one) and served as the last matching
    mapping says. Missing: a mapping without local address is not answered, see `C17_no_address_fails`; the stuck case,
    see `C17_stuck_fails`. -/
theorem C17_open_answered_partial (cfg : Cfg) (q : List Frame) (es : List Event) (id : Nat) (d : Option Text)
    (t1 t2 : List Obs) (h : (clientRun cfg q es).trace = t1 ++ .got (.create id d) :: t2) :
    (NoMatch cfg.mappings (d.getD []) →
      (∃ r, t2 = .submitted (.close id []) :: r) ∨ (clientRun cfg q es).phase = .stuck) ∧
    (∀ m, LastMatch cfg.mappings (d.getD []) m → ∃ pre k r, t2 = pre ++ .reg id k :: outcome m id k :: r ∧
      (pre = [] ∨ ∃ old, pre = [.hangup old])) ∧
    (NoMatch cfg.mappings (d.getD []) ∨ ∃ m, LastMatch cfg.mappings (d.getD []) m) := by
  have hA := (client_ans cfg q es).1 t1 id d t2 h
  refine ⟨hA.1, hA.2, ?_⟩
  obtain ⟨h1, h2⟩ := findMapping_spec cfg.mappings (d.getD [])
  cases hm : findMapping cfg.mappings (d.getD []) with
  | none => exact .inl (h1.1 hm)
  | some m => exact .inr ⟨m, (h2 m).1 hm⟩

example : (clientRun oneMapping [] [.read (wire (.create 2 (some "x".toList))),
      .read (wire (.create 4 (some "web".toList)))]).trace
    = [.queued false (.mapping 0 oneMapping.mappings), .arrived (wire (.create 2 (some "x".toList))),
       .got (.create 2 (some "x".toList)), .submitted (.close 2 []), .arrived (wire (.create 4 (some "web".toList))),
       .got (.create 4 (some "web".toList)), .reg 4 0, .opened 4 0 (.connect ⟨.v4 0x7f000001#32, 80⟩)] := by
  decide +kernel

/-! ## C18 -/

/-- the task has left its loop -/
def Over (s : St) : Prop := s.phase ≠ .running ∧ s.phase ≠ .stuck

/-- **C18** (server), partial: when the server's task ends, for whatever reason, every stream registered on the
    connection has been disconnected from it, so its task sees the end of its input. Missing: the task does not notice
    the loss while it waits for a slow stream, see `C18_blocked_fails`. -/
theorem C18_server_end_closes_all_partial (cfg : Cfg) (es : List Event) (hover : Over (serverRun cfg es)) (id h : Nat)
    (hr : .reg id h ∈ (serverRun cfg es).trace) : .hangup h ∈ (serverRun cfg es).trace := by
  have hH := (server_inv cfg es).2.1
  rcases hH.over with h1 | h1 | h1
  · exact absurd h1 hover.1
  · exact absurd h1 hover.2
  · rcases hH.cover h (hH.regs _ _ hr).2 with ⟨i, hi⟩ | hi
    · rw [h1] at hi; simp at hi
    · exact hi

/-- **C18** (client), partial: likewise; a client can also be stuck (C17). -/
theorem C18_client_end_closes_all_partial (cfg : Cfg) (q : List Frame) (es : List Event)
    (hover : Over (clientRun cfg q es)) (id h : Nat)
    (hr : .reg id h ∈ (clientRun cfg q es).trace) : .hangup h ∈ (clientRun cfg q es).trace := by
  have hH := (client_inv cfg q es).2.1
  rcases hH.over with h1 | h1 | h1
  · exact absurd h1 hover.1
  · exact absurd h1 hover.2
  · rcases hH.cover h (hH.regs _ _ hr).2 with ⟨i, hi⟩ | hi
    · rw [h1] at hi; simp at hi
    · exact hi

/-- **C18** a loop that is not waiting for a slow stream notices a lost connection and ends (both ends) -/
theorem C18_loss_noticed (cfg : Cfg) (es : List Event) (q : List Frame) :
    ((serverRun cfg es).pending = none → (serverRun cfg (es ++ [.readEnd])).phase ≠ .running) ∧
    (clientRun cfg q (es ++ [.readEnd])).phase ≠ .running := by
  constructor
  · intro hp
    have hstep : serverRun cfg (es ++ [.readEnd]) = serverStep cfg (serverRun cfg es) .readEnd := by simp [serverRun]
    rw [hstep]
    by_cases hr : (serverRun cfg es).phase = .running <;> simp [serverStep, step, hr, hp]
  · have hp : (clientRun cfg q es).pending = none := client_never_waits cfg q es
    have hstep : clientRun cfg q (es ++ [.readEnd]) = clientStep cfg (clientRun cfg q es) .readEnd := by
      simp [clientRun]
    rw [hstep]
    by_cases hr : (clientRun cfg q es).phase = .running <;> simp [clientStep, step, hr, hp]

example : let s := serverRun ⟨none, none, []⟩ [.work 2 none, .read (wire (.create 3 none)), .readEnd]
    Over s ∧ .reg 2 0 ∈ s.trace ∧ .hangup 0 ∈ s.trace ∧ .put 0 (.close 2 []) ∈ s.trace ∧ .hangup 1 ∈ s.trace := by
  refine ⟨⟨by decide +kernel, by decide +kernel⟩, by decide +kernel, by decide +kernel, by decide +kernel,
    by decide +kernel⟩

end Wm.Tunnel
