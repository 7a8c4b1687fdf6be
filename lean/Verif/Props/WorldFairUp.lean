import Verif.Props.WorldFair
import Verif.Props.WorldDrainUp
/-!
Property C180, the other direction: when every part of the tunnel gets its turn again and again, everything a visitor sends
is written to its local service, or a message was dropped at the client.
-/
namespace Wm.World
open Wm Wm.Prot
open scoped List
open Wm.Tunnel (datas creates regCount openCount gots received submissions accepted relayed written arrived InnerL heads
  LoggedIn streamCap puts Announced)
open Wm.Relay (inputs outputs)

/-! ### What is required -/

/-- Every part on the way from visitor `n` to local connection `m` gets its turn again and again. A turn that needs
    something - room in the server's outgoing channel, a server loop that is not waiting - is only promised when this
    is the case again and again. When the server's loop waits for a task to make room, that task gets its turn. -/
structure FairUp (cfg : Cfg) (σ : Nat → Event) (n m : Nat) : Prop where
  handOver : Often (fun t => (after cfg σ t).srv.outq.length < Tunnel.outCap) →
    Often fun t => σ t = .vis n .slot ∧ (after cfg σ t).srv.outq.length < Tunnel.outCap
  serverTakes : Often (fun t => (after cfg σ t).srv.pending = none) →
    Often fun t => σ t = .srv .recv ∧ (after cfg σ t).srv.pending = none
  serverWrites : Often (fun t => (after cfg σ t).srv.pending = none) →
    Often fun t => (∃ j, 0 < j ∧ σ t = .srv (.wrote j)) ∧ (after cfg σ t).srv.pending = none
  makesRoom : ∀ t h f, (after cfg σ t).srv.pending = some (h, f) → ∃ t', t ≤ t' ∧ Clears (after cfg σ t') h (σ t')
  clientReads : Often fun t => ∃ j, 0 < j ∧ σ t = .cli (.read j)
  serviceTakes : Often fun t => σ t = .loc m .recv
  serviceWrites : Often fun t => ∃ j, 0 < j ∧ σ t = .loc m (.wrote j)

/-! ### Proof -/

variable {cfg : Cfg} {n m k i : Nat} {W : Nat → St} {ε : Nat → Event}

/-- the server's outgoing channel has room again and again -/
theorem Lively.roomS (h : Lively cfg W ε) (hE : Often fun t => ε t = .srv .recv ∧ (W t).srv.pending = none) :
    Often fun t => (W t).srv.outq.length < Tunnel.outCap := by
  intro t
  obtain ⟨t', h1, h2, hp⟩ := hE t
  cases hq : (W t').srv.outq with
  | nil => exact ⟨t', h1, by show (W t').srv.outq.length < _; rw [hq]; simp [Tunnel.outCap]⟩
  | cons f q =>
    refine ⟨t' + 1, by omega, ?_⟩
    show (W (t' + 1)).srv.outq.length < _
    have hst : (step cfg (W t') (.srv .recv)).srv = Tunnel.enqueue f { (W t').srv with outq := q } true := by
      show Tunnel.serverStep cfg.server (W t').srv .recv = _
      unfold Tunnel.serverStep Tunnel.step
      dsimp only
      rw [if_pos ⟨h.srv t', hp⟩, hq]
      exact Tunnel.resume_idle fun _ => h.srvIdle t' hp
    rw [h.next, h2, hst]
    show q.length < _
    obtain ⟨es, he⟩ := (h.base t').srv
    have hb := (Tunnel.server_bounded cfg.server es).2.out
    rw [← he, hq] at hb
    simp at hb
    omega

/-- (1) the visitor's bytes are handed to the server's loop -/
theorem Exec.handedS (h : Exec cfg n m k i W ε)
    (hE : Often fun t => ε t = .vis n .slot ∧ (W t).srv.outq.length < Tunnel.outCap) (t) :
    ∃ t', t ≤ t' ∧ inputs (visOf n (W t)).trace <+: (datas i (submissions (W t').srv.trace)).flatten := by
  have hpw : ∀ t, Relay.Piecewise (visOf n (W t)) := by
    intro t
    obtain ⟨es, he⟩ := h.visRun t
    obtain ⟨l, _, h2, _, _, h4⟩ := h.vis t
    rw [he]
    exact Relay.run_piecewise _ es (by rw [← he, h2]; exact h4)
  obtain ⟨t', h1, h2⟩ := reaches (B := fun t => (Relay.sends (visOf n (W t)).trace).map Relay.payload)
    (C := fun t => Relay.pieces (visOf n (W t)).trace) (E := _)
    (fun t => (Relay.sends_mono (h.visTrace t)).map _) (fun t => Relay.pieces_mono (h.visTrace t))
    (fun t => by rw [← (hpw t).kept, List.append_assoc]; exact List.prefix_append _ _) hE
    (fun t he hlt => by
      obtain ⟨l, hl, e1, e2, _, e3⟩ := h.vis t
      obtain ⟨l', hl', f1, _⟩ := h.vis (t + 1)
      obtain ⟨_, _, hr⟩ := h.ready t
      have hk := (hpw t).kept
      rw [← hk] at hlt
      rw [e1] at hlt
      rw [e1, f1, List.length_map, List.length_map]
      cases htop : (Relay.top l.relay).link with
      | nil =>
        obtain ⟨g1, g2⟩ := top_link_nil htop
        rw [g1, g2] at hlt
        simp at hlt
      | cons f tl =>
        have halive : l.relay.alive = true := by
          obtain ⟨es, hes⟩ := hr.reach
          cases ha : l.relay.alive with
          | true => rfl
          | false =>
            have hp := (passed_run cfg es).server.alive l.relay
            rw [← hes] at hp
            exact absurd hr.srv (hp (List.mem_map.2 ⟨l, List.mem_of_getElem? hl, rfl⟩) ha)
        have hoff : offer l.relay = some f := by
          unfold offer
          rw [if_pos halive, e3]
          simp [htop]
        have hst : relayStep (Tunnel.serverStep cfg.server) true (W t).srv l.relay l.handle .slot =
            (Tunnel.serverStep cfg.server (W t).srv (.submit f), Relay.step l.relay .slot) := by
          unfold relayStep
          dsimp only
          rw [if_pos hr.srv, hoff]
          dsimp only
          rw [if_pos he.2]
        have hnext := h.next t
        rw [he.1] at hnext
        simp only [step, hl, hst] at hnext
        rw [hnext] at hl'
        dsimp only at hl'
        rw [List.getElem?_set_self (List.getElem?_eq_some_iff.1 hl).1] at hl'
        cases hl'
        dsimp only
        rw [(slot_step hoff).1]
        simp) t
  refine ⟨t', h1, ?_⟩
  obtain ⟨l, hl, e1, e2, _, e3⟩ := h.vis t'
  obtain ⟨_, _, hr⟩ := h.ready t'
  obtain ⟨es, hes⟩ := hr.reach
  have hown : Own i (W t') := by
    have hn := hr.normal
    have hf := hr.free
    rw [hes] at hn hf ⊢
    exact hf.own hn
  have hside : Side cfg i (W t') := by
    have := side_run cfg es i
    rw [← hes] at this
    exact this hown
  rw [hside.sub.of l.relay (List.mem_map.2 ⟨l, List.mem_of_getElem? hl, rfl⟩) e2, ← Relay.pieces_flatten]
  refine (flatten_prefix h2).trans ?_
  rw [e1, ← payload_datas]
  · rw [List.flatMap_def]; exact List.prefix_refl _
  · obtain ⟨es', he'⟩ := (h.base t').visitors l (List.mem_of_getElem? hl)
    have := (Relay.C19_bytes_preserved l.relay.id es').2.2
    rw [← he', e2] at this
    exact this

/-- (2) the server's loop takes them -/
theorem Lively.takenS (h : Lively cfg W ε) (hE : Often fun t => ε t = .srv .recv ∧ (W t).srv.pending = none) (t) :
    ∃ t', t ≤ t' ∧ submissions (W t).srv.trace <+: relayed (W t').srv.trace := by
  refine reaches (B := fun t => relayed (W t).srv.trace) (C := fun t => submissions (W t).srv.trace) (E := _)
    (fun t => Tunnel.relayed_mono (h.srvTrace t)) (fun t => Tunnel.submissions_mono (h.srvTrace t))
    (fun t => ⟨_, server_outq (h.base t).srv⟩) hE (fun t he hlt => ?_) t
  obtain ⟨he, hp⟩ := he
  have ho := server_outq (h.base t).srv
  rw [← ho] at hlt
  cases hq : (W t).srv.outq with
  | nil => rw [hq] at hlt; simp at hlt
  | cons f q =>
    rw [h.next t, he]
    have : (step cfg (W t) (.srv .recv)).srv = Tunnel.enqueue f { (W t).srv with outq := q } true := by
      show Tunnel.serverStep cfg.server (W t).srv .recv = _
      unfold Tunnel.serverStep Tunnel.step
      dsimp only
      rw [if_pos ⟨h.srv t, hp⟩, hq]
      exact Tunnel.resume_idle fun _ => h.srvIdle t hp
    rw [this]
    simp [Tunnel.enqueue, Tunnel.emit, relayed]

/-- (3) and writes them to the connection -/
theorem Lively.sentS (h : Lively cfg W ε)
    (hE : Often fun t => (∃ j, 0 < j ∧ ε t = .srv (.wrote j)) ∧ (W t).srv.pending = none) (t) :
    ∃ t', t ≤ t' ∧ (accepted (W t).srv.trace).flatMap wire <+: written (W t').srv.trace := by
  have hb : ∀ t, written (W t).srv.trace ++ (W t).srv.writeBuf = (accepted (W t).srv.trace).flatMap wire := by
    intro t
    obtain ⟨es, he⟩ := (h.base t).srv
    rw [he]; exact (Tunnel.server_inv cfg.server es).2.2.bytes
  refine reaches (B := fun t => written (W t).srv.trace) (C := fun t => (accepted (W t).srv.trace).flatMap wire) (E := _)
    (fun t => Tunnel.written_mono (h.srvTrace t))
    (fun t => by
      obtain ⟨u, hu⟩ := Tunnel.accepted_mono (h.srvTrace t)
      rw [← hu, List.flatMap_append]; exact List.prefix_append _ _)
    (fun t => ⟨_, hb t⟩) hE (fun t he hlt => ?_) t
  obtain ⟨⟨j, hj, he⟩, hp⟩ := he
  rw [← hb] at hlt
  have hne : (W t).srv.writeBuf ≠ [] := by intro h0; rw [h0] at hlt; simp at hlt
  rw [h.next t, he]
  have hst : (step cfg (W t) (.srv (.wrote j))).srv = Tunnel.emit (.wrote ((W t).srv.writeBuf.take j))
        { (W t).srv with writeBuf := (W t).srv.writeBuf.drop j } := by
    show Tunnel.serverStep cfg.server (W t).srv (.wrote _) = _
    unfold Tunnel.serverStep Tunnel.step
    dsimp only
    rw [if_pos ⟨h.srv t, hp⟩, if_neg hne, if_neg]
    · exact Tunnel.resume_idle fun _ => h.srvIdle t hp
    · intro hc
      have : (W t).srv.readyShutdown = true := hc.2
      rw [h.srvOpen t] at this
      cases this
  rw [hst]
  have hpos := List.length_pos_iff.2 hne
  simp [Tunnel.emit, written, List.length_take]
  omega

/-- (4) the client's loop reads what was written -/
theorem Lively.readC (h : Lively cfg W ε) (hE : Often fun t => ∃ j, 0 < j ∧ ε t = .cli (.read j)) (t) :
    ∃ t', t ≤ t' ∧ written (W t).srv.trace <+: arrived (W t').cli.trace := by
  refine reaches (B := fun t => arrived (W t).cli.trace) (C := fun t => written (W t).srv.trace) (E := _)
    (fun t => Tunnel.arrived_mono (h.cliTrace t)) (fun t => Tunnel.written_mono (h.srvTrace t))
    (fun t => ⟨_, (h.base t).down⟩) hE (fun t he hlt => ?_) t
  obtain ⟨j, hj, he⟩ := he
  have hp := (h.cliIdle t).1
  rw [← (h.base t).down] at hlt
  have hne : (W t).down ≠ [] := by intro h0; rw [h0] at hlt; simp at hlt
  have hpos := List.length_pos_iff.2 hne
  have htake : (W t).down.take j ≠ [] := by
    apply List.length_pos_iff.1; rw [List.length_take]; omega
  have hst : (step cfg (W t) (.cli (.read j))).cli = Tunnel.clientStep cfg.client (W t).cli (.read ((W t).down.take j)) := by
    show (loopStep _ _ _ (.read j)).1 = _
    unfold loopStep
    dsimp only
    rw [if_pos ⟨h.cli t, hp, htake⟩]
  rw [h.next t, he, hst, (steps_client cfg.client).harrived]
  simp only [heads, h.cli t, hp, and_self, if_true]
  rw [List.length_append]
  have := List.length_pos_iff.2 htake
  simp [arrived, List.length_take]
  omega

/-- the local connection keeps its channel -/
theorem Exec.locHandle (h : Exec cfg n m k i W ε) :
    ∃ c, ∀ t, ∃ l, (W t).locals[m]? = some l ∧ l.2 = c := by
  obtain ⟨l0, h0, _⟩ := h.loc 0
  refine ⟨l0.2, fun t => ?_⟩
  induction t with
  | zero => exact ⟨l0, h0, rfl⟩
  | succ t ih =>
    obtain ⟨l, h1, h2⟩ := ih
    obtain ⟨l', h3, _, h4⟩ := local_next (cfg := cfg) h1 (ε t)
    exact ⟨l', by rw [h.next]; exact h3, h4.trans h2⟩

theorem Exec.rxC (h : Exec cfg n m k i W ε) {t l} (hl : (W t).locals[m]? = some l) : ((W t).cli.chan l.2).rx = true := by
  obtain ⟨_, _, hr⟩ := h.ready t
  obtain ⟨l', hl', hli, hlr, _⟩ := hr.loc
  rw [hl] at hl'; cases hl'
  obtain ⟨es, he⟩ := hr.reach
  rw [he] at hl ⊢
  have hh := hosts_run cfg es
  have hlm := List.mem_of_getElem? hl
  refine serving_run cfg es _ (hh.conn l hlm) fun x hx he => ?_
  obtain ⟨j, hj⟩ := List.getElem?_of_mem hx
  have hnd := hh.nodup
  have : j = m := by
    have h1 : ((run cfg es).locals.map (·.2))[j]? = some l.2 := by rw [List.getElem?_map, hj]; simpa using he
    have h2 : ((run cfg es).locals.map (·.2))[m]? = some l.2 := by rw [List.getElem?_map, hl]; rfl
    exact (List.getElem?_inj (List.getElem?_eq_some_iff.1 h1).1 hnd).1 (h1.trans h2.symm)
  subst this
  rw [hl] at hj; cases hj
  exact hlr

/-- (5) the client's loop has passed on what it has read -/
theorem Exec.queuedC (h : Exec cfg n m k i W ε) {t u l} (htu : t ≤ u) (hl : (W u).locals[m]? = some l)
    (ha : Announced i (accepted (W u).srv.trace)) (ho : ∀ d, .overflow l.2 (.data i d) ∉ (W u).cli.trace)
    (hw : (accepted (W t).srv.trace).flatMap wire <+: arrived (W u).cli.trace) :
    datas i (accepted (W t).srv.trace) <+: datas i (puts l.2 (W u).cli.trace) := by
  obtain ⟨_, _, hr⟩ := h.ready u
  obtain ⟨es, he⟩ := hr.base.cli
  have hlive : Tunnel.Live (W u).cli := ⟨hr.cli, hr.cliIdle.2.1, hr.cliIdle.1⟩
  have hacc : accepted (W t).srv.trace <+: accepted (W u).srv.trace :=
    chain_prefix (B := fun t => accepted (W t).srv.trace) (fun t => Tunnel.accepted_mono (h.srvTrace t)) htu
  have hat := Tunnel.client_at (nilStream hr.fit.server) cfg.client [] es
  rw [← he] at hat
  have hs := hat.seen hlive hr.fit.server ((List.prefix_append _ _).trans hr.arrivesC) hacc hw
  have h1 := Tunnel.datas_mono i hs
  rw [datas_asReceived] at h1
  obtain ⟨l', hl', _, l2, _⟩ := h.loc u
  rw [hl] at hl'; cases hl'
  have hmet : Met i l.2 (W u).cli.trace := by
    obtain ⟨es', he'⟩ := hr.reach
    have hn := hr.normal
    have hf := hr.free
    have hlm := List.mem_of_getElem? hl
    rw [he'] at hn hf hlm ha ⊢
    have := local_met hn hlm (by rw [l2]; exact hf) (by rw [l2]; exact ha)
    rw [l2] at this
    exact this
  obtain ⟨t1, rest, ht, m1, m2⟩ := hmet
  have hk : datas i (puts l.2 (W u).cli.trace) = datas i (gots (W u).cli.trace) := by
    have hrx := h.rxC hl
    rw [he] at ht hlive hrx ho ⊢
    exact Tunnel.client_data_kept cfg.client [] es i l.2 t1 rest ht m1 m2 ho hlive hrx
  rw [hk]
  exact h1

/-- (6) the local connection's task takes it -/
theorem Lively.gotC (h : Lively cfg W ε) {c} (hrx : ∀ t, ((W t).cli.chan c).rx = true)
    (hc : ∀ t, ∃ l, (W t).locals[m]? = some l ∧ l.2 = c ∧ l.1.phase = .running)
    (hE : Often fun t => ε t = .loc m .recv) (t) :
    ∃ t', t ≤ t' ∧ puts c (W t).cli.trace <+: received c (W t').cli.trace := by
  have ho : ∀ t, received c (W t).cli.trace ++ ((W t).cli.chan c).q = puts c (W t).cli.trace := by
    intro t
    obtain ⟨es, he⟩ := (h.base t).cli
    have hrx := hrx t
    rw [he] at hrx ⊢
    exact ((Tunnel.client_inv cfg.client [] es).1.1.open_ _ hrx).1
  refine reaches (B := fun t => received c (W t).cli.trace) (C := fun t => puts c (W t).cli.trace) (E := _)
    (fun t => Tunnel.received_mono c (h.cliTrace t)) (fun t => Tunnel.puts_mono c (h.cliTrace t))
    (fun t => ⟨_, ho t⟩) hE (fun t he hlt => ?_) t
  obtain ⟨l, hl, hlc, l4⟩ := hc t
  have hrx := hrx t
  rw [← ho] at hlt
  cases hq : ((W t).cli.chan c).q with
  | nil => rw [hq] at hlt; simp at hlt
  | cons f q =>
    have hst : (step cfg (W t) (.loc m .recv)).cli = Tunnel.clientStep cfg.client (W t).cli (.take c) := by
      have : relayStep (Tunnel.clientStep cfg.client) false (W t).cli l.1 (some l.2) .recv =
          (Tunnel.clientStep cfg.client (W t).cli (.take c), Relay.step l.1 (.recv (some f))) := by
        unfold relayStep
        dsimp only
        rw [if_pos l4, hlc, hq]
        dsimp only
        rw [if_pos hrx]
      simp only [step, hl, this]
    rw [h.next t, he, hst, (steps_client cfg.client).hreceived]
    simp [heads, hq, hrx, received]

/-- (7) and writes it to the local service -/
theorem Exec.outC (h : Exec cfg n m k i W ε) (hE : Often fun t => ∃ j, 0 < j ∧ ε t = .loc m (.wrote j)) (t) :
    ∃ t', t ≤ t' ∧ (Relay.gots (locOf m (W t)).trace).flatMap Relay.payload <+: outputs (locOf m (W t')).trace := by
  have hd : ∀ t, outputs (locOf m (W t)).trace ++ (locOf m (W t)).write =
      (Relay.gots (locOf m (W t)).trace).flatMap Relay.payload := by
    intro t
    obtain ⟨es, he⟩ := h.locRun t
    rw [he]; exact (Relay.run_inv _ es).down
  refine reaches (B := fun t => outputs (locOf m (W t)).trace)
    (C := fun t => (Relay.gots (locOf m (W t)).trace).flatMap Relay.payload) (E := _)
    (fun t => Relay.outputs_mono (h.locTrace t))
    (fun t => by
      obtain ⟨u, hu⟩ := Relay.gots_mono (h.locTrace t)
      rw [← hu, List.flatMap_append]; exact List.prefix_append _ _)
    (fun t => ⟨_, hd t⟩) hE (fun t he hlt => ?_) t
  obtain ⟨j, hj, he⟩ := he
  rw [← hd] at hlt
  have hne : (locOf m (W t)).write ≠ [] := by intro h0; rw [h0] at hlt; simp at hlt
  obtain ⟨l, hl, l1, l2, l4⟩ := h.loc t
  obtain ⟨l', hl', l1', _⟩ := h.loc (t + 1)
  rw [h.next t, he] at hl'
  simp only [step, hl, relayStep] at hl'
  rw [List.getElem?_set_self (List.getElem?_eq_some_iff.1 hl).1] at hl'
  cases hl'
  rw [l1']
  rw [l1] at hne ⊢
  have hpos := List.length_pos_iff.2 hne
  have hw := (Relay.top_same l.1).2.2.1
  simp only [Relay.step, l4, Relay.branch, hw, if_neg hne]
  simp only [Relay.emit, Relay.outputs_snoc, List.length_append, (Relay.top_same l.1).1]
  simp [outputs, List.length_take]
  omega

/-- what has been sent before the open request is decided once the request has been sent -/
theorem Exec.announced (h : Exec cfg n m k i W ε) (ha : Announced i (accepted (W 0).srv.trace)) (t) :
    Announced i (accepted (W t).srv.trace) := by
  obtain ⟨_, _, hr⟩ := h.ready 0
  obtain ⟨es, he⟩ := hr.reach
  obtain ⟨v, hv, _, v2, _⟩ := h.vis 0
  obtain ⟨l, hl, _, l2, _⟩ := h.loc 0
  have hn := hr.normal
  have hf := hr.free
  have hvm := List.mem_of_getElem? hv
  have hlm := List.mem_of_getElem? hl
  have hone : 1 ≤ creates i (accepted (W 0).srv.trace) := by
    rw [he] at hn hf hvm hlm ⊢
    have := (announced_visitor hn hvm (by rw [v2]; exact hf) hlm (l2.trans v2.symm)).1
    rw [v2] at this
    exact this
  have hcreate : ∃ x, .create i x ∈ accepted (W 0).srv.trace := by
    obtain ⟨f, hf, hp⟩ := List.countP_pos_iff.1 (show 0 < creates i (accepted (W 0).srv.trace) by omega)
    cases f with
    | create j x =>
      have : j = i := by simpa using hp
      exact ⟨x, this ▸ hf⟩
    | _ => cases hp
  exact announced_more ha hcreate (chain_prefix (B := fun t => accepted (W t).srv.trace)
    (fun t => Tunnel.accepted_mono (h.srvTrace t)) (Nat.zero_le t))

/-! ### Statement -/

/-- **C180** (from the visitor to the service), partial: with an endless schedule in which every part on the way gets its
    turn again and again, every byte the visitor has sent at any time is written to the local service at some later time -
    or, at some time, the client drops a message of this stream because its channel is full (C104_slow_service_fails
    shows that this happens). Excluded are streams whose data was sent before their open request
    (C104_overtaken_fails). -/
theorem C180_up_partial (cfg : Cfg) (σ : Nat → Event) (t0 n m i : Nat) (hl : Lasting cfg σ t0 n m i) (hf : FairUp cfg σ n m)
    (ha : Announced i (accepted (after cfg σ t0).srv.trace))
    (t : Nat) (ht : t0 ≤ t) (v) (hv : (after cfg σ t).visitors[n]? = some v) :
    ∃ t', t ≤ t' ∧ ∃ l, (after cfg σ t').locals[m]? = some l ∧ l.1.id = i ∧
      (inputs v.relay.trace <+: outputs l.1.trace ∨ ∃ d, .overflow l.2 (.data i d) ∈ (after cfg σ t').cli.trace) := by
  obtain ⟨k, h⟩ := hl.exec
  obtain ⟨d, rfl⟩ : ∃ d, t = t0 + d := ⟨t - t0, by omega⟩
  have hidle := h.lively.unblocked (fun t hh f hp => by
    obtain ⟨t', h1, h2⟩ := hf.makesRoom (t0 + t) hh f hp
    exact ⟨t' - t0, by omega, by rw [Nat.add_sub_cancel' (by omega)]; exact h2⟩)
  have hidle' := hidle.back (P := fun t => (after cfg σ t).srv.pending = none)
  have htakes := hf.serverTakes hidle'
  have hroom := hf.handOver ((h.lively.roomS (htakes.shift t0)).back (P := fun t => (after cfg σ t).srv.outq.length < Tunnel.outCap))
  obtain ⟨c, hc⟩ := h.locHandle
  by_cases hov : ∃ u, d ≤ u ∧ ∃ x, .overflow c (.data i x) ∈ (after cfg σ (t0 + u)).cli.trace
  · obtain ⟨u, u1, x, hx⟩ := hov
    obtain ⟨l, l1, rfl⟩ := hc u
    obtain ⟨l', l1', _, l2, _⟩ := h.loc u
    rw [l1] at l1'; cases l1'
    exact ⟨t0 + u, by omega, l, l1, l2, .inr ⟨x, hx⟩⟩
  obtain ⟨d1, e1, a1⟩ := h.handedS (hroom.shift t0) d
  obtain ⟨d2, e2, a2⟩ := h.lively.takenS (htakes.shift t0) d1
  obtain ⟨d3, e3, a3⟩ := h.lively.sentS ((hf.serverWrites hidle').shift t0) d2
  obtain ⟨d4, e4, a4⟩ := h.lively.readC (hf.clientReads.shift t0) d3
  obtain ⟨l4, hl4, rfl⟩ := hc d4
  have a6 := h.queuedC (t := d2) (u := d4) (by omega) hl4 (h.announced ha d4)
    (fun x hx => hov ⟨d4, by omega, x, hx⟩) (a3.trans a4)
  obtain ⟨d7, e7, a7⟩ := h.lively.gotC (c := l4.2) (fun t => by obtain ⟨l, hl, e⟩ := hc t; rw [← e]; exact h.rxC hl)
    (fun t => by
      obtain ⟨l, hl, e⟩ := hc t
      obtain ⟨l', hl', _, _, e'⟩ := h.loc t
      rw [hl] at hl'; cases hl'
      exact ⟨l, hl, e, e'⟩) (hf.serviceTakes.shift t0) d4
  obtain ⟨d8, e8, a8⟩ := h.outC (hf.serviceWrites.shift t0) d7
  obtain ⟨l, l1, l2, l3, _⟩ := h.loc d8
  refine ⟨t0 + d8, by omega, l, l1, l3, .inl ?_⟩
  rw [← l2]
  refine List.IsPrefix.trans ?_ a8
  have hgd : (Relay.gots (locOf m (after cfg σ (t0 + d7))).trace).flatMap Relay.payload =
      (datas i (received l4.2 (after cfg σ (t0 + d7)).cli.trace)).flatten := by
    obtain ⟨x, x1, x2, x3, _⟩ := h.loc d7
    obtain ⟨y, y1, y2⟩ := hc d7
    rw [x1] at y1; cases y1
    have := (local_stream (hl.normal (t0 + d7) (by omega)) (List.mem_of_getElem? x1)
      (by rw [x3]; exact hl.free (t0 + d7) (by omega))).2.2
    rw [x3, y2] at this
    rw [x2]; exact this
  rw [hgd]
  have hin : visOf n (after cfg σ (t0 + d)) = v.relay := by unfold visOf; rw [hv]
  rw [hin] at a1
  refine a1.trans (flatten_prefix ?_)
  refine (Tunnel.datas_mono i a2).trans ?_
  rw [← server_datas_eq (h.base d2).srv]
  exact a6.trans (Tunnel.datas_mono i a7)

/-! ### A schedule that meets the requirements -/

/-- the web visitor of the other examples is connected and sends two bytes; -/
def warmUp : List Event := hello ++ opening ++ [.vis 0 (.read [104, 105])]

/-- the turns of one round -/
def forth : List Event := [.vis 0 .slot, .srv .recv, .srv (.wrote 1000), .cli (.read 1000), .loc 0 .recv, .loc 0 (.wrote 10)]

/-- then everybody has its turn, over and over. -/
def roundsUp (t : Nat) : Event :=
  if t < warmUp.length then warmUp.getD t .accept else forth.getD ((t - warmUp.length) % 6) .accept

/-- nothing is under way to the service -/
structure QuietUp (w : St) : Prop where
  srv : w.srv.outq = [] ∧ w.srv.writeBuf = [] ∧ w.srv.phase = .running ∧ w.srv.readyShutdown = false
  down : w.down = []
  vis : ∃ v, w.visitors[0]? = some v ∧ v.relay.read = [] ∧ v.relay.link = [] ∧ v.relay.phase = .running
  loc : ∃ l, w.locals[0]? = some l ∧ l.1.read = [] ∧ l.1.write = [] ∧ l.1.phase = .running ∧
    (w.cli.chan l.2).q = [] ∧ (w.cli.chan l.2).tx = true

theorem QuietUp.still {cfg w} (h : QuietUp w) {e} (he : e ∈ forth) : step cfg w e = w := by
  obtain ⟨c1, c2, c3, c4⟩ := h.srv
  obtain ⟨v, v1, v2, v3, v4⟩ := h.vis
  obtain ⟨l, l1, l2, l3, l4, l5, l6⟩ := h.loc
  simp only [forth, List.mem_cons, List.not_mem_nil, or_false] at he
  rcases he with rfl | rfl | rfl | rfl | rfl | rfl
  · have ho : offer v.relay = none := by
      unfold offer
      split
      · rw [v4]; simp [Relay.top, v2, v3]
      · rfl
    simp only [step, v1, relayStep, c3, if_true, ho]
    rw [set_same v1]
  · simp only [step, loopStep, Tunnel.serverStep, Tunnel.step, c1, ite_self, List.append_nil]
  · simp only [step, loopStep, Tunnel.serverStep, Tunnel.step, c2, if_true, ite_self, List.take_nil, List.append_nil]
  · simp [step, loopStep, h.down]
    rw [← h.down]
  · simp only [step, l1, relayStep, l4, if_true, l5, l6]
    rw [set_same l1]
  · have : Relay.step l.1 (.wrote 10) = l.1 := by
      unfold Relay.step
      rw [l4]
      simp [Relay.branch, Relay.top, l2, l3]
    simp only [step, l1, relayStep, this]
    rw [set_same l1]

theorem roundsUp_turn (t j : Nat) (hj : j < 6) : roundsUp (15 + 6 * t + j) = forth.getD j .accept := by
  unfold roundsUp
  have hw : warmUp.length = 9 := by decide
  rw [hw, if_neg (by omega)]
  congr 1
  omega

theorem roundsUp_quiet : QuietUp (after webCfg roundsUp 15) := by
  have h1 : (after webCfg roundsUp 15).visitors.map (fun v => (v.relay.read, v.relay.link, v.relay.phase)) =
      [([], [], .running)] := by decide +kernel
  have h2 : (after webCfg roundsUp 15).locals.map (fun l => (l.1.read, l.1.write, l.1.phase,
      ((after webCfg roundsUp 15).cli.chan l.2).q, ((after webCfg roundsUp 15).cli.chan l.2).tx)) =
      [([], [], .running, [], true)] := by
    decide +kernel
  refine ⟨by decide +kernel, by decide +kernel, ?_, ?_⟩
  · cases hv : (after webCfg roundsUp 15).visitors with
    | nil => rw [hv] at h1; simp at h1
    | cons v vs =>
      rw [hv] at h1
      simp at h1
      exact ⟨v, rfl, h1.1⟩
  · cases hl : (after webCfg roundsUp 15).locals with
    | nil => rw [hl] at h2; simp at h2
    | cons l ls =>
      rw [hl] at h2
      simp at h2
      exact ⟨l, rfl, h2.1⟩

theorem roundsUp_settled (d : Nat) : after webCfg roundsUp (15 + d) = after webCfg roundsUp 15 := by
  induction d with
  | zero => rfl
  | succ d ih =>
    rw [← Nat.add_assoc, after_succ, ih]
    refine roundsUp_quiet.still ?_
    have h := roundsUp_turn (d / 6) (d % 6) (Nat.mod_lt _ (by decide))
    rw [Nat.add_assoc, Nat.div_add_mod] at h
    rw [h]
    exact (by decide : ∀ j < 6, forth.getD j .accept ∈ forth) _ (Nat.mod_lt _ (by decide))

theorem roundsUp_all {P : St → Prop} {a : Nat} (h : ∀ t < 16, a ≤ t → P (after webCfg roundsUp t)) (ha : a ≤ 15) (t : Nat)
    (ht : a ≤ t) : P (after webCfg roundsUp t) := by
  rcases Nat.lt_or_ge t 16 with h1 | h1
  · exact h t h1 ht
  · obtain ⟨d, rfl⟩ : ∃ d, t = 15 + d := ⟨t - 15, by omega⟩
    rw [roundsUp_settled]
    exact h 15 (by decide) ha

theorem roundsUp_often {Q : St → Event → Prop} (j : Nat) (hj : j < 6)
    (h : Q (after webCfg roundsUp 15) (forth.getD j .accept)) :
    Often fun t => Q (after webCfg roundsUp t) (roundsUp t) := by
  intro t
  refine ⟨15 + 6 * t + j, by omega, ?_⟩
  show Q (after webCfg roundsUp (15 + 6 * t + j)) (roundsUp (15 + 6 * t + j))
  rw [roundsUp_turn t j hj, Nat.add_assoc, roundsUp_settled]
  exact h

/-- The hypotheses of `C180_up_partial` are met by `roundsUp`; after nine steps the visitor has sent two bytes, none of
    which has been written to the service, and no message is ever dropped. -/
example : Lasting webCfg roundsUp 9 0 0 2 ∧ FairUp webCfg roundsUp 0 0 ∧
    Announced 2 (accepted (after webCfg roundsUp 9).srv.trace) ∧
    (after webCfg roundsUp 9).visitors.map (fun v => inputs v.relay.trace) = [[104, 105]] ∧
    (after webCfg roundsUp 9).locals.map (fun l => outputs l.1.trace) = [[]] ∧
    ∀ t, 9 ≤ t → ((after webCfg roundsUp t).cli.trace.any fun o => match o with | .overflow _ _ => true | _ => false) = false := by
  have hf : ∀ t, 9 ≤ t → (after webCfg roundsUp t).otherS = [] ∧ (after webCfg roundsUp t).otherC = [] ∧
      (after webCfg roundsUp t).used < 2 ^ 23 :=
    roundsUp_all (P := fun w => w.otherS = [] ∧ w.otherC = [] ∧ w.used < 2 ^ 23) (by decide +kernel) (by decide)
  have hr : ∀ t, 9 ≤ t → (after webCfg roundsUp t).srv.phase = .running ∧ (after webCfg roundsUp t).cli.phase = .running ∧
      ((after webCfg roundsUp t).visitors.map fun v => (v.relay.id, v.relay.phase)) = [(2, .running)] ∧
      ((after webCfg roundsUp t).locals.map fun l => (l.1.id, l.1.phase)) = [(2, .running)] :=
    roundsUp_all (P := fun w => w.srv.phase = .running ∧ w.cli.phase = .running ∧
      (w.visitors.map fun v => (v.relay.id, v.relay.phase)) = [(2, .running)] ∧
      (w.locals.map fun l => (l.1.id, l.1.phase)) = [(2, .running)]) (by decide +kernel) (by decide)
  have hp : ∀ t, 0 ≤ t → (after webCfg roundsUp t).srv.pending = none :=
    roundsUp_all (P := fun w => w.srv.pending = none) (by decide +kernel) (by decide)
  refine ⟨⟨fun t ht => web_normal _ (hf t ht).1 (hf t ht).2.1 (hf t ht).2.2, fun t ht f hm => ?_, fun t ht => (hr t ht).1,
    fun t ht => (hr t ht).2.1, fun t ht => ?_, fun t ht => ?_⟩, ⟨fun _ => ?_, fun _ => ?_, fun _ => ?_, fun t h f hh => ?_,
    ?_, ?_, ?_⟩, ?_, by decide +kernel, by decide +kernel,
    roundsUp_all (P := fun w => (w.cli.trace.any fun o => match o with | .overflow _ _ => true | _ => false) = false)
      (by decide +kernel) (by decide)⟩
  · rw [(hf t ht).1, (hf t ht).2.1] at hm; cases hm
  · have h := (hr t ht).2.2.1
    cases hv : (after webCfg roundsUp t).visitors with
    | nil => rw [hv] at h; simp at h
    | cons v vs => rw [hv] at h; simp at h; exact ⟨v, rfl, h.1⟩
  · have h := (hr t ht).2.2.2
    cases hv : (after webCfg roundsUp t).locals with
    | nil => rw [hv] at h; simp at h
    | cons v vs => rw [hv] at h; simp at h; exact ⟨v, rfl, h.1⟩
  · exact roundsUp_often (Q := fun w e => e = .vis 0 .slot ∧ w.srv.outq.length < Tunnel.outCap) 0 (by decide)
      (by decide +kernel)
  · exact roundsUp_often (Q := fun w e => e = .srv .recv ∧ w.srv.pending = none) 1 (by decide) ⟨rfl, hp _ (by decide)⟩
  · exact roundsUp_often (Q := fun w e => (∃ j, 0 < j ∧ e = .srv (.wrote j)) ∧ w.srv.pending = none) 2 (by decide)
      ⟨⟨1000, by decide, rfl⟩, hp _ (by decide)⟩
  · rw [hp t (Nat.zero_le _)] at hh; cases hh
  · exact roundsUp_often (Q := fun _ e => ∃ j, 0 < j ∧ e = .cli (.read j)) 3 (by decide) ⟨1000, by decide, rfl⟩
  · exact roundsUp_often (Q := fun _ e => e = .loc 0 .recv) 4 (by decide) rfl
  · exact roundsUp_often (Q := fun _ e => ∃ j, 0 < j ∧ e = .loc 0 (.wrote j)) 5 (by decide) ⟨10, by decide, rfl⟩
  · have h : datas 2 (accepted (after webCfg roundsUp 9).srv.trace) = [] := by decide +kernel
    intro a d b hab
    rw [hab] at h
    simp [datas] at h

end Wm.World
