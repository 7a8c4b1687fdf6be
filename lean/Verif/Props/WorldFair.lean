import Verif.Props.WorldDrainUp
import Verif.Proofs.WorldFair
/-!
Property C180: when every part of the tunnel gets its turn again and again, everything a local service sends is written to
its visitor.
-/
namespace Wm.World
open Wm Wm.Prot
open scoped List
open Wm.Tunnel (datas creates regCount openCount gots received submissions accepted relayed written arrived InnerL heads
  LoggedIn streamCap puts)
open Wm.Relay (inputs outputs)

/-! ### What is required -/

/-- the state after the first `t` steps of an endless schedule -/
def after (cfg : Cfg) (σ : Nat → Event) (t : Nat) : St := run cfg ((List.range t).map σ)

/-- The task at the server that holds channel `h` does its step: a visitor's task takes a message, or lets go of the channel
    after its end; the task of something else than a visitor takes a message or lets go. -/
def Clears (w : St) (h : Nat) : Event → Prop
  | .vis j .recv => ∃ v, w.visitors[j]? = some v ∧ v.handle = some h ∧ v.relay.phase = .running
  | .vis j .drop => ∃ v, w.visitors[j]? = some v ∧ v.handle = some h ∧ v.relay.phase ≠ .running
  | .otherS (.take k) | .otherS (.dropRx k) => k = h ∧ h ∉ w.visitors.filterMap (·.handle)
  | _ => False

/-- From `t0` on, visitor `n` and local connection `m` are the two ends of stream `i`, both go on for ever, and so do both
    ends of the tunnel. Nobody else uses the id. -/
structure Lasting (cfg : Cfg) (σ : Nat → Event) (t0 n m i : Nat) : Prop where
  normal : ∀ t, t0 ≤ t → Normal cfg (after cfg σ t)
  free : ∀ t, t0 ≤ t → Free i (after cfg σ t)
  server : ∀ t, t0 ≤ t → (after cfg σ t).srv.phase = .running
  client : ∀ t, t0 ≤ t → (after cfg σ t).cli.phase = .running
  visitor : ∀ t, t0 ≤ t → ∃ v, (after cfg σ t).visitors[n]? = some v ∧ v.relay.id = i ∧ v.relay.phase = .running
  service : ∀ t, t0 ≤ t → ∃ l, (after cfg σ t).locals[m]? = some l ∧ l.1.id = i ∧ l.1.phase = .running

/-- Every part on the way from local connection `m` to visitor `n` gets its turn again and again. A turn that needs
    something - room in the client's outgoing channel, a server loop that is not waiting - is only promised when this
    is the case again and again. When the server's loop waits for a task to make room, that task gets its turn. -/
structure FairDown (cfg : Cfg) (σ : Nat → Event) (n m : Nat) : Prop where
  handOver : Often (fun t => (after cfg σ t).cli.outq.length < Tunnel.outCap) →
    Often fun t => σ t = .loc m .slot ∧ (after cfg σ t).cli.outq.length < Tunnel.outCap
  clientTakes : Often fun t => σ t = .cli .recv
  clientWrites : Often fun t => ∃ j, 0 < j ∧ σ t = .cli (.wrote j)
  serverReads : Often (fun t => (after cfg σ t).srv.pending = none) →
    Often fun t => (∃ j, 0 < j ∧ σ t = .srv (.read j)) ∧ (after cfg σ t).srv.pending = none
  makesRoom : ∀ t h f, (after cfg σ t).srv.pending = some (h, f) → ∃ t', t ≤ t' ∧ Clears (after cfg σ t') h (σ t')
  visitorTakes : Often fun t => σ t = .vis n .recv
  visitorWrites : Often fun t => ∃ j, 0 < j ∧ σ t = .vis n (.wrote j)

/-! ### Proof -/

theorem after_succ (cfg σ t) : after cfg σ (t + 1) = step cfg (after cfg σ t) (σ t) := by
  unfold after
  rw [List.range_succ, List.map_append]
  exact run_snoc cfg _ _

/-- an endless execution in which a stream lasts -/
structure Exec (cfg : Cfg) (n m k i : Nat) (W : Nat → St) (ε : Nat → Event) : Prop where
  ready : ∀ t, ∃ vin inp, Ready cfg n m k i vin inp (W t)
  next : ∀ t, W (t + 1) = step cfg (W t) (ε t)

def visOf (n : Nat) (w : St) : Relay.St := match w.visitors[n]? with | some v => v.relay | none => Relay.init 0
def locOf (m : Nat) (w : St) : Relay.St := match w.locals[m]? with | some l => l.1 | none => Relay.init 0

variable {cfg : Cfg} {n m k i : Nat} {W : Nat → St} {ε : Nat → Event}

theorem Exec.base (h : Exec cfg n m k i W ε) (t) : Base cfg (W t) := by
  obtain ⟨_, _, hr⟩ := h.ready t; exact hr.base

theorem Exec.srvTrace (h : Exec cfg n m k i W ε) (t) : (W t).srv.trace <+: (W (t + 1)).srv.trace := by
  rw [h.next t]
  exact (step_one cfg (W t) (ε t) (h.base t)).1.grows (steps_server cfg.server)

theorem Exec.cliTrace (h : Exec cfg n m k i W ε) (t) : (W t).cli.trace <+: (W (t + 1)).cli.trace := by
  rw [h.next t]
  exact (step_one cfg (W t) (ε t) (h.base t)).2.1.grows (steps_client cfg.client)

theorem Exec.vis (h : Exec cfg n m k i W ε) (t) : ∃ v, (W t).visitors[n]? = some v ∧ visOf n (W t) = v.relay ∧
    v.relay.id = i ∧ v.handle = some k ∧ v.relay.phase = .running := by
  obtain ⟨_, _, hr⟩ := h.ready t
  obtain ⟨v, h1, h2, h3, h4, _⟩ := hr.vis
  exact ⟨v, h1, by unfold visOf; rw [h1], h2, h3, h4⟩

theorem Exec.loc (h : Exec cfg n m k i W ε) (t) : ∃ l, (W t).locals[m]? = some l ∧ locOf m (W t) = l.1 ∧
    l.1.id = i ∧ l.1.phase = .running := by
  obtain ⟨_, _, hr⟩ := h.ready t
  obtain ⟨l, h1, h2, h3, _⟩ := hr.loc
  exact ⟨l, h1, by unfold locOf; rw [h1], h2, h3⟩

theorem Exec.visTrace (h : Exec cfg n m k i W ε) (t) : (visOf n (W t)).trace <+: (visOf n (W (t + 1))).trace := by
  obtain ⟨v, h1, h2, _⟩ := h.vis t
  obtain ⟨v', h3, h4, _⟩ := h.vis (t + 1)
  obtain ⟨_, _, hr⟩ := h.ready t
  obtain ⟨es, he⟩ := hr.reach
  have hg := guests_run cfg es
  rw [← he] at hg
  obtain ⟨x, x1, x2, _⟩ := visitor_next hg h1 (ε t)
  rw [h.next t] at h3
  rw [h3] at x1; cases x1
  rw [h2, h4]; exact x2

theorem Exec.locTrace (h : Exec cfg n m k i W ε) (t) : (locOf m (W t)).trace <+: (locOf m (W (t + 1))).trace := by
  obtain ⟨l, h1, h2, _⟩ := h.loc t
  obtain ⟨l', h3, h4, _⟩ := h.loc (t + 1)
  obtain ⟨x, x1, x2, _⟩ := local_next (cfg := cfg) h1 (ε t)
  rw [h.next t] at h3
  rw [h3] at x1; cases x1
  rw [h2, h4]; exact x2

theorem Exec.visRun (h : Exec cfg n m k i W ε) (t) : IsRun (visOf n (W t)) := by
  obtain ⟨v, h1, h2, _⟩ := h.vis t
  rw [h2]; exact (h.base t).visitors v (List.mem_of_getElem? h1)

theorem Exec.locRun (h : Exec cfg n m k i W ε) (t) : IsRun (locOf m (W t)) := by
  obtain ⟨l, h1, h2, _⟩ := h.loc t
  rw [h2]; exact (h.base t).locals l (List.mem_of_getElem? h1)

/-- what holds while both ends of the tunnel work -/
structure Lively (cfg : Cfg) (W : Nat → St) (ε : Nat → Event) : Prop where
  next : ∀ t, W (t + 1) = step cfg (W t) (ε t)
  base : ∀ t, Base cfg (W t)
  fit : ∀ t, Fit (W t)
  srv : ∀ t, (W t).srv.phase = .running
  cli : ∀ t, (W t).cli.phase = .running
  srvOpen : ∀ t, (W t).srv.readyShutdown = false
  srvIdle : ∀ t, (W t).srv.pending = none → ¬ Complete (W t).srv.readBuf
  cliIdle : ∀ t, (W t).cli.pending = none ∧ (W t).cli.readyShutdown = false ∧ ¬ Complete (W t).cli.readBuf
  arrives : ∀ t, arrived (W t).srv.trace ++ (W t).up <+: (accepted (W t).cli.trace).flatMap wire ++ []
  arrivesC : ∀ t, arrived (W t).cli.trace ++ (W t).down <+: (accepted (W t).srv.trace).flatMap wire ++ []

theorem Lively.srvTrace (h : Lively cfg W ε) (t) : (W t).srv.trace <+: (W (t + 1)).srv.trace := by
  rw [h.next t]
  exact (step_one cfg (W t) (ε t) (h.base t)).1.grows (steps_server cfg.server)

theorem Lively.cliTrace (h : Lively cfg W ε) (t) : (W t).cli.trace <+: (W (t + 1)).cli.trace := by
  rw [h.next t]
  exact (step_one cfg (W t) (ε t) (h.base t)).2.1.grows (steps_client cfg.client)

theorem Exec.lively (h : Exec cfg n m k i W ε) : Lively cfg W ε where
  next := h.next
  base := h.base
  fit := fun t => by obtain ⟨_, _, hr⟩ := h.ready t; exact hr.fit
  srv := fun t => by obtain ⟨_, _, hr⟩ := h.ready t; exact hr.srv
  cli := fun t => by obtain ⟨_, _, hr⟩ := h.ready t; exact hr.cli
  srvOpen := fun t => by obtain ⟨_, _, hr⟩ := h.ready t; exact hr.srvOpen
  srvIdle := fun t => by obtain ⟨_, _, hr⟩ := h.ready t; exact hr.srvIdle
  cliIdle := fun t => by obtain ⟨_, _, hr⟩ := h.ready t; exact hr.cliIdle
  arrives := fun t => by obtain ⟨_, _, hr⟩ := h.ready t; exact hr.arrives
  arrivesC := fun t => by obtain ⟨_, _, hr⟩ := h.ready t; exact hr.arrivesC

/-- the client's outgoing channel has room again and again -/
theorem Lively.room (h : Lively cfg W ε) (hE : Often fun t => ε t = .cli .recv) :
    Often fun t => (W t).cli.outq.length < Tunnel.outCap := by
  intro t
  obtain ⟨t', h1, h2⟩ := hE t
  have hi := h.cliIdle t'
  cases hq : (W t').cli.outq with
  | nil => exact ⟨t', h1, by show (W t').cli.outq.length < _; rw [hq]; simp [Tunnel.outCap]⟩
  | cons f q =>
    refine ⟨t' + 1, by omega, ?_⟩
    show (W (t' + 1)).cli.outq.length < _
    have hst : (step cfg (W t') (.cli .recv)).cli = Tunnel.enqueue f { (W t').cli with outq := q } true := by
      show Tunnel.clientStep cfg.client (W t').cli .recv = _
      unfold Tunnel.clientStep Tunnel.step
      dsimp only
      rw [if_pos ⟨h.cli t', hi.1⟩, hq]
      exact Tunnel.resume_idle fun _ => hi.2.2
    rw [h.next, h2, hst]
    show q.length < _
    obtain ⟨es, he⟩ := (h.base t').cli
    have hb := (Tunnel.client_bounded cfg.client [] (by simp) es).out
    rw [← he, hq] at hb
    simp at hb
    omega

/-- (1) the local connection's bytes are handed to the client's loop -/
theorem Exec.handed (h : Exec cfg n m k i W ε)
    (hE : Often fun t => ε t = .loc m .slot ∧ (W t).cli.outq.length < Tunnel.outCap) (t) :
    ∃ t', t ≤ t' ∧ inputs (locOf m (W t)).trace <+: (datas i (submissions (W t').cli.trace)).flatten := by
  have hpw : ∀ t, Relay.Piecewise (locOf m (W t)) := by
    intro t
    obtain ⟨es, he⟩ := h.locRun t
    obtain ⟨l, _, h2, _, h4⟩ := h.loc t
    rw [he]
    exact Relay.run_piecewise _ es (by rw [← he, h2]; exact h4)
  obtain ⟨t', h1, h2⟩ := reaches (B := fun t => (Relay.sends (locOf m (W t)).trace).map Relay.payload)
    (C := fun t => Relay.pieces (locOf m (W t)).trace) (E := _)
    (fun t => (Relay.sends_mono (h.locTrace t)).map _) (fun t => Relay.pieces_mono (h.locTrace t))
    (fun t => by rw [← (hpw t).kept, List.append_assoc]; exact List.prefix_append _ _) hE
    (fun t he hlt => by
      obtain ⟨l, hl, e1, e2, e3⟩ := h.loc t
      obtain ⟨l', hl', f1, _⟩ := h.loc (t + 1)
      obtain ⟨_, _, hr⟩ := h.ready t
      have hk := (hpw t).kept
      rw [← hk] at hlt
      rw [e1] at hlt
      rw [e1, f1, List.length_map, List.length_map]
      cases htop : (Relay.top l.1).link with
      | nil =>
        obtain ⟨g1, g2⟩ := top_link_nil htop
        rw [g1, g2] at hlt
        simp at hlt
      | cons f tl =>
        have halive : l.1.alive = true := by
          obtain ⟨es, hes⟩ := hr.reach
          cases ha : l.1.alive with
          | true => rfl
          | false =>
            have hp := (passed_run cfg es).client.alive l.1
            rw [← hes] at hp
            exact absurd hr.cli (hp (List.mem_map.2 ⟨l, List.mem_of_getElem? hl, rfl⟩) ha)
        have hoff : offer l.1 = some f := by
          unfold offer
          rw [if_pos halive, e3]
          simp [htop]
        have hst : relayStep (Tunnel.clientStep cfg.client) false (W t).cli l.1 (some l.2) .slot =
            (Tunnel.clientStep cfg.client (W t).cli (.submit f), Relay.step l.1 .slot) := by
          unfold relayStep
          dsimp only
          rw [if_pos hr.cli, hoff]
          dsimp only
          rw [if_pos he.2]
        have hnext := h.next t
        rw [he.1] at hnext
        simp only [step, hl, hst] at hnext
        rw [hnext] at hl'
        dsimp only at hl'
        rw [List.getElem?_set_self (List.getElem?_eq_some_iff.1 hl).1] at hl'
        cases hl'
        dsimp only
        rw [(slot_step hoff).1]
        simp) t
  refine ⟨t', h1, ?_⟩
  obtain ⟨l, hl, e1, e2, e3⟩ := h.loc t'
  obtain ⟨_, _, hr⟩ := h.ready t'
  obtain ⟨es, hes⟩ := hr.reach
  have hown : Own i (W t') := by
    have hn := hr.normal
    have hf := hr.free
    rw [hes] at hn hf ⊢
    exact hf.own hn
  have hfar : Far i (W t') := by
    have := far_run cfg es i
    rw [← hes] at this
    exact this hown hr.fit
  rw [hfar.sub.of l.1 (List.mem_map.2 ⟨l, List.mem_of_getElem? hl, rfl⟩) e2, ← Relay.pieces_flatten]
  refine (flatten_prefix h2).trans ?_
  rw [e1, ← payload_datas]
  · rw [List.flatMap_def]; exact List.prefix_refl _
  · obtain ⟨es', he'⟩ := (h.base t').locals l (List.mem_of_getElem? hl)
    have := (Relay.C19_bytes_preserved l.1.id es').2.2
    rw [← he', e2] at this
    exact this

/-- (2) the client's loop takes them -/
theorem Lively.taken (h : Lively cfg W ε) (hE : Often fun t => ε t = .cli .recv) (t) :
    ∃ t', t ≤ t' ∧ submissions (W t).cli.trace <+: relayed (W t').cli.trace := by
  refine reaches (B := fun t => relayed (W t).cli.trace) (C := fun t => submissions (W t).cli.trace) (E := _)
    (fun t => Tunnel.relayed_mono (h.cliTrace t)) (fun t => Tunnel.submissions_mono (h.cliTrace t))
    (fun t => ⟨_, client_outq (h.base t).cli⟩) hE (fun t he hlt => ?_) t
  have ho := client_outq (h.base t).cli
  have hi := h.cliIdle t
  rw [← ho] at hlt
  cases hq : (W t).cli.outq with
  | nil => rw [hq] at hlt; simp at hlt
  | cons f q =>
    rw [h.next t, he]
    have : (step cfg (W t) (.cli .recv)).cli = Tunnel.enqueue f { (W t).cli with outq := q } true := by
      show Tunnel.clientStep cfg.client (W t).cli .recv = _
      unfold Tunnel.clientStep Tunnel.step
      dsimp only
      rw [if_pos ⟨h.cli t, hi.1⟩, hq]
      exact Tunnel.resume_idle fun _ => hi.2.2
    rw [this]
    simp [Tunnel.enqueue, Tunnel.emit, relayed]

/-- (3) and writes them to the connection -/
theorem Lively.sent (h : Lively cfg W ε) (hE : Often fun t => ∃ j, 0 < j ∧ ε t = .cli (.wrote j)) (t) :
    ∃ t', t ≤ t' ∧ (accepted (W t).cli.trace).flatMap wire <+: written (W t').cli.trace := by
  have hb : ∀ t, written (W t).cli.trace ++ (W t).cli.writeBuf = (accepted (W t).cli.trace).flatMap wire := by
    intro t
    obtain ⟨es, he⟩ := (h.base t).cli
    rw [he]; exact (Tunnel.client_inv cfg.client [] es).2.2.bytes
  refine reaches (B := fun t => written (W t).cli.trace) (C := fun t => (accepted (W t).cli.trace).flatMap wire) (E := _)
    (fun t => Tunnel.written_mono (h.cliTrace t))
    (fun t => by
      obtain ⟨u, hu⟩ := Tunnel.accepted_mono (h.cliTrace t)
      rw [← hu, List.flatMap_append]; exact List.prefix_append _ _)
    (fun t => ⟨_, hb t⟩) hE (fun t he hlt => ?_) t
  have hi := h.cliIdle t
  obtain ⟨j, hj, he⟩ := he
  rw [← hb] at hlt
  have hne : (W t).cli.writeBuf ≠ [] := by intro h0; rw [h0] at hlt; simp at hlt
  rw [h.next t, he]
  have hst : (step cfg (W t) (.cli (.wrote j))).cli = Tunnel.emit (.wrote ((W t).cli.writeBuf.take j))
        { (W t).cli with writeBuf := (W t).cli.writeBuf.drop j } := by
    show Tunnel.clientStep cfg.client (W t).cli (.wrote _) = _
    unfold Tunnel.clientStep Tunnel.step
    dsimp only
    rw [if_pos ⟨h.cli t, hi.1⟩, if_neg hne, if_neg]
    · exact Tunnel.resume_idle fun _ => hi.2.2
    · intro hc
      have : (W t).cli.readyShutdown = true := hc.2
      rw [hi.2.1] at this
      cases this
  rw [hst]
  have hpos := List.length_pos_iff.2 hne
  simp [Tunnel.emit, written, List.length_take]
  omega

/-- (4) the server's loop is not kept waiting for ever -/
theorem Lively.unblocked (h : Lively cfg W ε)
    (hE : ∀ t hh f, (W t).srv.pending = some (hh, f) → ∃ t', t ≤ t' ∧ Clears (W t') hh (ε t')) :
    Often fun t => (W t).srv.pending = none := by
  have move : ∀ t hh f, (W t).srv.pending = some (hh, f) →
      ((W (t + 1)).srv.pending = some (hh, f) ∧ (W (t + 1)).srv.readBuf = (W t).srv.readBuf ∧
        ¬ Clears (W t) hh (ε t)) ∨
      (W (t + 1)).srv.pending = none ∨ (W (t + 1)).srv.readBuf.length < (W t).srv.readBuf.length := by
    intro t hh f hp
    obtain ⟨es, he⟩ := (h.base t).srv
    have hS := nilStream (h.fit t).client
    have ha := (List.prefix_append _ _).trans (h.arrives t)
    have hrun := h.srv t
    have hw := Tunnel.server_waits cfg.server es
    rw [← he] at hw
    obtain ⟨w1, w2⟩ := hw hh f hp
    have ht := Tunnel.unblock_take cfg.server hS es (he ▸ ha) (he ▸ hrun) (he ▸ hp)
    have hd := Tunnel.unblock_drop cfg.server hS es (he ▸ ha) (he ▸ hrun) (he ▸ hp)
    have hbl := Tunnel.blocked_step cfg.server hS es (he ▸ ha) (he ▸ hrun) (he ▸ hp)
    rw [← he] at ht hd hbl
    have hone := (step_one cfg (W t) (ε t) (h.base t)).1
    rw [h.next t]
    by_cases hc : Clears (W t) hh (ε t)
    · right
      generalize ε t = e at hc
      cases e with
      | vis j e =>
        cases e with
        | recv =>
          obtain ⟨v, v1, v2, v3⟩ := hc
          have hq : ∃ g q, ((W t).srv.chan hh).q = g :: q := by
            cases hq : ((W t).srv.chan hh).q with
            | nil => rw [hq] at w2; simp [streamCap] at w2
            | cons g q => exact ⟨g, q, rfl⟩
          obtain ⟨g, q, hq⟩ := hq
          have : (step cfg (W t) (.vis j .recv)).srv = Tunnel.serverStep cfg.server (W t).srv (.take hh) := by
            have : relayStep (Tunnel.serverStep cfg.server) true (W t).srv v.relay v.handle .recv =
                (Tunnel.serverStep cfg.server (W t).srv (.take hh), Relay.step v.relay (.recv (some g))) := by
              unfold relayStep
              dsimp only
              rw [if_pos v3, v2]
              dsimp only
              rw [hq]
              dsimp only
              rw [if_pos w1]
            simp only [step, v1, this]
          rw [this]
          exact ht.2
        | drop =>
          obtain ⟨v, v1, v2, v3⟩ := hc
          have : (step cfg (W t) (.vis j .drop)).srv = Tunnel.serverStep cfg.server (W t).srv (.dropRx hh) := by
            have : relayStep (Tunnel.serverStep cfg.server) true (W t).srv v.relay v.handle .drop =
                (Tunnel.serverStep cfg.server (W t).srv (.dropRx hh), v.relay) := by
              unfold relayStep
              dsimp only
              rw [v2]
              dsimp only
              rw [if_neg v3]
            simp only [step, v1, this]
          rw [this]
          exact hd.2
        | _ => exact hc.elim
      | otherS e =>
        cases e with
        | take j =>
          obtain ⟨rfl, hm⟩ := hc
          have : (step cfg (W t) (.otherS (.take j))).srv = Tunnel.serverStep cfg.server (W t).srv (.take j) := by
            show otherStep _ _ _ (.take j) = _
            unfold otherStep
            dsimp only
            rw [if_neg hm]
          rw [this]
          exact ht.2
        | dropRx j =>
          obtain ⟨rfl, hm⟩ := hc
          have : (step cfg (W t) (.otherS (.dropRx j))).srv = Tunnel.serverStep cfg.server (W t).srv (.dropRx j) := by
            show otherStep _ _ _ (.dropRx j) = _
            unfold otherStep
            dsimp only
            rw [if_neg hm]
          rw [this]
          exact hd.2
        | _ => exact hc.elim
      | _ => exact hc.elim
    · rcases hone with h1 | ⟨e, h1⟩
      · rw [h1]; exact .inl ⟨hp, rfl, hc⟩
      · rw [h1]
        rcases hbl e with ⟨b1, b2⟩ | b
        · exact .inl ⟨b1, b2, hc⟩
        · exact .inr b
  intro t
  induction hN : (W t).srv.readBuf.length using Nat.strongRecOn generalizing t with
  | ind N ih =>
    subst hN
    cases hp : (W t).srv.pending with
    | none => exact ⟨t, Nat.le_refl t, hp⟩
    | some x =>
      obtain ⟨hh, f⟩ := x
      obtain ⟨t', h1, h2⟩ := hE t hh f hp
      have walk : ∀ d, ((W (t + d)).srv.pending = some (hh, f) ∧ (W (t + d)).srv.readBuf = (W t).srv.readBuf ∧
          (∀ u, t ≤ u → u < t + d → ¬ Clears (W u) hh (ε u))) ∨
          ∃ u, t ≤ u ∧ ((W u).srv.pending = none ∨ (W u).srv.readBuf.length < (W t).srv.readBuf.length) := by
        intro d
        induction d with
        | zero => exact .inl ⟨hp, rfl, fun u a b => by omega⟩
        | succ d ihd =>
          rcases ihd with ⟨a1, a2, a3⟩ | b
          · rcases move (t + d) hh f a1 with ⟨c1, c2, c3⟩ | c | c
            · refine .inl ⟨c1, c2.trans a2, fun u p q => ?_⟩
              rcases Nat.lt_or_ge u (t + d) with hlt | hge
              · exact a3 u p hlt
              · have : u = t + d := by omega
                subst this; exact c3
            · exact .inr ⟨t + d + 1, by omega, .inl c⟩
            · exact .inr ⟨t + d + 1, by omega, .inr (by rw [← a2]; exact c)⟩
          · exact .inr b
      rcases walk (t' - t + 1) with ⟨_, _, a3⟩ | ⟨u, u1, u2⟩
      · exact absurd h2 (a3 t' h1 (by omega))
      · rcases u2 with u2 | u2
        · exact ⟨u, u1, u2⟩
        · obtain ⟨x, x1, x2⟩ := ih _ u2 u rfl
          exact ⟨x, by omega, x2⟩

/-- (5) and reads what was written -/
theorem Lively.read (h : Lively cfg W ε)
    (hE : Often fun t => (∃ j, 0 < j ∧ ε t = .srv (.read j)) ∧ (W t).srv.pending = none) (t) :
    ∃ t', t ≤ t' ∧ written (W t).cli.trace <+: arrived (W t').srv.trace := by
  refine reaches (B := fun t => arrived (W t).srv.trace) (C := fun t => written (W t).cli.trace) (E := _)
    (fun t => Tunnel.arrived_mono (h.srvTrace t)) (fun t => Tunnel.written_mono (h.cliTrace t))
    (fun t => ⟨_, (h.base t).up⟩) hE (fun t he hlt => ?_) t
  obtain ⟨⟨j, hj, he⟩, hp⟩ := he
  rw [← (h.base t).up] at hlt
  have hne : (W t).up ≠ [] := by intro h0; rw [h0] at hlt; simp at hlt
  have hpos := List.length_pos_iff.2 hne
  have htake : (W t).up.take j ≠ [] := by
    apply List.length_pos_iff.1; rw [List.length_take]; omega
  have hst : (step cfg (W t) (.srv (.read j))).srv = Tunnel.serverStep cfg.server (W t).srv (.read ((W t).up.take j)) := by
    show (loopStep _ _ _ (.read j)).1 = _
    unfold loopStep
    dsimp only
    rw [if_pos ⟨h.srv t, hp, htake⟩]
  rw [h.next t, he, hst, (steps_server cfg.server).harrived]
  simp only [heads, h.srv t, hp, and_self, if_true]
  rw [List.length_append]
  have := List.length_pos_iff.2 htake
  simp [arrived, List.length_take]
  omega

/-- (6) a loop that is not waiting has passed on what it has read -/
theorem Exec.queued (h : Exec cfg n m k i W ε) {t u} (htu : t ≤ u) (hp : (W u).srv.pending = none)
    (hw : (accepted (W t).cli.trace).flatMap wire <+: arrived (W u).srv.trace) :
    datas i (accepted (W t).cli.trace) <+: datas i (puts k (W u).srv.trace) := by
  obtain ⟨_, _, hr⟩ := h.ready u
  obtain ⟨es, he⟩ := hr.base.srv
  have hl : Tunnel.Live (W u).srv := ⟨hr.srv, hr.srvOpen, hp⟩
  have hacc : accepted (W t).cli.trace <+: accepted (W u).cli.trace :=
    chain_prefix (B := fun t => accepted (W t).cli.trace) (fun t => Tunnel.accepted_mono (h.cliTrace t)) htu
  have hat := Tunnel.server_at (nilStream hr.fit.client) cfg.server es
  rw [← he] at hat
  have hs := hat.seen hl hr.fit.client ((List.prefix_append _ _).trans hr.arrives) hacc hw
  have h1 := Tunnel.datas_mono i hs
  rw [datas_asReceived] at h1
  obtain ⟨v, hv, _, v2, v3, _⟩ := h.vis u
  obtain ⟨es', he'⟩ := hr.reach
  have hmeet : Meets i (W u) := by
    have := meets_run cfg es' i
    have hn := hr.normal
    have hf := hr.free
    rw [he'] at hn hf ⊢
    exact this (hf.own hn) hn.fit
  obtain ⟨t1, rest, ht, m1, m2⟩ := (hmeet v (List.mem_of_getElem? hv) v2 k v3).met
  have hk : datas i (puts k (W u).srv.trace) = datas i (gots (W u).srv.trace) := by
    have hrx := hr.rx
    rw [he] at ht hl hrx ⊢
    exact Tunnel.server_data_kept cfg.server es i k t1 rest ht m1 m2 hl hrx
  rw [hk]
  exact h1

/-- (7) the visitor's task takes it -/
theorem Lively.got (h : Lively cfg W ε) (hrx : ∀ t, ((W t).srv.chan k).rx = true)
    (hvis : ∀ t, ∃ v, (W t).visitors[n]? = some v ∧ v.handle = some k ∧ v.relay.phase = .running)
    (hE : Often fun t => ε t = .vis n .recv) (t) :
    ∃ t', t ≤ t' ∧ puts k (W t).srv.trace <+: received k (W t').srv.trace := by
  have ho : ∀ t, received k (W t).srv.trace ++ ((W t).srv.chan k).q = puts k (W t).srv.trace := by
    intro t
    obtain ⟨es, he⟩ := (h.base t).srv
    have hrx := hrx t
    rw [he] at hrx ⊢
    exact ((Tunnel.server_inv cfg.server es).1.1.1.open_ k hrx).1
  refine reaches (B := fun t => received k (W t).srv.trace) (C := fun t => puts k (W t).srv.trace) (E := _)
    (fun t => Tunnel.received_mono k (h.srvTrace t)) (fun t => Tunnel.puts_mono k (h.srvTrace t))
    (fun t => ⟨_, ho t⟩) hE (fun t he hlt => ?_) t
  obtain ⟨v, hv, v3, v4⟩ := hvis t
  have hrx := hrx t
  rw [← ho] at hlt
  cases hq : ((W t).srv.chan k).q with
  | nil => rw [hq] at hlt; simp at hlt
  | cons f q =>
    have hst : (step cfg (W t) (.vis n .recv)).srv = Tunnel.serverStep cfg.server (W t).srv (.take k) := by
      have : relayStep (Tunnel.serverStep cfg.server) true (W t).srv v.relay v.handle .recv =
          (Tunnel.serverStep cfg.server (W t).srv (.take k), Relay.step v.relay (.recv (some f))) := by
        unfold relayStep
        dsimp only
        rw [if_pos v4, v3]
        dsimp only
        rw [hq]
        dsimp only
        rw [if_pos hrx]
      simp only [step, hv, this]
    rw [h.next t, he, hst, (steps_server cfg.server).hreceived]
    simp [heads, hq, hrx, received]

/-- (8) and writes it to the visitor -/
theorem Exec.out (h : Exec cfg n m k i W ε) (hE : Often fun t => ∃ j, 0 < j ∧ ε t = .vis n (.wrote j)) (t) :
    ∃ t', t ≤ t' ∧ (Relay.gots (visOf n (W t)).trace).flatMap Relay.payload <+: outputs (visOf n (W t')).trace := by
  have hd : ∀ t, outputs (visOf n (W t)).trace ++ (visOf n (W t)).write =
      (Relay.gots (visOf n (W t)).trace).flatMap Relay.payload := by
    intro t
    obtain ⟨es, he⟩ := h.visRun t
    rw [he]; exact (Relay.run_inv _ es).down
  refine reaches (B := fun t => outputs (visOf n (W t)).trace)
    (C := fun t => (Relay.gots (visOf n (W t)).trace).flatMap Relay.payload) (E := _)
    (fun t => Relay.outputs_mono (h.visTrace t))
    (fun t => by
      obtain ⟨u, hu⟩ := Relay.gots_mono (h.visTrace t)
      rw [← hu, List.flatMap_append]; exact List.prefix_append _ _)
    (fun t => ⟨_, hd t⟩) hE (fun t he hlt => ?_) t
  obtain ⟨j, hj, he⟩ := he
  rw [← hd] at hlt
  have hne : (visOf n (W t)).write ≠ [] := by intro h0; rw [h0] at hlt; simp at hlt
  obtain ⟨v, hv, v1, v2, v3, v4⟩ := h.vis t
  obtain ⟨v', hv', v1', _⟩ := h.vis (t + 1)
  rw [h.next t, he] at hv'
  simp only [step, hv, relayStep] at hv'
  rw [List.getElem?_set_self (List.getElem?_eq_some_iff.1 hv).1] at hv'
  cases hv'
  rw [v1'] 
  rw [v1] at hne ⊢
  have hpos := List.length_pos_iff.2 hne
  have hw := (Relay.top_same v.relay).2.2.1
  simp only [Relay.step, v4, Relay.branch, hw, if_neg hne]
  simp only [Relay.emit, Relay.outputs_snoc, List.length_append, (Relay.top_same v.relay).1]
  simp [outputs, List.length_take]
  omega

/-- (9) the visitor's task has got the data messages of its stream, and no others -/
theorem Exec.gotData (h : Exec cfg n m k i W ε) (t) :
    (Relay.gots (visOf n (W t)).trace).flatMap Relay.payload = (datas i (received k (W t).srv.trace)).flatten := by
  obtain ⟨_, _, hr⟩ := h.ready t
  obtain ⟨v, hv, v1, v2, v3, v4⟩ := h.vis t
  obtain ⟨es', he'⟩ := hr.reach
  have hg := guests_run cfg es'
  have hmeet : Meets i (W t) := by
    have := meets_run cfg es' i
    have hn := hr.normal
    have hf := hr.free
    rw [he'] at hn hf ⊢
    exact this (hf.own hn) hn.fit
  rw [← he'] at hg
  have hrecv := hg.recv v (List.mem_of_getElem? hv) k v3
  obtain ⟨t1, rest, ht, h1, h2⟩ := (hmeet v (List.mem_of_getElem? hv) v2 k v3).met
  rw [v1, hrecv]
  refine payload_datas fun f hfm => ?_
  rw [← hrecv] at hfm
  obtain ⟨es, he⟩ := hr.base.srv
  have hreg : Tunnel.Obs.reg i k ∈ (W t).srv.trace := by rw [ht]; simp
  rw [he] at hreg hfm
  have h1 := Tunnel.C12_server_own_id cfg.server es k f hfm
  have h2 := ((Tunnel.server_inv cfg.server es).2.1.regs _ _ hreg).1
  rw [h1] at h2
  exact Option.some.inj h2

theorem _root_.Wm.Often.shift {P : Nat → Prop} (h : Often P) (a : Nat) : Often fun t => P (a + t) := by
  intro t
  obtain ⟨t', h1, h2⟩ := h (a + t)
  exact ⟨t' - a, by omega, by show P (a + (t' - a)); rw [Nat.add_sub_cancel' (by omega)]; exact h2⟩

theorem _root_.Wm.Often.back {P : Nat → Prop} {a : Nat} (h : Often fun t => P (a + t)) : Often P := by
  intro t
  obtain ⟨t', h1, h2⟩ := h t
  exact ⟨a + t', by omega, h2⟩

/-- a visitor's channel stays the same -/
theorem Lasting.exec {cfg σ t0 n m i} (h : Lasting cfg σ t0 n m i) :
    ∃ k, Exec cfg n m k i (fun t => after cfg σ (t0 + t)) (fun t => σ (t0 + t)) := by
  have hk : ∀ t, t0 ≤ t → ∃ v k, (after cfg σ t).visitors[n]? = some v ∧ v.handle = some k := by
    intro t ht
    obtain ⟨v, v1, v2, v3⟩ := h.visitor t ht
    obtain ⟨l, l1, l2, l3⟩ := h.service t ht
    obtain ⟨k, hk⟩ := Option.ne_none_iff_exists'.1 (announced_visitor (h.normal t ht) (List.mem_of_getElem? v1)
      (by rw [v2]; exact h.free t ht) (List.mem_of_getElem? l1) (l2.trans v2.symm)).2
    exact ⟨v, k, v1, hk⟩
  obtain ⟨v0, k, hv0, hk0⟩ := hk t0 (Nat.le_refl _)
  have hsame : ∀ d, ∃ v, (after cfg σ (t0 + d)).visitors[n]? = some v ∧ v.handle = some k := by
    intro d
    induction d with
    | zero => exact ⟨v0, hv0, hk0⟩
    | succ d ih =>
      obtain ⟨v, h1, h2⟩ := ih
      obtain ⟨v', h3, _, h4⟩ := visitor_next (guests_run cfg _) h1 (σ (t0 + d))
      exact ⟨v', by rw [← Nat.add_assoc, after_succ]; exact h3, h4 k h2⟩
  refine ⟨k, fun t => ?_, fun t => after_succ cfg σ (t0 + t)⟩
  have ht : t0 ≤ t0 + t := Nat.le_add_right _ _
  obtain ⟨v, v1, v2, v3⟩ := h.visitor _ ht
  obtain ⟨l, l1, l2, l3⟩ := h.service _ ht
  obtain ⟨x, x1, x2⟩ := hsame t
  rw [v1] at x1; cases x1
  exact ⟨_, _, ⟨_, rfl⟩, h.normal _ ht, h.free _ ht, ⟨v, v1, v2, x2, v3, rfl⟩, ⟨l, l1, l2, l3, rfl⟩, h.server _ ht,
    h.client _ ht⟩

/-! ### Statement -/

/-- **C180** (from the service to the visitor): let the schedule be endless, and let a visitor and its local connection go
    on for ever, through a tunnel that does. If every part on the way gets its turn again and again, then every byte the
    local service has sent at any time is written to the visitor at some later time - whatever all other visitors,
    services and tasks do, and however often the server's loop has to wait for slow ones. -/
theorem C180_down (cfg : Cfg) (σ : Nat → Event) (t0 n m i : Nat) (hl : Lasting cfg σ t0 n m i) (hf : FairDown cfg σ n m)
    (t : Nat) (ht : t0 ≤ t) (l) (hlt : (after cfg σ t).locals[m]? = some l) :
    ∃ t', t ≤ t' ∧ ∃ v, (after cfg σ t').visitors[n]? = some v ∧ v.relay.id = i ∧
      inputs l.1.trace <+: outputs v.relay.trace := by
  obtain ⟨k, h⟩ := hl.exec
  obtain ⟨d, rfl⟩ : ∃ d, t = t0 + d := ⟨t - t0, by omega⟩
  have hroom := hf.handOver ((h.lively.room (hf.clientTakes.shift t0)).back (P := fun t => (after cfg σ t).cli.outq.length < Tunnel.outCap))
  have hidle := h.lively.unblocked (fun t hh f hp => by
    obtain ⟨t', h1, h2⟩ := hf.makesRoom (t0 + t) hh f hp
    exact ⟨t' - t0, by omega, by rw [Nat.add_sub_cancel' (by omega)]; exact h2⟩)
  have hread := hf.serverReads (hidle.back (P := fun t => (after cfg σ t).srv.pending = none))
  obtain ⟨d1, e1, a1⟩ := h.handed (hroom.shift t0) d
  obtain ⟨d2, e2, a2⟩ := h.lively.taken (hf.clientTakes.shift t0) d1
  obtain ⟨d3, e3, a3⟩ := h.lively.sent (hf.clientWrites.shift t0) d2
  obtain ⟨d4, e4, a4⟩ := h.lively.read (hread.shift t0) d3
  obtain ⟨d5, e5, a5⟩ := hidle d4
  have hw := a3.trans (a4.trans (chain_prefix (B := fun t => arrived (after cfg σ (t0 + t)).srv.trace)
    (fun t => Tunnel.arrived_mono (h.srvTrace t)) e5))
  have a6 := h.queued (by omega) a5 hw
  obtain ⟨d7, e7, a7⟩ := h.lively.got (fun t => by obtain ⟨_, _, hr⟩ := h.ready t; exact hr.rx)
    (fun t => by obtain ⟨v, v1, _, _, v2, v3⟩ := h.vis t; exact ⟨v, v1, v2, v3⟩) (hf.visitorTakes.shift t0) d5
  obtain ⟨d8, e8, a8⟩ := h.out (hf.visitorWrites.shift t0) d7
  obtain ⟨v, v1, v2, v3, _⟩ := h.vis d8
  refine ⟨t0 + d8, by omega, v, v1, v3, ?_⟩
  rw [h.gotData] at a8
  rw [← v2]
  refine List.IsPrefix.trans ?_ a8
  have hin : locOf m (after cfg σ (t0 + d)) = l.1 := by unfold locOf; rw [hlt]
  rw [hin] at a1
  refine a1.trans (flatten_prefix ?_)
  refine (Tunnel.datas_mono i a2).trans ?_
  rw [← client_datas_eq (h.base d2).cli]
  exact a6.trans (Tunnel.datas_mono i a7)

/-! ### A schedule that meets the hypotheses -/

/-- A visitor is connected to its service, which sends two bytes; -/
def warm : List Event := hello ++ opening ++ [.loc 0 (.read [111, 107])]

/-- then everybody has its turn, over and over. -/
def rounds (t : Nat) : Event := if t < warm.length then warm.getD t .accept else back.getD ((t - warm.length) % 6) .accept

/-- nothing is under way to visitor `0` -/
structure Quiet (w : St) : Prop where
  cli : w.cli.outq = [] ∧ w.cli.writeBuf = [] ∧ w.cli.phase = .running
  up : w.up = []
  vis : ∃ v k, w.visitors[0]? = some v ∧ v.handle = some k ∧ v.relay.read = [] ∧ v.relay.write = [] ∧
    v.relay.phase = .running ∧ (w.srv.chan k).q = [] ∧ (w.srv.chan k).tx = true
  loc : ∃ l, w.locals[0]? = some l ∧ l.1.read = [] ∧ l.1.link = [] ∧ l.1.phase = .running

theorem set_same {α : Type} {l : List α} {n : Nat} {a : α} (h : l[n]? = some a) : l.set n a = l := by
  obtain ⟨hlt, rfl⟩ := List.getElem?_eq_some_iff.1 h
  exact List.set_getElem_self hlt

theorem Quiet.still {cfg w} (h : Quiet w) {e} (he : e ∈ back) : step cfg w e = w := by
  obtain ⟨c1, c2, c3⟩ := h.cli
  obtain ⟨v, k, v1, v2, v3, v4, v5, v6, v7⟩ := h.vis
  obtain ⟨l, l1, l2, l3, l4⟩ := h.loc
  simp only [back, List.mem_cons, List.not_mem_nil, or_false] at he
  rcases he with rfl | rfl | rfl | rfl | rfl | rfl
  · have ho : offer l.1 = none := by
      unfold offer
      split
      · rw [l4]; simp [Relay.top, l2, l3]
      · rfl
    simp only [step, l1, relayStep, c3, if_true, ho]
    rw [set_same l1]
  · simp only [step, loopStep, Tunnel.clientStep, Tunnel.step, c1, ite_self, List.append_nil]
  · simp only [step, loopStep, Tunnel.clientStep, Tunnel.step, c2, if_true, ite_self, List.take_nil, List.append_nil]
  · simp [step, loopStep, h.up]
    rw [← h.up]
  · simp only [step, v1, relayStep, v5, if_true, v2, v6, v7]
    have : (⟨v.relay, some k, v.mode⟩ : Visitor) = v := by rw [← v2]
    rw [this, set_same v1]
  · have : Relay.step v.relay (.wrote 10) = v.relay := by
      unfold Relay.step
      rw [v5]
      simp [Relay.branch, Relay.top, v3, v4]
    simp only [step, v1, relayStep, this]
    rw [set_same v1]

theorem rounds_turn (t j : Nat) (hj : j < 6) : rounds (15 + 6 * t + j) = back.getD j .accept := by
  unfold rounds
  have hw : warm.length = 9 := by decide
  rw [hw, if_neg (by omega)]
  congr 1
  omega

theorem rounds_quiet : Quiet (after webCfg rounds 15) := by
  have h1 : (after webCfg rounds 15).visitors.map (fun v => (v.handle, v.relay.read, v.relay.write, v.relay.phase)) =
      [(some 0, [], [], .running)] := by decide +kernel
  have h2 : (after webCfg rounds 15).locals.map (fun l => (l.1.read, l.1.link, l.1.phase)) = [([], [], .running)] := by
    decide +kernel
  have h3 : ((after webCfg rounds 15).srv.chan 0).q = [] ∧ ((after webCfg rounds 15).srv.chan 0).tx = true := by
    decide +kernel
  refine ⟨by decide +kernel, by decide +kernel, ?_, ?_⟩
  · cases hv : (after webCfg rounds 15).visitors with
    | nil => rw [hv] at h1; simp at h1
    | cons v vs =>
      rw [hv] at h1
      simp at h1
      obtain ⟨⟨a1, a2, a3, a4⟩, _⟩ := h1
      exact ⟨v, 0, rfl, a1, a2, a3, a4, h3⟩
  · cases hl : (after webCfg rounds 15).locals with
    | nil => rw [hl] at h2; simp at h2
    | cons l ls =>
      rw [hl] at h2
      simp at h2
      exact ⟨l, rfl, h2.1⟩

theorem rounds_settled (d : Nat) : after webCfg rounds (15 + d) = after webCfg rounds 15 := by
  induction d with
  | zero => rfl
  | succ d ih =>
    rw [← Nat.add_assoc, after_succ, ih]
    refine rounds_quiet.still ?_
    have h := rounds_turn (d / 6) (d % 6) (Nat.mod_lt _ (by decide))
    rw [Nat.add_assoc, Nat.div_add_mod] at h
    rw [h]
    exact (by decide : ∀ j < 6, back.getD j .accept ∈ back) _ (Nat.mod_lt _ (by decide))

/-- a statement about every state of the schedule from `a` on needs only be checked for the first steps -/
theorem rounds_all {P : St → Prop} {a : Nat} (h : ∀ t < 16, a ≤ t → P (after webCfg rounds t)) (ha : a ≤ 15) (t : Nat)
    (ht : a ≤ t) : P (after webCfg rounds t) := by
  rcases Nat.lt_or_ge t 16 with h1 | h1
  · exact h t h1 ht
  · obtain ⟨d, rfl⟩ : ∃ d, t = 15 + d := ⟨t - 15, by omega⟩
    rw [rounds_settled]
    exact h 15 (by decide) ha

theorem rounds_often {Q : St → Event → Prop} (j : Nat) (hj : j < 6)
    (h : Q (after webCfg rounds 15) (back.getD j .accept)) : Often fun t => Q (after webCfg rounds t) (rounds t) := by
  intro t
  refine ⟨15 + 6 * t + j, by omega, ?_⟩
  show Q (after webCfg rounds (15 + 6 * t + j)) (rounds (15 + 6 * t + j))
  rw [rounds_turn t j hj, Nat.add_assoc, rounds_settled]
  exact h

/-- The hypotheses of `C180_down` are met by `rounds`; after nine steps the service has sent two bytes, none of which has
    been written to the visitor. -/
example : Lasting webCfg rounds 9 0 0 2 ∧ FairDown webCfg rounds 0 0 ∧
    (after webCfg rounds 9).locals.map (fun l => inputs l.1.trace) = [[111, 107]] ∧
    (after webCfg rounds 9).visitors.map (fun v => outputs v.relay.trace) = [[]] := by
  have hf : ∀ t, 9 ≤ t → (after webCfg rounds t).otherS = [] ∧ (after webCfg rounds t).otherC = [] ∧
      (after webCfg rounds t).used < 2 ^ 23 :=
    rounds_all (P := fun w => w.otherS = [] ∧ w.otherC = [] ∧ w.used < 2 ^ 23) (by decide +kernel) (by decide)
  have hr : ∀ t, 9 ≤ t → (after webCfg rounds t).srv.phase = .running ∧ (after webCfg rounds t).cli.phase = .running ∧
      ((after webCfg rounds t).visitors.map fun v => (v.relay.id, v.relay.phase)) = [(2, .running)] ∧
      ((after webCfg rounds t).locals.map fun l => (l.1.id, l.1.phase)) = [(2, .running)] :=
    rounds_all (P := fun w => w.srv.phase = .running ∧ w.cli.phase = .running ∧
      (w.visitors.map fun v => (v.relay.id, v.relay.phase)) = [(2, .running)] ∧
      (w.locals.map fun l => (l.1.id, l.1.phase)) = [(2, .running)]) (by decide +kernel) (by decide)
  have hp : ∀ t, 0 ≤ t → (after webCfg rounds t).srv.pending = none :=
    rounds_all (P := fun w => w.srv.pending = none) (by decide +kernel) (by decide)
  refine ⟨⟨fun t ht => web_normal _ (hf t ht).1 (hf t ht).2.1 (hf t ht).2.2, fun t ht f hm => ?_, fun t ht => (hr t ht).1,
    fun t ht => (hr t ht).2.1, fun t ht => ?_, fun t ht => ?_⟩, ⟨fun _ => ?_, ?_, ?_, fun _ => ?_, fun t h f hh => ?_, ?_, ?_⟩,
    by decide +kernel, by decide +kernel⟩
  · rw [(hf t ht).1, (hf t ht).2.1] at hm; cases hm
  · have h := (hr t ht).2.2.1
    cases hv : (after webCfg rounds t).visitors with
    | nil => rw [hv] at h; simp at h
    | cons v vs => rw [hv] at h; simp at h; exact ⟨v, rfl, h.1⟩
  · have h := (hr t ht).2.2.2
    cases hv : (after webCfg rounds t).locals with
    | nil => rw [hv] at h; simp at h
    | cons v vs => rw [hv] at h; simp at h; exact ⟨v, rfl, h.1⟩
  · exact rounds_often (Q := fun w e => e = .loc 0 .slot ∧ w.cli.outq.length < Tunnel.outCap) 0 (by decide)
      (by decide +kernel)
  · exact rounds_often (Q := fun _ e => e = .cli .recv) 1 (by decide) rfl
  · exact rounds_often (Q := fun _ e => ∃ j, 0 < j ∧ e = .cli (.wrote j)) 2 (by decide) ⟨1000, by decide, rfl⟩
  · exact rounds_often (Q := fun w e => (∃ j, 0 < j ∧ e = .srv (.read j)) ∧ w.srv.pending = none) 3 (by decide)
      ⟨⟨1000, by decide, rfl⟩, hp _ (by decide)⟩
  · rw [hp t (Nat.zero_le _)] at hh; cases hh
  · exact rounds_often (Q := fun _ e => e = .vis 0 .recv) 4 (by decide) rfl
  · exact rounds_often (Q := fun _ e => ∃ j, 0 < j ∧ e = .vis 0 (.wrote j)) 5 (by decide) ⟨10, by decide, rfl⟩

end Wm.World
