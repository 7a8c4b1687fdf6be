import Verif.Proofs.ChainDrain
import Verif.Props.Chain
import Verif.Props.WorldDrainUp
/-!
Property C219: the tunnel never reaches a state from which what a user of a client has sent can no longer be brought to
the proxy of the server above.
-/
namespace Wm.Chain
open Wm Wm.Prot
open scoped List
open Wm.World (Cfg LoopEv RelayEv OtherEv loopStep relayStep otherStep nilStream Delivered steps_server steps_client)
open Wm.Tunnel (datas creates regCount openCount gots received submissions accepted arrived heads streamCap Announced)
open Wm.Relay (inputs outputs)

/-! ### What is required -/

/-- The step only passes on what is under way: the client takes a message or writes bytes, the server reads bytes, a user's
    task hands a message over, another task takes a message, a task of the proxy that was already asked for begins, or
    reads, or goes after it was told that its stream is over. Nobody sends anything new, opens or ends a connection, and
    nothing fails. -/
def Carries (w : St) : Event → Prop
  | .cli .recv | .cli (.wrote _) | .srv (.read _) | .otherS (.take _) | .user _ .slot | .start _ _ | .task _ (.read _) => True
  | .task n .drop => ∃ t, w.tasks[n]? = some t ∧ t.io.closed = true
  | _ => False

/-- each of these steps only passes on what is under way -/
def CarriedOn (cfg : Cfg) : St → List Event → Prop
  | _, [] => True
  | w, e :: es => Carries w e ∧ CarriedOn cfg (step cfg w e) es

/-! ### Proof -/

/-- everything that stays as it is while the stream of user `n` and task `m` is drained -/
structure Ready (cfg : Cfg) (n m k i : Nat) (inp : Bytes) (w : St) : Prop where
  reach : ∃ es, w = run cfg es
  normal : Normal w
  free : Free i w
  queued : ∀ f ∈ w.cli.outq, Fits f
  id : IdFits i
  user : ∃ u, w.users[n]? = some u ∧ u.relay.id = i ∧ u.relay.phase = .running ∧ inputs u.relay.trace = inp
  task : ∃ t, w.tasks[m]? = some t ∧ t.io.id = i ∧ t.chan = k ∧ t.gone = false ∧ t.io.closed = false
  srv : w.srv.phase = .running
  cli : w.cli.phase = .running

/-- `w'` is reached from `w` by passing on what is under way -/
def Path (cfg : Cfg) (w w' : St) : Prop := ∃ es : List Event, CarriedOn cfg w es ∧ w' = es.foldl (step cfg) w

theorem Path.refl (cfg w) : Path cfg w w := ⟨[], trivial, rfl⟩
theorem carriedOn_append {cfg} : ∀ {w} {a b : List Event}, CarriedOn cfg w a → CarriedOn cfg (a.foldl (step cfg) w) b →
    CarriedOn cfg w (a ++ b)
  | _, [], _, _, h => h
  | _, _ :: _, _, h1, h2 => ⟨h1.1, carriedOn_append h1.2 h2⟩
theorem Path.trans {cfg a b c} (h1 : Path cfg a b) (h2 : Path cfg b c) : Path cfg a c := by
  obtain ⟨e1, h1, rfl⟩ := h1
  obtain ⟨e2, h2, rfl⟩ := h2
  exact ⟨e1 ++ e2, carriedOn_append h1 h2, by rw [List.foldl_append]⟩
theorem Path.one {cfg w e} (h : Carries w e) : Path cfg w (step cfg w e) := ⟨[e], ⟨h, trivial⟩, rfl⟩

theorem carries_same {cfg w e} (h : Carries w e) : (step cfg w e).otherS = w.otherS ∧ (step cfg w e).otherC = w.otherC ∧
    (step cfg w e).users.length = w.users.length := by
  cases e with
  | accept => exact h.elim
  | work => exact h.elim
  | srv e => exact ⟨rfl, rfl, rfl⟩
  | cli e => exact ⟨rfl, rfl, rfl⟩
  | otherS e => cases e <;> first | exact h.elim | exact ⟨List.append_nil _, rfl, rfl⟩
  | otherC e => exact h.elim
  | user n e =>
    simp only [step]
    split <;> simp
  | start id k =>
    simp only [step]
    split <;> simp
  | task n e =>
    simp only [step]
    split
    · simp
    · split <;> simp

variable {cfg : Cfg} {n m k i : Nat} {inp : Bytes} {w : St}

theorem Ready.next (h : Ready cfg n m k i inp w) {e} (he : Carries w e)
    (hS : ∀ f ∈ accepted (step cfg w e).srv.trace, f ∈ accepted w.srv.trace ∨ Fits f)
    (hC : ∀ f ∈ accepted (step cfg w e).cli.trace, f ∈ accepted w.cli.trace ∨ Fits f)
    (hq : ∀ f ∈ (step cfg w e).cli.outq, Fits f)
    (hu : ∃ u, (step cfg w e).users[n]? = some u ∧ u.relay.id = i ∧ u.relay.phase = .running ∧ inputs u.relay.trace = inp)
    (ht : ∃ t, (step cfg w e).tasks[m]? = some t ∧ t.io.id = i ∧ t.chan = k ∧ t.gone = false ∧ t.io.closed = false)
    (hs : (step cfg w e).srv.phase = .running) (hc : (step cfg w e).cli.phase = .running) :
    Ready cfg n m k i inp (step cfg w e) := by
  obtain ⟨es, rfl⟩ := h.reach
  obtain ⟨c1, c2, c3⟩ := carries_same (cfg := cfg) (w := run cfg es) he
  refine ⟨⟨es ++ [e], (run_snoc cfg es e).symm⟩, ⟨fun f hf => ?_, by rw [c3]; exact h.normal.users⟩, ?_, hq, h.id, hu, ht, hs, hc⟩
  · rcases List.mem_append.1 hf with hf | hf
    · exact (hS f hf).elim (fun x => h.normal.fits f (List.mem_append.2 (.inl x))) fun x => x
    · exact (hC f hf).elim (fun x => h.normal.fits f (List.mem_append.2 (.inr x))) fun x => x
  · unfold Free; rw [c1, c2]; exact h.free

theorem Ready.base (h : Ready cfg n m k i inp w) : Base cfg w := by
  obtain ⟨es, rfl⟩ := h.reach; exact base_run cfg es

theorem Ready.fitC (h : Ready cfg n m k i inp w) : ∀ f ∈ accepted w.cli.trace, Fits f :=
  fun f hf => h.normal.fits f (List.mem_append.2 (.inr hf))

theorem Ready.srvRun (h : Ready cfg n m k i inp w) : ∃ es, w.srv = Tunnel.serverRun cfg.server es := h.base.ends.srv

theorem Ready.arrives (h : Ready cfg n m k i inp w) :
    arrived w.srv.trace ++ w.up <+: (accepted w.cli.trace).flatMap wire ++ [] := by
  obtain ⟨es, he⟩ : ∃ es, w.cli = Tunnel.clientRun cfg.client [] es := h.base.ends.cli
  have hup : arrived w.srv.trace ++ w.up = Tunnel.written w.cli.trace := h.base.ends.up
  rw [List.append_nil, hup, he]
  exact (Tunnel.C15_client_order cfg.client [] es).1

/-- the client's loop has decoded all it can, and waits for nobody -/
theorem Ready.cliIdle (h : Ready cfg n m k i inp w) :
    w.cli.pending = none ∧ w.cli.readyShutdown = false ∧ ¬ Complete w.cli.readBuf := by
  obtain ⟨es, he⟩ : ∃ es, w.cli = Tunnel.clientRun cfg.client [] es := h.base.ends.cli
  have h1 := Tunnel.client_never_waits cfg.client [] es
  have h2 := Tunnel.client_not_ready cfg.client [] es
  rw [← he] at h1 h2
  refine ⟨h1, h2, ?_⟩
  have h3 := (Tunnel.client_at (nilStream fun f hf => h.normal.fits f (List.mem_append.2 (.inl hf))) cfg.client [] es).2
  rw [← he] at h3
  refine h3 ?_ ⟨h.cli, h2, h1⟩
  obtain ⟨es', he'⟩ := h.srvRun
  rw [List.append_nil]
  refine List.IsPrefix.trans ⟨w.down, h.base.ends.down⟩ ?_
  show Tunnel.written w.srv.trace <+: _
  rw [he']
  exact (Tunnel.C15_server_order cfg.server es').1

theorem Ready.rx (h : Ready cfg n m k i inp w) : (w.srv.chan k).rx = true := by
  obtain ⟨t, ht, _, rfl, h2, _⟩ := h.task
  obtain ⟨es, rfl⟩ := h.reach
  rw [(holds_run cfg es).task t (List.mem_of_getElem? ht), h2]; rfl

/-! #### the client hands everything to the connection -/

theorem Ready.cliRecv (h : Ready cfg n m k i inp w) {f q} (hq : w.cli.outq = f :: q) :
    Ready cfg n m k i inp (step cfg w (.cli .recv)) ∧ (step cfg w (.cli .recv)).cli.outq = q ∧
    (step cfg w (.cli .recv)).users = w.users := by
  have hi := h.cliIdle
  have he : (step cfg w (.cli .recv)).cli = Tunnel.enqueue f { w.cli with outq := q } true := by
    show Tunnel.clientStep cfg.client w.cli .recv = _
    unfold Tunnel.clientStep Tunnel.step
    dsimp only
    rw [if_pos ⟨h.cli, hi.1⟩, hq]
    exact Tunnel.resume_idle fun _ => hi.2.2
  refine ⟨h.next trivial (fun _ hf => .inl hf) (fun g hg => ?_) ?_ h.user h.task h.srv ?_, ?_, rfl⟩
  · rw [he] at hg
    have hg : g ∈ accepted (w.cli.trace ++ [.queued true f]) := hg
    rw [Tunnel.accepted_append, List.mem_append] at hg
    rcases hg with hg | hg
    · exact .inl hg
    · simp [accepted] at hg; subst hg
      exact .inr (h.queued g (by rw [hq]; simp))
  · rw [he]; exact fun g hg => h.queued g (by rw [hq]; exact List.mem_cons_of_mem _ hg)
  · rw [he]; exact h.cli
  · rw [he]; rfl

theorem Ready.drainOut (h : Ready cfg n m k i inp w) :
    ∃ w', Path cfg w w' ∧ Ready cfg n m k i inp w' ∧ w'.cli.outq = [] ∧ w'.users = w.users := by
  generalize hq : w.cli.outq = q
  induction q generalizing w with
  | nil => exact ⟨w, .refl cfg w, h, hq, rfl⟩
  | cons f q ih =>
    obtain ⟨h1, h2, h3⟩ := h.cliRecv hq
    obtain ⟨w', p, h4, h5, h6⟩ := ih h1 h2
    exact ⟨w', (Path.one (e := .cli .recv) trivial).trans p, h4, h5, h6.trans h3⟩

theorem Ready.userSlot (h : Ready cfg n m k i inp w) {u} (hu : w.users[n]? = some u) {f tl}
    (ht : (Relay.top u.relay).link = f :: tl) (ho : w.cli.outq = []) :
    Ready cfg n m k i inp (step cfg w (.user n .slot)) ∧
    ∃ u', (step cfg w (.user n .slot)).users[n]? = some u' ∧ (Relay.top u'.relay).link = tl := by
  obtain ⟨u', hu', hui, hur, hin⟩ := h.user
  rw [hu] at hu'
  cases hu'
  have hum := List.mem_of_getElem? hu
  have halive : u.relay.alive = true := by
    obtain ⟨es, rfl⟩ := h.reach
    cases ha : u.relay.alive with
    | true => rfl
    | false =>
      exact absurd h.cli ((handed_run cfg es).alive u.relay (List.mem_map.2 ⟨u, hum, rfl⟩) ha)
  have hoff : World.offer u.relay = some f := by
    unfold World.offer
    rw [if_pos halive, hur]
    simp [ht]
  have hr : Relay.step u.relay .slot = Relay.emit (.sent f) { Relay.top u.relay with link := tl } := by
    unfold Relay.step
    rw [hur]
    dsimp only
    unfold Relay.branch
    dsimp only
    rw [ht]
    dsimp only
    rw [World.top_alive, if_pos halive]
  have he : relayStep (Tunnel.clientStep cfg.client) false w.cli u.relay u.handle .slot =
      (Tunnel.clientStep cfg.client w.cli (.submit f), Relay.emit (.sent f) { Relay.top u.relay with link := tl }) := by
    unfold relayStep
    dsimp only
    rw [if_pos h.cli, hoff]
    dsimp only
    rw [if_pos (by rw [ho]; decide), hr]
  have hst : step cfg w (.user n .slot) = { w with
      cli := Tunnel.clientStep cfg.client w.cli (.submit f)
      users := w.users.set n { u with relay := Relay.emit (.sent f) { Relay.top u.relay with link := tl } } } := by
    simp only [step, hu, he]
  have hlt := (List.getElem?_eq_some_iff.1 hu).1
  have hget : (step cfg w (.user n .slot)).users[n]? =
      some { u with relay := Relay.emit (.sent f) { Relay.top u.relay with link := tl } } := by
    rw [hst]; exact List.getElem?_set_self hlt
  have tt := World.top_top u.relay
  have hsub : Tunnel.clientStep cfg.client w.cli (.submit f) =
      Tunnel.emit (.submitted f) { w.cli with outq := w.cli.outq ++ [f] } := by
    unfold Tunnel.clientStep Tunnel.step
    dsimp only
    rw [if_pos ⟨h.cli, by rw [ho]; decide⟩]
  have hfit : Fits f := by
    have hsm : World.Small u.relay := by
      obtain ⟨es, rfl⟩ := h.reach
      exact small_run cfg es u hum
    have hru : World.IsRun (Relay.step u.relay .slot) := (h.base.users u hum).step .slot
    refine World.small_fits hru (World.small_step hsm .slot (by simp)) ?_ f ?_
    · rw [hr]; show IdFits (Relay.top u.relay).id; rw [tt.2.2, hui]; exact h.id
    · rw [hr]; simp [Relay.emit, Relay.sends]
  refine ⟨h.next trivial (by rw [hst]; exact fun _ hf => .inl hf) ?_ ?_ ⟨_, hget, tt.2.2.trans hui, tt.2.1.trans hur, ?_⟩
    (by rw [hst]; exact h.task) ?_ ?_, _, hget, ?_⟩
  · rw [hst]
    dsimp only
    rw [hsub]
    intro g hg
    have hg : g ∈ accepted (w.cli.trace ++ [.submitted f]) := hg
    rw [Tunnel.accepted_append, List.mem_append] at hg
    rcases hg with hg | hg
    · exact .inl hg
    · simp [accepted] at hg
  · rw [hst]
    dsimp only
    rw [hsub]
    intro g hg
    have hg : g ∈ w.cli.outq ++ [f] := hg
    rw [ho] at hg
    simp at hg; subst hg; exact hfit
  · show inputs ((Relay.top u.relay).trace ++ [.sent f]) = inp
    rw [World.top_trace, ← hin]
    simp [inputs]
  · rw [hst]; exact h.srv
  · rw [hst]
    dsimp only
    rw [hsub]; exact h.cli
  · have hid : ∀ r : Relay.St, r.read = [] → (Relay.top r).link = r.link := fun r hr => by unfold Relay.top; rw [if_pos hr]
    exact hid _ tt.1

theorem Ready.drainUser (h : Ready cfg n m k i inp w) :
    ∃ w', Path cfg w w' ∧ Ready cfg n m k i inp w' ∧ w'.cli.outq = [] ∧
      ∃ u, w'.users[n]? = some u ∧ u.relay.read = [] ∧ u.relay.link = [] := by
  obtain ⟨u, hu, _⟩ := h.user
  generalize hq : (Relay.top u.relay).link = q
  induction q generalizing w u with
  | nil =>
    obtain ⟨w', p, h1, h2, h3⟩ := h.drainOut
    exact ⟨w', p, h1, h2, u, by rw [h3]; exact hu, World.top_link_nil hq⟩
  | cons f q ih =>
    obtain ⟨w1, p1, h1, h2, h3⟩ := h.drainOut
    obtain ⟨h4, u', h5, h6⟩ := h1.userSlot (by rw [h3]; exact hu) hq h2
    obtain ⟨_, h7, h8⟩ := h4.user
    rw [h5] at h7; cases h7
    obtain ⟨w', p, h9⟩ := ih h4 u' h5 h8 h6
    exact ⟨w', p1.trans ((Path.one (e := .user n .slot) trivial).trans p), h9⟩

/-- everything of the user has left the client -/
def Sent (n : Nat) (w : St) : Prop :=
  w.cli.outq = [] ∧ w.cli.writeBuf = [] ∧ ∃ u, w.users[n]? = some u ∧ u.relay.read = [] ∧ u.relay.link = []

theorem Sent.same {n w w'} (h : Sent n w) (h1 : w'.cli = w.cli) (h2 : w'.users = w.users) : Sent n w' := by
  unfold Sent; rw [h1, h2]; exact h

theorem Ready.drainClient (h : Ready cfg n m k i inp w) :
    ∃ w', Path cfg w w' ∧ Ready cfg n m k i inp w' ∧ Sent n w' := by
  obtain ⟨w1, p1, h1, h2, u, h3⟩ := h.drainUser
  by_cases hw : w1.cli.writeBuf = []
  · exact ⟨w1, p1, h1, h2, hw, u, h3⟩
  have hi := h1.cliIdle
  have he : (step cfg w1 (.cli (.wrote w1.cli.writeBuf.length))).cli =
      Tunnel.emit (.wrote (w1.cli.writeBuf.take w1.cli.writeBuf.length))
        { w1.cli with writeBuf := w1.cli.writeBuf.drop w1.cli.writeBuf.length } := by
    show Tunnel.clientStep cfg.client w1.cli (.wrote _) = _
    unfold Tunnel.clientStep Tunnel.step
    dsimp only
    rw [if_pos ⟨h1.cli, hi.1⟩, if_neg hw, if_neg]
    · exact Tunnel.resume_idle fun _ => hi.2.2
    · intro hc
      have : w1.cli.readyShutdown = true := hc.2
      rw [hi.2.1] at this
      cases this
  refine ⟨step cfg w1 (.cli (.wrote w1.cli.writeBuf.length)), p1.trans (.one trivial),
    h1.next trivial (fun _ hf => .inl hf) ?_ ?_ h1.user h1.task h1.srv (by rw [he]; exact h1.cli), ?_, ?_, u, h3⟩
  · rw [he]
    intro g hg
    have hg : g ∈ accepted (w1.cli.trace ++ [.wrote (w1.cli.writeBuf.take w1.cli.writeBuf.length)]) := hg
    rw [Tunnel.accepted_append, List.mem_append] at hg
    rcases hg with hg | hg
    · exact .inl hg
    · simp [accepted] at hg
  · rw [he]; exact h1.queued
  · rw [he]; exact h2
  · rw [he]; exact List.drop_length

/-! #### the server takes everything from the connection -/

/-- a step of the server's side alone -/
structure Fwd (cfg : Cfg) (n m k i : Nat) (inp : Bytes) (w w' : St) : Prop where
  path : Path cfg w w'
  ready : Ready cfg n m k i inp w'
  cli : w'.cli = w.cli
  users : w'.users = w.users
  up : w'.up = w.up

theorem Fwd.refl (h : Ready cfg n m k i inp w) : Fwd cfg n m k i inp w w := ⟨.refl cfg w, h, rfl, rfl, rfl⟩
theorem Fwd.trans {a b c} (h1 : Fwd cfg n m k i inp a b) (h2 : Fwd cfg n m k i inp b c) : Fwd cfg n m k i inp a c :=
  ⟨h1.path.trans h2.path, h2.ready, h2.cli.trans h1.cli, h2.users.trans h1.users, h2.up.trans h1.up⟩

/-- a step that leaves the client and the users alone -/
theorem Ready.fwd (h : Ready cfg n m k i inp w) {e} (he : Carries w e)
    (hc : (step cfg w e).cli = w.cli) (hu : (step cfg w e).users = w.users) (hup : (step cfg w e).up = w.up)
    (hS : ∀ f ∈ accepted (step cfg w e).srv.trace, f ∈ accepted w.srv.trace ∨ Fits f)
    (ht : ∃ t, (step cfg w e).tasks[m]? = some t ∧ t.io.id = i ∧ t.chan = k ∧ t.gone = false ∧ t.io.closed = false)
    (hs : (step cfg w e).srv.phase = .running) : Fwd cfg n m k i inp w (step cfg w e) :=
  ⟨.one he, h.next he hS (by rw [hc]; exact fun _ hf => .inl hf) (by rw [hc]; exact h.queued) (by rw [hu]; exact h.user) ht hs
    (by rw [hc]; exact h.cli), hc, hu, hup⟩

/-- task `j` takes a message -/
theorem Ready.taskRead (h : Ready cfg n m k i inp w) {j t} (hj : w.tasks[j]? = some t) (hg : t.gone = false)
    (hcl : t.io.closed = false) {f q} (hq : (w.srv.chan t.chan).q = f :: q) (hrx : (w.srv.chan t.chan).rx = true)
    (hrun : (Tunnel.serverStep cfg.server w.srv (.take t.chan)).phase = .running) (N : Nat) :
    Fwd cfg n m k i inp w (step cfg w (.task j (.read N))) ∧
    (step cfg w (.task j (.read N))).srv = Tunnel.serverStep cfg.server w.srv (.take t.chan) := by
  have hin : t.io.inbox = [] := by
    obtain ⟨es, rfl⟩ := h.reach
    exact inbox_run cfg es t (List.mem_of_getElem? hj)
  obtain ⟨v', hv'⟩ : ∃ v', v' = Virtual.step (Virtual.step t.io (.arrive f)) (.read N) := ⟨_, rfl⟩
  have he : taskStep (Tunnel.serverStep cfg.server) w.srv t.io t.chan (.read N) =
      (Tunnel.serverStep cfg.server w.srv (.take t.chan), v') := by
    simp only [taskStep, hq]
    rw [if_pos ⟨hrx, hcl⟩, hv']
  have hst : step cfg w (.task j (.read N)) = { w with
      srv := Tunnel.serverStep cfg.server w.srv (.take t.chan)
      tasks := w.tasks.set j { t with io := v', gone := false } } := by
    simp only [step, hj, hg, he]
    simp
  have hv1 : v'.id = t.io.id := by rw [hv', vstep_id, vstep_id]
  have hv2 : v'.closed = false := by
    rw [hv']
    have hi : (Virtual.step t.io (.arrive f)).inbox.length ≤ 1 := by simp [Virtual.step, hcl, hin, Virtual.emit]
    have := (read_inbox N hi).2
    show (Virtual.pollRead N _).closed = false
    rw [this]
    simp [Virtual.step, hcl, Virtual.emit]
  refine ⟨h.fwd trivial (by rw [hst]) (by rw [hst]) (by rw [hst]) ?_ ?_ (by rw [hst]; exact hrun), by rw [hst]⟩
  · rw [hst]; exact fun g hg => srv_accepted cfg.server w.srv _ (heads_take _ _) hg
  · obtain ⟨x, hx, x1, x2, x3, x4⟩ := h.task
    rw [hst]
    by_cases hjm : j = m
    · subst hjm
      rw [hj] at hx; cases hx
      exact ⟨_, List.getElem?_set_self (List.getElem?_eq_some_iff.1 hj).1, hv1.trans x1, x2, rfl, hv2⟩
    · exact ⟨x, by dsimp only; rw [List.getElem?_set_ne hjm]; exact hx, x1, x2, x3, x4⟩

/-- a task that was told the end of its stream goes -/
theorem Ready.taskDrop (h : Ready cfg n m k i inp w) {j t} (hj : w.tasks[j]? = some t) (hg : t.gone = false)
    (hcl : t.io.closed = true) (hrun : (Tunnel.serverStep cfg.server w.srv (.dropRx t.chan)).phase = .running) :
    Fwd cfg n m k i inp w (step cfg w (.task j .drop)) ∧
    (step cfg w (.task j .drop)).srv = Tunnel.serverStep cfg.server w.srv (.dropRx t.chan) := by
  have hst : step cfg w (.task j .drop) = { w with
      srv := Tunnel.serverStep cfg.server w.srv (.dropRx t.chan)
      tasks := w.tasks.set j { t with gone := true } } := by
    simp only [step, hj, hg, taskStep]
    simp
  refine ⟨h.fwd ⟨t, hj, hcl⟩ (by rw [hst]) (by rw [hst]) (by rw [hst]) ?_ ?_ (by rw [hst]; exact hrun), by rw [hst]⟩
  · rw [hst]; exact fun g hg => srv_accepted cfg.server w.srv _ (heads_drop _ _) hg
  · obtain ⟨x, hx, x1, x2, x3, x4⟩ := h.task
    rw [hst]
    by_cases hjm : j = m
    · subst hjm
      rw [hj] at hx; cases hx
      rw [hcl] at x4; cases x4
    · exact ⟨x, by dsimp only; rw [List.getElem?_set_ne hjm]; exact hx, x1, x2, x3, x4⟩

theorem Ready.taskStart (h : Ready cfg n m k i inp w) {id hh} (hp : (id, hh) ∈ proxied w.srv.trace)
    (hm : hh ∉ w.tasks.map (·.chan)) :
    Fwd cfg n m k i inp w (step cfg w (.start id hh)) ∧ (step cfg w (.start id hh)).srv = w.srv ∧
    (step cfg w (.start id hh)).tasks[w.tasks.length]? = some ⟨Virtual.init id, hh, false⟩ := by
  have hst : step cfg w (.start id hh) = { w with tasks := w.tasks ++ [⟨Virtual.init id, hh, false⟩] } := by
    simp only [step]
    rw [if_pos ⟨hp, hm⟩]
  refine ⟨h.fwd trivial (by rw [hst]) (by rw [hst]) (by rw [hst]) (by rw [hst]; exact fun _ hf => .inl hf) ?_
    (by rw [hst]; exact h.srv), by rw [hst], by rw [hst]; simp⟩
  obtain ⟨x, hx, hx'⟩ := h.task
  rw [hst]
  exact ⟨x, by dsimp only; rw [List.getElem?_append_left (List.getElem?_eq_some_iff.1 hx).1]; exact hx, hx'⟩

theorem Ready.otherTake (h : Ready cfg n m k i inp w) {hh} (hm : hh ∉ (proxied w.srv.trace).map (·.2))
    (hrun : (Tunnel.serverStep cfg.server w.srv (.take hh)).phase = .running) :
    Fwd cfg n m k i inp w (step cfg w (.otherS (.take hh))) ∧
    (step cfg w (.otherS (.take hh))).srv = Tunnel.serverStep cfg.server w.srv (.take hh) := by
  have hsrv : (step cfg w (.otherS (.take hh))).srv = Tunnel.serverStep cfg.server w.srv (.take hh) := by
    show otherStep _ _ _ (.take hh) = _
    unfold otherStep
    dsimp only
    rw [if_neg hm]
  refine ⟨h.fwd trivial rfl rfl rfl ?_ h.task (by rw [hsrv]; exact hrun), hsrv⟩
  rw [hsrv]; exact fun g hg => srv_accepted cfg.server w.srv _ (heads_take _ _) hg

theorem Ready.unblock1 (h : Ready cfg n m k i inp w) {hh f} (hp : w.srv.pending = some (hh, f)) :
    ∃ w', Fwd cfg n m k i inp w w' ∧ (w'.srv.pending = none ∨ w'.srv.readBuf.length < w.srv.readBuf.length) := by
  obtain ⟨es, he⟩ := h.srvRun
  have hS := nilStream h.fitC
  have ha := (List.prefix_append _ _).trans h.arrives
  have hr := h.srv
  have hw := Tunnel.server_waits cfg.server es
  rw [← he] at hw
  obtain ⟨w1, w2⟩ := hw hh f hp
  have ht := Tunnel.unblock_take cfg.server hS es (he ▸ ha) (he ▸ hr) (he ▸ hp)
  have hd := Tunnel.unblock_drop cfg.server hS es (he ▸ ha) (he ▸ hr) (he ▸ hp)
  rw [← he] at ht hd
  obtain ⟨g, q, hq⟩ : ∃ g q, (w.srv.chan hh).q = g :: q := by
    cases hq : (w.srv.chan hh).q with
    | nil => rw [hq] at w2; simp [streamCap] at w2
    | cons g q => exact ⟨g, q, rfl⟩
  by_cases hm : hh ∈ (proxied w.srv.trace).map (·.2)
  · by_cases hk : hh ∈ w.tasks.map (·.chan)
    · obtain ⟨t, htm, rfl⟩ := List.mem_map.1 hk
      obtain ⟨j, hj⟩ := List.getElem?_of_mem htm
      have hg : t.gone = false := by
        obtain ⟨es, rfl⟩ := h.reach
        have := (holds_run cfg es).task t htm
        rw [w1] at this
        cases hg : t.gone
        · rfl
        · rw [hg] at this; cases this
      cases hcl : t.io.closed with
      | false =>
        obtain ⟨a, b⟩ := h.taskRead hj hg hcl hq w1 ht.1 1
        exact ⟨_, a, by rw [b]; exact ht.2⟩
      | true =>
        obtain ⟨a, b⟩ := h.taskDrop hj hg hcl hd.1
        exact ⟨_, a, by rw [b]; exact hd.2⟩
    · obtain ⟨p, hp1, rfl⟩ := List.mem_map.1 hm
      obtain ⟨a, b, c⟩ := h.taskStart (id := p.1) hp1 hk
      obtain ⟨a', b'⟩ := a.ready.taskRead c rfl rfl (by rw [b]; exact hq) (by rw [b]; exact w1) (by rw [b]; exact ht.1) 1
      exact ⟨_, a.trans a', by rw [b', b]; exact ht.2⟩
  · obtain ⟨a, b⟩ := h.otherTake hm ht.1
    exact ⟨_, a, by rw [b]; exact ht.2⟩

theorem Ready.unblock (h : Ready cfg n m k i inp w) : ∃ w', Fwd cfg n m k i inp w w' ∧ w'.srv.pending = none := by
  induction hl : w.srv.readBuf.length using Nat.strongRecOn generalizing w with
  | ind N ih =>
    subst hl
    cases hp : w.srv.pending with
    | none => exact ⟨w, .refl h, hp⟩
    | some x =>
      obtain ⟨w1, h1, h2⟩ := h.unblock1 (hh := x.1) (f := x.2) hp
      rcases h2 with h2 | h2
      · exact ⟨w1, h1, h2⟩
      · obtain ⟨w2, h3, h4⟩ := ih _ h2 h1.ready rfl
        exact ⟨w2, h1.trans h3, h4⟩

theorem Ready.drainNet (h : Ready cfg n m k i inp w) (hs : Sent n w) :
    ∃ w', Path cfg w w' ∧ Ready cfg n m k i inp w' ∧ Sent n w' ∧ w'.up = [] ∧ w'.srv.pending = none := by
  obtain ⟨w1, h1, hp⟩ := h.unblock
  have hs1 := hs.same h1.cli h1.users
  by_cases hu : w1.up = []
  · exact ⟨w1, h1.path, h1.ready, hs1, hu, hp⟩
  have hr1 := h1.ready
  have hst : step cfg w1 (.srv (.read w1.up.length)) = { w1 with
      srv := Tunnel.serverStep cfg.server w1.srv (.read w1.up)
      up := []
      down := w1.down ++ [] } := by
    simp only [step, loopStep]
    rw [if_pos ⟨hr1.srv, hp, by rw [List.take_length]; exact hu⟩]
    simp
  have hrun : (Tunnel.serverStep cfg.server w1.srv (.read w1.up)).phase = .running := by
    obtain ⟨es, he⟩ := hr1.srvRun
    rw [he]
    exact Tunnel.read_runs cfg.server (nilStream hr1.fitC) es w1.up (by rw [← he]; exact hr1.arrives) (he ▸ hr1.srv)
      (he ▸ hp)
  have h2 : Ready cfg n m k i inp (step cfg w1 (.srv (.read w1.up.length))) :=
    hr1.next trivial (by rw [hst]; exact fun g hg => srv_accepted cfg.server w1.srv _ (heads_read _ _) hg)
      (by rw [hst]; exact fun _ hf => .inl hf) (by rw [hst]; exact hr1.queued) (by rw [hst]; exact hr1.user)
      (by rw [hst]; exact hr1.task) (by rw [hst]; exact hrun) (by rw [hst]; exact hr1.cli)
  obtain ⟨w3, h3, hp3⟩ := h2.unblock
  refine ⟨w3, h1.path.trans ((Path.one (e := .srv (.read w1.up.length)) trivial).trans h3.path), h3.ready, ?_, ?_, hp3⟩
  · exact hs1.same (h3.cli.trans (by rw [hst])) (h3.users.trans (by rw [hst]))
  · rw [h3.up, hst]

/-! #### the task takes everything from the server -/

theorem Ready.drainChan (h : Ready cfg n m k i inp w) (hp : w.srv.pending = none) :
    ∃ w', Fwd cfg n m k i inp w w' ∧ w'.srv.pending = none ∧ (w'.srv.chan k).q = [] := by
  generalize hq : (w.srv.chan k).q = q
  induction q generalizing w with
  | nil => exact ⟨w, .refl h, hp, hq⟩
  | cons f q ih =>
    obtain ⟨t, ht, _, htk, hg, hcl⟩ := h.task
    have hrx := h.rx
    have htf := World.take_free (H := Tunnel.serverHandle cfg.server) (we := Tunnel.finish .panicked) hp hq hrx
    have ht' : Tunnel.serverStep cfg.server w.srv (.take k) = _ := htf
    obtain ⟨h1, h2⟩ := h.taskRead ht hg hcl (by rw [htk]; exact hq) (by rw [htk]; exact hrx) (by rw [htk, ht']; exact h.srv) 1
    rw [htk, ht'] at h2
    obtain ⟨w', h3, h4, h5⟩ := ih h1.ready (by rw [h2]; exact hp) (by rw [h2]; simp [Tunnel.emit, Tunnel.setChan])
    exact ⟨w', h1.trans h3, h4, h5⟩

/-- a read as large as what the stream holds empties it -/
theorem read_all {v : Virtual.St} (hi : v.inbox = []) (hr : v.read ≠ []) (hc : v.closed = false) :
    (Virtual.pollRead v.read.length v).read = [] := by
  rw [Virtual.pollRead]
  split
  · rw [if_neg (by rw [hc]; simp), if_neg hr]
    simp [Virtual.copyOut, Virtual.emit]
  · rename_i h
    rw [hi] at h; cases h

theorem Ready.flush (h : Ready cfg n m k i inp w) (hq : (w.srv.chan k).q = []) (htx : (w.srv.chan k).tx = true) :
    ∃ w', Fwd cfg n m k i inp w w' ∧ w'.srv = w.srv ∧ ∃ t, w'.tasks[m]? = some t ∧ t.io.read = [] := by
  obtain ⟨t, ht, hti, htk, hg, hcl⟩ := h.task
  by_cases hr : t.io.read = []
  · exact ⟨w, .refl h, rfl, t, ht, hr⟩
  have hin : t.io.inbox = [] := by
    obtain ⟨es, rfl⟩ := h.reach
    exact inbox_run cfg es t (List.mem_of_getElem? ht)
  obtain ⟨v', hv'⟩ : ∃ v', v' = Virtual.step t.io (.read t.io.read.length) := ⟨_, rfl⟩
  have he : taskStep (Tunnel.serverStep cfg.server) w.srv t.io t.chan (.read t.io.read.length) = (w.srv, v') := by
    simp only [taskStep, htk, hq, htx]
    rw [hv']; rfl
  have hst : step cfg w (.task m (.read t.io.read.length)) = { w with
      tasks := w.tasks.set m { t with io := v', gone := false } } := by
    simp only [step, ht, hg, he]
    simp
  have hget : (step cfg w (.task m (.read t.io.read.length))).tasks[m]? = some { t with io := v', gone := false } := by
    rw [hst]; exact List.getElem?_set_self (List.getElem?_eq_some_iff.1 ht).1
  have hv1 : v'.id = t.io.id := by rw [hv', vstep_id]
  have hv2 : v'.closed = false := by
    rw [hv']; exact (read_inbox _ (by rw [hin]; simp)).2.trans hcl
  have hv3 : v'.read = [] := by rw [hv']; exact read_all hin hr hcl
  exact ⟨_, h.fwd (e := .task m (.read t.io.read.length)) trivial (by rw [hst]) (by rw [hst]) (by rw [hst])
    (by rw [hst]; exact fun _ hf => .inl hf) ⟨_, hget, hv1.trans hti, htk, rfl, hv2⟩ (by rw [hst]; exact h.srv),
    by rw [hst], _, hget, hv3⟩

theorem path_accepted {w w'} (hb : Base cfg w) (hp : Path cfg w w') : accepted w.cli.trace <+: accepted w'.cli.trace := by
  obtain ⟨es, hes, rfl⟩ := hp
  clear hes
  have h1 : ∀ w w', Move cfg w w' → Base cfg w → World.One (Tunnel.clientStep cfg.client) w.cli w'.cli := by
    intro w w' hm hb
    cases hm with
    | stay => exact .inl rfl
    | accept => exact .inl rfl
    | work _ _ u _ _ _ => exact .inr ⟨.work u.relay.id none, rfl⟩
    | srv => exact .inl rfl
    | cli => exact World.loopStep_one _ _ _
    | otherS => exact .inl rfl
    | otherC => exact World.otherStep_one _ _ _
    | user n u e hu => exact World.relayStep_one _ _ _ _ _ (hb.users u (List.mem_of_getElem? hu))
    | start => exact .inl rfl
    | task => exact .inl rfl
  induction es generalizing w with
  | nil => exact List.prefix_refl _
  | cons e es ih =>
    exact ((h1 _ _ (step_move cfg w e) hb).accepted (steps_client cfg.client)).trans (ih (base_move (step_move cfg w e) hb))

/-- a task serves a stream whose open request the client has sent -/
theorem task_create {cfg es} (hn : Normal (run cfg es)) {t} (ht : t ∈ (run cfg es).tasks) :
    ∃ x, .create t.io.id x ∈ accepted (run cfg es).cli.trace := by
  have h1 := proxied_open ((hosts_run cfg es).conn t ht)
  have h2 := (hosts_run cfg es).opens t.io.id
  have h3 : creates t.io.id (gots (run cfg es).srv.trace) ≤ creates t.io.id (accepted (run cfg es).cli.trace) :=
    World.seen_server_creates (base_run cfg es).ends hn.fit t.io.id
  obtain ⟨f, hf, hp⟩ := List.countP_pos_iff.1 (show 0 < creates t.io.id (accepted (run cfg es).cli.trace) by omega)
  cases f with
  | create j x =>
    have : j = t.io.id := by simpa using hp
    exact ⟨x, this ▸ hf⟩
  | _ => cases hp

/-! ### Statement -/

/-- **C219**, partial: whatever has happened so far, while a user's connection, the proxy's task for its stream and the two
    tunnel ends are at work, it takes only the passing on of what is already under way - no further byte from anybody, and
    no end of any connection - until every byte the user has sent has been given to the proxy of the server above, and
    both ends still work. In particular the tunnel never blocks for good on the way up, however many other streams wait at
    the server. This is proved as long as none of the user's data was sent before its open request
    (C127_overtaken_fails); that happens. The messages that wait at the client are those the protocol has room for. -/
theorem C219_up_partial (cfg : Cfg) (es : List Event) (hn : Normal (run cfg es)) (hq : ∀ f ∈ (run cfg es).cli.outq, Fits f)
    (t) (ht : t ∈ (run cfg es).tasks) (hfree : Free t.io.id (run cfg es))
    (ha : Announced t.io.id (accepted (run cfg es).cli.trace)) (u) (hu : u ∈ (run cfg es).users)
    (hui : u.relay.id = t.io.id) (hs : (run cfg es).srv.phase = .running) (hc : (run cfg es).cli.phase = .running)
    (hur : u.relay.phase = .running) (htr : t.gone = false ∧ t.io.closed = false) :
    ∃ es', CarriedOn cfg (run cfg es) es' ∧ (run cfg (es ++ es')).srv.phase = .running ∧
      (run cfg (es ++ es')).cli.phase = .running ∧
      ∃ t' ∈ (run cfg (es ++ es')).tasks, t'.io.id = t.io.id ∧ t'.gone = false ∧
        Virtual.returns t'.io.trace = inputs u.relay.trace := by
  obtain ⟨n, hn'⟩ := List.getElem?_of_mem hu
  obtain ⟨m, hm⟩ := List.getElem?_of_mem ht
  obtain ⟨c, hcr⟩ := task_create hn ht
  have hid : IdFits t.io.id := (hn.fits _ (List.mem_append.2 (.inr hcr))).2
  have h0 : Ready cfg n m t.chan t.io.id (inputs u.relay.trace) (run cfg es) :=
    ⟨⟨es, rfl⟩, hn, hfree, hq, hid, ⟨u, hn', hui, hur, rfl⟩, ⟨t, hm, rfl, rfl, htr⟩, hs, hc⟩
  obtain ⟨w1, p1, h1, s1⟩ := h0.drainClient
  obtain ⟨w2, p2, h2, s2, u2, q2⟩ := h1.drainNet s1
  obtain ⟨w3, f3, q3, c3⟩ := h2.drainChan q2
  have hann : ∀ {w'}, Path cfg (run cfg es) w' → Announced t.io.id (accepted w'.cli.trace) := fun hp =>
    World.announced_more ha ⟨c, hcr⟩ (path_accepted (base_run cfg es) hp)
  have htx : (w3.srv.chan t.chan).tx = true := by
    have a3 := hann ((p1.trans p2).trans f3.path)
    have h3 := f3.ready
    obtain ⟨x, hx, x1, x2, _⟩ := h3.task
    have n3 := h3.normal
    have e3 := h3.free
    have r3 := h3.srv
    obtain ⟨es3, hw3⟩ := h3.reach
    rw [hw3] at hx n3 e3 a3
    rw [← x1] at e3 a3
    obtain ⟨t1, rest, hr, _, hr2⟩ := task_met n3 (List.mem_of_getElem? hx) e3 a3
    rw [← hw3] at hr
    obtain ⟨es4, hs4⟩ := h3.srvRun
    rw [hs4] at hr r3 ⊢
    rw [← x2]
    exact Tunnel.server_tx cfg.server es4 r3 hr hr2
  obtain ⟨w4, f4, e4, x, hx, hxw⟩ := f3.ready.flush c3 htx
  have hpath := ((p1.trans p2).trans f3.path).trans f4.path
  have a4 := hann hpath
  obtain ⟨es', he, hw⟩ := hpath
  have hrun : run cfg (es ++ es') = w4 := by rw [hw, run, List.foldl_append, ← run]
  have h4 := f4.ready
  have s4 := (s2.same f3.cli f3.users).same f4.cli f4.users
  obtain ⟨x', hx', y1, y2, y3, _⟩ := h4.task
  rw [hx] at hx'; cases hx'
  refine ⟨es', he, by rw [hrun]; exact h4.srv, by rw [hrun]; exact h4.cli, x, by rw [hrun]; exact List.mem_of_getElem? hx, y1, y3, ?_⟩
  obtain ⟨u4, hu4, z1, _, z3⟩ := h4.user
  obtain ⟨o1, o2, u5, hu5, o3⟩ := s4
  rw [hu4] at hu5; cases hu5
  rw [← z3]
  have hr4 := h4.srv
  have hc4 := h4.cli
  have hx4 := h4.rx
  have hn4 := h4.normal
  have hf4 := h4.free
  have hup : w4.up = [] := by rw [f4.up, f3.up, u2]
  have hp4 : w4.srv.pending = none := by rw [e4]; exact q3
  have hq4 : (w4.srv.chan t.chan).q = [] := by rw [e4]; exact c3
  rw [← hrun] at hx hu4 hr4 hc4 hx4 hn4 hf4 o1 o2 hup hp4 hq4 a4
  have hxm := List.mem_of_getElem? hx
  refine C127_up_all_partial cfg (es ++ es') hn4 x hxm (by rw [y1]; exact hf4) (by rw [y1]; exact a4) u4
    (List.mem_of_getElem? hu4) (z1.trans y1.symm) o3 ?_ ⟨inbox_run cfg _ x hxm, hxw⟩
  rw [y2]
  exact ⟨hc4, ⟨o1, o2⟩, hup, ⟨hr4, task_login hxm hr4, hp4⟩, ⟨hx4, hq4⟩⟩

/-- a user sends twelve messages, while the proxy takes none -/
def flood : List Event := [.accept] ++ opening ++ (List.range 12).flatMap (fun n => Event.user 0 (.read [UInt8.ofNat n]) :: bring)

/-- The hypotheses are met there, though the server's loop waits for the proxy, and neither reads nor writes. -/
example : let w := run plain flood
    Normal w ∧ Free 1 w ∧ w.cli.outq = [] ∧
    (match accepted w.cli.trace with | .create 1 _ :: _ => true | _ => false) = true ∧
    w.srv.phase = .running ∧ w.cli.phase = .running ∧
    w.users.map (fun u => (u.relay.id, u.relay.phase, inputs u.relay.trace)) =
      [(1, .running, [0, 1, 2, 3, 4, 5, 6, 7, 8, 9, 10, 11])] ∧
    w.tasks.map (fun t => (t.io.id, t.gone, t.io.closed, Virtual.returns t.io.trace)) = [(1, false, false, [])] ∧
    w.srv.pending.isSome = true ∧ w.up.isEmpty = false := by
  refine ⟨normal_of ?_ ?_, free_of _ ?_, ?_, ?_, ?_, ?_, ?_, ?_, ?_, ?_⟩ <;> decide +kernel

end Wm.Chain
