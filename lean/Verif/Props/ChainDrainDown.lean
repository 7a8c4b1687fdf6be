import Verif.Proofs.ChainDrainDown
import Verif.Props.ChainDrain
/-!
Property C221: the tunnel never reaches a state from which what the proxy of the server above has written can no longer
be brought to the user of the client.
-/
namespace Wm.Chain
open Wm Wm.Prot
open scoped List
open Wm.World (Cfg LoopEv RelayEv OtherEv loopStep relayStep otherStep nilStream Delivered steps_server steps_client Held
  server_mine)
open Wm.Tunnel (datas creates regCount openCount gots received submissions accepted arrived heads streamCap Announced)
open Wm.Relay (inputs outputs)

/-! ### What is required -/

/-- The step only passes on what is under way: an end takes a message, writes or reads bytes, a user's task takes a message
    or writes bytes to the user, another task takes a message, a task of the proxy that was already asked for begins, or
    reads, or goes after it was told that its stream is over. Nobody sends anything new, opens or ends a connection, and
    nothing fails. -/
def Brings (w : St) : Event → Prop
  | .srv .recv | .srv (.wrote _) | .cli .recv | .cli (.read _) | .user _ .recv | .user _ (.wrote _) | .otherS (.take _)
  | .start _ _ | .task _ (.read _) => True
  | .task n .drop => ∃ t, w.tasks[n]? = some t ∧ t.io.closed = true
  | _ => False

/-- each of these steps only passes on what is under way -/
def BroughtOn (cfg : Cfg) : St → List Event → Prop
  | _, [] => True
  | w, e :: es => Brings w e ∧ BroughtOn cfg (step cfg w e) es

/-- no other task of the server sends a login -/
def NoLogins (w : St) : Prop := ∀ u p, Frame.token u p ∉ w.otherS

/-! ### Proof -/

/-- everything that stays as it is while the stream of user `n` and task `m` is drained; `h` is the user's channel -/
structure Draws (cfg : Cfg) (n m h i : Nat) (acc : Bytes) (w : St) : Prop where
  reach : ∃ es, w = run cfg es
  normal : Normal w
  free : Free i w
  noLogins : NoLogins w
  queuedS : ∀ f ∈ w.srv.outq, Fits f
  queuedC : ∀ f ∈ w.cli.outq, Fits f
  user : ∃ u, w.users[n]? = some u ∧ u.relay.id = i ∧ u.handle = some h ∧ u.relay.phase = .running
  task : ∃ t, w.tasks[m]? = some t ∧ t.io.id = i ∧ .writeWait ∉ t.io.trace ∧ Virtual.accepts t.io.trace = acc
  srv : w.srv.phase = .running
  cli : w.cli.phase = .running
  kept : Held h (fun f => ∃ d, f = .data i d) w.cli

/-- `w'` is reached from `w` by passing on what is under way -/
def Way (cfg : Cfg) (w w' : St) : Prop := ∃ es : List Event, BroughtOn cfg w es ∧ w' = es.foldl (step cfg) w

theorem Way.refl (cfg w) : Way cfg w w := ⟨[], trivial, rfl⟩
theorem broughtOn_append {cfg} : ∀ {w} {a b : List Event}, BroughtOn cfg w a → BroughtOn cfg (a.foldl (step cfg) w) b →
    BroughtOn cfg w (a ++ b)
  | _, [], _, _, h => h
  | _, _ :: _, _, h1, h2 => ⟨h1.1, broughtOn_append h1.2 h2⟩
theorem Way.trans {cfg a b c} (h1 : Way cfg a b) (h2 : Way cfg b c) : Way cfg a c := by
  obtain ⟨e1, h1, rfl⟩ := h1
  obtain ⟨e2, h2, rfl⟩ := h2
  exact ⟨e1 ++ e2, broughtOn_append h1 h2, by rw [List.foldl_append]⟩
theorem Way.one {cfg w e} (h : Brings w e) : Way cfg w (step cfg w e) := ⟨[e], ⟨h, trivial⟩, rfl⟩

theorem brings_same {cfg w e} (h : Brings w e) : (step cfg w e).otherS = w.otherS ∧ (step cfg w e).otherC = w.otherC ∧
    (step cfg w e).users.length = w.users.length := by
  cases e with
  | accept => exact h.elim
  | work => exact h.elim
  | srv e => exact ⟨rfl, rfl, rfl⟩
  | cli e => exact ⟨rfl, rfl, rfl⟩
  | otherS e => cases e <;> first | exact h.elim | exact ⟨List.append_nil _, rfl, rfl⟩
  | otherC e => exact h.elim
  | user n e =>
    simp only [step]
    split <;> simp
  | start id k =>
    simp only [step]
    split <;> simp
  | task n e =>
    simp only [step]
    split
    · simp
    · split <;> simp

variable {cfg : Cfg} {n m h i : Nat} {acc : Bytes} {w : St}

theorem Draws.next (d : Draws cfg n m h i acc w) {e} (he : Brings w e)
    (hS : ∀ f ∈ accepted (step cfg w e).srv.trace, f ∈ accepted w.srv.trace ∨ Fits f)
    (hC : ∀ f ∈ accepted (step cfg w e).cli.trace, f ∈ accepted w.cli.trace ∨ Fits f)
    (hqS : ∀ f ∈ (step cfg w e).srv.outq, Fits f) (hqC : ∀ f ∈ (step cfg w e).cli.outq, Fits f)
    (hu : ∃ u, (step cfg w e).users[n]? = some u ∧ u.relay.id = i ∧ u.handle = some h ∧ u.relay.phase = .running)
    (ht : ∃ t, (step cfg w e).tasks[m]? = some t ∧ t.io.id = i ∧ .writeWait ∉ t.io.trace ∧ Virtual.accepts t.io.trace = acc)
    (hs : (step cfg w e).srv.phase = .running) (hc : (step cfg w e).cli.phase = .running)
    (hk : Held h (fun f => ∃ d, f = .data i d) (step cfg w e).cli) : Draws cfg n m h i acc (step cfg w e) := by
  obtain ⟨es, rfl⟩ := d.reach
  obtain ⟨c1, c2, c3⟩ := brings_same (cfg := cfg) (w := run cfg es) he
  refine ⟨⟨es ++ [e], (run_snoc cfg es e).symm⟩, ⟨fun f hf => ?_, by rw [c3]; exact d.normal.users⟩, ?_, ?_, hqS, hqC, hu, ht,
    hs, hc, hk⟩
  · rcases List.mem_append.1 hf with hf | hf
    · exact (hS f hf).elim (fun x => d.normal.fits f (List.mem_append.2 (.inl x))) fun x => x
    · exact (hC f hf).elim (fun x => d.normal.fits f (List.mem_append.2 (.inr x))) fun x => x
  · unfold Free; rw [c1, c2]; exact d.free
  · unfold NoLogins; rw [c1]; exact d.noLogins

theorem Draws.base (d : Draws cfg n m h i acc w) : Base cfg w := by
  obtain ⟨es, rfl⟩ := d.reach; exact base_run cfg es

theorem Draws.fitC (d : Draws cfg n m h i acc w) : ∀ f ∈ accepted w.cli.trace, Fits f :=
  fun f hf => d.normal.fits f (List.mem_append.2 (.inr hf))

theorem Draws.fitS (d : Draws cfg n m h i acc w) : ∀ f ∈ accepted w.srv.trace, Fits f :=
  fun f hf => d.normal.fits f (List.mem_append.2 (.inl hf))

theorem Draws.srvRun (d : Draws cfg n m h i acc w) : ∃ es, w.srv = Tunnel.serverRun cfg.server es := d.base.ends.srv

theorem Draws.arrives (d : Draws cfg n m h i acc w) :
    arrived w.srv.trace ++ w.up <+: (accepted w.cli.trace).flatMap wire ++ [] := by
  obtain ⟨es, he⟩ : ∃ es, w.cli = Tunnel.clientRun cfg.client [] es := d.base.ends.cli
  have hup : arrived w.srv.trace ++ w.up = Tunnel.written w.cli.trace := d.base.ends.up
  rw [List.append_nil, hup, he]
  exact (Tunnel.C15_client_order cfg.client [] es).1

theorem Draws.arrivesC (d : Draws cfg n m h i acc w) :
    arrived w.cli.trace ++ w.down <+: (accepted w.srv.trace).flatMap wire ++ [] := by
  obtain ⟨es, he⟩ := d.srvRun
  have hdown : arrived w.cli.trace ++ w.down = Tunnel.written w.srv.trace := d.base.ends.down
  rw [List.append_nil, hdown, he]
  exact (Tunnel.C15_server_order cfg.server es).1

/-- the client's loop has decoded all it can, and waits for nobody -/
theorem Draws.cliIdle (d : Draws cfg n m h i acc w) :
    w.cli.pending = none ∧ w.cli.readyShutdown = false ∧ ¬ Complete w.cli.readBuf := by
  obtain ⟨es, he⟩ : ∃ es, w.cli = Tunnel.clientRun cfg.client [] es := d.base.ends.cli
  have h1 := Tunnel.client_never_waits cfg.client [] es
  have h2 := Tunnel.client_not_ready cfg.client [] es
  rw [← he] at h1 h2
  refine ⟨h1, h2, ?_⟩
  have h3 := (Tunnel.client_at (nilStream d.fitS) cfg.client [] es).2
  rw [← he] at h3
  exact h3 ((List.prefix_append _ _).trans d.arrivesC) ⟨d.cli, h2, h1⟩

theorem Draws.srvOpen (d : Draws cfg n m h i acc w) : w.srv.readyShutdown = false := by
  obtain ⟨t, ht, _⟩ := d.task
  have hr := d.srv
  obtain ⟨es, rfl⟩ := d.reach
  exact task_login (List.mem_of_getElem? ht) hr

/-- the server's loop has decoded all it can -/
theorem Draws.srvIdle (d : Draws cfg n m h i acc w) (hp : w.srv.pending = none) : ¬ Complete w.srv.readBuf := by
  obtain ⟨es, he⟩ := d.srvRun
  have h3 := (Tunnel.server_at (nilStream d.fitC) cfg.server es).2
  rw [← he] at h3
  exact h3 ((List.prefix_append _ _).trans d.arrives) ⟨d.srv, d.srvOpen, hp⟩

theorem Draws.rx (d : Draws cfg n m h i acc w) : (w.cli.chan h).rx = true := by
  obtain ⟨u, hu, _, hh, hr⟩ := d.user
  obtain ⟨es, rfl⟩ := d.reach
  exact attended_run cfg es u (List.mem_of_getElem? hu) h hh hr

theorem Draws.noToken (d : Draws cfg n m h i acc w) (u p) : .token u p ∉ accepted w.srv.trace := by
  intro hf
  have hb := d.base
  have hno := d.noLogins
  have hn := d.normal
  have hfree := d.free
  obtain ⟨es, rfl⟩ := d.reach
  have hfar := far_run cfg es i (hfree.own hn) hn.fit
  rcases World.server_sent hb.ends.srv _ hf with h1 | h1 | ⟨j, x, h1⟩
  · rcases hfar.sub.mem _ h1 with h2 | ⟨v, hv, h2⟩
    · exact hno u p h2
    · obtain ⟨t, ht, rfl⟩ := List.mem_map.1 hv
      obtain ⟨x, h3⟩ := sends_data (hb.tasks t ht) _ h2
      cases h3
  · cases h1
  · cases h1

/-! #### the server is freed -/

/-- a step of the server's side alone -/
structure Aside (cfg : Cfg) (n m h i : Nat) (acc : Bytes) (w w' : St) : Prop where
  path : Way cfg w w'
  draws : Draws cfg n m h i acc w'

theorem Aside.refl (d : Draws cfg n m h i acc w) : Aside cfg n m h i acc w w := ⟨.refl cfg w, d⟩
theorem Aside.trans {a b c} (h1 : Aside cfg n m h i acc a b) (h2 : Aside cfg n m h i acc b c) : Aside cfg n m h i acc a c :=
  ⟨h1.path.trans h2.path, h2.draws⟩

/-- a step that leaves the client and the users alone -/
theorem Draws.aside (d : Draws cfg n m h i acc w) {e} (he : Brings w e)
    (hc : (step cfg w e).cli = w.cli) (hu : (step cfg w e).users = w.users)
    (hS : ∀ f ∈ accepted (step cfg w e).srv.trace, f ∈ accepted w.srv.trace ∨ Fits f)
    (hq : ∀ f ∈ (step cfg w e).srv.outq, f ∈ w.srv.outq)
    (ht : ∃ t, (step cfg w e).tasks[m]? = some t ∧ t.io.id = i ∧ .writeWait ∉ t.io.trace ∧ Virtual.accepts t.io.trace = acc)
    (hs : (step cfg w e).srv.phase = .running) : Aside cfg n m h i acc w (step cfg w e) :=
  ⟨.one he, d.next he hS (by rw [hc]; exact fun _ hf => .inl hf) (fun f hf => d.queuedS f (hq f hf))
    (by rw [hc]; exact d.queuedC) (by rw [hu]; exact d.user) ht hs (by rw [hc]; exact d.cli) (by rw [hc]; exact d.kept)⟩

theorem Draws.taskRead (d : Draws cfg n m h i acc w) {j t} (hj : w.tasks[j]? = some t) (hg : t.gone = false)
    (hcl : t.io.closed = false) {f q} (hq : (w.srv.chan t.chan).q = f :: q) (hrx : (w.srv.chan t.chan).rx = true)
    (hrun : (Tunnel.serverStep cfg.server w.srv (.take t.chan)).phase = .running) (N : Nat) :
    Aside cfg n m h i acc w (step cfg w (.task j (.read N))) ∧
    (step cfg w (.task j (.read N))).srv = Tunnel.serverStep cfg.server w.srv (.take t.chan) := by
  have hin : t.io.inbox = [] := by
    obtain ⟨es, rfl⟩ := d.reach
    exact inbox_run cfg es t (List.mem_of_getElem? hj)
  obtain ⟨v', hv'⟩ : ∃ v', v' = Virtual.step (Virtual.step t.io (.arrive f)) (.read N) := ⟨_, rfl⟩
  have he : taskStep (Tunnel.serverStep cfg.server) w.srv t.io t.chan (.read N) =
      (Tunnel.serverStep cfg.server w.srv (.take t.chan), v') := by
    simp only [taskStep, hq]
    rw [if_pos ⟨hrx, hcl⟩, hv']
  have hst : step cfg w (.task j (.read N)) = { w with
      srv := Tunnel.serverStep cfg.server w.srv (.take t.chan)
      tasks := w.tasks.set j { t with io := v', gone := false } } := by
    simp only [step, hj, hg, he]
    simp
  have hv1 : v'.id = t.io.id := by rw [hv', vstep_id, vstep_id]
  have hi : (Virtual.step t.io (.arrive f)).inbox.length ≤ 1 := by simp [Virtual.step, hcl, hin, Virtual.emit]
  have hv2 : Virtual.accepts v'.trace = Virtual.accepts t.io.trace := by
    rw [hv']
    refine (read_trace N hi).1.trans ?_
    simp [Virtual.step, hcl, Virtual.emit, Virtual.accepts]
  have hv3 : .writeWait ∈ v'.trace → .writeWait ∈ t.io.trace := by
    rw [hv']
    intro hw
    have := (read_trace N hi).2 hw
    simpa [Virtual.step, hcl, Virtual.emit] using this
  refine ⟨d.aside trivial (by rw [hst]) (by rw [hst]) ?_ ?_ ?_ (by rw [hst]; exact hrun), by rw [hst]⟩
  · rw [hst]; exact fun g hg => srv_accepted cfg.server w.srv _ (heads_take _ _) hg
  · rw [hst]; exact srv_outq d.srvRun (by simp)
  · obtain ⟨x, hx, x1, x2, x3⟩ := d.task
    rw [hst]
    by_cases hjm : j = m
    · subst hjm
      rw [hj] at hx; cases hx
      exact ⟨_, List.getElem?_set_self (List.getElem?_eq_some_iff.1 hj).1, hv1.trans x1, fun hw => x2 (hv3 hw), hv2.trans x3⟩
    · exact ⟨x, by dsimp only; rw [List.getElem?_set_ne hjm]; exact hx, x1, x2, x3⟩

theorem Draws.taskDrop (d : Draws cfg n m h i acc w) {j t} (hj : w.tasks[j]? = some t) (hg : t.gone = false)
    (hcl : t.io.closed = true) (hrun : (Tunnel.serverStep cfg.server w.srv (.dropRx t.chan)).phase = .running) :
    Aside cfg n m h i acc w (step cfg w (.task j .drop)) ∧
    (step cfg w (.task j .drop)).srv = Tunnel.serverStep cfg.server w.srv (.dropRx t.chan) := by
  have hst : step cfg w (.task j .drop) = { w with
      srv := Tunnel.serverStep cfg.server w.srv (.dropRx t.chan)
      tasks := w.tasks.set j { t with gone := true } } := by
    simp only [step, hj, hg, taskStep]
    simp
  refine ⟨d.aside ⟨t, hj, hcl⟩ (by rw [hst]) (by rw [hst]) ?_ ?_ ?_ (by rw [hst]; exact hrun), by rw [hst]⟩
  · rw [hst]; exact fun g hg => srv_accepted cfg.server w.srv _ (heads_drop _ _) hg
  · rw [hst]; exact srv_outq d.srvRun (by simp)
  · obtain ⟨x, hx, x1, x2, x3⟩ := d.task
    rw [hst]
    by_cases hjm : j = m
    · subst hjm
      rw [hj] at hx; cases hx
      exact ⟨_, List.getElem?_set_self (List.getElem?_eq_some_iff.1 hj).1, x1, x2, x3⟩
    · exact ⟨x, by dsimp only; rw [List.getElem?_set_ne hjm]; exact hx, x1, x2, x3⟩

theorem Draws.taskStart (d : Draws cfg n m h i acc w) {id hh} (hp : (id, hh) ∈ proxied w.srv.trace)
    (hm : hh ∉ w.tasks.map (·.chan)) :
    Aside cfg n m h i acc w (step cfg w (.start id hh)) ∧ (step cfg w (.start id hh)).srv = w.srv ∧
    (step cfg w (.start id hh)).tasks[w.tasks.length]? = some ⟨Virtual.init id, hh, false⟩ := by
  have hst : step cfg w (.start id hh) = { w with tasks := w.tasks ++ [⟨Virtual.init id, hh, false⟩] } := by
    simp only [step]
    rw [if_pos ⟨hp, hm⟩]
  refine ⟨d.aside trivial (by rw [hst]) (by rw [hst]) (by rw [hst]; exact fun _ hf => .inl hf)
    (by rw [hst]; exact fun _ hf => hf) ?_ (by rw [hst]; exact d.srv), by rw [hst], by rw [hst]; simp⟩
  obtain ⟨x, hx, hx'⟩ := d.task
  rw [hst]
  exact ⟨x, by dsimp only; rw [List.getElem?_append_left (List.getElem?_eq_some_iff.1 hx).1]; exact hx, hx'⟩

theorem Draws.otherTake (d : Draws cfg n m h i acc w) {hh} (hm : hh ∉ (proxied w.srv.trace).map (·.2))
    (hrun : (Tunnel.serverStep cfg.server w.srv (.take hh)).phase = .running) :
    Aside cfg n m h i acc w (step cfg w (.otherS (.take hh))) ∧
    (step cfg w (.otherS (.take hh))).srv = Tunnel.serverStep cfg.server w.srv (.take hh) := by
  have hsrv : (step cfg w (.otherS (.take hh))).srv = Tunnel.serverStep cfg.server w.srv (.take hh) := by
    show otherStep _ _ _ (.take hh) = _
    unfold otherStep
    dsimp only
    rw [if_neg hm]
  refine ⟨d.aside trivial rfl rfl ?_ ?_ d.task (by rw [hsrv]; exact hrun), hsrv⟩
  · rw [hsrv]; exact fun g hg => srv_accepted cfg.server w.srv _ (heads_take _ _) hg
  · rw [hsrv]; exact srv_outq d.srvRun (by simp)

theorem Draws.unblock1 (d : Draws cfg n m h i acc w) {hh f} (hp : w.srv.pending = some (hh, f)) :
    ∃ w', Aside cfg n m h i acc w w' ∧ (w'.srv.pending = none ∨ w'.srv.readBuf.length < w.srv.readBuf.length) := by
  obtain ⟨es, he⟩ := d.srvRun
  have hS := nilStream d.fitC
  have ha := (List.prefix_append _ _).trans d.arrives
  have hr := d.srv
  have hw := Tunnel.server_waits cfg.server es
  rw [← he] at hw
  obtain ⟨w1, w2⟩ := hw hh f hp
  have ht := Tunnel.unblock_take cfg.server hS es (he ▸ ha) (he ▸ hr) (he ▸ hp)
  have hd := Tunnel.unblock_drop cfg.server hS es (he ▸ ha) (he ▸ hr) (he ▸ hp)
  rw [← he] at ht hd
  obtain ⟨g, q, hq⟩ : ∃ g q, (w.srv.chan hh).q = g :: q := by
    cases hq : (w.srv.chan hh).q with
    | nil => rw [hq] at w2; simp [streamCap] at w2
    | cons g q => exact ⟨g, q, rfl⟩
  by_cases hm : hh ∈ (proxied w.srv.trace).map (·.2)
  · by_cases hk : hh ∈ w.tasks.map (·.chan)
    · obtain ⟨t, htm, rfl⟩ := List.mem_map.1 hk
      obtain ⟨j, hj⟩ := List.getElem?_of_mem htm
      have hg : t.gone = false := by
        obtain ⟨es, rfl⟩ := d.reach
        have := (holds_run cfg es).task t htm
        rw [w1] at this
        cases hg : t.gone
        · rfl
        · rw [hg] at this; cases this
      cases hcl : t.io.closed with
      | false =>
        obtain ⟨a, b⟩ := d.taskRead hj hg hcl hq w1 ht.1 1
        exact ⟨_, a, by rw [b]; exact ht.2⟩
      | true =>
        obtain ⟨a, b⟩ := d.taskDrop hj hg hcl hd.1
        exact ⟨_, a, by rw [b]; exact hd.2⟩
    · obtain ⟨p, hp1, rfl⟩ := List.mem_map.1 hm
      obtain ⟨a, b, c⟩ := d.taskStart (id := p.1) hp1 hk
      obtain ⟨a', b'⟩ := a.draws.taskRead c rfl rfl (by rw [b]; exact hq) (by rw [b]; exact w1) (by rw [b]; exact ht.1) 1
      exact ⟨_, a.trans a', by rw [b', b]; exact ht.2⟩
  · obtain ⟨a, b⟩ := d.otherTake hm ht.1
    exact ⟨_, a, by rw [b]; exact ht.2⟩

theorem Draws.unblock (d : Draws cfg n m h i acc w) : ∃ w', Aside cfg n m h i acc w w' ∧ w'.srv.pending = none := by
  induction hl : w.srv.readBuf.length using Nat.strongRecOn generalizing w with
  | ind N ih =>
    subst hl
    cases hp : w.srv.pending with
    | none => exact ⟨w, .refl d, hp⟩
    | some x =>
      obtain ⟨w1, h1, h2⟩ := d.unblock1 (hh := x.1) (f := x.2) hp
      rcases h2 with h2 | h2
      · exact ⟨w1, h1, h2⟩
      · obtain ⟨w2, h3, h4⟩ := ih _ h2 h1.draws rfl
        exact ⟨w2, h1.trans h3, h4⟩

/-! #### the server hands everything to the connection -/

theorem Draws.srvRecv (d : Draws cfg n m h i acc w) (hp : w.srv.pending = none) {f q} (hq : w.srv.outq = f :: q) :
    Aside cfg n m h i acc w (step cfg w (.srv .recv)) ∧ (step cfg w (.srv .recv)).srv.outq = q ∧
    (step cfg w (.srv .recv)).srv.pending = none := by
  have he : (step cfg w (.srv .recv)).srv = Tunnel.enqueue f { w.srv with outq := q } true := by
    show Tunnel.serverStep cfg.server w.srv .recv = _
    unfold Tunnel.serverStep Tunnel.step
    dsimp only
    rw [if_pos ⟨d.srv, hp⟩, hq]
    exact Tunnel.resume_idle fun _ => d.srvIdle hp
  refine ⟨d.aside trivial rfl rfl (fun g hg => ?_) ?_ d.task ?_, ?_, ?_⟩
  · rw [he] at hg
    have hg : g ∈ accepted (w.srv.trace ++ [.queued true f]) := hg
    rw [Tunnel.accepted_append, List.mem_append] at hg
    rcases hg with hg | hg
    · exact .inl hg
    · simp [accepted] at hg; subst hg
      exact .inr (d.queuedS g (by rw [hq]; simp))
  · rw [he, hq]; exact fun g hg => List.mem_cons_of_mem _ hg
  · rw [he]; exact d.srv
  · rw [he]; rfl
  · rw [he]; exact hp

theorem Draws.drainOut (d : Draws cfg n m h i acc w) (hp : w.srv.pending = none) :
    ∃ w', Aside cfg n m h i acc w w' ∧ w'.srv.outq = [] ∧ w'.srv.pending = none := by
  generalize hq : w.srv.outq = q
  induction q generalizing w with
  | nil => exact ⟨w, .refl d, hq, hp⟩
  | cons f q ih =>
    obtain ⟨h1, h2, h3⟩ := d.srvRecv hp hq
    obtain ⟨w', h5, h6, h7⟩ := ih h1.draws h3 h2
    exact ⟨w', h1.trans h5, h6, h7⟩

/-- everything has left the server -/
def Emptied (w : St) : Prop := w.srv.outq = [] ∧ w.srv.writeBuf = []

theorem Draws.drainServer (d : Draws cfg n m h i acc w) : ∃ w', Aside cfg n m h i acc w w' ∧ Emptied w' := by
  obtain ⟨w0, h0, p0⟩ := d.unblock
  obtain ⟨w1, h1, h2, p1⟩ := h0.draws.drainOut p0
  have h01 := h0.trans h1
  by_cases hw : w1.srv.writeBuf = []
  · exact ⟨w1, h01, h2, hw⟩
  have d1 := h1.draws
  have he : (step cfg w1 (.srv (.wrote w1.srv.writeBuf.length))).srv =
      Tunnel.emit (.wrote (w1.srv.writeBuf.take w1.srv.writeBuf.length))
        { w1.srv with writeBuf := w1.srv.writeBuf.drop w1.srv.writeBuf.length } := by
    show Tunnel.serverStep cfg.server w1.srv (.wrote _) = _
    unfold Tunnel.serverStep Tunnel.step
    dsimp only
    rw [if_pos ⟨d1.srv, p1⟩, if_neg hw, if_neg]
    · exact Tunnel.resume_idle fun _ => d1.srvIdle p1
    · intro hc
      have : w1.srv.readyShutdown = true := hc.2
      rw [d1.srvOpen] at this
      cases this
  refine ⟨step cfg w1 (.srv (.wrote w1.srv.writeBuf.length)), h01.trans (d1.aside trivial rfl rfl (fun g hg => ?_) ?_ d1.task ?_),
    ?_, ?_⟩
  · rw [he] at hg
    have hg : g ∈ accepted (w1.srv.trace ++ [.wrote (w1.srv.writeBuf.take w1.srv.writeBuf.length)]) := hg
    rw [Tunnel.accepted_append, List.mem_append] at hg
    rcases hg with hg | hg
    · exact .inl hg
    · simp [accepted] at hg
  · rw [he]; exact fun _ hf => hf
  · rw [he]; exact d1.srv
  · rw [he]; exact h2
  · rw [he]; exact List.drop_length

/-! #### the client takes everything from the connection -/

/-- only data waits for the user -/
theorem Draws.onlyData (d : Draws cfg n m h i acc w) {f} (hf : f ∈ (w.cli.chan h).q) : ∃ x, f = .data i x := by
  have hrx := d.rx
  obtain ⟨u, hu, hui, huh, _⟩ := d.user
  have hum := List.mem_of_getElem? hu
  have hr := d.cli
  have hn := d.normal
  have hown := d.free.own hn
  have hfit := hn.fit
  obtain ⟨es, rfl⟩ := d.reach
  have hb := base_run cfg es
  have hid := user_id (guests_run cfg es) hum
  rw [hui] at hid
  have hfar := far_run cfg es i hown hfit
  obtain ⟨t1, rest, hreg, _, _⟩ := meets_run cfg es i hown hfit u hum hui h huh
  generalize run cfg es = w at *
  obtain ⟨es', he⟩ : ∃ x, w.cli = Tunnel.clientRun cfg.client [] x := hb.ends.cli
  have hgot : f ∈ gots w.cli.trace ∧ ((∃ j d, f = .data j d) ∨ ∃ j t, f = .close j t) ∧
      ∃ t1 t2, w.cli.trace = t1 ++ .got f :: t2 ∧ Tunnel.owner t1 f.sockMap = some h := by
    rw [he] at hf hr hrx ⊢
    have hD := (Tunnel.client_inv cfg.client [] es').1
    have h1 : f ∈ Tunnel.puts h (Tunnel.clientRun cfg.client [] es').trace := by
      rw [← (hD.1.open_ h hrx).1]; simp [hf]
    rcases Tunnel.routed hD (Tunnel.puts_sublist h _ f h1) with ⟨p, q, hpq, ha, ho⟩ | ⟨p, q, _, hpq, _⟩
    · refine ⟨by rw [hpq, Tunnel.gots_append', Tunnel.gots_cons]; simp [gots], ?_, p, q, hpq, ho⟩
      cases f <;> simp [Tunnel.clientAccepts] at ha ⊢
    · exact absurd (by rw [hpq]; simp) (Tunnel.client_whole cfg.client [] es' hr)
  obtain ⟨hgot, hkind, p, q, hpq, ho⟩ := hgot
  have hsock : f.sockMap = i := by
    have hreg1 : Tunnel.Obs.reg i h ∈ w.cli.trace := by rw [hreg]; simp
    have hreg2 : Tunnel.Obs.reg f.sockMap h ∈ w.cli.trace := by
      rw [hpq]; exact List.mem_append.2 (.inl (Tunnel.owner_mem ho))
    rw [he] at hreg1 hreg2
    have h1 := ((Tunnel.client_inv cfg.client [] es').2.1.regs _ _ hreg1).1
    have h2 := ((Tunnel.client_inv cfg.client [] es').2.1.regs _ _ hreg2).1
    rw [h1] at h2
    exact (Option.some.inj h2).symm
  rcases hkind with ⟨j, x, rfl⟩ | ⟨j, x, rfl⟩
  · exact ⟨x, by rw [show j = i from hsock]⟩
  · exfalso
    rw [show j = i from hsock] at hgot
    have hacc : .close i x ∈ accepted w.srv.trace := by
      have hs : gots w.cli.trace <+: (accepted w.srv.trace).map asReceived := World.seen_client hb.ends hfit
      obtain ⟨y, hy, hy2⟩ := List.mem_map.1 (hs.subset hgot)
      rw [← World.close_asReceived hy2]; exact hy
    rcases server_mine hb.ends.srv _ hacc with h1 | h1 | ⟨j, z, h1⟩
    · obtain ⟨z, hd⟩ := hfar.sub.kind hown.server
        (by intro r hr; obtain ⟨y, hy, rfl⟩ := List.mem_map.1 hr; exact hb.tasks y hy) _ h1 rfl
      cases hd
    · exact absurd h1 hid
    · cases h1

/-- a step of the client's side alone -/
structure Near (cfg : Cfg) (n m h i : Nat) (acc : Bytes) (w w' : St) : Prop where
  path : Way cfg w w'
  draws : Draws cfg n m h i acc w'
  srv : w'.srv = w.srv
  down : w'.down = w.down

theorem Near.refl (d : Draws cfg n m h i acc w) : Near cfg n m h i acc w w := ⟨.refl cfg w, d, rfl, rfl⟩
theorem Near.trans {a b c} (h1 : Near cfg n m h i acc a b) (h2 : Near cfg n m h i acc b c) : Near cfg n m h i acc a c :=
  ⟨h1.path.trans h2.path, h2.draws, h2.srv.trans h1.srv, h2.down.trans h1.down⟩

theorem Draws.cliRecv (d : Draws cfg n m h i acc w) {f q} (hq : w.cli.outq = f :: q) :
    Near cfg n m h i acc w (step cfg w (.cli .recv)) ∧ (step cfg w (.cli .recv)).cli.outq = q := by
  have hi := d.cliIdle
  have he : (step cfg w (.cli .recv)).cli = Tunnel.enqueue f { w.cli with outq := q } true := by
    show Tunnel.clientStep cfg.client w.cli .recv = _
    unfold Tunnel.clientStep Tunnel.step
    dsimp only
    rw [if_pos ⟨d.cli, hi.1⟩, hq]
    exact Tunnel.resume_idle fun _ => hi.2.2
  refine ⟨⟨.one trivial, d.next trivial (fun _ hf => .inl hf) (fun g hg => ?_) d.queuedS ?_ d.user d.task d.srv ?_ ?_, rfl, rfl⟩,
    ?_⟩
  · rw [he] at hg
    have hg : g ∈ accepted (w.cli.trace ++ [.queued true f]) := hg
    rw [Tunnel.accepted_append, List.mem_append] at hg
    rcases hg with hg | hg
    · exact .inl hg
    · simp [accepted] at hg; subst hg
      exact .inr (d.queuedC g (by rw [hq]; simp))
  · rw [he]; exact fun g hg => d.queuedC g (by rw [hq]; exact List.mem_cons_of_mem _ hg)
  · rw [he]; exact d.cli
  · rw [he]; exact d.kept.more (u := [.queued true f]) rfl (by simp)
  · rw [he]; rfl

theorem Draws.outq (d : Draws cfg n m h i acc w) : ∃ w', Near cfg n m h i acc w w' ∧ w'.cli.outq = [] := by
  generalize hq : w.cli.outq = q
  induction q generalizing w with
  | nil => exact ⟨w, .refl d, hq⟩
  | cons f q ih =>
    obtain ⟨h1, h2⟩ := d.cliRecv hq
    obtain ⟨w', h3, h4⟩ := ih h1.draws h2
    exact ⟨w', h1.trans h3, h4⟩

theorem Draws.take1 (d : Draws cfg n m h i acc w) {f q} (hq : (w.cli.chan h).q = f :: q) :
    Near cfg n m h i acc w (step cfg w (.user n .recv)) ∧ ((step cfg w (.user n .recv)).cli.chan h).q = q ∧
    (step cfg w (.user n .recv)).cli.outq = w.cli.outq := by
  have hrx := d.rx
  obtain ⟨x, rfl⟩ := d.onlyData (f := f) (by rw [hq]; simp)
  obtain ⟨u, hu, hui, huh, hur⟩ := d.user
  have hi := d.cliIdle
  have htk : Tunnel.clientStep cfg.client w.cli (.take h) =
      Tunnel.emit (.took h (.data i x)) (Tunnel.setChan h { w.cli.chan h with q := q } w.cli) := World.take_free hi.1 hq hrx
  obtain ⟨r', hr'⟩ : ∃ r', r' = Relay.step u.relay (.recv (some (.data i x))) := ⟨_, rfl⟩
  have he : relayStep (Tunnel.clientStep cfg.client) false w.cli u.relay u.handle .recv =
      (Tunnel.clientStep cfg.client w.cli (.take h), r') := by
    unfold relayStep
    dsimp only
    rw [if_pos hur, huh]
    dsimp only
    rw [hq]
    dsimp only
    rw [if_pos hrx, hr']
  have hst : step cfg w (.user n .recv) = { w with
      cli := Tunnel.clientStep cfg.client w.cli (.take h)
      users := w.users.set n { u with relay := r' } } := by
    simp only [step, hu, he]
  have hget : (step cfg w (.user n .recv)).users[n]? = some { u with relay := r' } := by
    rw [hst]; exact List.getElem?_set_self (List.getElem?_eq_some_iff.1 hu).1
  have hcli : (step cfg w (.user n .recv)).cli =
      Tunnel.emit (.took h (.data i x)) (Tunnel.setChan h { w.cli.chan h with q := q } w.cli) := by rw [hst]; exact htk
  have t1 : r'.id = i := by rw [hr']; exact (World.Relay.step_id _ _).trans hui
  have t2 : r'.phase = .running := by rw [hr']; exact World.recv_data hur _ _
  refine ⟨⟨.one trivial, d.next trivial (by rw [hst]; exact fun _ hf => .inl hf) ?_ (by rw [hst]; exact d.queuedS)
    (by rw [hcli]; exact d.queuedC) ⟨_, hget, t1, huh, t2⟩ (by rw [hst]; exact d.task) (by rw [hst]; exact d.srv)
    (by rw [hcli]; exact d.cli) ?_, by rw [hst], by rw [hst]⟩, ?_, ?_⟩
  · rw [hcli]
    intro g hg
    have hg : g ∈ accepted (w.cli.trace ++ [.took h (.data i x)]) := hg
    rw [Tunnel.accepted_append, List.mem_append] at hg
    rcases hg with hg | hg
    · exact .inl hg
    · simp [accepted] at hg
  · rw [hcli]
    exact d.kept.more (u := [.took h (.data i x)]) rfl (by simp)
  · rw [hcli]; simp [Tunnel.emit, Tunnel.setChan]
  · rw [hcli]; rfl

theorem Draws.chan (d : Draws cfg n m h i acc w) :
    ∃ w', Near cfg n m h i acc w w' ∧ (w'.cli.chan h).q = [] ∧ w'.cli.outq = w.cli.outq := by
  generalize hq : (w.cli.chan h).q = q
  induction q generalizing w with
  | nil => exact ⟨w, .refl d, hq, rfl⟩
  | cons f q ih =>
    obtain ⟨h1, h2, h3⟩ := d.take1 hq
    obtain ⟨w', h4, h5, h6⟩ := ih h1.draws h2
    exact ⟨w', h1.trans h4, h5, h6.trans h3⟩

theorem Draws.byte (d : Draws cfg n m h i acc w) {b bs} (hd : w.down = b :: bs) (ho : w.cli.outq = [])
    (hq : (w.cli.chan h).q = []) :
    Way cfg w (step cfg w (.cli (.read 1))) ∧ Draws cfg n m h i acc (step cfg w (.cli (.read 1))) ∧
    (step cfg w (.cli (.read 1))).down = bs ∧ (step cfg w (.cli (.read 1))).srv = w.srv := by
  have hi := d.cliIdle
  have hst : step cfg w (.cli (.read 1)) = { w with
      cli := Tunnel.clientStep cfg.client w.cli (.read [b])
      down := bs
      up := w.up ++ [] } := by
    simp only [step, loopStep, hd]
    rw [if_pos ⟨d.cli, hi.1, by simp⟩]
    rfl
  obtain ⟨es, he⟩ : ∃ es, w.cli = Tunnel.clientRun cfg.client [] es := d.base.ends.cli
  have hroom := World.byte_room_outq cfg.client (nilStream d.fitS) es (b := b) (h := h) (P := fun f => ∃ d, f = .data i d)
    (by
      refine List.IsPrefix.trans ?_ d.arrivesC
      rw [← he, hd]
      exact ⟨bs, by simp⟩)
    (he ▸ d.cli) (fun u p => d.noToken u p) (he ▸ d.kept) (he ▸ ho) (fun _ => he ▸ hq)
  rw [← he] at hroom
  refine ⟨.one trivial, d.next trivial (by rw [hst]; exact fun _ hf => .inl hf) ?_ (by rw [hst]; exact d.queuedS)
    (by rw [hst]; exact hroom.2.2) (by rw [hst]; exact d.user) (by rw [hst]; exact d.task) (by rw [hst]; exact d.srv)
    (by rw [hst]; exact hroom.1) (by rw [hst]; exact hroom.2.1), by rw [hst], by rw [hst]⟩
  rw [hst]
  intro g hg
  rcases World.accepted_new (steps_client cfg.client) hg with h1 | h1 | h1 | ⟨j, x, h0, h1⟩
  · exact .inl h1
  · rw [ho] at h1; cases h1
  · exact .inr (h1 ▸ World.refusal_fits)
  · cases h0

theorem Draws.net (d : Draws cfg n m h i acc w) : ∃ w', Way cfg w w' ∧ Draws cfg n m h i acc w' ∧ w'.down = [] ∧
    (w'.cli.chan h).q = [] ∧ w'.srv = w.srv := by
  generalize hd : w.down = bs
  induction bs generalizing w with
  | nil =>
    obtain ⟨w', h1, h2, _⟩ := d.chan
    exact ⟨w', h1.path, h1.draws, h1.down.trans hd, h2, h1.srv⟩
  | cons b bs ih =>
    obtain ⟨w1, h1, h2⟩ := d.outq
    obtain ⟨w2, h3, h4, h5⟩ := h1.draws.chan
    obtain ⟨p, h6, h7, h8⟩ := h3.draws.byte (h3.down.trans (h1.down.trans hd)) (h5.trans h2) h4
    obtain ⟨w', p', g1, g2, g3, g4⟩ := ih h6 h7
    exact ⟨w', ((h1.path.trans h3.path).trans p).trans p', g1, g2, g3, g4.trans (h8.trans (h3.srv.trans h1.srv))⟩

/-! #### the user is given everything -/

theorem Draws.flush (d : Draws cfg n m h i acc w) :
    ∃ w', Near cfg n m h i acc w w' ∧ w'.cli = w.cli ∧ ∃ u, w'.users[n]? = some u ∧ u.relay.write = [] := by
  obtain ⟨u, hu, hui, huh, hur⟩ := d.user
  by_cases hw : u.relay.write = []
  · exact ⟨w, .refl d, rfl, u, hu, hw⟩
  have htw : (Relay.top u.relay).write = u.relay.write := by unfold Relay.top; split <;> rfl
  obtain ⟨r', hr'⟩ : ∃ r', r' = Relay.emit (.output (u.relay.write.take u.relay.write.length))
      { Relay.top u.relay with write := [] } := ⟨_, rfl⟩
  have hr : Relay.step u.relay (.wrote u.relay.write.length) = r' := by
    rw [hr']
    unfold Relay.step
    rw [hur]
    dsimp only
    unfold Relay.branch
    dsimp only
    rw [htw, if_neg hw, List.drop_length]
  have hst : step cfg w (.user n (.wrote u.relay.write.length)) = { w with users := w.users.set n { u with relay := r' } } := by
    simp only [step, hu, relayStep, hr]
  have hget : (step cfg w (.user n (.wrote u.relay.write.length))).users[n]? = some { u with relay := r' } := by
    rw [hst]; exact List.getElem?_set_self (List.getElem?_eq_some_iff.1 hu).1
  have tt := World.top_top u.relay
  have t1 : r'.id = i := by rw [hr']; exact tt.2.2.trans hui
  have t2 : r'.phase = .running := by rw [hr']; exact tt.2.1.trans hur
  have t3 : r'.write = [] := by rw [hr']; rfl
  exact ⟨_, ⟨.one (e := .user n (.wrote u.relay.write.length)) trivial, d.next trivial (by rw [hst]; exact fun _ hf => .inl hf)
    (by rw [hst]; exact fun _ hf => .inl hf) (by rw [hst]; exact d.queuedS) (by rw [hst]; exact d.queuedC)
    ⟨_, hget, t1, huh, t2⟩ (by rw [hst]; exact d.task) (by rw [hst]; exact d.srv) (by rw [hst]; exact d.cli)
    (by rw [hst]; exact d.kept), by rw [hst], by rw [hst]⟩, by rw [hst], _, hget, t3⟩

/-! ### Statement -/

/-- **C221**, partial: whatever has happened so far, while a user's connection and the two tunnel ends are at work, it takes
    only the passing on of what is already under way - no further byte from anybody, and no end of any connection - until
    every byte the proxy of the server above has written on the user's stream has been given to the user, and all of them
    still work. This holds also after the proxy's task has ended, and however many other streams wait at the server. It is
    proved as long as no write of the proxy had to be repeated (C127_repeated_fails) and nothing of the stream has met a
    full channel at the client (C127_slow_user_fails); both happen. The messages that wait at the two ends are those the
    protocol has room for, and no other task of the server sends logins to the client. -/
theorem C221_down_partial (cfg : Cfg) (es : List Event) (hn : Normal (run cfg es)) (hno : NoLogins (run cfg es))
    (hqS : ∀ f ∈ (run cfg es).srv.outq, Fits f) (hqC : ∀ f ∈ (run cfg es).cli.outq, Fits f)
    (u) (hu : u ∈ (run cfg es).users) (hfree : Free u.relay.id (run cfg es)) (k) (hk : u.handle = some k)
    (ho : ∀ d, .overflow k (.data u.relay.id d) ∉ (run cfg es).cli.trace)
    (t) (ht : t ∈ (run cfg es).tasks) (hti : t.io.id = u.relay.id) (hw : .writeWait ∉ t.io.trace)
    (hs : (run cfg es).srv.phase = .running) (hc : (run cfg es).cli.phase = .running) (hur : u.relay.phase = .running) :
    ∃ es', BroughtOn cfg (run cfg es) es' ∧ (run cfg (es ++ es')).srv.phase = .running ∧
      (run cfg (es ++ es')).cli.phase = .running ∧
      ∃ u' ∈ (run cfg (es ++ es')).users, u'.relay.id = u.relay.id ∧ u'.relay.phase = .running ∧
        outputs u'.relay.trace = Virtual.accepts t.io.trace := by
  obtain ⟨n, hn'⟩ := List.getElem?_of_mem hu
  obtain ⟨m, hm⟩ := List.getElem?_of_mem ht
  have d0 : Draws cfg n m k u.relay.id (Virtual.accepts t.io.trace) (run cfg es) :=
    ⟨⟨es, rfl⟩, hn, hfree, hno, hqS, hqC, ⟨u, hn', rfl, hk, hur⟩, ⟨t, hm, hti, hw, rfl⟩, hs, hc,
      by rintro _ ⟨d, rfl⟩; exact ho d⟩
  obtain ⟨w1, a1, e1⟩ := d0.drainServer
  obtain ⟨w2, p2, d2, n2, q2, s2⟩ := a1.draws.net
  obtain ⟨w3, b3, c3, x, hx, hxw⟩ := d2.flush
  obtain ⟨es', he, hwe⟩ := (a1.path.trans p2).trans b3.path
  have hrun : run cfg (es ++ es') = w3 := by rw [hwe, run, List.foldl_append, ← run]
  have d3 := b3.draws
  obtain ⟨x', hx', y1, y2, y3⟩ := d3.user
  rw [hx] at hx'; cases hx'
  refine ⟨es', he, by rw [hrun]; exact d3.srv, by rw [hrun]; exact d3.cli, x, by rw [hrun]; exact List.mem_of_getElem? hx, y1, y3, ?_⟩
  obtain ⟨t3, ht3, z1, z2, z3⟩ := d3.task
  rw [← z3]
  have hi := d3.cliIdle
  have hsame : w3.srv = w1.srv := b3.srv.trans s2
  have hset : Delivered w3.srv w3.down w3.cli k :=
    ⟨d3.srv, by rw [hsame]; exact e1, b3.down.trans n2, ⟨d3.cli, hi.2.1, hi.1⟩, ⟨d3.rx, by rw [c3]; exact q2⟩⟩
  have hn3 := d3.normal
  have hf3 := d3.free
  have hk3 := d3.kept
  rw [← hrun] at hset hx ht3 hn3 hf3 hk3
  refine C127_down_all_partial cfg (es ++ es') hn3 x (List.mem_of_getElem? hx) (by rw [y1]; exact hf3) t3
    (List.mem_of_getElem? ht3) (z1.trans y1.symm) z2 k y2 ?_ hset hxw
  intro d
  rw [y1]; exact hk3 _ ⟨d, rfl⟩

theorem noLogins_of {w : St} (h : w.otherS = []) : NoLogins w := by
  intro u p hf; rw [h] at hf; cases hf

theorem fits_of {fs : List Frame} (h : fs.all Small = true) : ∀ f ∈ fs, Fits f :=
  fun f hf => Small.fits (List.all_eq_true.1 h f hf)

/-- the proxy answers with thirteen messages, while it takes none of the user's; the server's loop stands still -/
def answers : List Event := flood ++ (List.range 13).map fun n => Event.task 0 (.write [UInt8.ofNat n])

/-- The hypotheses are met there: all the thirteen messages wait at the server, more than the client has room for at a
    time. -/
example : let w := run plain answers
    Normal w ∧ NoLogins w ∧ Free 1 w ∧ (∀ f ∈ w.srv.outq, Fits f) ∧ w.cli.outq = [] ∧
    w.users.map (fun u => (u.relay.id, u.handle, u.relay.phase, outputs u.relay.trace)) = [(1, some 0, .running, [])] ∧
    w.cli.trace.filter (fun o => match o with | .overflow .. => true | _ => false) = [] ∧
    w.tasks.map (fun t => (t.io.id, Virtual.accepts t.io.trace)) = [(1, [0, 1, 2, 3, 4, 5, 6, 7, 8, 9, 10, 11, 12])] ∧
    (∀ t ∈ w.tasks, .writeWait ∉ t.io.trace) ∧ w.srv.outq.length = 13 ∧
    w.srv.phase = .running ∧ w.cli.phase = .running ∧ w.srv.pending.isSome = true := by
  refine ⟨normal_of ?_ ?_, noLogins_of ?_, free_of _ ?_, fits_of ?_, ?_, ?_, ?_, ?_, ?_, ?_, ?_, ?_, ?_⟩ <;> decide +kernel

end Wm.Chain
