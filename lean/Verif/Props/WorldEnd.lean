import Verif.Props.WorldClose
import Verif.Props.WorldDrain
/-!
Property C169: the tunnel never reaches a state from which the end of a local service can no longer be brought to its
visitor.
-/
namespace Wm.World
open Wm Wm.Prot
open scoped List
open Wm.Tunnel (datas creates regCount openCount gots received submissions accepted relayed written arrived streamCap)

/-! ### Proof -/

/-- the local connection `m` has ended, and visitor `n` is still served -/
structure Ending (cfg : Cfg) (n m k i : Nat) (w : St) : Prop where
  reach : ∃ es, w = run cfg es
  normal : Normal cfg w
  free : Free i w
  vis : ∃ v, w.visitors[n]? = some v ∧ v.relay.id = i ∧ v.handle = some k ∧ v.relay.phase = .running
  loc : ∃ l, w.locals[m]? = some l ∧ l.1.id = i ∧ l.1.phase ≠ .running
  srv : w.srv.phase = .running
  cli : w.cli.phase = .running

/-- visitor `n` is no longer served, and the tunnel is at work -/
structure Over (n i : Nat) (w : St) : Prop where
  vis : ∃ v, w.visitors[n]? = some v ∧ v.relay.id = i ∧ v.relay.phase ≠ .running
  srv : w.srv.phase = .running
  cli : w.cli.phase = .running

theorem Ending.next {cfg n m k i w} (h : Ending cfg n m k i w) {e} (he : Carries e)
    (hv : ∃ v, (step cfg w e).visitors[n]? = some v ∧ v.relay.id = i ∧ v.handle = some k ∧ v.relay.phase = .running)
    (hl : ∃ l, (step cfg w e).locals[m]? = some l ∧ l.1.id = i ∧ l.1.phase ≠ .running)
    (hs : (step cfg w e).srv.phase = .running) (hc : (step cfg w e).cli.phase = .running) :
    Ending cfg n m k i (step cfg w e) := by
  obtain ⟨es, rfl⟩ := h.reach
  obtain ⟨c1, c2, c3⟩ := carries_same (cfg := cfg) (w := run cfg es) he
  refine ⟨⟨es ++ [e], (run_snoc cfg es e).symm⟩, ⟨h.normal.serverId, h.normal.introduction, ?_, ?_⟩, ?_, hv, hl, hs, hc⟩
  · rw [c1, c2]; exact h.normal.others
  · rw [c3]; exact h.normal.used
  · unfold Free; rw [c1, c2]; exact h.free

variable {cfg : Cfg} {n m k i : Nat} {w : St}

theorem Ending.base (h : Ending cfg n m k i w) : Base cfg w := by
  obtain ⟨es, rfl⟩ := h.reach; exact base_run cfg es

theorem Ending.fit (h : Ending cfg n m k i w) : Fit w := by
  obtain ⟨es, rfl⟩ := h.reach; exact h.normal.fit

theorem Ending.arrives (h : Ending cfg n m k i w) :
    arrived w.srv.trace ++ w.up <+: (accepted w.cli.trace).flatMap wire ++ [] := by
  obtain ⟨es, he⟩ := h.base.cli
  rw [List.append_nil, h.base.up, he]
  exact (Tunnel.C15_client_order cfg.client [] es).1

theorem Ending.cliIdle (h : Ending cfg n m k i w) :
    w.cli.pending = none ∧ w.cli.readyShutdown = false ∧ ¬ Complete w.cli.readBuf := by
  obtain ⟨es, he⟩ := h.base.cli
  have h1 := Tunnel.client_never_waits cfg.client [] es
  have h2 := Tunnel.client_not_ready cfg.client [] es
  rw [← he] at h1 h2
  refine ⟨h1, h2, ?_⟩
  have h3 := (Tunnel.client_at (nilStream h.fit.server) cfg.client [] es).2
  rw [← he] at h3
  refine h3 ?_ ⟨h.cli, h2, h1⟩
  obtain ⟨es', he'⟩ := h.base.srv
  rw [List.append_nil]
  refine List.IsPrefix.trans ⟨w.down, h.base.down⟩ ?_
  rw [he']
  exact (Tunnel.C15_server_order cfg.server es').1

theorem Ending.srvOpen (h : Ending cfg n m k i w) : w.srv.readyShutdown = false := by
  obtain ⟨v, hv, _⟩ := h.vis
  obtain ⟨es, rfl⟩ := h.reach
  have h1 := (opens_run cfg es).login (List.ne_nil_of_mem (List.mem_of_getElem? hv))
  obtain ⟨es', he⟩ := (base_run cfg es).srv
  rw [he] at h1 ⊢
  exact Tunnel.loggedIn_open cfg.server es' h1

theorem Ending.rx (h : Ending cfg n m k i w) : (w.srv.chan k).rx = true := by
  obtain ⟨v, hv, _, h1, h2⟩ := h.vis
  obtain ⟨es, rfl⟩ := h.reach
  exact (opens_run cfg es).rx v (List.mem_of_getElem? hv) k h1 h2

/-! #### the client hands everything to the connection -/

theorem Ending.cliRecv (h : Ending cfg n m k i w) {f q} (hq : w.cli.outq = f :: q) :
    Ending cfg n m k i (step cfg w (.cli .recv)) ∧ (step cfg w (.cli .recv)).cli.outq = q ∧
    (step cfg w (.cli .recv)).locals = w.locals := by
  have hi := h.cliIdle
  have he : (step cfg w (.cli .recv)).cli = Tunnel.enqueue f { w.cli with outq := q } true := by
    show Tunnel.clientStep cfg.client w.cli .recv = _
    unfold Tunnel.clientStep Tunnel.step
    dsimp only
    rw [if_pos ⟨h.cli, hi.1⟩, hq]
    exact Tunnel.resume_idle fun _ => hi.2.2
  refine ⟨h.next trivial h.vis h.loc h.srv ?_, ?_, rfl⟩
  · rw [he]; exact h.cli
  · rw [he]; rfl

theorem Ending.drainOut (h : Ending cfg n m k i w) :
    ∃ w', Path cfg w w' ∧ Ending cfg n m k i w' ∧ w'.cli.outq = [] ∧ w'.locals = w.locals := by
  generalize hq : w.cli.outq = q
  induction q generalizing w with
  | nil => exact ⟨w, .refl cfg w, h, hq, rfl⟩
  | cons f q ih =>
    obtain ⟨h1, h2, h3⟩ := h.cliRecv hq
    obtain ⟨w', p, h4, h5, h6⟩ := ih h1 h2
    exact ⟨w', (Path.one (e := .cli .recv) trivial).trans p, h4, h5, h6.trans h3⟩

/-- the local connection hands over the notice of its end -/
theorem Ending.locSlot (h : Ending cfg n m k i w) {l} (hl : w.locals[m]? = some l) (hlp : l.1.phase = .closing)
    (ho : w.cli.outq = []) :
    Ending cfg n m k i (step cfg w (.loc m .slot)) ∧
    ∃ l', (step cfg w (.loc m .slot)).locals[m]? = some l' ∧ l'.1.phase = .done := by
  obtain ⟨l', hl', hli, -⟩ := h.loc
  rw [hl] at hl'
  cases hl'
  have halive : l.1.alive = true := by
    obtain ⟨es, rfl⟩ := h.reach
    cases ha : l.1.alive with
    | true => rfl
    | false =>
      exact absurd h.cli ((passed_run cfg es).client.alive l.1 (List.mem_map.2 ⟨l, List.mem_of_getElem? hl, rfl⟩) ha)
  have hoff : offer l.1 = some (.close l.1.id []) := by
    unfold offer
    rw [if_pos halive, hlp]
  obtain ⟨r', hr'⟩ : ∃ r', r' = Relay.emit (.sent (.close l.1.id [])) { l.1 with phase := .done } := ⟨_, rfl⟩
  have hr : Relay.step l.1 .slot = r' := by
    unfold Relay.step
    rw [hlp]
    dsimp only
    rw [if_pos halive, hr']
  have he : relayStep (Tunnel.clientStep cfg.client) false w.cli l.1 (some l.2) .slot =
      (Tunnel.clientStep cfg.client w.cli (.submit (.close l.1.id [])), r') := by
    unfold relayStep
    dsimp only
    rw [if_pos h.cli, hoff]
    dsimp only
    rw [if_pos (by rw [ho]; decide), hr]
  have hst : step cfg w (.loc m .slot) = { w with
      cli := Tunnel.clientStep cfg.client w.cli (.submit (.close l.1.id []))
      locals := w.locals.set m (r', l.2) } := by
    simp only [step, hl, he]
  have hlt := (List.getElem?_eq_some_iff.1 hl).1
  have hget : (step cfg w (.loc m .slot)).locals[m]? = some (r', l.2) := by
    rw [hst]; exact List.getElem?_set_self hlt
  have t1 : r'.id = i := by rw [hr']; exact hli
  have t2 : r'.phase = .done := by rw [hr']; rfl
  refine ⟨h.next trivial (by rw [hst]; exact h.vis) ⟨_, hget, t1, by rw [t2]; decide⟩ (by rw [hst]; exact h.srv) ?_,
    _, hget, t2⟩
  rw [hst]
  show (Tunnel.clientStep cfg.client w.cli (.submit (.close l.1.id []))).phase = .running
  unfold Tunnel.clientStep Tunnel.step
  dsimp only
  split <;> exact h.cli

/-- everything, with the notice, has left the client -/
def Noted (m : Nat) (w : St) : Prop :=
  w.cli.outq = [] ∧ w.cli.writeBuf = [] ∧ ∃ l, w.locals[m]? = some l ∧ l.1.phase = .done

theorem Noted.same {m w w'} (h : Noted m w) (h1 : w'.cli = w.cli) (h2 : w'.locals = w.locals) : Noted m w' := by
  unfold Noted; rw [h1, h2]; exact h

theorem Ending.drainLocal (h : Ending cfg n m k i w) :
    ∃ w', Path cfg w w' ∧ Ending cfg n m k i w' ∧ w'.cli.outq = [] ∧ ∃ l, w'.locals[m]? = some l ∧ l.1.phase = .done := by
  obtain ⟨l, hl, _, hlp⟩ := h.loc
  obtain ⟨w1, p1, h1, h2, h3⟩ := h.drainOut
  rw [← h3] at hl
  cases hp : l.1.phase with
  | running => exact absurd hp hlp
  | done => exact ⟨w1, p1, h1, h2, l, hl, hp⟩
  | closing =>
    obtain ⟨h4, l', h5, h6⟩ := h1.locSlot hl hp h2
    obtain ⟨w2, p2, h7, h8, h9⟩ := h4.drainOut
    exact ⟨w2, p1.trans ((Path.one (e := .loc m .slot) trivial).trans p2), h7, h8, l', by rw [h9]; exact h5, h6⟩

theorem Ending.drainClient (h : Ending cfg n m k i w) :
    ∃ w', Path cfg w w' ∧ Ending cfg n m k i w' ∧ Noted m w' := by
  obtain ⟨w1, p1, h1, h2, l, h3⟩ := h.drainLocal
  by_cases hw : w1.cli.writeBuf = []
  · exact ⟨w1, p1, h1, h2, hw, l, h3⟩
  have hi := h1.cliIdle
  have he : (step cfg w1 (.cli (.wrote w1.cli.writeBuf.length))).cli =
      Tunnel.emit (.wrote (w1.cli.writeBuf.take w1.cli.writeBuf.length))
        { w1.cli with writeBuf := w1.cli.writeBuf.drop w1.cli.writeBuf.length } := by
    show Tunnel.clientStep cfg.client w1.cli (.wrote _) = _
    unfold Tunnel.clientStep Tunnel.step
    dsimp only
    rw [if_pos ⟨h1.cli, hi.1⟩, if_neg hw, if_neg]
    · exact Tunnel.resume_idle fun _ => hi.2.2
    · intro hc
      have : w1.cli.readyShutdown = true := hc.2
      rw [hi.2.1] at this
      cases this
  refine ⟨step cfg w1 (.cli (.wrote w1.cli.writeBuf.length)), p1.trans (.one trivial),
    h1.next trivial h1.vis h1.loc h1.srv (by rw [he]; exact h1.cli), ?_, ?_, l, h3⟩
  · rw [he]; exact h2
  · rw [he]; exact List.drop_length

/-! #### the server takes everything from the connection, until the visitor is told -/

/-- a step of the server's side alone, which does not tell the visitor -/
structure Onward (cfg : Cfg) (n m k i : Nat) (w w' : St) : Prop where
  path : Path cfg w w'
  ending : Ending cfg n m k i w'
  cli : w'.cli = w.cli
  locals : w'.locals = w.locals
  up : w'.up = w.up

theorem Onward.refl (h : Ending cfg n m k i w) : Onward cfg n m k i w w := ⟨.refl cfg w, h, rfl, rfl, rfl⟩
theorem Onward.trans {a b c} (h1 : Onward cfg n m k i a b) (h2 : Onward cfg n m k i b c) : Onward cfg n m k i a c :=
  ⟨h1.path.trans h2.path, h2.ending, h2.cli.trans h1.cli, h2.locals.trans h1.locals, h2.up.trans h1.up⟩

/-- the visitor has been told -/
def Told (cfg : Cfg) (n i : Nat) (w : St) : Prop := ∃ w', Path cfg w w' ∧ Over n i w'

theorem Told.back {a b} (h : Told cfg n i b) (p : Path cfg a b) : Told cfg n i a := by
  obtain ⟨w', p', ho⟩ := h
  exact ⟨w', p.trans p', ho⟩

/-- visitor `j` takes a message -/
theorem Ending.visRecv (h : Ending cfg n m k i w) {j v hh} (hv : w.visitors[j]? = some v) (hvh : v.handle = some hh)
    (hvr : v.relay.phase = .running) {f q} (hq : (w.srv.chan hh).q = f :: q) (hrx : (w.srv.chan hh).rx = true)
    (hrun : (Tunnel.serverStep cfg.server w.srv (.take hh)).phase = .running) :
    Told cfg n i w ∨ (Onward cfg n m k i w (step cfg w (.vis j .recv)) ∧
    (step cfg w (.vis j .recv)).srv = Tunnel.serverStep cfg.server w.srv (.take hh)) := by
  have he : relayStep (Tunnel.serverStep cfg.server) true w.srv v.relay v.handle .recv =
      (Tunnel.serverStep cfg.server w.srv (.take hh), Relay.step v.relay (.recv (some f))) := by
    unfold relayStep
    dsimp only
    rw [if_pos hvr, hvh]
    dsimp only
    rw [hq]
    dsimp only
    rw [if_pos hrx]
  have hst : step cfg w (.vis j .recv) = { w with
      srv := Tunnel.serverStep cfg.server w.srv (.take hh)
      visitors := w.visitors.set j { v with relay := Relay.step v.relay (.recv (some f)) } } := by
    simp only [step, hv, he]
  have hvis : (∃ x, (step cfg w (.vis j .recv)).visitors[n]? = some x ∧ x.relay.id = i ∧ x.relay.phase ≠ .running) ∨
      ∃ x, (step cfg w (.vis j .recv)).visitors[n]? = some x ∧ x.relay.id = i ∧ x.handle = some k ∧
      x.relay.phase = .running := by
    obtain ⟨x, hx, x1, x2, x3⟩ := h.vis
    rw [hst]
    by_cases hj : j = n
    · subst hj
      rw [hv] at hx; cases hx
      have hg := List.getElem?_set_self (a := { v with relay := Relay.step v.relay (.recv (some f)) })
        (List.getElem?_eq_some_iff.1 hv).1
      by_cases hp : (Relay.step v.relay (.recv (some f))).phase = .running
      · exact .inr ⟨_, hg, (Relay.step_id _ _).trans x1, x2, hp⟩
      · exact .inl ⟨_, hg, (Relay.step_id _ _).trans x1, hp⟩
    · exact .inr ⟨x, by dsimp only; rw [List.getElem?_set_ne hj]; exact hx, x1, x2, x3⟩
  rcases hvis with hvis | hvis
  · exact .inl ⟨_, .one (e := .vis j .recv) trivial, hvis, by rw [hst]; exact hrun, by rw [hst]; exact h.cli⟩
  · exact .inr ⟨⟨.one trivial, h.next trivial hvis (by rw [hst]; exact h.loc) (by rw [hst]; exact hrun)
      (by rw [hst]; exact h.cli), by rw [hst], by rw [hst], by rw [hst]⟩, by rw [hst]⟩

theorem Ending.visDrop (h : Ending cfg n m k i w) {j v hh} (hv : w.visitors[j]? = some v) (hvh : v.handle = some hh)
    (hvr : v.relay.phase ≠ .running) (hrun : (Tunnel.serverStep cfg.server w.srv (.dropRx hh)).phase = .running) :
    Onward cfg n m k i w (step cfg w (.vis j .drop)) ∧
    (step cfg w (.vis j .drop)).srv = Tunnel.serverStep cfg.server w.srv (.dropRx hh) := by
  have he : relayStep (Tunnel.serverStep cfg.server) true w.srv v.relay v.handle .drop =
      (Tunnel.serverStep cfg.server w.srv (.dropRx hh), v.relay) := by
    unfold relayStep
    dsimp only
    rw [hvh]
    dsimp only
    rw [if_neg hvr]
  have hst : step cfg w (.vis j .drop) = { w with
      srv := Tunnel.serverStep cfg.server w.srv (.dropRx hh)
      visitors := w.visitors.set j { v with relay := v.relay } } := by
    simp only [step, hv, he]
  have hset : w.visitors.set j { v with relay := v.relay } = w.visitors := by
    obtain ⟨hlt, hget⟩ := List.getElem?_eq_some_iff.1 hv
    show w.visitors.set j v = w.visitors
    rw [← hget]; exact List.set_getElem_self hlt
  rw [hset] at hst
  refine ⟨⟨.one trivial, h.next trivial (by rw [hst]; exact h.vis) (by rw [hst]; exact h.loc) (by rw [hst]; exact hrun)
    (by rw [hst]; exact h.cli), by rw [hst], by rw [hst], by rw [hst]⟩, by rw [hst]⟩

theorem Ending.otherTake (h : Ending cfg n m k i w) {hh} (hm : hh ∉ w.visitors.filterMap (·.handle))
    (hrun : (Tunnel.serverStep cfg.server w.srv (.take hh)).phase = .running) :
    Onward cfg n m k i w (step cfg w (.otherS (.take hh))) ∧
    (step cfg w (.otherS (.take hh))).srv = Tunnel.serverStep cfg.server w.srv (.take hh) := by
  have hsrv : (step cfg w (.otherS (.take hh))).srv = Tunnel.serverStep cfg.server w.srv (.take hh) := by
    show otherStep _ _ _ (.take hh) = _
    unfold otherStep
    dsimp only
    rw [if_neg hm]
  exact ⟨⟨.one trivial, h.next trivial h.vis h.loc (by rw [hsrv]; exact hrun) h.cli, rfl, rfl, rfl⟩, hsrv⟩

theorem Ending.unblock1 (h : Ending cfg n m k i w) {hh f} (hp : w.srv.pending = some (hh, f)) :
    Told cfg n i w ∨
    ∃ w', Onward cfg n m k i w w' ∧ (w'.srv.pending = none ∨ w'.srv.readBuf.length < w.srv.readBuf.length) := by
  obtain ⟨es, he⟩ := h.base.srv
  have hS := nilStream h.fit.client
  have ha := (List.prefix_append _ _).trans h.arrives
  have hr := h.srv
  have hw := Tunnel.server_waits cfg.server es
  rw [← he] at hw
  obtain ⟨w1, w2⟩ := hw hh f hp
  have ht := Tunnel.unblock_take cfg.server hS es (he ▸ ha) (he ▸ hr) (he ▸ hp)
  have hd := Tunnel.unblock_drop cfg.server hS es (he ▸ ha) (he ▸ hr) (he ▸ hp)
  rw [← he] at ht hd
  by_cases hm : hh ∈ w.visitors.filterMap (·.handle)
  · obtain ⟨v, hv, hvh⟩ := List.mem_filterMap.1 hm
    obtain ⟨j, hj⟩ := List.getElem?_of_mem hv
    by_cases hvr : v.relay.phase = .running
    · cases hq : (w.srv.chan hh).q with
      | nil => rw [hq] at w2; simp [streamCap] at w2
      | cons g q =>
        rcases h.visRecv hj hvh hvr hq w1 ht.1 with a | ⟨a, b⟩
        · exact .inl a
        · exact .inr ⟨_, a, by rw [b]; exact ht.2⟩
    · obtain ⟨a, b⟩ := h.visDrop hj hvh hvr hd.1
      exact .inr ⟨_, a, by rw [b]; exact hd.2⟩
  · obtain ⟨a, b⟩ := h.otherTake hm ht.1
    exact .inr ⟨_, a, by rw [b]; exact ht.2⟩

theorem Ending.unblock (h : Ending cfg n m k i w) :
    Told cfg n i w ∨ ∃ w', Onward cfg n m k i w w' ∧ w'.srv.pending = none := by
  induction hl : w.srv.readBuf.length using Nat.strongRecOn generalizing w with
  | ind N ih =>
    subst hl
    cases hp : w.srv.pending with
    | none => exact .inr ⟨w, .refl h, hp⟩
    | some x =>
      rcases h.unblock1 (hh := x.1) (f := x.2) hp with h0 | ⟨w1, h1, h2⟩
      · exact .inl h0
      rcases h2 with h2 | h2
      · exact .inr ⟨w1, h1, h2⟩
      · rcases ih _ h2 h1.ending rfl with h3 | ⟨w2, h3, h4⟩
        · exact .inl (h3.back h1.path)
        · exact .inr ⟨w2, h1.trans h3, h4⟩

theorem Ending.drainNet (h : Ending cfg n m k i w) (hs : Noted m w) :
    Told cfg n i w ∨ ∃ w', Path cfg w w' ∧ Ending cfg n m k i w' ∧ Noted m w' ∧ w'.up = [] ∧ w'.srv.pending = none := by
  rcases h.unblock with h0 | ⟨w1, h1, hp⟩
  · exact .inl h0
  have hs1 := hs.same h1.cli h1.locals
  by_cases hu : w1.up = []
  · exact .inr ⟨w1, h1.path, h1.ending, hs1, hu, hp⟩
  have hr1 := h1.ending
  have hst : step cfg w1 (.srv (.read w1.up.length)) = { w1 with
      srv := Tunnel.serverStep cfg.server w1.srv (.read w1.up)
      up := []
      down := w1.down ++ [] } := by
    simp only [step, loopStep]
    rw [if_pos ⟨hr1.srv, hp, by rw [List.take_length]; exact hu⟩]
    simp
  have hrun : (Tunnel.serverStep cfg.server w1.srv (.read w1.up)).phase = .running := by
    obtain ⟨es, he⟩ := hr1.base.srv
    rw [he]
    exact Tunnel.read_runs cfg.server (nilStream hr1.fit.client) es w1.up (by rw [← he]; exact hr1.arrives) (he ▸ hr1.srv)
      (he ▸ hp)
  have h2 : Ending cfg n m k i (step cfg w1 (.srv (.read w1.up.length))) :=
    hr1.next trivial (by rw [hst]; exact hr1.vis) (by rw [hst]; exact hr1.loc) (by rw [hst]; exact hrun)
      (by rw [hst]; exact hr1.cli)
  have p2 := h1.path.trans (Path.one (e := .srv (.read w1.up.length)) trivial)
  rcases h2.unblock with h3 | ⟨w3, h3, hp3⟩
  · exact .inl (h3.back p2)
  refine .inr ⟨w3, p2.trans h3.path, h3.ending, ?_, ?_, hp3⟩
  · exact hs1.same (h3.cli.trans (by rw [hst])) (h3.locals.trans (by rw [hst]))
  · rw [h3.up, hst]

theorem Ending.drainChan (h : Ending cfg n m k i w) (hp : w.srv.pending = none) :
    Told cfg n i w ∨ ∃ w', Onward cfg n m k i w w' ∧ w'.srv.pending = none ∧ (w'.srv.chan k).q = [] := by
  generalize hq : (w.srv.chan k).q = q
  induction q generalizing w with
  | nil => exact .inr ⟨w, .refl h, hp, hq⟩
  | cons f q ih =>
    obtain ⟨v, hv, _, hvk, hvr⟩ := h.vis
    have ht := take_free (H := Tunnel.serverHandle cfg.server) (we := Tunnel.finish .panicked) hp hq h.rx
    have ht' : Tunnel.serverStep cfg.server w.srv (.take k) = _ := ht
    rcases h.visRecv hv hvk hvr hq h.rx (by rw [ht']; exact h.srv) with h0 | ⟨h1, h2⟩
    · exact .inl h0
    rw [ht'] at h2
    rcases ih h1.ending (by rw [h2]; exact hp) (by rw [h2]; simp [Tunnel.emit, Tunnel.setChan]) with h3 | ⟨w', h3, h4, h5⟩
    · exact .inl (h3.back h1.path)
    · exact .inr ⟨w', h1.trans h3, h4, h5⟩

theorem Ending.told (h : Ending cfg n m k i w) : Told cfg n i w := by
  obtain ⟨w1, p1, h1, s1⟩ := h.drainClient
  refine Told.back ?_ p1
  rcases h1.drainNet s1 with h2 | ⟨w2, p2, h2, s2, u2, q2⟩
  · exact h2
  refine Told.back ?_ p2
  rcases h2.drainChan q2 with h3 | ⟨w3, f3, q3, c3⟩
  · exact h3
  have h3 := f3.ending
  have s3 := s2.same f3.cli f3.locals
  obtain ⟨v, hv, hvi, hvk, hvr⟩ := h3.vis
  obtain ⟨l, hl, hli, -⟩ := h3.loc
  obtain ⟨o1, o2, l', hl', hlp⟩ := s3
  rw [hl] at hl'; cases hl'
  have hset : Delivered w3.cli w3.up w3.srv k :=
    ⟨h3.cli, ⟨o1, o2⟩, by rw [f3.up, u2], ⟨h3.srv, h3.srvOpen, q3⟩, h3.rx, c3⟩
  have hn3 := h3.normal
  have hf3 := h3.free
  obtain ⟨es, rfl⟩ := h3.reach
  exact absurd hvr (C116_down cfg es hn3 v (List.mem_of_getElem? hv) (by rw [hvi]; exact hf3) l (List.mem_of_getElem? hl)
    (hli.trans hvi.symm) hlp k hvk hset)

/-! ### Statement -/

/-- **C169** (to the visitor): whatever has happened so far, once the connection to the local service of a visitor has ended,
    it takes only the passing on of what is already under way - no further byte from anybody, and no end of any other
    connection - until the visitor's connection is no longer served, and the tunnel still works. -/
theorem C169_down (cfg : Cfg) (es : List Event) (hn : Normal cfg (run cfg es)) (v) (hv : v ∈ (run cfg es).visitors)
    (hfree : Free v.relay.id (run cfg es)) (l) (hl : l ∈ (run cfg es).locals) (hli : l.1.id = v.relay.id)
    (hs : (run cfg es).srv.phase = .running) (hc : (run cfg es).cli.phase = .running) (hend : l.1.phase ≠ .running) :
    ∃ es', (∀ e ∈ es', Carries e) ∧ (run cfg (es ++ es')).srv.phase = .running ∧
      (run cfg (es ++ es')).cli.phase = .running ∧
      ∃ v' ∈ (run cfg (es ++ es')).visitors, v'.relay.id = v.relay.id ∧ v'.relay.phase ≠ .running := by
  obtain ⟨n, hn'⟩ := List.getElem?_of_mem hv
  obtain ⟨m, hm⟩ := List.getElem?_of_mem hl
  obtain ⟨k, hk⟩ := Option.ne_none_iff_exists'.1 (announced_visitor hn hv hfree hl hli).2
  by_cases hvr : v.relay.phase = .running
  case neg =>
    exact ⟨[], by simp, by rw [List.append_nil]; exact hs, by rw [List.append_nil]; exact hc, v,
      by rw [List.append_nil]; exact hv, rfl, hvr⟩
  have h0 : Ending cfg n m k v.relay.id (run cfg es) := ⟨⟨es, rfl⟩, hn, hfree, ⟨v, hn', rfl, hk, hvr⟩, ⟨l, hm, hli, hend⟩, hs, hc⟩
  obtain ⟨w', ⟨es', he, hw⟩, ⟨x, hx, x1, x2⟩, o1, o2⟩ := h0.told
  have hrun : run cfg (es ++ es') = w' := by rw [hw, run, List.foldl_append, ← run]
  exact ⟨es', he, by rw [hrun]; exact o1, by rw [hrun]; exact o2, x, by rw [hrun]; exact List.mem_of_getElem? hx, x1, x2⟩

/-- The hypotheses are met after a local service has sent twelve messages and ended, while the visitor took none and the
    server's loop waits for it. -/
example : let w := run webCfg (flood ++ [.loc 0 .readEnd])
    Normal webCfg w ∧ Free 2 w ∧ w.srv.phase = .running ∧ w.cli.phase = .running ∧
    w.visitors.map (fun v => (v.relay.id, v.relay.phase)) = [(2, .running)] ∧
    w.locals.map (fun l => (l.1.id, l.1.phase)) = [(2, .closing)] ∧ w.srv.pending.isSome = true := by
  refine ⟨web_normal _ ?_ ?_ ?_, web_free _ ?_ ?_ _, ?_⟩ <;> decide +kernel

end Wm.World
