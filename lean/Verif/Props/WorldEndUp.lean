import Verif.Props.WorldEnd
import Verif.Props.WorldDrainUp
/-!
Property C170: as long as no notice has been lost, the tunnel never reaches a state from which the end of a visitor can no
longer be brought to its local service.
-/
namespace Wm.World
open Wm Wm.Prot
open scoped List
open Wm.Tunnel (datas creates regCount openCount gots received submissions accepted relayed written arrived streamCap)

/-! ### Proof -/

/-- visitor `n` has ended, and its local connection `m` is still served -/
structure Leaving (cfg : Cfg) (n m h i : Nat) (w : St) : Prop where
  reach : ∃ es, w = run cfg es
  normal : Normal cfg w
  free : Free i w
  noLogins : NoLogins w
  vis : ∃ v, w.visitors[n]? = some v ∧ v.relay.id = i ∧ v.relay.phase ≠ .running
  loc : ∃ l, w.locals[m]? = some l ∧ l.1.id = i ∧ l.2 = h ∧ l.1.phase = .running
  srv : w.srv.phase = .running
  cli : w.cli.phase = .running

/-- the local connection `m` is no longer served, and the tunnel is at work -/
structure Closed (m i : Nat) (w : St) : Prop where
  loc : ∃ l, w.locals[m]? = some l ∧ l.1.id = i ∧ l.1.phase ≠ .running
  srv : w.srv.phase = .running
  cli : w.cli.phase = .running

theorem Leaving.next {cfg n m h i w} (hw : Leaving cfg n m h i w) {e} (he : Carries e)
    (hv : ∃ v, (step cfg w e).visitors[n]? = some v ∧ v.relay.id = i ∧ v.relay.phase ≠ .running)
    (hl : ∃ l, (step cfg w e).locals[m]? = some l ∧ l.1.id = i ∧ l.2 = h ∧ l.1.phase = .running)
    (hs : (step cfg w e).srv.phase = .running) (hc : (step cfg w e).cli.phase = .running) :
    Leaving cfg n m h i (step cfg w e) := by
  obtain ⟨es, rfl⟩ := hw.reach
  obtain ⟨c1, c2, c3⟩ := carries_same (cfg := cfg) (w := run cfg es) he
  refine ⟨⟨es ++ [e], (run_snoc cfg es e).symm⟩, ⟨hw.normal.serverId, hw.normal.introduction, ?_, ?_⟩, ?_, ?_, hv, hl, hs, hc⟩
  · rw [c1, c2]; exact hw.normal.others
  · rw [c3]; exact hw.normal.used
  · unfold Free; rw [c1, c2]; exact hw.free
  · unfold NoLogins; rw [c1]; exact hw.noLogins

variable {cfg : Cfg} {n m h i : Nat} {w : St}

theorem Leaving.base (hw : Leaving cfg n m h i w) : Base cfg w := by
  obtain ⟨es, rfl⟩ := hw.reach; exact base_run cfg es

theorem Leaving.fit (hw : Leaving cfg n m h i w) : Fit w := by
  obtain ⟨es, rfl⟩ := hw.reach; exact hw.normal.fit

theorem Leaving.arrives (hw : Leaving cfg n m h i w) :
    arrived w.srv.trace ++ w.up <+: (accepted w.cli.trace).flatMap wire ++ [] := by
  obtain ⟨es, he⟩ := hw.base.cli
  rw [List.append_nil, hw.base.up, he]
  exact (Tunnel.C15_client_order cfg.client [] es).1

theorem Leaving.arrivesC (hw : Leaving cfg n m h i w) :
    arrived w.cli.trace ++ w.down <+: (accepted w.srv.trace).flatMap wire ++ [] := by
  obtain ⟨es, he⟩ := hw.base.srv
  rw [List.append_nil, hw.base.down, he]
  exact (Tunnel.C15_server_order cfg.server es).1

theorem Leaving.cliIdle (hw : Leaving cfg n m h i w) :
    w.cli.pending = none ∧ w.cli.readyShutdown = false ∧ ¬ Complete w.cli.readBuf := by
  obtain ⟨es, he⟩ := hw.base.cli
  have h1 := Tunnel.client_never_waits cfg.client [] es
  have h2 := Tunnel.client_not_ready cfg.client [] es
  rw [← he] at h1 h2
  refine ⟨h1, h2, ?_⟩
  have h3 := (Tunnel.client_at (nilStream hw.fit.server) cfg.client [] es).2
  rw [← he] at h3
  exact h3 ((List.prefix_append _ _).trans hw.arrivesC) ⟨hw.cli, h2, h1⟩

theorem Leaving.srvOpen (hw : Leaving cfg n m h i w) : w.srv.readyShutdown = false := by
  obtain ⟨v, hv, _⟩ := hw.vis
  obtain ⟨es, rfl⟩ := hw.reach
  have h1 := (opens_run cfg es).login (List.ne_nil_of_mem (List.mem_of_getElem? hv))
  obtain ⟨es', he⟩ := (base_run cfg es).srv
  rw [he] at h1 ⊢
  exact Tunnel.loggedIn_open cfg.server es' h1

theorem Leaving.srvIdle (hw : Leaving cfg n m h i w) (hp : w.srv.pending = none) : ¬ Complete w.srv.readBuf := by
  obtain ⟨es, he⟩ := hw.base.srv
  have h3 := (Tunnel.server_at (nilStream hw.fit.client) cfg.server es).2
  rw [← he] at h3
  exact h3 ((List.prefix_append _ _).trans hw.arrives) ⟨hw.srv, hw.srvOpen, hp⟩

theorem Leaving.noToken (hw : Leaving cfg n m h i w) (u p) : .token u p ∉ accepted w.srv.trace := by
  intro hf
  have hno := hw.noLogins
  obtain ⟨es, rfl⟩ := hw.reach
  have hown := hw.free.own hw.normal
  have hb := base_run cfg es
  have hs := side_run cfg es i hown
  rcases server_sent hb.srv _ hf with h1 | h1 | ⟨j, d, h1⟩
  · rcases hs.sub.mem _ h1 with ⟨j, h2⟩ | h2 | ⟨r, hr, h2⟩
    · cases h2
    · exact hno u p h2
    · obtain ⟨v, hv, rfl⟩ := List.mem_map.1 hr
      rcases sends_kind (hb.visitors v hv) _ h2 with ⟨d, h3⟩ | h3 <;> cases h3
  · cases h1
  · cases h1

/-! #### the server's loop waits for nobody -/

/-- a step of the server's side alone -/
structure Onwards (cfg : Cfg) (n m h i : Nat) (w w' : St) : Prop where
  path : Path cfg w w'
  leaving : Leaving cfg n m h i w'
  cli : w'.cli = w.cli
  locals : w'.locals = w.locals

theorem Onwards.refl (hw : Leaving cfg n m h i w) : Onwards cfg n m h i w w := ⟨.refl cfg w, hw, rfl, rfl⟩
theorem Onwards.trans {a b c} (h1 : Onwards cfg n m h i a b) (h2 : Onwards cfg n m h i b c) : Onwards cfg n m h i a c :=
  ⟨h1.path.trans h2.path, h2.leaving, h2.cli.trans h1.cli, h2.locals.trans h1.locals⟩

/-- another visitor takes a message -/
theorem Leaving.visRecv (hw : Leaving cfg n m h i w) {j v hh} (hv : w.visitors[j]? = some v) (hvh : v.handle = some hh)
    (hvr : v.relay.phase = .running) {f q} (hq : (w.srv.chan hh).q = f :: q) (hrx : (w.srv.chan hh).rx = true)
    (hrun : (Tunnel.serverStep cfg.server w.srv (.take hh)).phase = .running) :
    Onwards cfg n m h i w (step cfg w (.vis j .recv)) ∧
    (step cfg w (.vis j .recv)).srv = Tunnel.serverStep cfg.server w.srv (.take hh) := by
  have he : relayStep (Tunnel.serverStep cfg.server) true w.srv v.relay v.handle .recv =
      (Tunnel.serverStep cfg.server w.srv (.take hh), Relay.step v.relay (.recv (some f))) := by
    unfold relayStep
    dsimp only
    rw [if_pos hvr, hvh]
    dsimp only
    rw [hq]
    dsimp only
    rw [if_pos hrx]
  have hst : step cfg w (.vis j .recv) = { w with
      srv := Tunnel.serverStep cfg.server w.srv (.take hh)
      visitors := w.visitors.set j { v with relay := Relay.step v.relay (.recv (some f)) } } := by
    simp only [step, hv, he]
  have hvis : ∃ x, (step cfg w (.vis j .recv)).visitors[n]? = some x ∧ x.relay.id = i ∧ x.relay.phase ≠ .running := by
    obtain ⟨x, hx, x1, x2⟩ := hw.vis
    rw [hst]
    have hj : j ≠ n := by
      rintro rfl
      rw [hv] at hx; cases hx
      exact x2 hvr
    exact ⟨x, by dsimp only; rw [List.getElem?_set_ne hj]; exact hx, x1, x2⟩
  exact ⟨⟨.one trivial, hw.next trivial hvis (by rw [hst]; exact hw.loc) (by rw [hst]; exact hrun)
      (by rw [hst]; exact hw.cli), by rw [hst], by rw [hst]⟩, by rw [hst]⟩

theorem Leaving.visDrop (hw : Leaving cfg n m h i w) {j v hh} (hv : w.visitors[j]? = some v) (hvh : v.handle = some hh)
    (hvr : v.relay.phase ≠ .running) (hrun : (Tunnel.serverStep cfg.server w.srv (.dropRx hh)).phase = .running) :
    Onwards cfg n m h i w (step cfg w (.vis j .drop)) ∧
    (step cfg w (.vis j .drop)).srv = Tunnel.serverStep cfg.server w.srv (.dropRx hh) := by
  have he : relayStep (Tunnel.serverStep cfg.server) true w.srv v.relay v.handle .drop =
      (Tunnel.serverStep cfg.server w.srv (.dropRx hh), v.relay) := by
    unfold relayStep
    dsimp only
    rw [hvh]
    dsimp only
    rw [if_neg hvr]
  have hst : step cfg w (.vis j .drop) = { w with
      srv := Tunnel.serverStep cfg.server w.srv (.dropRx hh)
      visitors := w.visitors.set j { v with relay := v.relay } } := by
    simp only [step, hv, he]
  have hset : w.visitors.set j { v with relay := v.relay } = w.visitors := by
    obtain ⟨hlt, hget⟩ := List.getElem?_eq_some_iff.1 hv
    show w.visitors.set j v = w.visitors
    rw [← hget]; exact List.set_getElem_self hlt
  rw [hset] at hst
  refine ⟨⟨.one trivial, hw.next trivial (by rw [hst]; exact hw.vis) (by rw [hst]; exact hw.loc) (by rw [hst]; exact hrun)
    (by rw [hst]; exact hw.cli), by rw [hst], by rw [hst]⟩, by rw [hst]⟩

theorem Leaving.otherTake (hw : Leaving cfg n m h i w) {hh} (hm : hh ∉ w.visitors.filterMap (·.handle))
    (hrun : (Tunnel.serverStep cfg.server w.srv (.take hh)).phase = .running) :
    Onwards cfg n m h i w (step cfg w (.otherS (.take hh))) ∧
    (step cfg w (.otherS (.take hh))).srv = Tunnel.serverStep cfg.server w.srv (.take hh) := by
  have hsrv : (step cfg w (.otherS (.take hh))).srv = Tunnel.serverStep cfg.server w.srv (.take hh) := by
    show otherStep _ _ _ (.take hh) = _
    unfold otherStep
    dsimp only
    rw [if_neg hm]
  exact ⟨⟨.one trivial, hw.next trivial hw.vis hw.loc (by rw [hsrv]; exact hrun) hw.cli, rfl, rfl⟩, hsrv⟩

theorem Leaving.unblock1 (hw : Leaving cfg n m h i w) {hh f} (hp : w.srv.pending = some (hh, f)) :
    ∃ w', Onwards cfg n m h i w w' ∧ (w'.srv.pending = none ∨ w'.srv.readBuf.length < w.srv.readBuf.length) := by
  obtain ⟨es, he⟩ := hw.base.srv
  have hS := nilStream hw.fit.client
  have ha := (List.prefix_append _ _).trans hw.arrives
  have hr := hw.srv
  have hwt := Tunnel.server_waits cfg.server es
  rw [← he] at hwt
  obtain ⟨w1, w2⟩ := hwt hh f hp
  have ht := Tunnel.unblock_take cfg.server hS es (he ▸ ha) (he ▸ hr) (he ▸ hp)
  have hd := Tunnel.unblock_drop cfg.server hS es (he ▸ ha) (he ▸ hr) (he ▸ hp)
  rw [← he] at ht hd
  by_cases hm : hh ∈ w.visitors.filterMap (·.handle)
  · obtain ⟨v, hv, hvh⟩ := List.mem_filterMap.1 hm
    obtain ⟨j, hj⟩ := List.getElem?_of_mem hv
    by_cases hvr : v.relay.phase = .running
    · cases hq : (w.srv.chan hh).q with
      | nil => rw [hq] at w2; simp [streamCap] at w2
      | cons g q =>
        obtain ⟨a, b⟩ := hw.visRecv hj hvh hvr hq w1 ht.1
        exact ⟨_, a, by rw [b]; exact ht.2⟩
    · obtain ⟨a, b⟩ := hw.visDrop hj hvh hvr hd.1
      exact ⟨_, a, by rw [b]; exact hd.2⟩
  · obtain ⟨a, b⟩ := hw.otherTake hm ht.1
    exact ⟨_, a, by rw [b]; exact ht.2⟩

theorem Leaving.unblock (hw : Leaving cfg n m h i w) : ∃ w', Onwards cfg n m h i w w' ∧ w'.srv.pending = none := by
  induction hl : w.srv.readBuf.length using Nat.strongRecOn generalizing w with
  | ind N ih =>
    subst hl
    cases hp : w.srv.pending with
    | none => exact ⟨w, .refl hw, hp⟩
    | some x =>
      obtain ⟨w1, h1, h2⟩ := hw.unblock1 (hh := x.1) (f := x.2) hp
      rcases h2 with h2 | h2
      · exact ⟨w1, h1, h2⟩
      · obtain ⟨w2, h3, h4⟩ := ih _ h2 h1.leaving rfl
        exact ⟨w2, h1.trans h3, h4⟩

/-! #### the server hands everything to the connection, with the notice of the end -/

theorem Leaving.srvRecv (hw : Leaving cfg n m h i w) (hp : w.srv.pending = none) {f q} (hq : w.srv.outq = f :: q) :
    Onwards cfg n m h i w (step cfg w (.srv .recv)) ∧ (step cfg w (.srv .recv)).srv.outq = q ∧
    (step cfg w (.srv .recv)).srv.pending = none ∧ (step cfg w (.srv .recv)).visitors = w.visitors := by
  have he : (step cfg w (.srv .recv)).srv = Tunnel.enqueue f { w.srv with outq := q } true := by
    show Tunnel.serverStep cfg.server w.srv .recv = _
    unfold Tunnel.serverStep Tunnel.step
    dsimp only
    rw [if_pos ⟨hw.srv, hp⟩, hq]
    exact Tunnel.resume_idle fun _ => hw.srvIdle hp
  refine ⟨⟨.one trivial, hw.next trivial hw.vis hw.loc ?_ hw.cli, rfl, rfl⟩, ?_, ?_, rfl⟩
  · rw [he]; exact hw.srv
  · rw [he]; rfl
  · rw [he]; exact hp

theorem Leaving.drainOutS (hw : Leaving cfg n m h i w) (hp : w.srv.pending = none) :
    ∃ w', Onwards cfg n m h i w w' ∧ w'.srv.outq = [] ∧ w'.srv.pending = none ∧ w'.visitors = w.visitors := by
  generalize hq : w.srv.outq = q
  induction q generalizing w with
  | nil => exact ⟨w, .refl hw, hq, hp, rfl⟩
  | cons f q ih =>
    obtain ⟨h1, h2, h3, h4⟩ := hw.srvRecv hp hq
    obtain ⟨w', h5, h6, h7, h8⟩ := ih h1.leaving h3 h2
    exact ⟨w', h1.trans h5, h6, h7, h8.trans h4⟩

theorem Leaving.visSlot (hw : Leaving cfg n m h i w) (hp : w.srv.pending = none) {v} (hv : w.visitors[n]? = some v)
    (hvp : v.relay.phase = .closing) (ho : w.srv.outq = []) :
    Onwards cfg n m h i w (step cfg w (.vis n .slot)) ∧ (step cfg w (.vis n .slot)).srv.pending = none ∧
    ∃ v', (step cfg w (.vis n .slot)).visitors[n]? = some v' ∧ v'.relay.phase = .done := by
  obtain ⟨v', hv', hvi, -⟩ := hw.vis
  rw [hv] at hv'
  cases hv'
  have halive : v.relay.alive = true := by
    obtain ⟨es, rfl⟩ := hw.reach
    cases ha : v.relay.alive with
    | true => rfl
    | false =>
      exact absurd hw.srv ((passed_run cfg es).server.alive v.relay (List.mem_map.2 ⟨v, List.mem_of_getElem? hv, rfl⟩) ha)
  have hoff : offer v.relay = some (.close v.relay.id []) := by
    unfold offer
    rw [if_pos halive, hvp]
  obtain ⟨r', hr'⟩ : ∃ r', r' = Relay.emit (.sent (.close v.relay.id [])) { v.relay with phase := .done } := ⟨_, rfl⟩
  have hr : Relay.step v.relay .slot = r' := by
    unfold Relay.step
    rw [hvp]
    dsimp only
    rw [if_pos halive, hr']
  have he : relayStep (Tunnel.serverStep cfg.server) true w.srv v.relay v.handle .slot =
      (Tunnel.serverStep cfg.server w.srv (.submit (.close v.relay.id [])), r') := by
    unfold relayStep
    dsimp only
    rw [if_pos hw.srv, hoff]
    dsimp only
    rw [if_pos (by rw [ho]; decide), hr]
  have hst : step cfg w (.vis n .slot) = { w with
      srv := Tunnel.serverStep cfg.server w.srv (.submit (.close v.relay.id []))
      visitors := w.visitors.set n { v with relay := r' } } := by
    simp only [step, hv, he]
  have hget : (step cfg w (.vis n .slot)).visitors[n]? = some { v with relay := r' } := by
    rw [hst]; exact List.getElem?_set_self (List.getElem?_eq_some_iff.1 hv).1
  have t1 : r'.id = i := by rw [hr']; exact hvi
  have t2 : r'.phase = .done := by rw [hr']; rfl
  have hsub : (Tunnel.serverStep cfg.server w.srv (.submit (.close v.relay.id []))).phase = .running ∧
      (Tunnel.serverStep cfg.server w.srv (.submit (.close v.relay.id []))).pending = none := by
    unfold Tunnel.serverStep Tunnel.step
    dsimp only
    split <;> exact ⟨hw.srv, hp⟩
  exact ⟨⟨.one trivial, hw.next trivial ⟨_, hget, t1, by dsimp only; rw [t2]; decide⟩ (by rw [hst]; exact hw.loc)
    (by rw [hst]; exact hsub.1) (by rw [hst]; exact hw.cli), by rw [hst], by rw [hst]⟩, by rw [hst]; exact hsub.2, _, hget, t2⟩

/-- everything, with the notice, has left the server -/
structure Parted (n : Nat) (w : St) : Prop where
  outq : w.srv.outq = []
  buf : w.srv.writeBuf = []
  vis : ∃ v, w.visitors[n]? = some v ∧ v.relay.phase = .done

theorem Parted.same {n w w'} (hw : Parted n w) (h1 : w'.srv = w.srv) (h2 : w'.visitors = w.visitors) : Parted n w' :=
  ⟨h1 ▸ hw.outq, h1 ▸ hw.buf, h2 ▸ hw.vis⟩

theorem Leaving.drainVis (hw : Leaving cfg n m h i w) (hp : w.srv.pending = none) :
    ∃ w', Onwards cfg n m h i w w' ∧ w'.srv.outq = [] ∧ w'.srv.pending = none ∧
      ∃ v, w'.visitors[n]? = some v ∧ v.relay.phase = .done := by
  obtain ⟨v, hv, _, hvp⟩ := hw.vis
  obtain ⟨w1, h1, h2, h3, h4⟩ := hw.drainOutS hp
  rw [← h4] at hv
  cases hq : v.relay.phase with
  | running => exact absurd hq hvp
  | done => exact ⟨w1, h1, h2, h3, v, hv, hq⟩
  | closing =>
    obtain ⟨h5, h6, v', h7, h8⟩ := h1.leaving.visSlot h3 hv hq h2
    obtain ⟨w2, h9, h10, h11, h12⟩ := h5.leaving.drainOutS h6
    exact ⟨w2, (h1.trans h5).trans h9, h10, h11, v', by rw [h12]; exact h7, h8⟩

theorem Leaving.drainServer (hw : Leaving cfg n m h i w) :
    ∃ w', Onwards cfg n m h i w w' ∧ Parted n w' := by
  obtain ⟨w0, h0, p0⟩ := hw.unblock
  obtain ⟨w1, h1, h2, p1, v, h3⟩ := h0.leaving.drainVis p0
  have h01 := h0.trans h1
  by_cases hwb : w1.srv.writeBuf = []
  · exact ⟨w1, h01, ⟨h2, hwb, v, h3⟩⟩
  have hr := h1.leaving
  have he : (step cfg w1 (.srv (.wrote w1.srv.writeBuf.length))).srv =
      Tunnel.emit (.wrote (w1.srv.writeBuf.take w1.srv.writeBuf.length))
        { w1.srv with writeBuf := w1.srv.writeBuf.drop w1.srv.writeBuf.length } := by
    show Tunnel.serverStep cfg.server w1.srv (.wrote _) = _
    unfold Tunnel.serverStep Tunnel.step
    dsimp only
    rw [if_pos ⟨hr.srv, p1⟩, if_neg hwb, if_neg]
    · exact Tunnel.resume_idle fun _ => hr.srvIdle p1
    · intro hc
      have : w1.srv.readyShutdown = true := hc.2
      rw [hr.srvOpen] at this
      cases this
  refine ⟨step cfg w1 (.srv (.wrote w1.srv.writeBuf.length)), h01.trans ⟨.one trivial,
    hr.next trivial hr.vis hr.loc (by rw [he]; exact hr.srv) hr.cli, rfl, rfl⟩, ⟨?_, ?_, v, h3⟩⟩
  · rw [he]; exact h2
  · rw [he]; exact List.drop_length

/-! #### the client takes everything from the connection, until the local connection is told -/

/-- the notice of stream `i` has not been lost for lack of room -/
abbrev NoticeHeld (h i : Nat) (s : Tunnel.St) : Prop := Held h (fun f => f = .close i []) s

/-- everything that stays as it is while the client's side is drained -/
structure Brings (cfg : Cfg) (n m h i : Nat) (w : St) : Prop where
  leaving : Leaving cfg n m h i w
  held : NoticeHeld h i w.cli
  parted : Parted n w

theorem Leaving.rx (hw : Leaving cfg n m h i w) : (w.cli.chan h).rx = true := by
  obtain ⟨l, hl, hli, rfl, hlr⟩ := hw.loc
  obtain ⟨es, rfl⟩ := hw.reach
  have hh := hosts_run cfg es
  have hlm := List.mem_of_getElem? hl
  refine serving_run cfg es _ (hh.conn l hlm) fun x hx he => ?_
  obtain ⟨j, hj⟩ := List.getElem?_of_mem hx
  have hnd := hh.nodup
  have : j = m := by
    have h1 : ((run cfg es).locals.map (·.2))[j]? = some l.2 := by rw [List.getElem?_map, hj]; simpa using he
    have h2 : ((run cfg es).locals.map (·.2))[m]? = some l.2 := by rw [List.getElem?_map, hl]; rfl
    have hjl := (List.getElem?_eq_some_iff.1 h1).1
    exact (List.getElem?_inj hjl hnd).1 (h1.trans h2.symm)
  subst this
  rw [hl] at hj; cases hj
  exact hlr

/-- a step of the client's side alone, which does not tell the local connection -/
structure Inward (cfg : Cfg) (n m h i : Nat) (w w' : St) : Prop where
  path : Path cfg w w'
  brings : Brings cfg n m h i w'
  srv : w'.srv = w.srv
  down : w'.down = w.down

theorem Inward.refl (ht : Brings cfg n m h i w) : Inward cfg n m h i w w := ⟨.refl cfg w, ht, rfl, rfl⟩
theorem Inward.trans {a b c} (h1 : Inward cfg n m h i a b) (h2 : Inward cfg n m h i b c) : Inward cfg n m h i a c :=
  ⟨h1.path.trans h2.path, h2.brings, h2.srv.trans h1.srv, h2.down.trans h1.down⟩

/-- the local connection has been told -/
def Heard (cfg : Cfg) (m i : Nat) (w : St) : Prop := ∃ w', Path cfg w w' ∧ Closed m i w'

theorem Heard.back {a b} (h : Heard cfg m i b) (p : Path cfg a b) : Heard cfg m i a := by
  obtain ⟨w', p', ho⟩ := h
  exact ⟨w', p.trans p', ho⟩

theorem Brings.recv1 (ht : Brings cfg n m h i w) {f q} (hq : w.cli.outq = f :: q) :
    Inward cfg n m h i w (step cfg w (.cli .recv)) ∧ (step cfg w (.cli .recv)).cli.outq = q := by
  have hi := ht.leaving.cliIdle
  have he : (step cfg w (.cli .recv)).cli = Tunnel.enqueue f { w.cli with outq := q } true := by
    show Tunnel.clientStep cfg.client w.cli .recv = _
    unfold Tunnel.clientStep Tunnel.step
    dsimp only
    rw [if_pos ⟨ht.leaving.cli, hi.1⟩, hq]
    exact Tunnel.resume_idle fun _ => hi.2.2
  have h1 : Leaving cfg n m h i (step cfg w (.cli .recv)) :=
    ht.leaving.next trivial ht.leaving.vis ht.leaving.loc ht.leaving.srv (by rw [he]; exact ht.leaving.cli)
  refine ⟨⟨.one trivial, ⟨h1, ?_, ht.parted.same rfl rfl⟩, rfl, rfl⟩, by rw [he]; rfl⟩
  rw [he]
  exact ht.held.more (u := [.queued true f]) rfl (by simp)

theorem Brings.outq (ht : Brings cfg n m h i w) : ∃ w', Inward cfg n m h i w w' ∧ w'.cli.outq = [] := by
  generalize hq : w.cli.outq = q
  induction q generalizing w with
  | nil => exact ⟨w, .refl ht, hq⟩
  | cons f q ih =>
    obtain ⟨h1, h2⟩ := ht.recv1 hq
    obtain ⟨w', h3, h4⟩ := ih h1.brings h2
    exact ⟨w', h1.trans h3, h4⟩

theorem Brings.take1 (ht : Brings cfg n m h i w) {f q} (hq : (w.cli.chan h).q = f :: q) :
    Heard cfg m i w ∨ (Inward cfg n m h i w (step cfg w (.loc m .recv)) ∧ ((step cfg w (.loc m .recv)).cli.chan h).q = q ∧
    (step cfg w (.loc m .recv)).cli.outq = w.cli.outq) := by
  have hrx := ht.leaving.rx
  obtain ⟨l, hl, hli, hlh, hlr⟩ := ht.leaving.loc
  have hi := ht.leaving.cliIdle
  have htk : Tunnel.clientStep cfg.client w.cli (.take h) =
      Tunnel.emit (.took h f) (Tunnel.setChan h { w.cli.chan h with q := q } w.cli) := take_free hi.1 hq hrx
  have he : relayStep (Tunnel.clientStep cfg.client) false w.cli l.1 (some l.2) .recv =
      (Tunnel.clientStep cfg.client w.cli (.take h), Relay.step l.1 (.recv (some f))) := by
    unfold relayStep
    dsimp only
    rw [if_pos hlr, hlh, hq]
    dsimp only
    rw [if_pos hrx]
  have hst : step cfg w (.loc m .recv) = { w with
      cli := Tunnel.clientStep cfg.client w.cli (.take h)
      locals := w.locals.set m (Relay.step l.1 (.recv (some f)), l.2) } := by
    simp only [step, hl, he]
  have hget : (step cfg w (.loc m .recv)).locals[m]? = some (Relay.step l.1 (.recv (some f)), l.2) := by
    rw [hst]; exact List.getElem?_set_self (List.getElem?_eq_some_iff.1 hl).1
  have hcli : (step cfg w (.loc m .recv)).cli =
      Tunnel.emit (.took h f) (Tunnel.setChan h { w.cli.chan h with q := q } w.cli) := by rw [hst]; exact htk
  have hs' : (step cfg w (.loc m .recv)).srv.phase = .running := by rw [hst]; exact ht.leaving.srv
  have hc' : (step cfg w (.loc m .recv)).cli.phase = .running := by rw [hcli]; exact ht.leaving.cli
  by_cases hp : (Relay.step l.1 (.recv (some f))).phase = .running
  case neg => exact .inl ⟨_, .one (e := .loc m .recv) trivial, ⟨_, hget, (Relay.step_id _ _).trans hli, hp⟩, hs', hc'⟩
  right
  have hr : Leaving cfg n m h i (step cfg w (.loc m .recv)) :=
    ht.leaving.next trivial (by rw [hst]; exact ht.leaving.vis) ⟨_, hget, (Relay.step_id _ _).trans hli, hlh, hp⟩ hs' hc'
  refine ⟨⟨.one trivial, ⟨hr, ?_, ht.parted.same (by rw [hst]) (by rw [hst])⟩, by rw [hst], by rw [hst]⟩, ?_, ?_⟩
  · rw [hcli]
    exact ht.held.more (u := [.took h f]) rfl (by simp)
  · rw [hcli]; simp [Tunnel.emit, Tunnel.setChan]
  · rw [hcli]; rfl

theorem Brings.chan (ht : Brings cfg n m h i w) :
    Heard cfg m i w ∨ ∃ w', Inward cfg n m h i w w' ∧ (w'.cli.chan h).q = [] ∧ w'.cli.outq = w.cli.outq := by
  generalize hq : (w.cli.chan h).q = q
  induction q generalizing w with
  | nil => exact .inr ⟨w, .refl ht, hq, rfl⟩
  | cons f q ih =>
    rcases ht.take1 hq with h0 | ⟨h1, h2, h3⟩
    · exact .inl h0
    rcases ih h1.brings h2 with h0 | ⟨w', h4, h5, h6⟩
    · exact .inl (h0.back h1.path)
    · exact .inr ⟨w', h1.trans h4, h5, h6.trans h3⟩

theorem Brings.byte (ht : Brings cfg n m h i w) {b bs} (hd : w.down = b :: bs) (ho : w.cli.outq = [])
    (hq : (w.cli.chan h).q = []) :
    Path cfg w (step cfg w (.cli (.read 1))) ∧ Brings cfg n m h i (step cfg w (.cli (.read 1))) ∧
    (step cfg w (.cli (.read 1))).down = bs := by
  have hl := ht.leaving
  have hi := hl.cliIdle
  have hst : step cfg w (.cli (.read 1)) = { w with
      cli := Tunnel.clientStep cfg.client w.cli (.read [b])
      down := bs
      up := w.up ++ [] } := by
    simp only [step, loopStep, hd]
    rw [if_pos ⟨hl.cli, hi.1, by simp⟩]
    rfl
  obtain ⟨es, he⟩ := hl.base.cli
  have hroom := byte_room cfg.client (nilStream hl.fit.server) es (b := b) (h := h) (P := fun f => f = .close i [])
    (by
      refine List.IsPrefix.trans ?_ hl.arrivesC
      rw [← he, hd]
      exact ⟨bs, by simp⟩)
    (he ▸ hl.cli) (fun u p => hl.noToken u p) (he ▸ ht.held) (he ▸ ho) (fun _ => he ▸ hq)
  rw [← he] at hroom
  have hr : Leaving cfg n m h i (step cfg w (.cli (.read 1))) :=
    hl.next trivial (by rw [hst]; exact hl.vis) (by rw [hst]; exact hl.loc) (by rw [hst]; exact hl.srv)
      (by rw [hst]; exact hroom.1)
  exact ⟨.one trivial, ⟨hr, by rw [hst]; exact hroom.2, ht.parted.same (by rw [hst]) (by rw [hst])⟩, by rw [hst]⟩

theorem Brings.net (ht : Brings cfg n m h i w) :
    Heard cfg m i w ∨ ∃ w', Path cfg w w' ∧ Brings cfg n m h i w' ∧ w'.down = [] ∧ (w'.cli.chan h).q = [] := by
  generalize hd : w.down = bs
  induction bs generalizing w with
  | nil =>
    rcases ht.chan with h0 | ⟨w', h1, h2, _⟩
    · exact .inl h0
    · exact .inr ⟨w', h1.path, h1.brings, h1.down.trans hd, h2⟩
  | cons b bs ih =>
    obtain ⟨w1, h1, h2⟩ := ht.outq
    rcases h1.brings.chan with h0 | ⟨w2, h3, h4, h5⟩
    · exact .inl (h0.back h1.path)
    obtain ⟨p, h6, h7⟩ := h3.brings.byte (h3.down.trans (h1.down.trans hd)) (h5.trans h2) h4
    have pp := (h1.path.trans h3.path).trans p
    rcases ih h6 h7 with h0 | ⟨w', p', h8⟩
    · exact .inl (h0.back pp)
    · exact .inr ⟨w', pp.trans p', h8⟩

theorem announcedAll_more {i} {fs gs : List Frame} (ha : AnnouncedAll i fs) (hc : ∃ x, .create i x ∈ fs) (hp : fs <+: gs) :
    AnnouncedAll i gs := by
  intro a d b hg hd
  obtain ⟨r, rfl⟩ := hp
  rcases List.append_eq_append_iff.1 hg with ⟨c, h1, h2⟩ | ⟨c, h1, h2⟩
  · obtain ⟨x, hx⟩ := hc
    exact .inr ⟨x, by rw [h1]; exact List.mem_append.2 (.inl hx)⟩
  · cases c with
    | nil =>
      obtain ⟨x, hx⟩ := hc
      exact .inr ⟨x, by rw [List.append_nil] at h1; rw [← h1]; exact hx⟩
    | cons y c =>
      simp only [List.cons_append, List.cons.injEq] at h2
      obtain ⟨h2, _⟩ := h2
      subst h2
      exact ha a d c h1 hd

theorem Leaving.heard (hw : Leaving cfg n m h i w) (hh : NoticeHeld h i w.cli)
    (ha : AnnouncedAll i (accepted w.srv.trace)) (hc : ∃ x, .create i x ∈ accepted w.srv.trace) : Heard cfg m i w := by
  obtain ⟨w1, h1, s1⟩ := hw.drainServer
  refine Heard.back ?_ h1.path
  have b1 : Brings cfg n m h i w1 := ⟨h1.leaving, by rw [h1.cli]; exact hh, s1⟩
  rcases b1.net with h0 | ⟨w2, p2, b2, d2, q2⟩
  · exact h0
  refine Heard.back ?_ p2
  have ha2 := announcedAll_more ha hc (path_accepted hw.base (h1.path.trans p2))
  have h2 := b2.leaving
  have hi := h2.cliIdle
  obtain ⟨v, hv, hvi, -⟩ := h2.vis
  obtain ⟨v', hv', hvd⟩ := b2.parted.vis
  rw [hv] at hv'; cases hv'
  obtain ⟨l, hl, hli, hlh, hlr⟩ := h2.loc
  have hset : Delivered w2.srv w2.down w2.cli l.2 :=
    ⟨h2.srv, ⟨b2.parted.outq, b2.parted.buf⟩, d2, ⟨h2.cli, hi.2.1, hi.1⟩, by rw [hlh]; exact ⟨h2.rx, q2⟩⟩
  have hk := b2.held
  have hn2 := h2.normal
  have hf2 := h2.free
  obtain ⟨es, rfl⟩ := h2.reach
  exact absurd hlr (C116_up_partial cfg es hn2 l (List.mem_of_getElem? hl) (by rw [hli]; exact hf2) v (List.mem_of_getElem? hv)
    (hvi.trans hli.symm) hvd (by rw [hli]; exact ha2) (by rw [hli, hlh]; exact hk _ rfl) hset)

/-! ### Statement -/

/-- **C170**, partial: whatever has happened so far, once the connection of a visitor has ended, it takes only the passing
    on of what is already under way - no further byte from anybody, and no end of any other connection - until the
    connection to its local service is no longer served, and the tunnel still works. This is proved as long as the notice
    of the end has not been lost already: nothing of the stream has been sent before its open request
    (`C116_overtaken_fails`), and the notice has not met a full channel at the client (`C116_slow_service_fails`); both
    happen. -/
theorem C170_up_partial (cfg : Cfg) (es : List Event) (hn : Normal cfg (run cfg es)) (hno : NoLogins (run cfg es)) (l)
    (hl : l ∈ (run cfg es).locals) (hfree : Free l.1.id (run cfg es))
    (ha : AnnouncedAll l.1.id (accepted (run cfg es).srv.trace))
    (ho : .overflow l.2 (.close l.1.id []) ∉ (run cfg es).cli.trace) (v) (hv : v ∈ (run cfg es).visitors)
    (hvi : v.relay.id = l.1.id) (hs : (run cfg es).srv.phase = .running) (hc : (run cfg es).cli.phase = .running)
    (hend : v.relay.phase ≠ .running) :
    ∃ es', (∀ e ∈ es', Carries e) ∧ (run cfg (es ++ es')).srv.phase = .running ∧
      (run cfg (es ++ es')).cli.phase = .running ∧
      ∃ l' ∈ (run cfg (es ++ es')).locals, l'.1.id = l.1.id ∧ l'.1.phase ≠ .running := by
  obtain ⟨n, hn'⟩ := List.getElem?_of_mem hv
  obtain ⟨m, hm⟩ := List.getElem?_of_mem hl
  by_cases hlr : l.1.phase = .running
  case neg =>
    exact ⟨[], by simp, by rw [List.append_nil]; exact hs, by rw [List.append_nil]; exact hc, l,
      by rw [List.append_nil]; exact hl, rfl, hlr⟩
  have hone := (announced_visitor hn hv (hvi ▸ hfree) hl hvi.symm).1
  rw [hvi] at hone
  have hcreate : ∃ x, .create l.1.id x ∈ accepted (run cfg es).srv.trace := by
    obtain ⟨f, hf, hp⟩ := List.countP_pos_iff.1 (show 0 < creates l.1.id (accepted (run cfg es).srv.trace) by omega)
    cases f with
    | create j x =>
      have : j = l.1.id := by simpa using hp
      exact ⟨x, this ▸ hf⟩
    | _ => cases hp
  have h0 : Leaving cfg n m l.2 l.1.id (run cfg es) :=
    ⟨⟨es, rfl⟩, hn, hfree, hno, ⟨v, hn', hvi, hend⟩, ⟨l, hm, rfl, rfl, hlr⟩, hs, hc⟩
  obtain ⟨w', ⟨es', he, hw⟩, ⟨x, hx, x1, x2⟩, o1, o2⟩ := h0.heard (by rintro _ rfl; exact ho) ha hcreate
  have hrun : run cfg (es ++ es') = w' := by rw [hw, run, List.foldl_append, ← run]
  exact ⟨es', he, by rw [hrun]; exact o1, by rw [hrun]; exact o2, x, by rw [hrun]; exact List.mem_of_getElem? hx, x1, x2⟩

/-- The hypotheses are met when the visitor ends after eight messages, of which the local service has taken none. -/
example : let w := run webCfg (ahead ++ [.vis 0 .slot, .vis 0 .readEnd])
    Normal webCfg w ∧ NoLogins w ∧ Free 2 w ∧
    (match accepted w.srv.trace with | .create 2 _ :: _ => true | _ => false) = true ∧
    w.cli.trace.filter (fun o => match o with | .overflow .. => true | _ => false) = [] ∧
    w.srv.phase = .running ∧ w.cli.phase = .running ∧
    w.visitors.map (fun v => (v.relay.id, v.relay.phase)) = [(2, .closing)] ∧
    w.locals.map (fun l => (l.1.id, l.2, l.1.phase)) = [(2, 0, .running)] ∧ w.down.isEmpty = false := by
  refine ⟨web_normal _ (by decide +kernel) (by decide +kernel) (by decide +kernel), ?_, web_free _ ?_ ?_ _, ?_⟩
  · have h1 : (run webCfg (ahead ++ [.vis 0 .slot, .vis 0 .readEnd])).otherS = [] := by decide +kernel
    intro u p hf; rw [h1] at hf; cases hf
  all_goals decide +kernel

/-! ### Nothing under way -/

/-- nothing waits at this end of the tunnel -/
structure Drained (s : Tunnel.St) : Prop where
  outq : s.outq = []
  buf : s.writeBuf = []
  free : s.pending = none
  chans : ∀ k, (s.chan k).rx = true → (s.chan k).q = []

theorem Drained.step {H we} {s : Tunnel.St} (hd : Drained s) {e : Tunnel.Event}
    (he : e = .recv ∨ (∃ x, e = .wrote x) ∨ ∃ k, e = .take k) : Tunnel.step H we s e = s := by
  rcases he with rfl | ⟨x, rfl⟩ | ⟨k, rfl⟩
  · unfold Tunnel.step; dsimp only; split
    · rw [hd.outq]
    · rfl
  · unfold Tunnel.step; dsimp only; split
    · rw [if_pos hd.buf]
    · rfl
  · unfold Tunnel.step; dsimp only
    split
    · rfl
    · rename_i f q hq
      split
      · rename_i hrx
        rw [hd.chans k hrx] at hq; cases hq
      · rfl

theorem Drained.dropRx {H we} {s : Tunnel.St} (hd : Drained s) (k : Nat) : Drained (Tunnel.step H we s (.dropRx k)) := by
  unfold Tunnel.step; dsimp only
  split
  · unfold Tunnel.resumePending
    rw [show (Tunnel.emit (.rxGone k) (Tunnel.setChan k { s.chan k with q := [], rx := false } s)).pending = none from hd.free]
    refine ⟨hd.outq, hd.buf, hd.free, fun j hj => ?_⟩
    by_cases hjk : j = k
    · subst hjk; simp [Tunnel.emit, Tunnel.setChan] at hj
    · simp only [Tunnel.emit, Tunnel.setChan, hjk, if_false] at hj ⊢
      exact hd.chans j hj
  · exact hd

/-- Nothing is under way, the visitors have ended, and the local connections are served. -/
structure Silent (w : St) : Prop where
  srv : Drained w.srv
  cli : Drained w.cli
  net : w.up = [] ∧ w.down = []
  vis : ∀ v ∈ w.visitors, v.relay.phase = .done
  loc : ∀ l ∈ w.locals, l.1.phase = .running ∧ l.1.read = [] ∧ l.1.link = [] ∧ (w.cli.chan l.2).tx = true

theorem Silent.step (hw : Silent w) {e} (he : Carries e) :
    Silent (step cfg w e) ∧ (step cfg w e).locals.map (·.1.id) = w.locals.map (·.1.id) := by
  have hs : ∀ e, e = .recv ∨ (∃ x, e = .wrote x) ∨ (∃ k, e = .take k) → Tunnel.serverStep cfg.server w.srv e = w.srv :=
    fun e he => hw.srv.step he
  have hc : ∀ e, e = .recv ∨ (∃ x, e = .wrote x) ∨ (∃ k, e = .take k) → Tunnel.clientStep cfg.client w.cli e = w.cli :=
    fun e he => hw.cli.step he
  cases e with
  | accept => exact he.elim
  | visit => exact he.elim
  | work => exact he.elim
  | start => exact he.elim
  | srv e =>
    have hsame : World.step cfg w (.srv e) = w := by
      cases e with
      | recv => simp [World.step, loopStep, hs _ (.inl rfl)]
      | wrote x => simp [World.step, loopStep, hs _ (.inr (.inl ⟨x, rfl⟩)), hw.srv.buf]
      | writeErr => exact he.elim
      | readEnd => exact he.elim
      | read x => simp [World.step, loopStep, hw.net.1]; exact hw.net.1 ▸ rfl
    rw [hsame]; exact ⟨hw, rfl⟩
  | cli e =>
    have hsame : World.step cfg w (.cli e) = w := by
      cases e with
      | recv => simp [World.step, loopStep, hc _ (.inl rfl)]
      | wrote x => simp [World.step, loopStep, hc _ (.inr (.inl ⟨x, rfl⟩)), hw.cli.buf]
      | writeErr => exact he.elim
      | readEnd => exact he.elim
      | read x => simp [World.step, loopStep, hw.net.2]; exact hw.net.2 ▸ rfl
    rw [hsame]; exact ⟨hw, rfl⟩
  | otherS e =>
    cases e with
    | submit => exact he.elim
    | dropRx => exact he.elim
    | take k =>
      have hsame : World.step cfg w (.otherS (.take k)) = w := by
        simp [World.step, otherStep, submitted, hs _ (.inr (.inr ⟨k, rfl⟩))]
      rw [hsame]; exact ⟨hw, rfl⟩
  | otherC e =>
    cases e with
    | submit => exact he.elim
    | dropRx => exact he.elim
    | take k =>
      have hsame : World.step cfg w (.otherC (.take k)) = w := by
        simp [World.step, otherStep, submitted, hc _ (.inr (.inr ⟨k, rfl⟩))]
      rw [hsame]; exact ⟨hw, rfl⟩
  | vis j e =>
    cases hv : w.visitors[j]? with
    | none =>
      have hsame : World.step cfg w (.vis j e) = w := by simp only [World.step, hv]
      rw [hsame]; exact ⟨hw, rfl⟩
    | some v =>
      have hd := hw.vis v (List.mem_of_getElem? hv)
      have hst : ∀ e, Relay.step v.relay e = v.relay := fun e => by unfold Relay.step; rw [hd]
      have hset : w.visitors.set j { v with relay := v.relay } = w.visitors := by
        obtain ⟨hlt, hget⟩ := List.getElem?_eq_some_iff.1 hv
        show w.visitors.set j v = w.visitors
        rw [← hget]; exact List.set_getElem_self hlt
      have hr : (relayStep (Tunnel.serverStep cfg.server) true w.srv v.relay v.handle e).2 = v.relay ∧
          Drained (relayStep (Tunnel.serverStep cfg.server) true w.srv v.relay v.handle e).1 := by
        unfold relayStep
        cases e with
        | read => exact he.elim
        | readEnd => exact he.elim
        | writeErr => exact he.elim
        | wrote x => exact ⟨hst _, hw.srv⟩
        | recv => dsimp only; rw [if_neg (by rw [hd]; decide)]; exact ⟨rfl, hw.srv⟩
        | slot =>
          have ho : offer v.relay = none := by unfold offer; rw [hd]; simp
          dsimp only; rw [ho]; dsimp only
          split
          · exact ⟨rfl, hw.srv⟩
          · rw [if_pos rfl, hst, hst]; exact ⟨rfl, hw.srv⟩
        | drop =>
          dsimp only
          split
          · split
            · exact ⟨rfl, hw.srv⟩
            · exact ⟨rfl, hw.srv.dropRx (we := Tunnel.finish .panicked) _⟩
          · exact ⟨rfl, hw.srv⟩
      simp only [World.step, hv, hr.1, hset]
      exact ⟨⟨hr.2, hw.cli, hw.net, hw.vis, hw.loc⟩, trivial⟩
  | loc j e =>
    cases hl : w.locals[j]? with
    | none =>
      have hsame : World.step cfg w (.loc j e) = w := by simp only [World.step, hl]
      rw [hsame]; exact ⟨hw, rfl⟩
    | some l =>
      obtain ⟨l1, l2, l3, l4⟩ := hw.loc l (List.mem_of_getElem? hl)
      have htop : Relay.top l.1 = l.1 := by unfold Relay.top; rw [if_pos l2]
      have hr : ∃ r', relayStep (Tunnel.clientStep cfg.client) false w.cli l.1 (some l.2) e = (w.cli, r') ∧ r'.id = l.1.id ∧
          r'.phase = .running ∧ r'.read = [] ∧ r'.link = [] := by
        unfold relayStep
        cases e with
        | read => exact he.elim
        | readEnd => exact he.elim
        | writeErr => exact he.elim
        | wrote x =>
          refine ⟨_, rfl, Relay.step_id _ _, ?_⟩
          unfold Relay.step
          rw [l1, htop]
          unfold Relay.branch
          dsimp only
          split
          · exact ⟨l1, l2, l3⟩
          · exact ⟨l1, l2, l3⟩
        | recv =>
          refine ⟨l.1, ?_, rfl, l1, l2, l3⟩
          dsimp only
          rw [if_pos l1]
          split
          · split
            · rename_i hrx
              rename_i hq
              rw [hw.cli.chans _ hrx] at hq; cases hq
            · rfl
          · rw [if_pos l4]
        | slot =>
          refine ⟨l.1, ?_, rfl, l1, l2, l3⟩
          have ho : offer l.1 = none := by unfold offer; rw [l1, htop, l3]; simp
          dsimp only; rw [ho]
          simp
        | drop =>
          refine ⟨l.1, ?_, rfl, l1, l2, l3⟩
          dsimp only
          rw [if_pos l1]
      obtain ⟨r', e1, e2, e3⟩ := hr
      have hst : World.step cfg w (.loc j e) = { w with locals := w.locals.set j (r', l.2) } := by
        simp only [World.step, hl, e1]
      rw [hst]
      refine ⟨⟨hw.srv, hw.cli, hw.net, hw.vis, fun x hx => ?_⟩, ?_⟩
      · rcases List.mem_or_eq_of_mem_set hx with hx | rfl
        · exact hw.loc x hx
        · exact ⟨e3.1, e3.2.1, e3.2.2, l4⟩
      · show (w.locals.set j (r', l.2)).map _ = _
        rw [List.map_set]
        refine List.ext_getElem? fun q => ?_
        by_cases hq : j = q
        · subst hq
          rw [List.getElem?_set_self (by simpa using (List.getElem?_eq_some_iff.1 hl).1), List.getElem?_map, hl]
          simp [e2]
        · rw [List.getElem?_set_ne hq]

theorem Silent.path {w w'} (hw : Silent w) (p : Path cfg w w') : Silent w' ∧ w'.locals.map (·.1.id) = w.locals.map (·.1.id) := by
  obtain ⟨es, he, rfl⟩ := p
  induction es generalizing w with
  | nil => exact ⟨hw, rfl⟩
  | cons e es ih =>
    obtain ⟨h1, h2⟩ := hw.step (cfg := cfg) (he e (by simp))
    obtain ⟨h3, h4⟩ := ih h1 fun e he' => he e (List.mem_cons_of_mem _ he')
    exact ⟨h3, h4.trans h2⟩

theorem drained_end {cfg : Cfg} {es} {s : Tunnel.St} (hs : s = (run cfg es).srv ∨ s = (run cfg es).cli)
    (h1 : s.outq = [] ∧ s.writeBuf = [] ∧ s.pending = none) (h2 : ∀ k < s.next, (s.chan k).q = []) : Drained s := by
  refine ⟨h1.1, h1.2.1, h1.2.2, fun k hk => ?_⟩
  by_cases hlt : k < s.next
  · exact h2 k hlt
  · exfalso
    have : (s.chan k).rx = false := by
      rcases hs with rfl | rfl
      · obtain ⟨es', he⟩ := (base_run cfg es).srv
        rw [he] at hlt ⊢
        exact ((Tunnel.server_inv cfg.server es').1.1.1.fresh k (Nat.le_of_not_lt hlt)).1
      · obtain ⟨es', he⟩ := (base_run cfg es).cli
        rw [he] at hlt ⊢
        exact ((Tunnel.client_inv cfg.client [] es').1.1.fresh k (Nat.le_of_not_lt hlt)).1
    rw [this] at hk; cases hk

/-- the notice is lost: once because it overtook the open request, once because the local service was slow -/
def early : List Event := hello ++ visitorEnds ++ opening
def late : List Event := hello ++ opening ++
  (List.range 10).flatMap (fun n => Event.vis 0 (.read [UInt8.ofNat n]) :: bring) ++ visitorEnds ++
  (List.range 10).flatMap (fun _ => hand)

theorem silent_witness {es : List Event} (h1 : (run webCfg es).visitors.all (fun v => v.relay.phase = .done))
    (h2 : (run webCfg es).locals.all (fun l => l.1.phase = .running ∧ l.1.read = [] ∧ l.1.link = [] ∧
      ((run webCfg es).cli.chan l.2).tx = true))
    (h3 : (run webCfg es).srv.outq.isEmpty && (run webCfg es).srv.writeBuf.isEmpty && (run webCfg es).srv.pending.isNone)
    (h4 : (run webCfg es).cli.outq.isEmpty && (run webCfg es).cli.writeBuf.isEmpty && (run webCfg es).cli.pending.isNone)
    (h5 : (run webCfg es).up.isEmpty && (run webCfg es).down.isEmpty)
    (h6 : (List.range (run webCfg es).srv.next).all fun k => ((run webCfg es).srv.chan k).q.isEmpty)
    (h7 : (List.range (run webCfg es).cli.next).all fun k => ((run webCfg es).cli.chan k).q.isEmpty) :
    Silent (run webCfg es) := by
  simp only [List.all_eq_true, Bool.and_eq_true, List.isEmpty_iff, Option.isNone_iff_eq_none, List.mem_range,
    decide_eq_true_eq] at h1 h2 h3 h4 h5 h6 h7
  exact ⟨drained_end (.inl rfl) ⟨h3.1.1, h3.1.2, h3.2⟩ h6, drained_end (.inr rfl) ⟨h4.1.1, h4.1.2, h4.2⟩ h7, h5, h1, h2⟩

/-- **C170** fails when the notice has overtaken the open request (C92), and when it met a full channel (C14): from there,
    however what is under way is passed on, the connection to the local service of the visitor that has gone stays open. -/
theorem C170_lost_fails : ∀ es ∈ [early, late],
    (Normal webCfg (run webCfg es) ∧ NoLogins (run webCfg es) ∧ Free 2 (run webCfg es)) ∧
    (run webCfg es).srv.phase = .running ∧ (run webCfg es).cli.phase = .running ∧
    (run webCfg es).visitors.map (fun v => (v.relay.id, v.relay.phase)) = [(2, .done)] ∧
    ∀ es', (∀ e ∈ es', Carries e) →
      (run webCfg (es ++ es')).locals.map (fun l => (l.1.id, l.1.phase)) = [(2, .running)] := by
  have key : ∀ es, Silent (run webCfg es) → (run webCfg es).locals.map (·.1.id) = [2] →
      ∀ es', (∀ e ∈ es', Carries e) →
        (run webCfg (es ++ es')).locals.map (fun l => (l.1.id, l.1.phase)) = [(2, .running)] := by
    intro es h1 h2 es' he
    obtain ⟨h3, h4⟩ := h1.path (cfg := webCfg) ⟨es', he, rfl⟩
    rw [show es'.foldl (step webCfg) (run webCfg es) = run webCfg (es ++ es') by rw [run, run, List.foldl_append]] at h3 h4
    rw [h2] at h4
    cases hl : (run webCfg (es ++ es')).locals with
    | nil => rw [hl] at h4; cases h4
    | cons l ls =>
      rw [hl] at h4
      simp only [List.map_cons, List.cons.injEq, List.map_eq_nil_iff] at h4
      obtain ⟨h5, rfl⟩ := h4
      have := (h3.loc l (by rw [hl]; simp)).1
      simp [h5, this]
  have hnl : ∀ es, (run webCfg es).otherS = [] → NoLogins (run webCfg es) := fun es h u p hf => by rw [h] at hf; cases hf
  intro es hes
  have : es = early ∨ es = late := by simpa using hes
  rcases this with rfl | rfl
  · refine ⟨⟨web_normal _ ?_ ?_ ?_, hnl _ ?_, web_free _ ?_ ?_ _⟩, ?_, ?_, ?_, key _ (silent_witness ?_ ?_ ?_ ?_ ?_ ?_ ?_) ?_⟩ <;>
      decide +kernel
  · refine ⟨⟨web_normal _ ?_ ?_ ?_, hnl _ ?_, web_free _ ?_ ?_ _⟩, ?_, ?_, ?_, key _ (silent_witness ?_ ?_ ?_ ?_ ?_ ?_ ?_) ?_⟩ <;>
      decide +kernel

end Wm.World
