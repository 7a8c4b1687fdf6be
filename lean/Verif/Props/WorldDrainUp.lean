import Verif.Proofs.WorldDrainUp
/-!
Property C158: the tunnel never reaches a state from which what a visitor has sent can no longer be brought to the
local service.
-/
namespace Wm.World
open Wm Wm.Prot
open scoped List
open Wm.Tunnel (datas creates regCount openCount gots received submissions accepted relayed written arrived InnerL heads
  LoggedIn streamCap Announced)
open Wm.Relay (inputs outputs)

variable {cfg : Cfg} {n m k i : Nat} {vin inp : Bytes} {w : St}

/-! ### What the server accepts for sending -/

/-- submitted messages, open requests, and the refusal of a login -/
theorem server_sent {cfg s} (h : ∃ es, s = Tunnel.serverRun cfg es) : ∀ f ∈ accepted s.trace,
    f ∈ submissions s.trace ∨ f = .close 0 Tunnel.notVerify ∨ ∃ j d, f = .create j d := by
  obtain ⟨es, rfl⟩ := h
  induction es using List.reverseRecOn with
  | nil => intro f hf; simp [Tunnel.serverRun, Tunnel.serverInit, accepted] at hf
  | append_singleton es e ih =>
    have hq := server_outq ⟨es, rfl⟩ (cfg := cfg)
    have hr : Tunnel.serverRun cfg (es ++ [e]) = Tunnel.serverStep cfg (Tunnel.serverRun cfg es) e := by
      simp [Tunnel.serverRun, List.foldl_append]
    rw [hr]
    intro f hf
    have hle : ∀ g, g ∈ submissions (Tunnel.serverRun cfg es).trace →
        g ∈ submissions (Tunnel.serverStep cfg (Tunnel.serverRun cfg es) e).trace := by
      intro g hg
      obtain ⟨u, e1, _⟩ := steps_server cfg (Tunnel.serverRun cfg es) e
      rw [e1, Tunnel.submissions_append, Tunnel.submissions_append]; simp [hg]
    rcases accepted_new (steps_server cfg) hf with h1 | h1 | h1 | ⟨j, d, _, h1⟩
    · rcases ih f h1 with h2 | h2
      · exact .inl (hle f h2)
      · exact .inr h2
    · exact .inl (hle f (by rw [← hq]; exact List.mem_append.2 (.inr h1)))
    · exact .inr (.inl h1)
    · exact .inr (.inr ⟨j, d, h1⟩)

/-- no other task of the server sends a login -/
def NoLogins (w : St) : Prop := ∀ u p, Frame.token u p ∉ w.otherS

theorem Ready.noToken (h : Ready cfg n m k i vin inp w) (hno : NoLogins w) (u p) : .token u p ∉ accepted w.srv.trace := by
  intro hf
  obtain ⟨es, rfl⟩ := h.reach
  have hb := base_run cfg es
  have hs := side_run cfg es i (h.free.own h.normal)
  rcases server_sent hb.srv _ hf with h1 | h1 | ⟨j, d, h1⟩
  · rcases hs.sub.mem _ h1 with ⟨j, h2⟩ | h2 | ⟨r, hr, h2⟩
    · cases h2
    · exact hno u p h2
    · obtain ⟨v, hv, rfl⟩ := List.mem_map.1 hr
      rcases sends_kind (hb.visitors v hv) _ h2 with ⟨d, h3⟩ | h3 <;> cases h3
  · cases h1
  · cases h1

/-! ### the visitor's messages reach the connection -/

/-- the server's loop has decoded all it can -/
theorem Ready.srvIdle (h : Ready cfg n m k i vin inp w) (hp : w.srv.pending = none) : ¬ Complete w.srv.readBuf := by
  obtain ⟨es, he⟩ := h.base.srv
  have h3 := (Tunnel.server_at (nilStream h.fit.client) cfg.server es).2
  rw [← he] at h3
  exact h3 ((List.prefix_append _ _).trans h.arrives) ⟨h.srv, h.srvOpen, hp⟩

theorem Ready.srvRecv (h : Ready cfg n m k i vin inp w) (hp : w.srv.pending = none) {f q} (hq : w.srv.outq = f :: q) :
    Fwd cfg n m k i vin inp w (step cfg w (.srv .recv)) ∧ (step cfg w (.srv .recv)).srv.outq = q ∧
    (step cfg w (.srv .recv)).srv.pending = none ∧ (step cfg w (.srv .recv)).visitors = w.visitors := by
  have he : (step cfg w (.srv .recv)).srv = Tunnel.enqueue f { w.srv with outq := q } true := by
    show Tunnel.serverStep cfg.server w.srv .recv = _
    unfold Tunnel.serverStep Tunnel.step
    dsimp only
    rw [if_pos ⟨h.srv, hp⟩, hq]
    exact Tunnel.resume_idle fun _ => h.srvIdle hp
  refine ⟨⟨.one trivial, h.next trivial h.vis h.loc ?_ h.cli, rfl, rfl, rfl⟩, ?_, ?_, rfl⟩
  · rw [he]; exact h.srv
  · rw [he]; rfl
  · rw [he]; exact hp

theorem Ready.drainOutS (h : Ready cfg n m k i vin inp w) (hp : w.srv.pending = none) :
    ∃ w', Fwd cfg n m k i vin inp w w' ∧ w'.srv.outq = [] ∧ w'.srv.pending = none ∧ w'.visitors = w.visitors := by
  generalize hq : w.srv.outq = q
  induction q generalizing w with
  | nil => exact ⟨w, .refl h, hq, hp, rfl⟩
  | cons f q ih =>
    obtain ⟨h1, h2, h3, h4⟩ := h.srvRecv hp hq
    obtain ⟨w', h5, h6, h7, h8⟩ := ih h1.ready h3 h2
    exact ⟨w', h1.trans h5, h6, h7, h8.trans h4⟩

theorem Ready.visSlot (h : Ready cfg n m k i vin inp w) (hp : w.srv.pending = none) {v} (hv : w.visitors[n]? = some v) {f tl}
    (ht : (Relay.top v.relay).link = f :: tl) (ho : w.srv.outq = []) :
    Fwd cfg n m k i vin inp w (step cfg w (.vis n .slot)) ∧ (step cfg w (.vis n .slot)).srv.pending = none ∧
    ∃ v', (step cfg w (.vis n .slot)).visitors[n]? = some v' ∧ (Relay.top v'.relay).link = tl := by
  obtain ⟨v', hv', hvi, hvk, hvr, hin⟩ := h.vis
  rw [hv] at hv'
  cases hv'
  have halive : v.relay.alive = true := by
    obtain ⟨es, rfl⟩ := h.reach
    cases ha : v.relay.alive with
    | true => rfl
    | false =>
      exact absurd h.srv ((passed_run cfg es).server.alive v.relay (List.mem_map.2 ⟨v, List.mem_of_getElem? hv, rfl⟩) ha)
  have hoff : offer v.relay = some f := by
    unfold offer
    rw [if_pos halive, hvr]
    simp [ht]
  have hr : Relay.step v.relay .slot = Relay.emit (.sent f) { Relay.top v.relay with link := tl } := by
    unfold Relay.step
    rw [hvr]
    dsimp only
    unfold Relay.branch
    dsimp only
    rw [ht]
    dsimp only
    rw [top_alive, if_pos halive]
  obtain ⟨r', hr'⟩ : ∃ r', r' = Relay.emit (.sent f) { Relay.top v.relay with link := tl } := ⟨_, rfl⟩
  rw [← hr'] at hr
  have he : relayStep (Tunnel.serverStep cfg.server) true w.srv v.relay v.handle .slot =
      (Tunnel.serverStep cfg.server w.srv (.submit f), r') := by
    unfold relayStep
    dsimp only
    rw [if_pos h.srv, hoff]
    dsimp only
    rw [if_pos (by rw [ho]; decide), hr]
  have hst : step cfg w (.vis n .slot) = { w with
      srv := Tunnel.serverStep cfg.server w.srv (.submit f)
      visitors := w.visitors.set n { v with relay := r' } } := by
    simp only [step, hv, he]
  have hget : (step cfg w (.vis n .slot)).visitors[n]? = some { v with relay := r' } := by
    rw [hst]; exact List.getElem?_set_self (List.getElem?_eq_some_iff.1 hv).1
  have tt := top_top v.relay
  have t1 : r'.id = i := by rw [hr']; exact tt.2.2.trans hvi
  have t2 : r'.phase = .running := by rw [hr']; exact tt.2.1.trans hvr
  have t3 : (Relay.top r').link = tl := by
    have hid : ∀ r : Relay.St, r.read = [] → (Relay.top r).link = r.link := fun r hr => by unfold Relay.top; rw [if_pos hr]
    rw [hr']; exact hid _ tt.1
  have t4 : inputs r'.trace = vin := by
    rw [hr']
    show inputs ((Relay.top v.relay).trace ++ [_]) = vin
    rw [top_trace, ← hin]
    simp [inputs]
  have hsub : (Tunnel.serverStep cfg.server w.srv (.submit f)).phase = .running ∧
      (Tunnel.serverStep cfg.server w.srv (.submit f)).pending = none := by
    unfold Tunnel.serverStep Tunnel.step
    dsimp only
    split <;> exact ⟨h.srv, hp⟩
  refine ⟨⟨.one trivial, h.next trivial ⟨_, hget, t1, hvk, t2, t4⟩ (by rw [hst]; exact h.loc) (by rw [hst]; exact hsub.1)
    (by rw [hst]; exact h.cli), by rw [hst], by rw [hst], by rw [hst]⟩, by rw [hst]; exact hsub.2, _, hget, t3⟩

theorem Ready.drainVis (h : Ready cfg n m k i vin inp w) (hp : w.srv.pending = none) :
    ∃ w', Fwd cfg n m k i vin inp w w' ∧ w'.srv.outq = [] ∧ w'.srv.pending = none ∧
      ∃ v, w'.visitors[n]? = some v ∧ v.relay.read = [] ∧ v.relay.link = [] := by
  obtain ⟨v, hv, _⟩ := h.vis
  generalize hq : (Relay.top v.relay).link = q
  induction q generalizing w v with
  | nil =>
    obtain ⟨w', h1, h2, h3, h4⟩ := h.drainOutS hp
    exact ⟨w', h1, h2, h3, v, by rw [h4]; exact hv, top_link_nil hq⟩
  | cons f q ih =>
    obtain ⟨w1, h1, h2, h3, h4⟩ := h.drainOutS hp
    obtain ⟨h5, h6, v', h7, h8⟩ := h1.ready.visSlot h3 (by rw [h4]; exact hv) hq h2
    obtain ⟨_, h9, h10⟩ := h5.ready.vis
    rw [h7] at h9; cases h9
    obtain ⟨w', h11, h12⟩ := ih h5.ready h6 v' h7 h10 h8
    exact ⟨w', (h1.trans h5).trans h11, h12⟩

/-- everything of the visitor has left the server -/
structure Gone (n : Nat) (w : St) : Prop where
  outq : w.srv.outq = []
  buf : w.srv.writeBuf = []
  vis : ∃ v, w.visitors[n]? = some v ∧ v.relay.read = [] ∧ v.relay.link = []

theorem Gone.same {n w w'} (h : Gone n w) (h1 : w'.srv = w.srv) (h2 : w'.visitors = w.visitors) : Gone n w' :=
  ⟨h1 ▸ h.outq, h1 ▸ h.buf, h2 ▸ h.vis⟩

theorem Ready.drainServer (h : Ready cfg n m k i vin inp w) :
    ∃ w', Path cfg w w' ∧ Ready cfg n m k i vin inp w' ∧ Gone n w' ∧ w'.cli = w.cli ∧ w'.locals = w.locals := by
  obtain ⟨w0, h0, p0⟩ := h.unblock
  obtain ⟨w1, h1, h2, p1, v, h3⟩ := h0.ready.drainVis p0
  have h01 := h0.trans h1
  by_cases hw : w1.srv.writeBuf = []
  · exact ⟨w1, h01.path, h1.ready, ⟨h2, hw, v, h3⟩, h01.cli, h01.locals⟩
  have hr := h1.ready
  have he : (step cfg w1 (.srv (.wrote w1.srv.writeBuf.length))).srv =
      Tunnel.emit (.wrote (w1.srv.writeBuf.take w1.srv.writeBuf.length))
        { w1.srv with writeBuf := w1.srv.writeBuf.drop w1.srv.writeBuf.length } := by
    show Tunnel.serverStep cfg.server w1.srv (.wrote _) = _
    unfold Tunnel.serverStep Tunnel.step
    dsimp only
    rw [if_pos ⟨hr.srv, p1⟩, if_neg hw, if_neg]
    · exact Tunnel.resume_idle fun _ => hr.srvIdle p1
    · intro hc
      have : w1.srv.readyShutdown = true := hc.2
      rw [hr.srvOpen] at this
      cases this
  refine ⟨step cfg w1 (.srv (.wrote w1.srv.writeBuf.length)), h01.path.trans (.one trivial),
    hr.next trivial hr.vis hr.loc (by rw [he]; exact hr.srv) hr.cli, ⟨?_, ?_, v, h3⟩, h01.cli, h01.locals⟩
  · rw [he]; exact h2
  · rw [he]; exact List.drop_length

/-! ### the client takes everything from the connection -/

/-- nothing of stream `i` has been lost for lack of room in channel `h` -/
abbrev Kept (h i : Nat) (s : Tunnel.St) : Prop := Held h (fun f => ∃ d, f = .data i d) s

/-- everything that stays as it is while the client's side is drained: `h` is the channel of the local connection -/
structure Takes (cfg : Cfg) (n m k h i : Nat) (vin inp : Bytes) (w : St) : Prop where
  ready : Ready cfg n m k i vin inp w
  hand : ∃ l, w.locals[m]? = some l ∧ l.2 = h
  kept : Kept h i w.cli
  noLogins : NoLogins w
  gone : Gone n w

variable {h : Nat}

theorem Takes.rx (ht : Takes cfg n m k h i vin inp w) : (w.cli.chan h).rx = true := by
  obtain ⟨l, hl, rfl⟩ := ht.hand
  obtain ⟨l', hl', hli, hlr, _⟩ := ht.ready.loc
  rw [hl] at hl'; cases hl'
  obtain ⟨es, rfl⟩ := ht.ready.reach
  have hh := hosts_run cfg es
  have hlm := List.mem_of_getElem? hl
  refine serving_run cfg es _ (hh.conn l hlm) fun x hx he => ?_
  obtain ⟨j, hj⟩ := List.getElem?_of_mem hx
  have hnd := hh.nodup
  have : j = m := by
    have h1 : ((run cfg es).locals.map (·.2))[j]? = some l.2 := by rw [List.getElem?_map, hj]; simpa using he
    have h2 : ((run cfg es).locals.map (·.2))[m]? = some l.2 := by rw [List.getElem?_map, hl]; rfl
    have hjl := (List.getElem?_eq_some_iff.1 h1).1
    exact (List.getElem?_inj hjl hnd).1 (h1.trans h2.symm)
  subst this
  rw [hl] at hj; cases hj
  exact hlr

/-- only data waits for the local service -/
theorem Takes.onlyData (ht : Takes cfg n m k h i vin inp w) {f} (hf : f ∈ (w.cli.chan h).q) : ∃ d, f = .data i d := by
  have hrx := ht.rx
  obtain ⟨v, hv, hvi, hvk, hvr, _⟩ := ht.ready.vis
  obtain ⟨l, hl, hli, hlr, _⟩ := ht.ready.loc
  obtain ⟨l', hl', rfl⟩ := ht.hand
  rw [hl] at hl'; cases hl'
  have hr := ht.ready.cli
  have hn := ht.ready.normal
  have hfree := ht.ready.free
  obtain ⟨es, rfl⟩ := ht.ready.reach
  have hvm := List.mem_of_getElem? hv
  have hlm := List.mem_of_getElem? hl
  have hb := base_run cfg es
  have hfit := hn.fit
  have hg := guests_run cfg es
  have hown := hfree.own hn
  have hid := visitor_id hg hn.used hvm
  rw [hvi] at hid
  have hcs := (causes_run cfg es i hown).server
  have hfar := far_run cfg es i hown hfit
  have hreg := (local_stream hn hlm (by rw [hli]; exact hfree)).2.1
  rw [hli] at hreg
  generalize run cfg es = w at *
  have hle := seen_server_creates hb hfit i
  obtain ⟨es', he⟩ := hb.cli
  have hgot : f ∈ gots w.cli.trace ∧ ((∃ j d, f = .data j d) ∨ ∃ j t, f = .close j t) ∧
      ∃ t1 t2, w.cli.trace = t1 ++ .got f :: t2 ∧ Tunnel.owner t1 f.sockMap = some l.2 := by
    rw [he] at hf hr hrx ⊢
    have hD := (Tunnel.client_inv cfg.client [] es').1
    have h1 : f ∈ Tunnel.puts l.2 (Tunnel.clientRun cfg.client [] es').trace := by
      rw [← (hD.1.open_ l.2 hrx).1]; simp [hf]
    rcases Tunnel.routed hD (Tunnel.puts_sublist l.2 _ f h1) with ⟨p, q, hpq, ha, ho⟩ | ⟨p, q, _, hpq, _⟩
    · refine ⟨by rw [hpq, Tunnel.gots_append', Tunnel.gots_cons]; simp [gots], ?_, p, q, hpq, ho⟩
      cases f <;> simp [Tunnel.clientAccepts] at ha ⊢
    · exact absurd (by rw [hpq]; simp) (Tunnel.client_whole cfg.client [] es' hr)
  obtain ⟨hgot, hkind, p, q, hpq, ho⟩ := hgot
  have hsock : f.sockMap = i := by
    have hreg2 : Tunnel.Obs.reg f.sockMap l.2 ∈ w.cli.trace := by
      rw [hpq]; exact List.mem_append.2 (.inl (Tunnel.owner_mem ho))
    rw [he] at hreg hreg2
    have h1 := ((Tunnel.client_inv cfg.client [] es').2.1.regs _ _ hreg).1
    have h2 := ((Tunnel.client_inv cfg.client [] es').2.1.regs _ _ hreg2).1
    rw [h1] at h2
    exact (Option.some.inj h2).symm
  rcases hkind with ⟨j, d, rfl⟩ | ⟨j, t, rfl⟩
  · exact ⟨d, by rw [show j = i from hsock]⟩
  · exfalso
    rw [show j = i from hsock] at hgot
    have hacc : .close i t ∈ accepted w.srv.trace := by
      have h1 := (seen_client hb hfit).subset hgot
      obtain ⟨y, hy, hy2⟩ := List.mem_map.1 h1
      rw [← close_asReceived hy2]; exact hy
    rcases server_mine hb.srv _ hacc with h1 | h1 | ⟨j, d, h1⟩
    · rcases hcs t h1 with ⟨r, hr1, h2, h3⟩ | h2
      · obtain ⟨m', hm'⟩ := List.getElem?_of_mem hr1
        have hm : (w.visitors.map (·.relay))[n]? = some v.relay := by simp [hv]
        have := uniq_visitors hg (by have := hn.used; omega) m' n r v.relay hm' hm h2 hvi
        subst this
        rw [hm] at hm'
        rw [← Option.some.inj hm', hvr] at h3; cases h3
      · have := hfar.noCreate
        omega
    · exact hid h1
    · cases h1

/-- a step of the client's side alone -/
structure Bwd (cfg : Cfg) (n m k h i : Nat) (vin inp : Bytes) (w w' : St) : Prop where
  path : Path cfg w w'
  takes : Takes cfg n m k h i vin inp w'
  srv : w'.srv = w.srv
  down : w'.down = w.down

theorem Bwd.refl (ht : Takes cfg n m k h i vin inp w) : Bwd cfg n m k h i vin inp w w := ⟨.refl cfg w, ht, rfl, rfl⟩
theorem Bwd.trans {a b c} (h1 : Bwd cfg n m k h i vin inp a b) (h2 : Bwd cfg n m k h i vin inp b c) :
    Bwd cfg n m k h i vin inp a c :=
  ⟨h1.path.trans h2.path, h2.takes, h2.srv.trans h1.srv, h2.down.trans h1.down⟩

theorem Takes.moved {e} (ht : Takes cfg n m k h i vin inp w) (he : Carries e) (hr : Ready cfg n m k i vin inp (step cfg w e))
    (hh : ∃ l, (step cfg w e).locals[m]? = some l ∧ l.2 = h) (hk : Kept h i (step cfg w e).cli)
    (hs : (step cfg w e).srv = w.srv) (hv : (step cfg w e).visitors = w.visitors) :
    Takes cfg n m k h i vin inp (step cfg w e) :=
  ⟨hr, hh, hk, by unfold NoLogins; rw [(carries_same he).1]; exact ht.noLogins, ht.gone.same hs hv⟩

theorem Takes.recv1 (ht : Takes cfg n m k h i vin inp w) {f q} (hq : w.cli.outq = f :: q) :
    Bwd cfg n m k h i vin inp w (step cfg w (.cli .recv)) ∧ (step cfg w (.cli .recv)).cli.outq = q := by
  have hi := ht.ready.cliIdle
  have he : (step cfg w (.cli .recv)).cli = Tunnel.enqueue f { w.cli with outq := q } true := by
    show Tunnel.clientStep cfg.client w.cli .recv = _
    unfold Tunnel.clientStep Tunnel.step
    dsimp only
    rw [if_pos ⟨ht.ready.cli, hi.1⟩, hq]
    exact Tunnel.resume_idle fun _ => hi.2.2
  obtain ⟨h1, h2, h3⟩ := ht.ready.cliRecv hq
  refine ⟨⟨.one trivial, ht.moved trivial h1 (by rw [h3]; exact ht.hand) ?_ rfl rfl, rfl, rfl⟩, h2⟩
  rw [he]
  exact ht.kept.more (u := [.queued true f]) rfl (by simp)

theorem Takes.outq (ht : Takes cfg n m k h i vin inp w) : ∃ w', Bwd cfg n m k h i vin inp w w' ∧ w'.cli.outq = [] := by
  generalize hq : w.cli.outq = q
  induction q generalizing w with
  | nil => exact ⟨w, .refl ht, hq⟩
  | cons f q ih =>
    obtain ⟨h1, h2⟩ := ht.recv1 hq
    obtain ⟨w', h3, h4⟩ := ih h1.takes h2
    exact ⟨w', h1.trans h3, h4⟩

theorem Takes.take1 (ht : Takes cfg n m k h i vin inp w) {f q} (hq : (w.cli.chan h).q = f :: q) :
    Bwd cfg n m k h i vin inp w (step cfg w (.loc m .recv)) ∧ ((step cfg w (.loc m .recv)).cli.chan h).q = q ∧
    (step cfg w (.loc m .recv)).cli.outq = w.cli.outq := by
  have hrx := ht.rx
  obtain ⟨d, rfl⟩ := ht.onlyData (f := f) (by rw [hq]; simp)
  obtain ⟨l, hl, hli, hlr, hin⟩ := ht.ready.loc
  obtain ⟨l', hl', hlh⟩ := ht.hand
  rw [hl] at hl'; cases hl'
  have hi := ht.ready.cliIdle
  have htk : Tunnel.clientStep cfg.client w.cli (.take h) =
      Tunnel.emit (.took h (.data i d)) (Tunnel.setChan h { w.cli.chan h with q := q } w.cli) := take_free hi.1 hq hrx
  have he : relayStep (Tunnel.clientStep cfg.client) false w.cli l.1 (some l.2) .recv =
      (Tunnel.clientStep cfg.client w.cli (.take h), Relay.step l.1 (.recv (some (.data i d)))) := by
    unfold relayStep
    dsimp only
    rw [if_pos hlr, hlh, hq]
    dsimp only
    rw [if_pos hrx]
  have hst : step cfg w (.loc m .recv) = { w with
      cli := Tunnel.clientStep cfg.client w.cli (.take h)
      locals := w.locals.set m (Relay.step l.1 (.recv (some (.data i d))), l.2) } := by
    simp only [step, hl, he]
  have hget : (step cfg w (.loc m .recv)).locals[m]? = some (Relay.step l.1 (.recv (some (.data i d))), l.2) := by
    rw [hst]; exact List.getElem?_set_self (List.getElem?_eq_some_iff.1 hl).1
  have hcli : (step cfg w (.loc m .recv)).cli =
      Tunnel.emit (.took h (.data i d)) (Tunnel.setChan h { w.cli.chan h with q := q } w.cli) := by rw [hst]; exact htk
  have hr : Ready cfg n m k i vin inp (step cfg w (.loc m .recv)) :=
    ht.ready.next trivial (by rw [hst]; exact ht.ready.vis)
      ⟨_, hget, (Relay.step_id _ _).trans hli, recv_data hlr _ _, (recv_inputs hlr _).trans hin⟩
      (by rw [hst]; exact ht.ready.srv) (by rw [hcli]; exact ht.ready.cli)
  refine ⟨⟨.one trivial, ht.moved trivial hr ⟨_, hget, hlh⟩ ?_ (by rw [hst]) (by rw [hst]), by rw [hst], by rw [hst]⟩, ?_, ?_⟩
  · rw [hcli]
    exact ht.kept.more (u := [.took h (.data i d)]) rfl (by simp)
  · rw [hcli]; simp [Tunnel.emit, Tunnel.setChan]
  · rw [hcli]; rfl

theorem Takes.chan (ht : Takes cfg n m k h i vin inp w) :
    ∃ w', Bwd cfg n m k h i vin inp w w' ∧ (w'.cli.chan h).q = [] ∧ w'.cli.outq = w.cli.outq := by
  generalize hq : (w.cli.chan h).q = q
  induction q generalizing w with
  | nil => exact ⟨w, .refl ht, hq, rfl⟩
  | cons f q ih =>
    obtain ⟨h1, h2, h3⟩ := ht.take1 hq
    obtain ⟨w', h4, h5, h6⟩ := ih h1.takes h2
    exact ⟨w', h1.trans h4, h5, h6.trans h3⟩

theorem Ready.arrivesC (h : Ready cfg n m k i vin inp w) :
    arrived w.cli.trace ++ w.down <+: (accepted w.srv.trace).flatMap wire ++ [] := by
  obtain ⟨es, he⟩ := h.base.srv
  rw [List.append_nil, h.base.down, he]
  exact (Tunnel.C15_server_order cfg.server es).1

theorem Takes.byte (ht : Takes cfg n m k h i vin inp w) {b bs} (hd : w.down = b :: bs) (ho : w.cli.outq = [])
    (hq : (w.cli.chan h).q = []) :
    Path cfg w (step cfg w (.cli (.read 1))) ∧ Takes cfg n m k h i vin inp (step cfg w (.cli (.read 1))) ∧
    (step cfg w (.cli (.read 1))).down = bs := by
  have hi := ht.ready.cliIdle
  have hst : step cfg w (.cli (.read 1)) = { w with
      cli := Tunnel.clientStep cfg.client w.cli (.read [b])
      down := bs
      up := w.up ++ [] } := by
    simp only [step, loopStep, hd]
    rw [if_pos ⟨ht.ready.cli, hi.1, by simp⟩]
    rfl
  obtain ⟨es, he⟩ := ht.ready.base.cli
  have hroom := byte_room cfg.client (nilStream ht.ready.fit.server) es (b := b) (h := h) (P := fun f => ∃ d, f = .data i d)
    (by
      refine List.IsPrefix.trans ?_ ht.ready.arrivesC
      rw [← he, hd]
      exact ⟨bs, by simp⟩)
    (he ▸ ht.ready.cli) (fun u p => ht.ready.noToken ht.noLogins u p) (he ▸ ht.kept) (he ▸ ho) (fun _ => he ▸ hq)
  rw [← he] at hroom
  have hr : Ready cfg n m k i vin inp (step cfg w (.cli (.read 1))) :=
    ht.ready.next trivial (by rw [hst]; exact ht.ready.vis) (by rw [hst]; exact ht.ready.loc)
      (by rw [hst]; exact ht.ready.srv) (by rw [hst]; exact hroom.1)
  exact ⟨.one trivial, ht.moved trivial hr (by rw [hst]; exact ht.hand) (by rw [hst]; exact hroom.2) (by rw [hst]) (by rw [hst]),
    by rw [hst]⟩

theorem Takes.net (ht : Takes cfg n m k h i vin inp w) :
    ∃ w', Path cfg w w' ∧ Takes cfg n m k h i vin inp w' ∧ w'.down = [] ∧ (w'.cli.chan h).q = [] := by
  generalize hd : w.down = bs
  induction bs generalizing w with
  | nil =>
    obtain ⟨w', h1, h2, _⟩ := ht.chan
    exact ⟨w', h1.path, h1.takes, h1.down.trans hd, h2⟩
  | cons b bs ih =>
    obtain ⟨w1, h1, h2⟩ := ht.outq
    obtain ⟨w2, h3, h4, h5⟩ := h1.takes.chan
    obtain ⟨p, h6, h7⟩ := h3.takes.byte (h3.down.trans (h1.down.trans hd)) (h5.trans h2) h4
    obtain ⟨w', p', h8⟩ := ih h6 h7
    exact ⟨w', ((h1.path.trans h3.path).trans p).trans p', h8⟩

theorem Takes.flush (ht : Takes cfg n m k h i vin inp w) :
    ∃ w', Bwd cfg n m k h i vin inp w w' ∧ w'.cli = w.cli ∧ ∃ l, w'.locals[m]? = some l ∧ l.1.write = [] := by
  obtain ⟨l, hl, hli, hlr, hin⟩ := ht.ready.loc
  obtain ⟨l', hl', hlh⟩ := ht.hand
  rw [hl] at hl'; cases hl'
  by_cases hw : l.1.write = []
  · exact ⟨w, .refl ht, rfl, l, hl, hw⟩
  have htw : (Relay.top l.1).write = l.1.write := by unfold Relay.top; split <;> rfl
  obtain ⟨r', hr'⟩ : ∃ r', r' = Relay.emit (.output (l.1.write.take l.1.write.length))
      { Relay.top l.1 with write := [] } := ⟨_, rfl⟩
  have hr : Relay.step l.1 (.wrote l.1.write.length) = r' := by
    rw [hr']
    unfold Relay.step
    rw [hlr]
    dsimp only
    unfold Relay.branch
    dsimp only
    rw [htw, if_neg hw, List.drop_length]
  have hst : step cfg w (.loc m (.wrote l.1.write.length)) = { w with locals := w.locals.set m (r', l.2) } := by
    simp only [step, hl, relayStep, hr]
  have hget : (step cfg w (.loc m (.wrote l.1.write.length))).locals[m]? = some (r', l.2) := by
    rw [hst]; exact List.getElem?_set_self (List.getElem?_eq_some_iff.1 hl).1
  have tt := top_top l.1
  have t1 : r'.id = i := by rw [hr']; exact tt.2.2.trans hli
  have t2 : r'.phase = .running := by rw [hr']; exact tt.2.1.trans hlr
  have t3 : r'.write = [] := by rw [hr']; rfl
  have t4 : inputs r'.trace = inp := by
    rw [hr']
    show inputs ((Relay.top l.1).trace ++ [_]) = inp
    rw [top_trace, ← hin]
    simp [inputs]
  have hrd : Ready cfg n m k i vin inp (step cfg w (.loc m (.wrote l.1.write.length))) :=
    ht.ready.next trivial (by rw [hst]; exact ht.ready.vis) ⟨_, hget, t1, t2, t4⟩ (by rw [hst]; exact ht.ready.srv)
      (by rw [hst]; exact ht.ready.cli)
  exact ⟨_, ⟨.one (e := .loc m (.wrote l.1.write.length)) trivial, ht.moved trivial hrd ⟨_, hget, hlh⟩
    (by rw [hst]; exact ht.kept) (by rw [hst]) (by rw [hst]), by rw [hst], by rw [hst]⟩, by rw [hst], _, hget, t3⟩

/-! ### the open request stays in front -/

theorem path_accepted {w w'} (hb : Base cfg w) (hp : Path cfg w w') : accepted w.srv.trace <+: accepted w'.srv.trace := by
  obtain ⟨es, hes, rfl⟩ := hp
  clear hes
  induction es generalizing w with
  | nil => exact List.prefix_refl _
  | cons e es ih =>
    exact ((step_one cfg w e hb).1.accepted (steps_server cfg.server)).trans (ih (base_step cfg w e hb))

theorem announced_more {i} {fs gs : List Frame} (ha : Announced i fs) (hc : ∃ x, .create i x ∈ fs) (hp : fs <+: gs) :
    Announced i gs := by
  intro a d b hg
  obtain ⟨r, rfl⟩ := hp
  rcases List.append_eq_append_iff.1 hg with ⟨c, h1, h2⟩ | ⟨c, h1, h2⟩
  · obtain ⟨x, hx⟩ := hc
    exact ⟨x, by rw [h1]; exact List.mem_append.2 (.inl hx)⟩
  · cases c with
    | nil =>
      obtain ⟨x, hx⟩ := hc
      exact ⟨x, by rw [List.append_nil] at h1; rw [← h1]; exact hx⟩
    | cons y c =>
      simp only [List.cons_append, List.cons.injEq] at h2
      obtain ⟨h2, _⟩ := h2
      subst h2
      exact ha a d c h1

/-! ### Statement -/

/-- **C158**, partial: whatever has happened so far, while a visitor's connection, the local connection of its stream and
    the tunnel are at work, it takes only the passing on of what is already under way - no further byte from anybody, and
    no end of any connection - until every byte the visitor has sent has been written to the local service, and all of
    them still work. This is proved as long as nothing of the stream has been lost already: none of its data has been
    sent before its open request (C104_overtaken_fails), and none has met a full channel at the client
    (C104_slow_service_fails); both happen. -/
theorem C158_up_partial (cfg : Cfg) (es : List Event) (hn : Normal cfg (run cfg es)) (hno : NoLogins (run cfg es)) (l)
    (hl : l ∈ (run cfg es).locals) (hfree : Free l.1.id (run cfg es))
    (ha : Announced l.1.id (accepted (run cfg es).srv.trace))
    (ho : ∀ d, .overflow l.2 (.data l.1.id d) ∉ (run cfg es).cli.trace) (v) (hv : v ∈ (run cfg es).visitors)
    (hvi : v.relay.id = l.1.id) (hs : (run cfg es).srv.phase = .running) (hc : (run cfg es).cli.phase = .running)
    (hvr : v.relay.phase = .running) (hlr : l.1.phase = .running) :
    ∃ es', (∀ e ∈ es', Carries e) ∧ (run cfg (es ++ es')).srv.phase = .running ∧
      (run cfg (es ++ es')).cli.phase = .running ∧
      ∃ l' ∈ (run cfg (es ++ es')).locals, l'.1.id = l.1.id ∧ l'.1.phase = .running ∧
        outputs l'.1.trace = inputs v.relay.trace := by
  obtain ⟨n, hn'⟩ := List.getElem?_of_mem hv
  obtain ⟨m, hm⟩ := List.getElem?_of_mem hl
  have hb := base_run cfg es
  obtain ⟨hone, hk⟩ := announced_visitor hn hv (hvi ▸ hfree) hl hvi.symm
  rw [hvi] at hone
  have hcreate : ∃ x, .create l.1.id x ∈ accepted (run cfg es).srv.trace := by
    obtain ⟨f, hf, hp⟩ := List.countP_pos_iff.1 (show 0 < creates l.1.id (accepted (run cfg es).srv.trace) by omega)
    cases f with
    | create j x =>
      have : j = l.1.id := by simpa using hp
      exact ⟨x, this ▸ hf⟩
    | _ => cases hp
  obtain ⟨k, hk⟩ := Option.ne_none_iff_exists'.1 hk
  have h0 : Ready cfg n m k l.1.id (inputs v.relay.trace) (inputs l.1.trace) (run cfg es) :=
    ⟨⟨es, rfl⟩, hn, hfree, ⟨v, hn', hvi, hk, hvr, rfl⟩, ⟨l, hm, rfl, hlr, rfl⟩, hs, hc⟩
  obtain ⟨w1, p1, h1, g1, c1, l1⟩ := h0.drainServer
  have hsame : ∀ {w w'}, Path cfg w w' → w'.otherS = w.otherS := by
    intro w w' hp
    obtain ⟨fs, hfs, rfl⟩ := hp
    induction fs generalizing w with
    | nil => rfl
    | cons e fs ih =>
      exact (ih (fun e he => hfs e (List.mem_cons_of_mem _ he))).trans (carries_same (hfs e (by simp))).1
  have t1 : Takes cfg n m k l.2 l.1.id (inputs v.relay.trace) (inputs l.1.trace) w1 :=
    ⟨h1, ⟨l, by rw [l1]; exact hm, rfl⟩, by rw [c1]; rintro _ ⟨d, rfl⟩; exact ho d, by unfold NoLogins; rw [hsame p1]; exact hno, g1⟩
  obtain ⟨w2, p2, t2, d2, q2⟩ := t1.net
  obtain ⟨w3, b3, c3, x, hx, hxw⟩ := t2.flush
  have hpath := (p1.trans p2).trans b3.path
  have hacc := path_accepted hb hpath
  obtain ⟨es', he, hw⟩ := hpath
  have hrun : run cfg (es ++ es') = w3 := by rw [hw, run, List.foldl_append, ← run]
  have t3 := b3.takes
  have hr3 := t3.ready
  refine ⟨es', he, by rw [hrun]; exact hr3.srv, by rw [hrun]; exact hr3.cli, x, by rw [hrun]; exact List.mem_of_getElem? hx, ?_⟩
  obtain ⟨x', hx', y1, y2, y3⟩ := hr3.loc
  rw [hx] at hx'; cases hx'
  obtain ⟨x', hx', z1⟩ := t3.hand
  rw [hx] at hx'; cases hx'
  obtain ⟨v3, hv3, v1, v2, v4, v5⟩ := hr3.vis
  obtain ⟨v3', hv3', g4⟩ := t3.gone.vis
  rw [hv3] at hv3'; cases hv3'
  refine ⟨y1, y2, ?_⟩
  rw [← v5]
  have hi := hr3.cliIdle
  have hset : Settled v3.relay w3.srv w3.down w3.cli x.2 x.1 :=
    ⟨g4, ⟨t3.gone.outq, t3.gone.buf⟩, b3.down.trans d2, ⟨hr3.cli, hi.2.1, hi.1⟩,
      ⟨by rw [z1]; exact t3.rx, by rw [z1, c3]; exact q2⟩, hxw⟩
  have hn3 := hr3.normal
  have hf3 := hr3.free
  have hk3 := t3.kept
  have ha3 := announced_more ha hcreate hacc
  rw [← hrun] at hset hx hv3 hn3 hf3 hk3 ha3
  refine C104_up_all_partial cfg (es ++ es') hn3 x (List.mem_of_getElem? hx) (by rw [y1]; exact hf3) (by rw [y1]; exact ha3)
    ?_ v3 (List.mem_of_getElem? hv3) (v1.trans y1.symm) hset
  intro d
  rw [z1, y1]; exact hk3 _ ⟨d, rfl⟩

/-- a visitor sends eight messages; the server has sent them, the client has read some of them, and the local service has
    taken none -/
def ahead : List Event := hello ++ opening ++ (List.range 8).flatMap (fun n =>
  [.vis 0 (.read [UInt8.ofNat n]), .vis 0 .slot, .srv .recv, .srv (.wrote 1000)]) ++ [.cli (.read 50)] ++
  [.vis 0 (.read [8, 9])]

/-- The hypotheses are met there. -/
example : Normal webCfg (run webCfg ahead) ∧ NoLogins (run webCfg ahead) ∧ (∀ i, Free i (run webCfg ahead)) ∧
    (match accepted (run webCfg ahead).srv.trace with | .create 2 _ :: _ => true | _ => false) = true ∧
    (run webCfg ahead).cli.trace.filter (fun o => match o with | .overflow .. => true | _ => false) = [] ∧
    (run webCfg ahead).srv.phase = .running ∧ (run webCfg ahead).cli.phase = .running ∧
    (run webCfg ahead).visitors.map (fun v => (v.relay.id, v.relay.phase, inputs v.relay.trace)) =
      [(2, .running, [0, 1, 2, 3, 4, 5, 6, 7, 8, 9])] ∧
    (run webCfg ahead).locals.map (fun l => (l.1.id, l.2, l.1.phase, outputs l.1.trace)) = [(2, 0, .running, [])] ∧
    (run webCfg ahead).down.isEmpty = false :=
  ⟨web_normal _ (by decide +kernel) (by decide +kernel) (by decide +kernel),
    (by
      have h1 : (run webCfg ahead).otherS = [] := by decide +kernel
      intro u p hf; rw [h1] at hf; cases hf),
    (by
      have h1 : (run webCfg ahead).otherS = [] := by decide +kernel
      have h2 : (run webCfg ahead).otherC = [] := by decide +kernel
      intro i f hf; rw [h1, h2] at hf; cases hf), by decide +kernel⟩

end Wm.World
