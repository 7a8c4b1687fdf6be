import Verif.Proofs.WorldDrain
import Verif.Proofs.TunnelHeld
/-!
Property C157: the tunnel never reaches a state from which the answer of a local service can no longer be brought to
its visitor.
-/
namespace Wm.World
open Wm Wm.Prot
open scoped List
open Wm.Tunnel (datas creates regCount openCount gots received submissions accepted relayed written arrived InnerL heads
  LoggedIn streamCap)
open Wm.Relay (inputs outputs)

/-! ### What is required -/

/-- The step only passes on what is under way: a loop takes a message, writes or reads bytes; a task takes a message,
    writes bytes, hands a message over, or lets go of its channel after its end. Nobody sends anything new, opens or ends
    a connection, and nothing fails. -/
def Carries : Event → Prop
  | .srv .recv | .srv (.wrote _) | .srv (.read _) | .cli .recv | .cli (.wrote _) | .cli (.read _) => True
  | .otherS (.take _) | .otherC (.take _) => True
  | .vis _ .recv | .vis _ (.wrote _) | .vis _ .slot | .vis _ .drop => True
  | .loc _ .recv | .loc _ (.wrote _) | .loc _ .slot | .loc _ .drop => True
  | _ => False

/-! ### Proof -/

/-- everything that stays as it is while the stream of visitor `n` and local connection `m` is drained -/
structure Ready (cfg : Cfg) (n m k i : Nat) (vin inp : Bytes) (w : St) : Prop where
  reach : ∃ es, w = run cfg es
  normal : Normal cfg w
  free : Free i w
  vis : ∃ v, w.visitors[n]? = some v ∧ v.relay.id = i ∧ v.handle = some k ∧ v.relay.phase = .running ∧
    inputs v.relay.trace = vin
  loc : ∃ l, w.locals[m]? = some l ∧ l.1.id = i ∧ l.1.phase = .running ∧ inputs l.1.trace = inp
  srv : w.srv.phase = .running
  cli : w.cli.phase = .running

/-- `w'` is reached from `w` by passing on what is under way -/
def Path (cfg : Cfg) (w w' : St) : Prop := ∃ es : List Event, (∀ e ∈ es, Carries e) ∧ w' = es.foldl (step cfg) w

theorem Path.refl (cfg w) : Path cfg w w := ⟨[], by simp, rfl⟩
theorem Path.trans {cfg a b c} (h1 : Path cfg a b) (h2 : Path cfg b c) : Path cfg a c := by
  obtain ⟨e1, h1, rfl⟩ := h1
  obtain ⟨e2, h2, rfl⟩ := h2
  refine ⟨e1 ++ e2, fun e he => ?_, by rw [List.foldl_append]⟩
  rcases List.mem_append.1 he with he | he
  · exact h1 e he
  · exact h2 e he
theorem Path.one {cfg w e} (h : Carries e) : Path cfg w (step cfg w e) := ⟨[e], by simpa using h, rfl⟩

theorem carries_same {cfg w e} (h : Carries e) : (step cfg w e).otherS = w.otherS ∧ (step cfg w e).otherC = w.otherC ∧
    (step cfg w e).used = w.used := by
  cases e with
  | accept => exact h.elim
  | visit => exact h.elim
  | work => exact h.elim
  | start => exact h.elim
  | srv e => exact ⟨rfl, rfl, rfl⟩
  | cli e => exact ⟨rfl, rfl, rfl⟩
  | otherS e => cases e <;> first | exact h.elim | exact ⟨List.append_nil _, rfl, rfl⟩
  | otherC e => cases e <;> first | exact h.elim | exact ⟨rfl, List.append_nil _, rfl⟩
  | vis n e =>
    simp only [step]
    split <;> simp
  | loc n e =>
    simp only [step]
    split <;> simp

theorem Ready.next {cfg n m k i vin inp w} (h : Ready cfg n m k i vin inp w) {e} (he : Carries e)
    (hv : ∃ v, (step cfg w e).visitors[n]? = some v ∧ v.relay.id = i ∧ v.handle = some k ∧ v.relay.phase = .running ∧
      inputs v.relay.trace = vin)
    (hl : ∃ l, (step cfg w e).locals[m]? = some l ∧ l.1.id = i ∧ l.1.phase = .running ∧ inputs l.1.trace = inp)
    (hs : (step cfg w e).srv.phase = .running) (hc : (step cfg w e).cli.phase = .running) :
    Ready cfg n m k i vin inp (step cfg w e) := by
  obtain ⟨es, rfl⟩ := h.reach
  obtain ⟨c1, c2, c3⟩ := carries_same (cfg := cfg) (w := run cfg es) he
  refine ⟨⟨es ++ [e], (run_snoc cfg es e).symm⟩, ⟨h.normal.serverId, h.normal.introduction, ?_, ?_⟩, ?_, hv, hl, hs, hc⟩
  · rw [c1, c2]; exact h.normal.others
  · rw [c3]; exact h.normal.used
  · unfold Free; rw [c1, c2]; exact h.free

variable {cfg : Cfg} {n m k i : Nat} {vin inp : Bytes} {w : St}

theorem nilStream {fs : List Frame} (h : ∀ f ∈ fs, Fits f) : Tunnel.Stream fs [] := ⟨h, by
  intro p hp hc
  rw [List.prefix_nil.1 hp] at hc
  simp [Complete, announced] at hc⟩

theorem Ready.base (h : Ready cfg n m k i vin inp w) : Base cfg w := by
  obtain ⟨es, rfl⟩ := h.reach; exact base_run cfg es

theorem Ready.fit (h : Ready cfg n m k i vin inp w) : Fit w := by
  obtain ⟨es, rfl⟩ := h.reach; exact h.normal.fit

theorem Ready.arrives (h : Ready cfg n m k i vin inp w) :
    arrived w.srv.trace ++ w.up <+: (accepted w.cli.trace).flatMap wire ++ [] := by
  obtain ⟨es, he⟩ := h.base.cli
  rw [List.append_nil, h.base.up, he]
  exact (Tunnel.C15_client_order cfg.client [] es).1

/-- the client's loop has decoded all it can, and waits for nobody -/
theorem Ready.cliIdle (h : Ready cfg n m k i vin inp w) :
    w.cli.pending = none ∧ w.cli.readyShutdown = false ∧ ¬ Complete w.cli.readBuf := by
  obtain ⟨es, he⟩ := h.base.cli
  have h1 := Tunnel.client_never_waits cfg.client [] es
  have h2 := Tunnel.client_not_ready cfg.client [] es
  rw [← he] at h1 h2
  refine ⟨h1, h2, ?_⟩
  have h3 := (Tunnel.client_at (nilStream h.fit.server) cfg.client [] es).2
  rw [← he] at h3
  refine h3 ?_ ⟨h.cli, h2, h1⟩
  obtain ⟨es', he'⟩ := h.base.srv
  rw [List.append_nil]
  refine List.IsPrefix.trans ⟨w.down, h.base.down⟩ ?_
  rw [he']
  exact (Tunnel.C15_server_order cfg.server es').1

theorem Ready.srvOpen (h : Ready cfg n m k i vin inp w) : w.srv.readyShutdown = false := by
  obtain ⟨v, hv, _⟩ := h.vis
  obtain ⟨es, rfl⟩ := h.reach
  have h1 := (opens_run cfg es).login (List.ne_nil_of_mem (List.mem_of_getElem? hv))
  obtain ⟨es', he⟩ := (base_run cfg es).srv
  rw [he] at h1 ⊢
  exact Tunnel.loggedIn_open cfg.server es' h1

theorem Ready.rx (h : Ready cfg n m k i vin inp w) : (w.srv.chan k).rx = true := by
  obtain ⟨v, hv, _, h1, h2, _⟩ := h.vis
  obtain ⟨es, rfl⟩ := h.reach
  exact (opens_run cfg es).rx v (List.mem_of_getElem? hv) k h1 h2

/-- only data waits for the visitor -/
theorem Ready.onlyData (h : Ready cfg n m k i vin inp w) {f} (hf : f ∈ (w.srv.chan k).q) : ∃ d, f = .data i d := by
  have hrx := h.rx
  obtain ⟨v, hv, hvi, hvk, _⟩ := h.vis
  obtain ⟨l, hl, hli, hlr, _⟩ := h.loc
  have hr := h.srv
  have hn := h.normal
  have hfree := h.free
  obtain ⟨es, rfl⟩ := h.reach
  have hvm := List.mem_of_getElem? hv
  have hlm := List.mem_of_getElem? hl
  have hb := base_run cfg es
  have hfit := hn.fit
  have hg := guests_run cfg es
  have hown := hfree.own hn
  have hid := visitor_id hg hn.used hvm
  have hh := hosts_run cfg es
  have hcs := (causes_run cfg es i hown).client
  have hs := side_run cfg es i hown
  have hmeet := meets_run cfg es i hown hfit
  generalize run cfg es = w at *
  have hle := seen_client_creates hb hfit i
  rw [hvi] at hid
  obtain ⟨t1, rest, ht, _, _⟩ := (hmeet v hvm hvi k hvk).met
  obtain ⟨es', he⟩ := hb.srv
  have hreg : Tunnel.Obs.reg i k ∈ w.srv.trace := by rw [ht]; simp
  have hgot : f ∈ gots w.srv.trace ∧ ((∃ j d, f = .data j d) ∨ ∃ j t, f = .close j t) ∧
      ∃ t1 t2, w.srv.trace = t1 ++ .got f :: t2 ∧ Tunnel.owner t1 f.sockMap = some k := by
    rw [he] at hf hr hrx ⊢
    have hD := (Tunnel.server_inv cfg.server es').1.1
    have h1 : f ∈ Tunnel.puts k (Tunnel.serverRun cfg.server es').trace := by
      rw [← (hD.1.open_ k hrx).1]; simp [hf]
    rcases Tunnel.routed hD (Tunnel.puts_sublist k _ f h1) with ⟨p, q, hpq, ha, ho⟩ | ⟨p, q, _, hpq, _⟩
    · refine ⟨by rw [hpq, Tunnel.gots_append', Tunnel.gots_cons]; simp [gots], ?_, p, q, hpq, ho⟩
      cases f <;> simp [Tunnel.serverAccepts] at ha ⊢
    · exact absurd (by rw [hpq]; simp) (Tunnel.server_whole cfg.server es' hr)
  obtain ⟨hgot, hkind, p, q, hpq, ho⟩ := hgot
  have hsock : f.sockMap = i := by
    have hreg2 : Tunnel.Obs.reg f.sockMap k ∈ w.srv.trace := by
      rw [hpq]; exact List.mem_append.2 (.inl (Tunnel.owner_mem ho))
    rw [he] at hreg hreg2
    have h1 := ((Tunnel.server_inv cfg.server es').2.1.regs _ _ hreg).1
    have h2 := ((Tunnel.server_inv cfg.server es').2.1.regs _ _ hreg2).1
    rw [h1] at h2
    exact (Option.some.inj h2).symm
  rcases hkind with ⟨j, d, rfl⟩ | ⟨j, t, rfl⟩
  · exact ⟨d, by rw [show j = i from hsock]⟩
  · exfalso
    rw [show j = i from hsock] at hgot
    have hacc : .close i t ∈ accepted w.cli.trace := by
      have h1 := (seen_server hb hfit).subset hgot
      obtain ⟨y, hy, hy2⟩ := List.mem_map.1 h1
      rw [← close_asReceived hy2]; exact hy
    rcases client_mine hb.cli _ hacc with h1 | h1 | ⟨j, d, h1⟩
    · rcases hcs t h1 with ⟨r, hr1, h2, h3⟩ | h2
      · obtain ⟨m', hm'⟩ := List.getElem?_of_mem hr1
        have hm : (w.locals.map (·.1))[m]? = some l.1 := by simp [hl]
        have := uniq_locals hb hfit hh hs m' m r l.1 hm' hm h2 hli
        subst this
        rw [hm] at hm'
        rw [← Option.some.inj hm', hlr] at h3; cases h3
      · have := connects_open (hli ▸ hh.conn l hlm)
        have := hs.one
        omega
    · exact hid h1
    · cases h1

/-! #### the client hands everything to the connection -/

theorem Ready.cliRecv (h : Ready cfg n m k i vin inp w) {f q} (hq : w.cli.outq = f :: q) :
    Ready cfg n m k i vin inp (step cfg w (.cli .recv)) ∧ (step cfg w (.cli .recv)).cli.outq = q ∧
    (step cfg w (.cli .recv)).locals = w.locals := by
  have hi := h.cliIdle
  have he : (step cfg w (.cli .recv)).cli = Tunnel.enqueue f { w.cli with outq := q } true := by
    show Tunnel.clientStep cfg.client w.cli .recv = _
    unfold Tunnel.clientStep Tunnel.step
    dsimp only
    rw [if_pos ⟨h.cli, hi.1⟩, hq]
    exact Tunnel.resume_idle fun _ => hi.2.2
  refine ⟨h.next trivial h.vis h.loc h.srv ?_, ?_, rfl⟩
  · rw [he]; exact h.cli
  · rw [he]; rfl

theorem Ready.drainOut (h : Ready cfg n m k i vin inp w) :
    ∃ w', Path cfg w w' ∧ Ready cfg n m k i vin inp w' ∧ w'.cli.outq = [] ∧ w'.locals = w.locals := by
  generalize hq : w.cli.outq = q
  induction q generalizing w with
  | nil => exact ⟨w, .refl cfg w, h, hq, rfl⟩
  | cons f q ih =>
    obtain ⟨h1, h2, h3⟩ := h.cliRecv hq
    obtain ⟨w', p, h4, h5, h6⟩ := ih h1 h2
    exact ⟨w', (Path.one (e := .cli .recv) trivial).trans p, h4, h5, h6.trans h3⟩

theorem top_top (r : Relay.St) : (Relay.top r).read = [] ∧ (Relay.top r).phase = r.phase ∧ (Relay.top r).id = r.id := by
  unfold Relay.top
  split
  · exact ⟨by assumption, rfl, rfl⟩
  · exact ⟨rfl, rfl, rfl⟩

theorem top_link_nil {r : Relay.St} (h : (Relay.top r).link = []) : r.read = [] ∧ r.link = [] := by
  unfold Relay.top at h
  split at h
  · exact ⟨by assumption, h⟩
  · simp at h

theorem Ready.locSlot (h : Ready cfg n m k i vin inp w) {l} (hl : w.locals[m]? = some l) {f tl}
    (ht : (Relay.top l.1).link = f :: tl) (ho : w.cli.outq = []) :
    Ready cfg n m k i vin inp (step cfg w (.loc m .slot)) ∧
    ∃ l', (step cfg w (.loc m .slot)).locals[m]? = some l' ∧ (Relay.top l'.1).link = tl := by
  obtain ⟨l', hl', hli, hlr, hin⟩ := h.loc
  rw [hl] at hl'
  cases hl'
  have halive : l.1.alive = true := by
    obtain ⟨es, rfl⟩ := h.reach
    cases ha : l.1.alive with
    | true => rfl
    | false =>
      exact absurd h.cli ((passed_run cfg es).client.alive l.1 (List.mem_map.2 ⟨l, List.mem_of_getElem? hl, rfl⟩) ha)
  have hoff : offer l.1 = some f := by
    unfold offer
    rw [if_pos halive, hlr]
    simp [ht]
  have hr : Relay.step l.1 .slot = Relay.emit (.sent f) { Relay.top l.1 with link := tl } := by
    unfold Relay.step
    rw [hlr]
    dsimp only
    unfold Relay.branch
    dsimp only
    rw [ht]
    dsimp only
    rw [top_alive, if_pos halive]
  have he : relayStep (Tunnel.clientStep cfg.client) false w.cli l.1 (some l.2) .slot =
      (Tunnel.clientStep cfg.client w.cli (.submit f), Relay.emit (.sent f) { Relay.top l.1 with link := tl }) := by
    unfold relayStep
    dsimp only
    rw [if_pos h.cli, hoff]
    dsimp only
    rw [if_pos (by rw [ho]; decide), hr]
  have hst : step cfg w (.loc m .slot) = { w with
      cli := Tunnel.clientStep cfg.client w.cli (.submit f)
      locals := w.locals.set m (Relay.emit (.sent f) { Relay.top l.1 with link := tl }, l.2) } := by
    simp only [step, hl, he]
  have hlt := (List.getElem?_eq_some_iff.1 hl).1
  have hget : (step cfg w (.loc m .slot)).locals[m]? = some (Relay.emit (.sent f) { Relay.top l.1 with link := tl }, l.2) := by
    rw [hst]; exact List.getElem?_set_self hlt
  have tt := top_top l.1
  refine ⟨h.next trivial ?_ ⟨_, hget, tt.2.2.trans hli, tt.2.1.trans hlr, ?_⟩ ?_ ?_, _, hget, ?_⟩
  · rw [hst]; exact h.vis
  · show inputs ((Relay.top l.1).trace ++ [.sent f]) = inp
    rw [top_trace, ← hin]
    simp [inputs]
  · rw [hst]; exact h.srv
  · rw [hst]
    show (Tunnel.clientStep cfg.client w.cli (.submit f)).phase = .running
    unfold Tunnel.clientStep Tunnel.step
    dsimp only
    split <;> exact h.cli
  · have hid : ∀ r : Relay.St, r.read = [] → (Relay.top r).link = r.link := fun r hr => by unfold Relay.top; rw [if_pos hr]
    exact hid _ tt.1

theorem Ready.drainLocal (h : Ready cfg n m k i vin inp w) :
    ∃ w', Path cfg w w' ∧ Ready cfg n m k i vin inp w' ∧ w'.cli.outq = [] ∧
      ∃ l, w'.locals[m]? = some l ∧ l.1.read = [] ∧ l.1.link = [] := by
  obtain ⟨l, hl, _⟩ := h.loc
  generalize hq : (Relay.top l.1).link = q
  induction q generalizing w l with
  | nil =>
    obtain ⟨w', p, h1, h2, h3⟩ := h.drainOut
    exact ⟨w', p, h1, h2, l, by rw [h3]; exact hl, top_link_nil hq⟩
  | cons f q ih =>
    obtain ⟨w1, p1, h1, h2, h3⟩ := h.drainOut
    obtain ⟨h4, l', h5, h6⟩ := h1.locSlot (by rw [h3]; exact hl) hq h2
    obtain ⟨_, h7, h8⟩ := h4.loc
    rw [h5] at h7; cases h7
    obtain ⟨w', p, h9⟩ := ih h4 l' h5 h8 h6
    exact ⟨w', p1.trans ((Path.one (e := .loc m .slot) trivial).trans p), h9⟩

/-- everything of the local connection has left the client -/
def Sent (m : Nat) (w : St) : Prop :=
  w.cli.outq = [] ∧ w.cli.writeBuf = [] ∧ ∃ l, w.locals[m]? = some l ∧ l.1.read = [] ∧ l.1.link = []

theorem Sent.same {m w w'} (h : Sent m w) (h1 : w'.cli = w.cli) (h2 : w'.locals = w.locals) : Sent m w' := by
  unfold Sent; rw [h1, h2]; exact h

theorem Ready.drainClient (h : Ready cfg n m k i vin inp w) :
    ∃ w', Path cfg w w' ∧ Ready cfg n m k i vin inp w' ∧ Sent m w' := by
  obtain ⟨w1, p1, h1, h2, l, h3⟩ := h.drainLocal
  by_cases hw : w1.cli.writeBuf = []
  · exact ⟨w1, p1, h1, h2, hw, l, h3⟩
  have hi := h1.cliIdle
  have he : (step cfg w1 (.cli (.wrote w1.cli.writeBuf.length))).cli =
      Tunnel.emit (.wrote (w1.cli.writeBuf.take w1.cli.writeBuf.length))
        { w1.cli with writeBuf := w1.cli.writeBuf.drop w1.cli.writeBuf.length } := by
    show Tunnel.clientStep cfg.client w1.cli (.wrote _) = _
    unfold Tunnel.clientStep Tunnel.step
    dsimp only
    rw [if_pos ⟨h1.cli, hi.1⟩, if_neg hw, if_neg]
    · exact Tunnel.resume_idle fun _ => hi.2.2
    · intro hc
      have : w1.cli.readyShutdown = true := hc.2
      rw [hi.2.1] at this
      cases this
  refine ⟨step cfg w1 (.cli (.wrote w1.cli.writeBuf.length)), p1.trans (.one trivial),
    h1.next trivial h1.vis h1.loc h1.srv (by rw [he]; exact h1.cli), ?_, ?_, l, h3⟩
  · rw [he]; exact h2
  · rw [he]; exact List.drop_length

/-! #### the server takes everything from the connection -/

theorem recv_data {r : Relay.St} (h : r.phase = .running) (j d) :
    (Relay.step r (.recv (some (.data j d)))).phase = .running := by
  unfold Relay.step
  rw [h]
  show (Relay.top r).phase = .running
  rw [(top_top r).2.1, h]

theorem recv_inputs {r : Relay.St} (h : r.phase = .running) (f) :
    inputs (Relay.step r (.recv (some f))).trace = inputs r.trace := by
  have ht := top_trace r
  simp only [Relay.step, h, Relay.branch]
  cases f <;> simp [Relay.emit, inputs, ht]

/-- a step of the server's side alone -/
structure Fwd (cfg : Cfg) (n m k i : Nat) (vin inp : Bytes) (w w' : St) : Prop where
  path : Path cfg w w'
  ready : Ready cfg n m k i vin inp w'
  cli : w'.cli = w.cli
  locals : w'.locals = w.locals
  up : w'.up = w.up

theorem Fwd.refl (h : Ready cfg n m k i vin inp w) : Fwd cfg n m k i vin inp w w := ⟨.refl cfg w, h, rfl, rfl, rfl⟩
theorem Fwd.trans {a b c} (h1 : Fwd cfg n m k i vin inp a b) (h2 : Fwd cfg n m k i vin inp b c) : Fwd cfg n m k i vin inp a c :=
  ⟨h1.path.trans h2.path, h2.ready, h2.cli.trans h1.cli, h2.locals.trans h1.locals, h2.up.trans h1.up⟩

/-- visitor `j` takes a message -/
theorem Ready.visRecv (h : Ready cfg n m k i vin inp w) {j v hh} (hv : w.visitors[j]? = some v) (hvh : v.handle = some hh)
    (hvr : v.relay.phase = .running) {f q} (hq : (w.srv.chan hh).q = f :: q) (hrx : (w.srv.chan hh).rx = true)
    (hrun : (Tunnel.serverStep cfg.server w.srv (.take hh)).phase = .running) :
    Fwd cfg n m k i vin inp w (step cfg w (.vis j .recv)) ∧
    (step cfg w (.vis j .recv)).srv = Tunnel.serverStep cfg.server w.srv (.take hh) := by
  have he : relayStep (Tunnel.serverStep cfg.server) true w.srv v.relay v.handle .recv =
      (Tunnel.serverStep cfg.server w.srv (.take hh), Relay.step v.relay (.recv (some f))) := by
    unfold relayStep
    dsimp only
    rw [if_pos hvr, hvh]
    dsimp only
    rw [hq]
    dsimp only
    rw [if_pos hrx]
  have hst : step cfg w (.vis j .recv) = { w with
      srv := Tunnel.serverStep cfg.server w.srv (.take hh)
      visitors := w.visitors.set j { v with relay := Relay.step v.relay (.recv (some f)) } } := by
    simp only [step, hv, he]
  have hvis : ∃ x, (step cfg w (.vis j .recv)).visitors[n]? = some x ∧ x.relay.id = i ∧ x.handle = some k ∧
      x.relay.phase = .running ∧ inputs x.relay.trace = vin := by
    obtain ⟨x, hx, x1, x2, x3, x4⟩ := h.vis
    rw [hst]
    by_cases hj : j = n
    · subst hj
      rw [hv] at hx; cases hx
      rw [hvh] at x2; cases x2
      obtain ⟨d, rfl⟩ := h.onlyData (f := f) (by rw [hq]; simp)
      exact ⟨_, List.getElem?_set_self (List.getElem?_eq_some_iff.1 hv).1, (Relay.step_id _ _).trans x1, hvh,
        recv_data hvr _ _, (recv_inputs hvr _).trans x4⟩
    · exact ⟨x, by dsimp only; rw [List.getElem?_set_ne hj]; exact hx, x1, x2, x3, x4⟩
  refine ⟨⟨.one trivial, h.next trivial hvis (by rw [hst]; exact h.loc) (by rw [hst]; exact hrun) (by rw [hst]; exact h.cli),
    by rw [hst], by rw [hst], by rw [hst]⟩, by rw [hst]⟩

theorem Ready.visDrop (h : Ready cfg n m k i vin inp w) {j v hh} (hv : w.visitors[j]? = some v) (hvh : v.handle = some hh)
    (hvr : v.relay.phase ≠ .running) (hrun : (Tunnel.serverStep cfg.server w.srv (.dropRx hh)).phase = .running) :
    Fwd cfg n m k i vin inp w (step cfg w (.vis j .drop)) ∧
    (step cfg w (.vis j .drop)).srv = Tunnel.serverStep cfg.server w.srv (.dropRx hh) := by
  have he : relayStep (Tunnel.serverStep cfg.server) true w.srv v.relay v.handle .drop =
      (Tunnel.serverStep cfg.server w.srv (.dropRx hh), v.relay) := by
    unfold relayStep
    dsimp only
    rw [hvh]
    dsimp only
    rw [if_neg hvr]
  have hst : step cfg w (.vis j .drop) = { w with
      srv := Tunnel.serverStep cfg.server w.srv (.dropRx hh)
      visitors := w.visitors.set j { v with relay := v.relay } } := by
    simp only [step, hv, he]
  have hset : w.visitors.set j { v with relay := v.relay } = w.visitors := by
    obtain ⟨hlt, hget⟩ := List.getElem?_eq_some_iff.1 hv
    show w.visitors.set j v = w.visitors
    rw [← hget]; exact List.set_getElem_self hlt
  rw [hset] at hst
  refine ⟨⟨.one trivial, h.next trivial (by rw [hst]; exact h.vis) (by rw [hst]; exact h.loc) (by rw [hst]; exact hrun)
    (by rw [hst]; exact h.cli), by rw [hst], by rw [hst], by rw [hst]⟩, by rw [hst]⟩

theorem Ready.otherTake (h : Ready cfg n m k i vin inp w) {hh} (hm : hh ∉ w.visitors.filterMap (·.handle))
    (hrun : (Tunnel.serverStep cfg.server w.srv (.take hh)).phase = .running) :
    Fwd cfg n m k i vin inp w (step cfg w (.otherS (.take hh))) ∧
    (step cfg w (.otherS (.take hh))).srv = Tunnel.serverStep cfg.server w.srv (.take hh) := by
  have hsrv : (step cfg w (.otherS (.take hh))).srv = Tunnel.serverStep cfg.server w.srv (.take hh) := by
    show otherStep _ _ _ (.take hh) = _
    unfold otherStep
    dsimp only
    rw [if_neg hm]
  exact ⟨⟨.one trivial, h.next trivial h.vis h.loc (by rw [hsrv]; exact hrun) h.cli, rfl, rfl, rfl⟩, hsrv⟩

theorem Ready.unblock1 (h : Ready cfg n m k i vin inp w) {hh f} (hp : w.srv.pending = some (hh, f)) :
    ∃ w', Fwd cfg n m k i vin inp w w' ∧ (w'.srv.pending = none ∨ w'.srv.readBuf.length < w.srv.readBuf.length) := by
  obtain ⟨es, he⟩ := h.base.srv
  have hS := nilStream h.fit.client
  have ha := (List.prefix_append _ _).trans h.arrives
  have hr := h.srv
  have hw := Tunnel.server_waits cfg.server es
  rw [← he] at hw
  obtain ⟨w1, w2⟩ := hw hh f hp
  have ht := Tunnel.unblock_take cfg.server hS es (he ▸ ha) (he ▸ hr) (he ▸ hp)
  have hd := Tunnel.unblock_drop cfg.server hS es (he ▸ ha) (he ▸ hr) (he ▸ hp)
  rw [← he] at ht hd
  by_cases hm : hh ∈ w.visitors.filterMap (·.handle)
  · obtain ⟨v, hv, hvh⟩ := List.mem_filterMap.1 hm
    obtain ⟨j, hj⟩ := List.getElem?_of_mem hv
    by_cases hvr : v.relay.phase = .running
    · cases hq : (w.srv.chan hh).q with
      | nil => rw [hq] at w2; simp [streamCap] at w2
      | cons g q =>
        obtain ⟨a, b⟩ := h.visRecv hj hvh hvr hq w1 ht.1
        exact ⟨_, a, by rw [b]; exact ht.2⟩
    · obtain ⟨a, b⟩ := h.visDrop hj hvh hvr hd.1
      exact ⟨_, a, by rw [b]; exact hd.2⟩
  · obtain ⟨a, b⟩ := h.otherTake hm ht.1
    exact ⟨_, a, by rw [b]; exact ht.2⟩

theorem Ready.unblock (h : Ready cfg n m k i vin inp w) : ∃ w', Fwd cfg n m k i vin inp w w' ∧ w'.srv.pending = none := by
  induction hl : w.srv.readBuf.length using Nat.strongRecOn generalizing w with
  | ind N ih =>
    subst hl
    cases hp : w.srv.pending with
    | none => exact ⟨w, .refl h, hp⟩
    | some x =>
      obtain ⟨w1, h1, h2⟩ := h.unblock1 (hh := x.1) (f := x.2) hp
      rcases h2 with h2 | h2
      · exact ⟨w1, h1, h2⟩
      · obtain ⟨w2, h3, h4⟩ := ih _ h2 h1.ready rfl
        exact ⟨w2, h1.trans h3, h4⟩

theorem Ready.drainNet (h : Ready cfg n m k i vin inp w) (hs : Sent m w) :
    ∃ w', Path cfg w w' ∧ Ready cfg n m k i vin inp w' ∧ Sent m w' ∧ w'.up = [] ∧ w'.srv.pending = none := by
  obtain ⟨w1, h1, hp⟩ := h.unblock
  have hs1 := hs.same h1.cli h1.locals
  by_cases hu : w1.up = []
  · exact ⟨w1, h1.path, h1.ready, hs1, hu, hp⟩
  have hr1 := h1.ready
  have hst : step cfg w1 (.srv (.read w1.up.length)) = { w1 with
      srv := Tunnel.serverStep cfg.server w1.srv (.read w1.up)
      up := []
      down := w1.down ++ [] } := by
    simp only [step, loopStep]
    rw [if_pos ⟨hr1.srv, hp, by rw [List.take_length]; exact hu⟩]
    simp
  have hrun : (Tunnel.serverStep cfg.server w1.srv (.read w1.up)).phase = .running := by
    obtain ⟨es, he⟩ := hr1.base.srv
    rw [he]
    exact Tunnel.read_runs cfg.server (nilStream hr1.fit.client) es w1.up (by rw [← he]; exact hr1.arrives) (he ▸ hr1.srv)
      (he ▸ hp)
  have h2 : Ready cfg n m k i vin inp (step cfg w1 (.srv (.read w1.up.length))) :=
    hr1.next trivial (by rw [hst]; exact hr1.vis) (by rw [hst]; exact hr1.loc) (by rw [hst]; exact hrun)
      (by rw [hst]; exact hr1.cli)
  obtain ⟨w3, h3, hp3⟩ := h2.unblock
  refine ⟨w3, h1.path.trans ((Path.one (e := .srv (.read w1.up.length)) trivial).trans h3.path), h3.ready, ?_, ?_, hp3⟩
  · exact hs1.same (h3.cli.trans (by rw [hst])) (h3.locals.trans (by rw [hst]))
  · rw [h3.up, hst]

/-! #### the visitor takes everything from the server -/

theorem take_free {H : Tunnel.St → Frame → Tunnel.St × Bool} {we s h f q} (hp : s.pending = none)
    (hq : (s.chan h).q = f :: q) (hr : (s.chan h).rx = true) :
    Tunnel.step H we s (.take h) = Tunnel.emit (.took h f) (Tunnel.setChan h { s.chan h with q := q } s) := by
  unfold Tunnel.step
  dsimp only
  rw [hq]
  dsimp only
  rw [if_pos hr]
  unfold Tunnel.resumePending
  rw [show (Tunnel.emit (.took h f) (Tunnel.setChan h { s.chan h with q := q } s)).pending = none from hp]

theorem Ready.drainChan (h : Ready cfg n m k i vin inp w) (hp : w.srv.pending = none) :
    ∃ w', Fwd cfg n m k i vin inp w w' ∧ w'.srv.pending = none ∧ (w'.srv.chan k).q = [] := by
  generalize hq : (w.srv.chan k).q = q
  induction q generalizing w with
  | nil => exact ⟨w, .refl h, hp, hq⟩
  | cons f q ih =>
    obtain ⟨v, hv, _, hvk, hvr, _⟩ := h.vis
    have ht := take_free (H := Tunnel.serverHandle cfg.server) (we := Tunnel.finish .panicked) hp hq h.rx
    have ht' : Tunnel.serverStep cfg.server w.srv (.take k) = _ := ht
    obtain ⟨h1, h2⟩ := h.visRecv hv hvk hvr hq h.rx (by rw [ht']; exact h.srv)
    rw [ht'] at h2
    obtain ⟨w', h3, h4, h5⟩ := ih h1.ready (by rw [h2]; exact hp) (by rw [h2]; simp [Tunnel.emit, Tunnel.setChan])
    exact ⟨w', h1.trans h3, h4, h5⟩

theorem Ready.flush (h : Ready cfg n m k i vin inp w) :
    ∃ w', Fwd cfg n m k i vin inp w w' ∧ w'.srv = w.srv ∧ ∃ v, w'.visitors[n]? = some v ∧ v.relay.write = [] := by
  obtain ⟨v, hv, hvi, hvk, hvr, hin⟩ := h.vis
  by_cases hw : v.relay.write = []
  · exact ⟨w, .refl h, rfl, v, hv, hw⟩
  have htw : (Relay.top v.relay).write = v.relay.write := by unfold Relay.top; split <;> rfl
  obtain ⟨r', hr'⟩ : ∃ r', r' = Relay.emit (.output (v.relay.write.take v.relay.write.length))
      { Relay.top v.relay with write := [] } := ⟨_, rfl⟩
  have hr : Relay.step v.relay (.wrote v.relay.write.length) = r' := by
    rw [hr']
    unfold Relay.step
    rw [hvr]
    dsimp only
    unfold Relay.branch
    dsimp only
    rw [htw, if_neg hw, List.drop_length]
  have hst : step cfg w (.vis n (.wrote v.relay.write.length)) = { w with
      visitors := w.visitors.set n { v with relay := r' } } := by
    simp only [step, hv, relayStep, hr]
  have hget : (step cfg w (.vis n (.wrote v.relay.write.length))).visitors[n]? = some { v with relay := r' } := by
    rw [hst]; exact List.getElem?_set_self (List.getElem?_eq_some_iff.1 hv).1
  have tt := top_top v.relay
  have t1 : r'.id = i := by rw [hr']; exact tt.2.2.trans hvi
  have t2 : r'.phase = .running := by rw [hr']; exact tt.2.1.trans hvr
  have t3 : r'.write = [] := by rw [hr']; rfl
  have t4 : inputs r'.trace = vin := by
    rw [hr']
    show inputs ((Relay.top v.relay).trace ++ [_]) = vin
    rw [top_trace, ← hin]
    simp [inputs]
  refine ⟨_, ⟨.one (e := .vis n (.wrote v.relay.write.length)) trivial, h.next trivial
    ⟨_, hget, t1, hvk, t2, t4⟩ (by rw [hst]; exact h.loc) (by rw [hst]; exact h.srv)
    (by rw [hst]; exact h.cli), by rw [hst], by rw [hst], by rw [hst]⟩, by rw [hst], _, hget, t3⟩

/-- a visitor with a local connection has been announced to the client, and its stream has a channel -/
theorem announced_visitor {cfg es} (hn : Normal cfg (run cfg es)) {v} (hv : v ∈ (run cfg es).visitors)
    (hfree : Free v.relay.id (run cfg es)) {l} (hl : l ∈ (run cfg es).locals) (hli : l.1.id = v.relay.id) :
    1 ≤ creates v.relay.id (accepted (run cfg es).srv.trace) ∧ v.handle ≠ none := by
  have hone : 1 ≤ creates v.relay.id (accepted (run cfg es).srv.trace) := by
    have h1 := connects_open (hli ▸ (hosts_run cfg es).conn l hl)
    have h2 := (hosts_run cfg es).opens v.relay.id
    have h3 := seen_client_creates (base_run cfg es) hn.fit v.relay.id
    omega
  refine ⟨hone, fun hk => ?_⟩
  obtain ⟨n, hn'⟩ := List.getElem?_of_mem hv
  have := (side_run cfg es v.relay.id (hfree.own hn)).zero fun x hx hxi => by
    obtain ⟨j, hj⟩ := List.getElem?_of_mem hx
    have := uniq_visitors (guests_run cfg es) (by have := hn.used; omega) (i := v.relay.id) j n x.relay v.relay
      (by rw [List.getElem?_map, hj]; rfl) (by rw [List.getElem?_map, hn']; rfl) hxi rfl
    subst this
    rw [hn'] at hj; cases hj; exact hk
  omega

/-! ### Statement -/

/-- **C157** (to the visitor): whatever has happened so far, while a visitor's connection, the local connection of its
    stream and the tunnel are at work, it takes only the passing on of what is already under way - no further byte from
    anybody, and no end of any connection - until every byte the local service has sent has been written to the visitor,
    and all of them still work. In particular the tunnel never blocks for good, and nothing on the way is lost. -/
theorem C157_down (cfg : Cfg) (es : List Event) (hn : Normal cfg (run cfg es)) (v) (hv : v ∈ (run cfg es).visitors)
    (hfree : Free v.relay.id (run cfg es)) (l) (hl : l ∈ (run cfg es).locals) (hli : l.1.id = v.relay.id)
    (hs : (run cfg es).srv.phase = .running) (hc : (run cfg es).cli.phase = .running)
    (hvr : v.relay.phase = .running) (hlr : l.1.phase = .running) :
    ∃ es', (∀ e ∈ es', Carries e) ∧ (run cfg (es ++ es')).srv.phase = .running ∧
      (run cfg (es ++ es')).cli.phase = .running ∧
      ∃ v' ∈ (run cfg (es ++ es')).visitors, v'.relay.id = v.relay.id ∧ v'.relay.phase = .running ∧
        outputs v'.relay.trace = inputs l.1.trace := by
  obtain ⟨n, hn'⟩ := List.getElem?_of_mem hv
  obtain ⟨m, hm⟩ := List.getElem?_of_mem hl
  obtain ⟨k, hk⟩ := Option.ne_none_iff_exists'.1 (announced_visitor hn hv hfree hl hli).2
  have h0 : Ready cfg n m k v.relay.id (inputs v.relay.trace) (inputs l.1.trace) (run cfg es) :=
    ⟨⟨es, rfl⟩, hn, hfree, ⟨v, hn', rfl, hk, hvr, rfl⟩, ⟨l, hm, hli, hlr, rfl⟩, hs, hc⟩
  obtain ⟨w1, p1, h1, s1⟩ := h0.drainClient
  obtain ⟨w2, p2, h2, s2, u2, q2⟩ := h1.drainNet s1
  obtain ⟨w3, f3, q3, c3⟩ := h2.drainChan q2
  obtain ⟨w4, f4, e4, x, hx, hxw⟩ := f3.ready.flush
  obtain ⟨es', he, hw⟩ := ((p1.trans p2).trans f3.path).trans f4.path
  have hrun : run cfg (es ++ es') = w4 := by rw [hw, run, List.foldl_append, ← run]
  have h4 := f4.ready
  have s4 := (s2.same f3.cli f3.locals).same f4.cli f4.locals
  refine ⟨es', he, by rw [hrun]; exact h4.srv, by rw [hrun]; exact h4.cli, x, by rw [hrun]; exact List.mem_of_getElem? hx, ?_⟩
  obtain ⟨x', hx', y1, y2, y3, _⟩ := h4.vis
  rw [hx] at hx'; cases hx'
  obtain ⟨l4, hl4, z1, z2, z3⟩ := h4.loc
  obtain ⟨o1, o2, l5, hl5, o3⟩ := s4
  rw [hl4] at hl5; cases hl5
  refine ⟨y1, y3, ?_⟩
  rw [← z3]
  have hset : Settled l4.1 w4.cli w4.up w4.srv k x.relay :=
    ⟨o3, ⟨o1, o2⟩, by rw [f4.up, f3.up, u2], ⟨h4.srv, h4.srvOpen, by rw [e4]; exact q3⟩, ⟨h4.rx, by rw [e4]; exact c3⟩, hxw⟩
  rw [← hrun] at hset hx hl4
  have hn4 := h4.normal
  have hf4 := h4.free
  rw [← hrun] at hn4 hf4
  exact C104_down_all cfg (es ++ es') hn4 x (List.mem_of_getElem? hx) (by rw [y1]; exact hf4) l4 (List.mem_of_getElem? hl4)
    (z1.trans y1.symm) k y2 hset

/-- a local service sends twelve messages, while the visitor takes none -/
def flood : List Event := hello ++ opening ++ (List.range 12).flatMap (fun n =>
  [.loc 0 (.read [UInt8.ofNat n]), .loc 0 .slot, .cli .recv, .cli (.wrote 1000), .srv (.read 1000)])

/-- The hypotheses are met there, though the server's loop waits for the visitor, and neither reads nor writes. -/
example : Normal webCfg (run webCfg flood) ∧ (∀ i, Free i (run webCfg flood)) ∧
    (run webCfg flood).srv.phase = .running ∧ (run webCfg flood).cli.phase = .running ∧
    (run webCfg flood).visitors.map (fun v => (v.relay.id, v.handle, v.relay.phase, outputs v.relay.trace)) =
      [(2, some 0, .running, [])] ∧
    (run webCfg flood).locals.map (fun l => (l.1.id, l.1.phase, inputs l.1.trace)) =
      [(2, .running, [0, 1, 2, 3, 4, 5, 6, 7, 8, 9, 10, 11])] ∧
    (run webCfg flood).srv.pending.isSome = true ∧ (run webCfg flood).up.isEmpty = false :=
  ⟨web_normal _ (by decide +kernel) (by decide +kernel) (by decide +kernel),
    (by
      have h1 : (run webCfg flood).otherS = [] := by decide +kernel
      have h2 : (run webCfg flood).otherC = [] := by decide +kernel
      intro i f hf; rw [h1, h2] at hf; cases hf), by decide +kernel⟩

end Wm.World
