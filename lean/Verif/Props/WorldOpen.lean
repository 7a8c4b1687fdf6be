import Verif.Props.WorldEndUp
/-!
Property C177: while the tunnel works, it never reaches a state from which a visitor that has come can no longer be
connected to the local service its mapping names.
-/
namespace Wm.World
open Wm Wm.Prot
open scoped List
open Wm.Tunnel (datas creates regCount openCount gots received submissions accepted relayed written arrived streamCap)

/-- What is already under way is passed on, the server's loop takes a new stream, or the client's task for a stream gets its
    connection to the local service. Nobody sends anything, and no connection ends. -/
def Serves (e : Event) : Prop := Carries e ∨ e = .work ∨ ∃ id h, e = .start id h

/-! ### Proof: no visitor is forgotten -/

/-- Visitors whose stream has not been taken by the loop wait in its queue, the others have been announced. -/
structure Due (w : St) : Prop where
  queued : w.srv.phase = .running → ∀ (n : Nat) v, w.visitors[n]? = some v → v.handle = none → n ∈ w.works.map (·.1)
  asked : ∀ v ∈ w.visitors, v.handle ≠ none → ∃ d, .create v.relay.id d ∈ accepted w.srv.trace

theorem Due.same {w w' : St} (h : Due w) (hp : w'.srv.phase = .running → w.srv.phase = .running)
    (ha : accepted w.srv.trace <+: accepted w'.srv.trace) (h1 : w'.works = w.works) (h2 : w'.visitors = w.visitors) :
    Due w' := by
  refine ⟨fun hr n v hv hn => ?_, fun v hv hn => ?_⟩
  · rw [h1]; rw [h2] at hv; exact h.queued (hp hr) n v hv hn
  · rw [h2] at hv
    obtain ⟨d, hd⟩ := h.asked v hv hn
    exact ⟨d, ha.subset hd⟩

theorem due_step (cfg w e) (hb : Base cfg w) (h : Due w) : Due (step cfg w e) := by
  have ho := (step_one cfg w e hb).1
  have hp : (step cfg w e).srv.phase = .running → w.srv.phase = .running := by
    intro hr
    by_cases hw : w.srv.phase = .running
    · exact hw
    · exact absurd hr (ho.over (final_server cfg.server) hw)
  have ha := ho.accepted (steps_server cfg.server)
  cases e
  case accept => exact h.same hp ha rfl rfl
  case srv e => exact h.same hp ha rfl rfl
  case cli e => exact h.same hp ha rfl rfl
  case otherS e => exact h.same hp ha rfl rfl
  case otherC e => exact h.same hp ha rfl rfl
  case start id k => exact h.same hp ha (by simp only [step]; split <;> rfl) (by simp only [step]; split <;> rfl)
  case loc n e => exact h.same hp ha (by simp only [step]; split <;> rfl) (by simp only [step]; split <;> rfl)
  case vis n e =>
    cases hv : w.visitors[n]? with
    | none => exact h.same hp ha (by simp only [step, hv]) (by simp only [step, hv])
    | some v =>
      have hid := (relayStep_cases (Tunnel.serverStep cfg.server) true w.srv v.relay v.handle e
        (hb.visitors v (List.mem_of_getElem? hv))).1.1
      have hst : (step cfg w (.vis n e)).works = w.works ∧ (step cfg w (.vis n e)).visitors = w.visitors.set n
          { v with relay := (relayStep (Tunnel.serverStep cfg.server) true w.srv v.relay v.handle e).2 } := by
        simp only [step, hv, and_self]
      refine ⟨fun hr m x hx hn => ?_, fun x hx hn => ?_⟩
      · rw [hst.1]
        rw [hst.2] at hx
        by_cases hm : n = m
        · subst hm
          rw [List.getElem?_set_self (List.getElem?_eq_some_iff.1 hv).1] at hx
          cases hx
          exact h.queued (hp hr) n v hv hn
        · rw [List.getElem?_set_ne hm] at hx
          exact h.queued (hp hr) m x hx hn
      · rw [hst.2] at hx
        rcases List.mem_or_eq_of_mem_set hx with hx | rfl
        · obtain ⟨d, hd⟩ := h.asked x hx hn
          exact ⟨d, ha.subset hd⟩
        · obtain ⟨d, hd⟩ := h.asked v (List.mem_of_getElem? hv) hn
          exact ⟨d, ha.subset (by rw [hid]; exact hd)⟩
  case visit n mode =>
    cases hn : w.idle[n]? with
    | none => exact h.same hp ha (by simp only [step, hn]) (by simp only [step, hn])
    | some id =>
      cases hname : pickName w.srv.mappings mode with
      | none => exact h.same hp ha (by simp only [step, hn, hname]) (by simp only [step, hn, hname])
      | some name =>
        have hadd : ∀ x ∈ w.visitors ++ [(⟨Relay.init id, none, mode⟩ : Visitor)], x.handle ≠ none → x ∈ w.visitors := by
          intro x hx hk
          rcases List.mem_append.1 hx with hx | hx
          · exact hx
          · rw [List.mem_singleton.1 hx] at hk; exact absurd rfl hk
        by_cases hr : w.srv.phase = .running
        · by_cases hc : w.works.length < workCap
          · have hst : step cfg w (.visit n mode) = { w with
                idle := w.idle.eraseIdx n
                works := w.works ++ [(w.visitors.length, name)]
                visitors := w.visitors ++ [⟨Relay.init id, none, mode⟩] } := by
              simp only [step, hn, hname]
              rw [if_pos hr, if_pos hc]
            rw [hst]
            refine ⟨fun _ m x hx hk => ?_, fun x hx hk => h.asked x (hadd x hx hk) hk⟩
            simp only [List.map_append, List.map_cons, List.map_nil, List.mem_append, List.mem_singleton]
            dsimp only at hx
            rw [List.getElem?_append] at hx
            split at hx
            · exact .inl (h.queued hr m x hx hk)
            · right
              have := (List.getElem?_eq_some_iff.1 hx).1
              simp at this
              omega
          · have hst : step cfg w (.visit n mode) = w := by
              simp only [step, hn, hname]
              rw [if_pos hr, if_neg hc]
            rw [hst]; exact h
        · have hst : step cfg w (.visit n mode) = { w with
              idle := w.idle.eraseIdx n
              visitors := w.visitors ++ [⟨Relay.init id, none, mode⟩] } := by
            simp only [step, hn, hname]
            rw [if_neg hr]
          rw [hst]
          exact ⟨fun hr' => absurd hr' hr, fun x hx hk => h.asked x (hadd x hx hk) hk⟩
  case work =>
    cases hw : w.works with
    | nil => exact h.same hp ha (by simp only [step, hw]) (by simp only [step, hw])
    | cons p rest =>
      obtain ⟨n, name⟩ := p
      cases hv : w.visitors[n]? with
      | none => exact h.same hp ha (by simp only [step, hw, hv]) (by simp only [step, hw, hv])
      | some v =>
        by_cases hc : w.srv.phase = .running ∧ w.srv.pending = none
        · have hst : step cfg w .work = { w with
              srv := Tunnel.serverStep cfg.server w.srv (.work v.relay.id (some name))
              works := rest
              visitors := w.visitors.set n { v with handle := some w.srv.next } } := by
            simp only [step, hw, hv]
            rw [if_pos hc]
          have hnew : .create v.relay.id (some name) ∈
              accepted (Tunnel.serverStep cfg.server w.srv (.work v.relay.id (some name))).trace := by
            obtain ⟨u, e1, _⟩ := steps_server cfg.server w.srv (.work v.relay.id (some name))
            rw [e1, Tunnel.accepted_append, Tunnel.accepted_append]
            refine List.mem_append.2 (.inl (List.mem_append.2 (.inr ?_)))
            simp [Tunnel.heads, hc, accepted]
          refine ⟨fun hr m x hx hk => ?_, fun x hx hk => ?_⟩
          · rw [hst] at hx ⊢
            dsimp only at hx ⊢
            by_cases hm : n = m
            · subst hm
              rw [List.getElem?_set_self (List.getElem?_eq_some_iff.1 hv).1] at hx
              cases hx; cases hk
            · rw [List.getElem?_set_ne hm] at hx
              have := h.queued hc.1 m x hx hk
              rw [hw] at this
              simp only [List.map_cons, List.mem_cons] at this
              rcases this with rfl | this
              · exact absurd rfl hm
              · exact this
          · rw [hst] at hx
            dsimp only at hx
            rcases List.mem_or_eq_of_mem_set hx with hx | rfl
            · obtain ⟨d, hd⟩ := h.asked x hx hk
              exact ⟨d, ha.subset hd⟩
            · exact ⟨some name, by rw [hst]; exact hnew⟩
        · have hst : step cfg w .work = w := by
            simp only [step, hw, hv]
            rw [if_neg hc]
          rw [hst]; exact h

theorem due_run (cfg es) : Due (run cfg es) := by
  induction es using List.reverseRecOn with
  | nil => exact ⟨by simp [run, init], by simp [run, init]⟩
  | append_singleton es e ih =>
    rw [run_snoc]
    exact due_step cfg _ e (base_run cfg es) ih

/-! ### Proof: the way to the client -/

/-- visitor `n` has come, and the tunnel is at work -/
structure Calls (cfg : Cfg) (n i : Nat) (md : Text) (w : St) : Prop where
  reach : ∃ es, w = run cfg es
  normal : Normal cfg w
  noLogins : NoLogins w
  noMaps : NoMaps w
  vis : ∃ v, w.visitors[n]? = some v ∧ v.relay.id = i ∧ v.mode = md
  srv : w.srv.phase = .running
  cli : w.cli.phase = .running

theorem serves_same {cfg w e} (h : Serves e) : (step cfg w e).otherS = w.otherS ∧ (step cfg w e).otherC = w.otherC ∧
    (step cfg w e).used = w.used := by
  rcases h with h | rfl | ⟨id, k, rfl⟩
  · exact carries_same h
  · simp only [step]
    split
    · exact ⟨rfl, rfl, rfl⟩
    · split
      · exact ⟨rfl, rfl, rfl⟩
      · split <;> exact ⟨rfl, rfl, rfl⟩
  · simp only [step]
    split <;> exact ⟨rfl, rfl, rfl⟩

theorem Calls.next {cfg n i md w} (hw : Calls cfg n i md w) {e} (he : Serves e)
    (hv : ∃ v, (step cfg w e).visitors[n]? = some v ∧ v.relay.id = i ∧ v.mode = md)
    (hs : (step cfg w e).srv.phase = .running) (hc : (step cfg w e).cli.phase = .running) :
    Calls cfg n i md (step cfg w e) := by
  obtain ⟨es, rfl⟩ := hw.reach
  obtain ⟨c1, c2, c3⟩ := serves_same (cfg := cfg) (w := run cfg es) he
  refine ⟨⟨es ++ [e], (run_snoc cfg es e).symm⟩, ⟨hw.normal.serverId, hw.normal.introduction, ?_, ?_⟩, ?_, ?_, hv, hs, hc⟩
  · rw [c1, c2]; exact hw.normal.others
  · rw [c3]; exact hw.normal.used
  · unfold NoLogins; rw [c1]; exact hw.noLogins
  · unfold NoMaps; rw [c2]; exact hw.noMaps

variable {cfg : Cfg} {n i : Nat} {md : Text} {w : St}

theorem Calls.base (hw : Calls cfg n i md w) : Base cfg w := by
  obtain ⟨es, rfl⟩ := hw.reach; exact base_run cfg es

theorem Calls.fit (hw : Calls cfg n i md w) : Fit w := by
  obtain ⟨es, rfl⟩ := hw.reach; exact hw.normal.fit

theorem Calls.arrives (hw : Calls cfg n i md w) :
    arrived w.srv.trace ++ w.up <+: (accepted w.cli.trace).flatMap wire ++ [] := by
  obtain ⟨es, he⟩ := hw.base.cli
  rw [List.append_nil, hw.base.up, he]
  exact (Tunnel.C15_client_order cfg.client [] es).1

theorem Calls.arrivesC (hw : Calls cfg n i md w) :
    arrived w.cli.trace ++ w.down <+: (accepted w.srv.trace).flatMap wire ++ [] := by
  obtain ⟨es, he⟩ := hw.base.srv
  rw [List.append_nil, hw.base.down, he]
  exact (Tunnel.C15_server_order cfg.server es).1

theorem Calls.cliIdle (hw : Calls cfg n i md w) :
    w.cli.pending = none ∧ w.cli.readyShutdown = false ∧ ¬ Complete w.cli.readBuf := by
  obtain ⟨es, he⟩ := hw.base.cli
  have h1 := Tunnel.client_never_waits cfg.client [] es
  have h2 := Tunnel.client_not_ready cfg.client [] es
  rw [← he] at h1 h2
  refine ⟨h1, h2, ?_⟩
  have h3 := (Tunnel.client_at (nilStream hw.fit.server) cfg.client [] es).2
  rw [← he] at h3
  exact h3 ((List.prefix_append _ _).trans hw.arrivesC) ⟨hw.cli, h2, h1⟩

theorem Calls.srvOpen (hw : Calls cfg n i md w) : w.srv.readyShutdown = false := by
  obtain ⟨v, hv, _⟩ := hw.vis
  obtain ⟨es, rfl⟩ := hw.reach
  have h1 := (opens_run cfg es).login (List.ne_nil_of_mem (List.mem_of_getElem? hv))
  obtain ⟨es', he⟩ := (base_run cfg es).srv
  rw [he] at h1 ⊢
  exact Tunnel.loggedIn_open cfg.server es' h1

theorem Calls.srvIdle (hw : Calls cfg n i md w) (hp : w.srv.pending = none) : ¬ Complete w.srv.readBuf := by
  obtain ⟨es, he⟩ := hw.base.srv
  have h3 := (Tunnel.server_at (nilStream hw.fit.client) cfg.server es).2
  rw [← he] at h3
  exact h3 ((List.prefix_append _ _).trans hw.arrives) ⟨hw.srv, hw.srvOpen, hp⟩

/-- some id is used by nobody else -/
theorem exists_free (w : St) : ∃ j, Free j w := by
  refine ⟨((w.otherS ++ w.otherC).map Frame.sockMap).sum + 1, fun f hf he => ?_⟩
  have : f.sockMap ≤ ((w.otherS ++ w.otherC).map Frame.sockMap).sum := by
    generalize w.otherS ++ w.otherC = l at hf
    clear he
    induction l with
    | nil => cases hf
    | cons x l ih =>
      rw [List.map_cons, List.sum_cons]
      rcases List.mem_cons.1 hf with rfl | hf
      · omega
      · have := ih hf; omega
  omega

theorem Calls.noToken (hw : Calls cfg n i md w) (u p) : .token u p ∉ accepted w.srv.trace := by
  intro hf
  have hno := hw.noLogins
  obtain ⟨j, hj⟩ := exists_free w
  obtain ⟨es, rfl⟩ := hw.reach
  have hown := hj.own hw.normal
  have hb := base_run cfg es
  have hs := side_run cfg es j hown
  rcases server_sent hb.srv _ hf with h1 | h1 | ⟨j, d, h1⟩
  · rcases hs.sub.mem _ h1 with ⟨j, h2⟩ | h2 | ⟨r, hr, h2⟩
    · cases h2
    · exact hno u p h2
    · obtain ⟨v, hv, rfl⟩ := List.mem_map.1 hr
      rcases sends_kind (hb.visitors v hv) _ h2 with ⟨d, h3⟩ | h3 <;> cases h3
  · cases h1
  · cases h1

/-- steps that only serve -/
structure Goes (cfg : Cfg) (n i : Nat) (md : Text) (w w' : St) : Prop where
  path : ∃ es : List Event, (∀ e ∈ es, Serves e) ∧ w' = es.foldl (step cfg) w
  calls : Calls cfg n i md w'
  idle : w'.idle = w.idle
  accepted : accepted w.srv.trace <+: accepted w'.srv.trace
  others : w'.otherS = w.otherS ∧ w'.otherC = w.otherC
  maps : ∀ M, Tunnel.MapSince M w.srv → Tunnel.MapSince M w'.srv

theorem Goes.refl (hw : Calls cfg n i md w) : Goes cfg n i md w w := 
  ⟨⟨[], by simp, rfl⟩, hw, rfl, List.prefix_refl _, ⟨rfl, rfl⟩, fun _ h => h⟩
theorem Goes.trans {a b c} (h1 : Goes cfg n i md a b) (h2 : Goes cfg n i md b c) : Goes cfg n i md a c := by
  obtain ⟨⟨es, he, rfl⟩, _, i1, m1, o1, t1⟩ := h1
  obtain ⟨⟨es', he', rfl⟩, h3, i2, m2, o2, t2⟩ := h2
  refine ⟨⟨es ++ es', ?_, by rw [List.foldl_append]⟩, h3, i2.trans i1, m1.trans m2, ⟨o2.1.trans o1.1, o2.2.trans o1.2⟩,
    fun M h => t2 M (t1 M h)⟩
  intro e hm
  rcases List.mem_append.1 hm with hm | hm
  · exact he e hm
  · exact he' e hm

theorem Calls.go (hw : Calls cfg n i md w) {e} (he : Serves e)
    (hv : ∃ v, (step cfg w e).visitors[n]? = some v ∧ v.relay.id = i ∧ v.mode = md)
    (hs : (step cfg w e).srv.phase = .running) (hc : (step cfg w e).cli.phase = .running)
    (hi : (step cfg w e).idle = w.idle) :
    Goes cfg n i md w (step cfg w e) := by
  have ho := (step_one cfg w e hw.base).1
  have hsm := serves_same (cfg := cfg) (w := w) he
  refine ⟨⟨[e], by simpa using he, rfl⟩, hw.next he hv hs hc, hi, ho.accepted (steps_server cfg.server), ⟨hsm.1, hsm.2.1⟩, ?_⟩
  intro M hM
  obtain ⟨es, he⟩ := hw.base.srv
  rcases ho with h1 | ⟨e', h1⟩
  · rw [h1]; exact hM
  · rw [h1, he]; exact Tunnel.mapSince_step cfg.server es (he ▸ hM) e'

theorem Calls.visRecv (hw : Calls cfg n i md w) {j v hh} (hv : w.visitors[j]? = some v) (hvh : v.handle = some hh)
    (hvr : v.relay.phase = .running) {f q} (hq : (w.srv.chan hh).q = f :: q) (hrx : (w.srv.chan hh).rx = true)
    (hrun : (Tunnel.serverStep cfg.server w.srv (.take hh)).phase = .running) :
    Goes cfg n i md w (step cfg w (.vis j .recv)) ∧
    (step cfg w (.vis j .recv)).srv = Tunnel.serverStep cfg.server w.srv (.take hh) := by
  have he : relayStep (Tunnel.serverStep cfg.server) true w.srv v.relay v.handle .recv =
      (Tunnel.serverStep cfg.server w.srv (.take hh), Relay.step v.relay (.recv (some f))) := by
    unfold relayStep
    dsimp only
    rw [if_pos hvr, hvh]
    dsimp only
    rw [hq]
    dsimp only
    rw [if_pos hrx]
  have hst : step cfg w (.vis j .recv) = { w with
      srv := Tunnel.serverStep cfg.server w.srv (.take hh)
      visitors := w.visitors.set j { v with relay := Relay.step v.relay (.recv (some f)) } } := by
    simp only [step, hv, he]
  have hvis : ∃ x, (step cfg w (.vis j .recv)).visitors[n]? = some x ∧ x.relay.id = i ∧ x.mode = md := by
    obtain ⟨x, hx, x1, x2⟩ := hw.vis
    rw [hst]
    by_cases hj : j = n
    · subst hj
      rw [hv] at hx; cases hx
      exact ⟨_, List.getElem?_set_self (List.getElem?_eq_some_iff.1 hv).1, (Relay.step_id _ _).trans x1, x2⟩
    · exact ⟨x, by dsimp only; rw [List.getElem?_set_ne hj]; exact hx, x1, x2⟩
  exact ⟨hw.go (.inl trivial) hvis (by rw [hst]; exact hrun) (by rw [hst]; exact hw.cli) (by rw [hst]), by rw [hst]⟩

theorem Calls.visDrop (hw : Calls cfg n i md w) {j v hh} (hv : w.visitors[j]? = some v) (hvh : v.handle = some hh)
    (hvr : v.relay.phase ≠ .running) (hrun : (Tunnel.serverStep cfg.server w.srv (.dropRx hh)).phase = .running) :
    Goes cfg n i md w (step cfg w (.vis j .drop)) ∧
    (step cfg w (.vis j .drop)).srv = Tunnel.serverStep cfg.server w.srv (.dropRx hh) := by
  have he : relayStep (Tunnel.serverStep cfg.server) true w.srv v.relay v.handle .drop =
      (Tunnel.serverStep cfg.server w.srv (.dropRx hh), v.relay) := by
    unfold relayStep
    dsimp only
    rw [hvh]
    dsimp only
    rw [if_neg hvr]
  have hst : step cfg w (.vis j .drop) = { w with
      srv := Tunnel.serverStep cfg.server w.srv (.dropRx hh)
      visitors := w.visitors.set j { v with relay := v.relay } } := by
    simp only [step, hv, he]
  have hset : w.visitors.set j { v with relay := v.relay } = w.visitors := by
    obtain ⟨hlt, hget⟩ := List.getElem?_eq_some_iff.1 hv
    show w.visitors.set j v = w.visitors
    rw [← hget]; exact List.set_getElem_self hlt
  rw [hset] at hst
  exact ⟨hw.go (.inl trivial) (by rw [hst]; exact hw.vis) (by rw [hst]; exact hrun) (by rw [hst]; exact hw.cli) (by rw [hst]),
    by rw [hst]⟩

theorem Calls.otherTake (hw : Calls cfg n i md w) {hh} (hm : hh ∉ w.visitors.filterMap (·.handle))
    (hrun : (Tunnel.serverStep cfg.server w.srv (.take hh)).phase = .running) :
    Goes cfg n i md w (step cfg w (.otherS (.take hh))) ∧
    (step cfg w (.otherS (.take hh))).srv = Tunnel.serverStep cfg.server w.srv (.take hh) := by
  have hsrv : (step cfg w (.otherS (.take hh))).srv = Tunnel.serverStep cfg.server w.srv (.take hh) := by
    show otherStep _ _ _ (.take hh) = _
    unfold otherStep
    dsimp only
    rw [if_neg hm]
  exact ⟨hw.go (.inl trivial) hw.vis (by rw [hsrv]; exact hrun) hw.cli rfl, hsrv⟩

theorem Calls.unblock1 (hw : Calls cfg n i md w) {hh f} (hp : w.srv.pending = some (hh, f)) :
    ∃ w', Goes cfg n i md w w' ∧ (w'.srv.pending = none ∨ w'.srv.readBuf.length < w.srv.readBuf.length) := by
  obtain ⟨es, he⟩ := hw.base.srv
  have hS := nilStream hw.fit.client
  have ha := (List.prefix_append _ _).trans hw.arrives
  have hr := hw.srv
  have hwt := Tunnel.server_waits cfg.server es
  rw [← he] at hwt
  obtain ⟨w1, w2⟩ := hwt hh f hp
  have ht := Tunnel.unblock_take cfg.server hS es (he ▸ ha) (he ▸ hr) (he ▸ hp)
  have hd := Tunnel.unblock_drop cfg.server hS es (he ▸ ha) (he ▸ hr) (he ▸ hp)
  rw [← he] at ht hd
  by_cases hm : hh ∈ w.visitors.filterMap (·.handle)
  · obtain ⟨v, hv, hvh⟩ := List.mem_filterMap.1 hm
    obtain ⟨j, hj⟩ := List.getElem?_of_mem hv
    by_cases hvr : v.relay.phase = .running
    · cases hq : (w.srv.chan hh).q with
      | nil => rw [hq] at w2; simp [streamCap] at w2
      | cons g q =>
        obtain ⟨a, b⟩ := hw.visRecv hj hvh hvr hq w1 ht.1
        exact ⟨_, a, by rw [b]; exact ht.2⟩
    · obtain ⟨a, b⟩ := hw.visDrop hj hvh hvr hd.1
      exact ⟨_, a, by rw [b]; exact hd.2⟩
  · obtain ⟨a, b⟩ := hw.otherTake hm ht.1
    exact ⟨_, a, by rw [b]; exact ht.2⟩

theorem Calls.unblock (hw : Calls cfg n i md w) : ∃ w', Goes cfg n i md w w' ∧ w'.srv.pending = none := by
  induction hl : w.srv.readBuf.length using Nat.strongRecOn generalizing w with
  | ind N ih =>
    subst hl
    cases hp : w.srv.pending with
    | none => exact ⟨w, .refl hw, hp⟩
    | some x =>
      obtain ⟨w1, h1, h2⟩ := hw.unblock1 (hh := x.1) (f := x.2) hp
      rcases h2 with h2 | h2
      · exact ⟨w1, h1, h2⟩
      · obtain ⟨w2, h3, h4⟩ := ih _ h2 h1.calls rfl
        exact ⟨w2, h1.trans h3, h4⟩

/-- the loop takes the next new stream -/
theorem Calls.work1 (hw : Calls cfg n i md w) (hp : w.srv.pending = none) {p rest} (hq : w.works = p :: rest) :
    Goes cfg n i md w (step cfg w .work) ∧ (step cfg w .work).works = rest ∧ (step cfg w .work).srv.pending = none ∧
    (p.1 = n → ∃ d, .create i d ∈ accepted (step cfg w .work).srv.trace) := by
  have hg : Guests cfg w := by obtain ⟨es, rfl⟩ := hw.reach; exact guests_run cfg es
  obtain ⟨k, name⟩ := p
  obtain ⟨v, hv, -⟩ := hg.works (k, name) (by rw [hq]; exact List.mem_cons_self)
  dsimp only at hv
  have hst : step cfg w .work = { w with
      srv := Tunnel.serverStep cfg.server w.srv (.work v.relay.id (some name))
      works := rest
      visitors := w.visitors.set k { v with handle := some w.srv.next } } := by
    simp only [step, hq, hv]
    rw [if_pos ⟨hw.srv, hp⟩]
  have hreg : ∀ (j : Nat) (s : Tunnel.St), (Tunnel.register j s).pending = s.pending ∧ (Tunnel.register j s).readBuf = s.readBuf := by
    intro j s
    unfold Tunnel.register
    dsimp only
    cases Tunnel.lookup j s.map <;> exact ⟨rfl, rfl⟩
  have hsv : Tunnel.serverStep cfg.server w.srv (.work v.relay.id (some name)) =
      Tunnel.enqueue (.create v.relay.id (some name)) (Tunnel.register v.relay.id w.srv) := by
    unfold Tunnel.serverStep Tunnel.step
    dsimp only
    rw [if_pos ⟨hw.srv, hp⟩]
    refine Tunnel.resume_idle fun _ => ?_
    show ¬ Complete (Tunnel.register v.relay.id w.srv).readBuf
    rw [(hreg _ _).2]
    exact hw.srvIdle hp
  have hrun : (step cfg w .work).srv.phase = .running := by
    rw [hst]; dsimp only; rw [hsv]
    show (Tunnel.register v.relay.id w.srv).phase = _
    rw [Tunnel.register_phase]; exact hw.srv
  refine ⟨hw.go (.inr (.inl rfl)) ?_ hrun (by rw [hst]; exact hw.cli) (by rw [hst]), by rw [hst], ?_, ?_⟩
  · obtain ⟨x, hx, x1, x2⟩ := hw.vis
    rw [hst]
    by_cases hj : k = n
    · subst hj
      rw [hv] at hx; cases hx
      exact ⟨_, List.getElem?_set_self (List.getElem?_eq_some_iff.1 hv).1, x1, x2⟩
    · exact ⟨x, by dsimp only; rw [List.getElem?_set_ne hj]; exact hx, x1, x2⟩
  · rw [hst]; dsimp only; rw [hsv]
    show (Tunnel.register v.relay.id w.srv).pending = _
    rw [(hreg _ _).1]; exact hp
  · rintro rfl
    obtain ⟨x, hx, x1, -⟩ := hw.vis
    dsimp only at hx
    rw [hv] at hx; cases hx
    refine ⟨some name, ?_⟩
    rw [hst]; dsimp only; rw [hsv, ← x1]
    simp [Tunnel.enqueue, Tunnel.emit, accepted]

/-- the visitor is announced -/
theorem Calls.drainWorks (hw : Calls cfg n i md w) (hp : w.srv.pending = none) :
    ∃ w', Goes cfg n i md w w' ∧ w'.works = [] := by
  generalize hq : w.works = q
  induction q generalizing w with
  | nil => exact ⟨w, .refl hw, hq⟩
  | cons p rest ih =>
    obtain ⟨h1, h2, h3, -⟩ := hw.work1 hp hq
    obtain ⟨w', h5, h6⟩ := ih h1.calls h3 h2
    exact ⟨w', h1.trans h5, h6⟩

theorem Calls.announce (hw : Calls cfg n i md w) (hp : w.srv.pending = none) :
    ∃ w', Goes cfg n i md w w' ∧ w'.srv.pending = none ∧ ∃ d, .create i d ∈ accepted w'.srv.trace := by
  have hd : Due w := by obtain ⟨es, rfl⟩ := hw.reach; exact due_run cfg es
  obtain ⟨v, hv, hvi, -⟩ := hw.vis
  by_cases hk : v.handle = none
  case neg =>
    obtain ⟨d, h1⟩ := hd.asked v (List.mem_of_getElem? hv) hk
    exact ⟨w, .refl hw, hp, d, hvi ▸ h1⟩
  have hmem := hd.queued hw.srv n v hv hk
  clear hd hv hvi hk
  generalize hq : w.works = q at hmem
  induction q generalizing w with
  | nil => cases hmem
  | cons p rest ih =>
    obtain ⟨h1, h2, h3, h4⟩ := hw.work1 hp hq
    by_cases hpn : p.1 = n
    · exact ⟨_, h1, h3, h4 hpn⟩
    · simp only [List.map_cons, List.mem_cons] at hmem
      rcases hmem with rfl | hmem
      · exact absurd rfl hpn
      · obtain ⟨w', h5, h6, h7⟩ := ih h1.calls h3 h2 hmem
        exact ⟨w', h1.trans h5, h6, h7⟩

/-- the server writes everything it holds -/
theorem Calls.write (hw : Calls cfg n i md w) (hp : w.srv.pending = none) :
    ∃ w', Goes cfg n i md w w' ∧ w'.srv.writeBuf = [] := by
  by_cases hwb : w.srv.writeBuf = []
  · exact ⟨w, .refl hw, hwb⟩
  have he : (step cfg w (.srv (.wrote w.srv.writeBuf.length))).srv =
      Tunnel.emit (.wrote (w.srv.writeBuf.take w.srv.writeBuf.length))
        { w.srv with writeBuf := w.srv.writeBuf.drop w.srv.writeBuf.length } := by
    show Tunnel.serverStep cfg.server w.srv (.wrote _) = _
    unfold Tunnel.serverStep Tunnel.step
    dsimp only
    rw [if_pos ⟨hw.srv, hp⟩, if_neg hwb, if_neg]
    · exact Tunnel.resume_idle fun _ => hw.srvIdle hp
    · intro hc
      have : w.srv.readyShutdown = true := hc.2
      rw [hw.srvOpen] at this
      cases this
  exact ⟨_, hw.go (e := .srv (.wrote w.srv.writeBuf.length)) (.inl trivial) hw.vis (by rw [he]; exact hw.srv) hw.cli rfl,
    by rw [he]; exact List.drop_length⟩

theorem Calls.recv1 (hw : Calls cfg n i md w) {f q} (hq : w.cli.outq = f :: q) :
    Goes cfg n i md w (step cfg w (.cli .recv)) ∧ (step cfg w (.cli .recv)).cli.outq = q := by
  have hi := hw.cliIdle
  have he : (step cfg w (.cli .recv)).cli = Tunnel.enqueue f { w.cli with outq := q } true := by
    show Tunnel.clientStep cfg.client w.cli .recv = _
    unfold Tunnel.clientStep Tunnel.step
    dsimp only
    rw [if_pos ⟨hw.cli, hi.1⟩, hq]
    exact Tunnel.resume_idle fun _ => hi.2.2
  exact ⟨hw.go (.inl trivial) hw.vis hw.srv (by rw [he]; exact hw.cli) rfl, by rw [he]; rfl⟩

theorem Calls.outq (hw : Calls cfg n i md w) :
    ∃ w', Goes cfg n i md w w' ∧ w'.cli.outq = [] ∧ w'.srv = w.srv ∧ w'.down = w.down := by
  generalize hq : w.cli.outq = q
  induction q generalizing w with
  | nil => exact ⟨w, .refl hw, hq, rfl, rfl⟩
  | cons f q ih =>
    obtain ⟨h1, h2⟩ := hw.recv1 hq
    obtain ⟨w', h3, h4, h5, h6⟩ := ih h1.calls h2
    exact ⟨w', h1.trans h3, h4, h5, h6⟩

theorem Calls.byte (hw : Calls cfg n i md w) {b bs} (hd : w.down = b :: bs) (ho : w.cli.outq = []) :
    Goes cfg n i md w (step cfg w (.cli (.read 1))) ∧ (step cfg w (.cli (.read 1))).down = bs ∧
    (step cfg w (.cli (.read 1))).srv = w.srv := by
  have hi := hw.cliIdle
  have hst : step cfg w (.cli (.read 1)) = { w with
      cli := Tunnel.clientStep cfg.client w.cli (.read [b])
      down := bs
      up := w.up ++ [] } := by
    simp only [step, loopStep, hd]
    rw [if_pos ⟨hw.cli, hi.1, by simp⟩]
    rfl
  obtain ⟨es, he⟩ := hw.base.cli
  have hroom := byte_room cfg.client (nilStream hw.fit.server) es (b := b) (h := 0) (P := fun _ => False)
    (by
      refine List.IsPrefix.trans ?_ hw.arrivesC
      rw [← he, hd]
      exact ⟨bs, by simp⟩)
    (he ▸ hw.cli) (fun u p => hw.noToken u p) (fun _ h => h.elim) (he ▸ ho) (fun ⟨_, h⟩ => h.elim)
  rw [← he] at hroom
  exact ⟨hw.go (.inl trivial) (by rw [hst]; exact hw.vis) (by rw [hst]; exact hw.srv) (by rw [hst]; exact hroom.1) (by rw [hst]),
    by rw [hst], by rw [hst]⟩

theorem Calls.net (hw : Calls cfg n i md w) :
    ∃ w', Goes cfg n i md w w' ∧ w'.down = [] ∧ w'.srv = w.srv := by
  generalize hd : w.down = bs
  induction bs generalizing w with
  | nil => exact ⟨w, .refl hw, hd, rfl⟩
  | cons b bs ih =>
    obtain ⟨w1, h1, h2, h3, h4⟩ := hw.outq
    obtain ⟨h5, h6, h7⟩ := h1.calls.byte (h4.trans hd) h2
    obtain ⟨w', h8, h9, h10⟩ := ih h5.calls h6
    exact ⟨w', (h1.trans h5).trans h8, h9, h10.trans (h7.trans h3)⟩

theorem gots_all_client {cfg w} (hb : Base cfg w) (hf : Fit w) (hd : w.down = []) (hw : w.srv.writeBuf = [])
    (hl : w.cli.phase = .running ∧ w.cli.readyShutdown = false ∧ w.cli.pending = none) :
    gots w.cli.trace = (accepted w.srv.trace).map asReceived := by
  have hdown := hb.down
  obtain ⟨es, e1⟩ := hb.cli
  obtain ⟨es', e2⟩ := hb.srv
  have hwr : Tunnel.written w.srv.trace = (accepted w.srv.trace).flatMap wire ++ [] := by
    have := (Tunnel.server_inv cfg.server es').2.2.bytes
    rw [← e2, hw] at this
    rw [List.append_nil] at this ⊢
    exact this
  have ha : Tunnel.arrived w.cli.trace = (accepted w.srv.trace).flatMap wire ++ [] := by
    rw [← hwr, ← hdown, hd, List.append_nil]
  rw [e1] at ha hl ⊢
  exact (Tunnel.C14_client_looks_at_everything (nilStream hf.server) cfg.client [] es (ha ▸ List.prefix_refl _)).2 ha hl

/-- the client looks at the open request -/
theorem Calls.opens (hw : Calls cfg n i md w) (hfree : Free i w) {name m a} (hname : pickName (cfg.client.mappings.map bare) md = some name)
    (hm : Tunnel.LastMatch cfg.client.mappings name m) (hout : ∀ h, Tunnel.outcome m i h = .opened i h (.connect a)) :
    ∃ w', Goes cfg n i md w w' ∧ ∃ h, .opened i h (.connect a) ∈ w'.cli.trace := by
  obtain ⟨w1, h1, p1⟩ := hw.unblock
  obtain ⟨w2, h2, p2, d, c2⟩ := h1.calls.announce p1
  obtain ⟨w3, h3, b3⟩ := h2.calls.write p2
  obtain ⟨w4, h4, d4, s4⟩ := h3.calls.net
  have hgo := ((h1.trans h2).trans h3).trans h4
  refine ⟨w4, hgo, ?_⟩
  have hc := h4.calls
  have hfree : Free i w4 := by unfold Free; rw [hgo.others.1, hgo.others.2]; exact hfree
  have hi := hc.cliIdle
  have hcr : .create i d ∈ accepted w4.srv.trace := (h3.trans h4).accepted.subset c2
  have hall := gots_all_client hc.base hc.fit d4 (by rw [s4]; exact b3) ⟨hc.cli, hi.2.1, hi.1⟩
  have hask : d = some name := by
    have hn := hc.normal
    have hnm := hc.noMaps
    obtain ⟨v, hv, hvi, hvm⟩ := hc.vis
    obtain ⟨es, rfl⟩ := hc.reach
    obtain ⟨x, hx, hxi, nm, e1, e2⟩ := (ask_run cfg es i (hfree.own hn) hn.fit hnm).asked d hcr
    obtain ⟨j, hj⟩ := List.getElem?_of_mem hx
    have := uniq_visitors (guests_run cfg es) (by have := hn.used; omega) (i := i) j n x.relay v.relay
      (by rw [List.getElem?_map, hj]; rfl) (by rw [List.getElem?_map, hv]; rfl) hxi hvi
    subst this
    rw [hv] at hj; cases hj
    rw [hvm, hname] at e2
    rw [e1, Option.some.injEq]; exact (Option.some.inj e2).symm
  have hgot : ∃ d', .create i d' ∈ gots w4.cli.trace ∧ d'.getD [] = name := by
    rw [hask] at hcr
    rw [hall]
    cases name with
    | nil => exact ⟨none, List.mem_map.2 ⟨_, hcr, rfl⟩, rfl⟩
    | cons c cs => exact ⟨some (c :: cs), List.mem_map.2 ⟨_, hcr, rfl⟩, rfl⟩
  obtain ⟨d', g1, g2⟩ := hgot
  obtain ⟨o, ho, hoe⟩ := List.mem_filterMap.1 g1
  have hoe' : o = .got (.create i d') := by
    cases o <;> simp at hoe
    rw [hoe]
  subst hoe'
  obtain ⟨es, he⟩ := hc.base.cli
  obtain ⟨t1, t2, ht⟩ := List.append_of_mem ho
  rw [he] at ht ⊢
  obtain ⟨pre, k, r, hr, -⟩ := (Tunnel.C17_open_answered_partial cfg.client [] es i d' t1 t2 ht).2.1 m (by rw [g2]; exact hm)
  refine ⟨k, ?_⟩
  rw [ht, hr, hout k]
  simp

theorem pickName_of {ms : List MappingConfig} {mode m} (h : LastOfMode ms mode m) : pickName ms mode = some m.name := by
  obtain ⟨pre, post, rfl, h1, h2⟩ := h
  induction post using List.reverseRecOn with
  | nil => rw [pickName_snoc, if_pos (by simp [h1])]
  | append_singleton post x ih =>
    rw [← List.cons_append, ← List.append_assoc, pickName_snoc, if_neg (by simpa using h2 x (by simp))]
    exact ih fun y hy => h2 y (by simp [hy])

theorem pickName_bare {ms : List MappingConfig} {mode m} (h : LastOfMode ms mode m) :
    pickName (ms.map bare) mode = some m.name := by
  obtain ⟨pre, post, rfl, h1, h2⟩ := h
  refine pickName_of (m := bare m) ⟨pre.map bare, post.map bare, by simp, h1, ?_⟩
  intro x hx
  obtain ⟨y, hy, rfl⟩ := List.mem_map.1 hx
  exact h2 y hy

/-- the task of the stream gets its connection -/
theorem Calls.connect (hw : Calls cfg n i md w) {h a} (ho : .opened i h (.connect a) ∈ w.cli.trace) :
    ∃ w', Goes cfg n i md w w' ∧ ∃ l ∈ w'.locals, l.1.id = i ∧ .opened i l.2 (.connect a) ∈ w'.cli.trace := by
  have hcon : (i, h) ∈ connects w.cli.trace := List.mem_filterMap.2 ⟨_, ho, rfl⟩
  by_cases hm : h ∈ w.locals.map (·.2)
  · obtain ⟨l, hl, hlh⟩ := List.mem_map.1 hm
    refine ⟨w, .refl hw, l, hl, ?_, by rw [hlh]; exact ho⟩
    have hh : Hosts w := by obtain ⟨es, rfl⟩ := hw.reach; exact hosts_run cfg es
    have h1 := hh.conn l hl
    rw [hlh] at h1
    have hj : Just w.cli.trace := by obtain ⟨es, rfl⟩ := hw.reach; exact just_run cfg es
    have hop : ∀ k, (k, h) ∈ connects w.cli.trace → .reg k h ∈ w.cli.trace := by
      intro k hk
      obtain ⟨o, mo, eo⟩ := List.mem_filterMap.1 hk
      split at eo
      · cases eo; exact hj.opened _ _ _ mo
      · cases eo
    have r1 := hop _ hcon
    have r2 := hop _ h1
    obtain ⟨es, he⟩ := hw.base.cli
    have hI := (Tunnel.client_inv cfg.client [] es).2.1.regs
    rw [← he] at hI
    have e1 := (hI _ _ r1).1
    rw [(hI _ _ r2).1] at e1
    exact Option.some.inj e1
  · have hst : step cfg w (.start i h) = { w with locals := w.locals ++ [(Relay.init i, h)] } := by
      simp only [step]
      rw [if_pos ⟨hcon, hm⟩]
    refine ⟨_, hw.go (e := .start i h) (.inr (.inr ⟨i, h, rfl⟩)) (by rw [hst]; exact hw.vis) (by rw [hst]; exact hw.srv)
      (by rw [hst]; exact hw.cli) (by rw [hst]), (Relay.init i, h), ?_, rfl, ?_⟩
    · rw [hst]; simp
    · rw [hst]; exact ho

/-- the queue of new streams is made shorter -/
theorem make_room (cfg : Cfg) (es : List Event) (hn : Normal cfg (run cfg es)) (hno : NoLogins (run cfg es))
    (hm : NoMaps (run cfg es)) (hs : (run cfg es).srv.phase = .running) (hc : (run cfg es).cli.phase = .running) :
    ∃ es', (∀ e ∈ es', Serves e) ∧ (run cfg (es ++ es')).works.length < workCap ∧
      (run cfg (es ++ es')).idle = (run cfg es).idle ∧ (run cfg (es ++ es')).srv.phase = .running ∧
      (run cfg (es ++ es')).cli.phase = .running ∧ (run cfg (es ++ es')).otherS = (run cfg es).otherS ∧
      (run cfg (es ++ es')).otherC = (run cfg es).otherC ∧ (run cfg (es ++ es')).used = (run cfg es).used ∧
      ∀ M, Tunnel.MapSince M (run cfg es).srv → Tunnel.MapSince M (run cfg (es ++ es')).srv := by
  cases hq : (run cfg es).works with
  | nil =>
    refine ⟨[], by simp, ?_⟩
    rw [List.append_nil]
    exact ⟨by rw [hq]; decide, rfl, hs, hc, rfl, rfl, rfl, fun _ h => h⟩
  | cons p rest =>
    obtain ⟨v, hv, -⟩ := (guests_run cfg es).works p (by rw [hq]; exact List.mem_cons_self)
    have h0 : Calls cfg p.1 v.relay.id v.mode (run cfg es) := ⟨⟨es, rfl⟩, hn, hno, hm, ⟨v, hv, rfl, rfl⟩, hs, hc⟩
    obtain ⟨w1, h1, p1⟩ := h0.unblock
    obtain ⟨w2, h2, q2⟩ := h1.calls.drainWorks p1
    have h3 := h1.trans h2
    obtain ⟨es', he, hw⟩ := h3.path
    have hrun : run cfg (es ++ es') = w2 := by rw [hw, run, List.foldl_append, ← run]
    have hused : (run cfg (es ++ es')).used = (run cfg es).used := by
      clear * - he
      induction es' using List.reverseRecOn with
      | nil => rw [List.append_nil]
      | append_singleton es' e ih =>
        rw [← List.append_assoc, run_snoc, (serves_same (he e (by simp))).2.2]
        exact ih fun x hx => he x (by simp [hx])
    refine ⟨es', he, ?_⟩
    rw [hused, hrun]
    exact ⟨by rw [q2]; decide, h3.idle, h3.calls.srv, h3.calls.cli, h3.others.1, h3.others.2, rfl, h3.maps⟩

/-! ### Statement -/

/-- **C177**: whatever has happened so far, while the tunnel works, every visitor that has come can still be connected to
    the local service that its mapping names (which mapping this is, says C105): it takes only the passing on of what is
    already under way, the taking of new streams, and that the client's tasks get their connections to the local services.
    No further byte from anybody is needed, and no end of any connection. -/
theorem C177_served (cfg : Cfg) (es : List Event) (hn : Normal cfg (run cfg es)) (hno : NoLogins (run cfg es))
    (hm : NoMaps (run cfg es)) (v) (hv : v ∈ (run cfg es).visitors) (hfree : Free v.relay.id (run cfg es))
    (hs : (run cfg es).srv.phase = .running) (hc : (run cfg es).cli.phase = .running) (wanted m : MappingConfig) (a)
    (hw : LastOfMode cfg.client.mappings v.mode wanted) (hl : Tunnel.LastMatch cfg.client.mappings wanted.name m)
    (hp : m.mode.map Char.toLower ≠ "proxy".toList) (ha : m.localAddr = some a) :
    ∃ es', (∀ e ∈ es', Serves e) ∧ (run cfg (es ++ es')).srv.phase = .running ∧
      (run cfg (es ++ es')).cli.phase = .running ∧
      ∃ l ∈ (run cfg (es ++ es')).locals, l.1.id = v.relay.id ∧
        .opened v.relay.id l.2 (.connect a) ∈ (run cfg (es ++ es')).cli.trace := by
  obtain ⟨n, hn'⟩ := List.getElem?_of_mem hv
  have h0 : Calls cfg n v.relay.id v.mode (run cfg es) := ⟨⟨es, rfl⟩, hn, hno, hm, ⟨v, hn', rfl, rfl⟩, hs, hc⟩
  obtain ⟨w1, h1, k, o1⟩ := h0.opens hfree (pickName_bare hw) hl (a := a) fun h => by
    unfold Tunnel.outcome
    rw [if_neg hp, ha]
  obtain ⟨w2, h2, l, l1, l2, l3⟩ := h1.calls.connect o1
  obtain ⟨es', he, hw2⟩ := (h1.trans h2).path
  have hrun : run cfg (es ++ es') = w2 := by rw [hw2, run, List.foldl_append, ← run]
  rw [← hrun] at h2 l1 l3
  exact ⟨es', he, h2.calls.srv, h2.calls.cli, l, l1, l2, l3⟩

/-- **C177** (from the beginning): the same for a visitor whose connection has only been accepted, at a listener for the
    mode `md`, once the server knows the client's mappings: when the visitor's task asks for a stream at a suitable time,
    it is connected. In particular the queue of new streams, which holds ten, does not stay full. -/
theorem C177_arrived (cfg : Cfg) (es : List Event) (hn : Normal cfg (run cfg es)) (hno : NoLogins (run cfg es))
    (hm : NoMaps (run cfg es)) (k i : Nat) (hk : (run cfg es).idle[k]? = some i) (hfree : Free i (run cfg es))
    (hs : (run cfg es).srv.phase = .running) (hc : (run cfg es).cli.phase = .running)
    (hknown : (run cfg es).srv.mappings ≠ []) (md : Text) (wanted m : MappingConfig) (a)
    (hw : LastOfMode cfg.client.mappings md wanted) (hl : Tunnel.LastMatch cfg.client.mappings wanted.name m)
    (hp : m.mode.map Char.toLower ≠ "proxy".toList) (ha : m.localAddr = some a) :
    ∃ es₁ es₂, (∀ e ∈ es₁ ++ es₂, Serves e) ∧
      (run cfg (es ++ es₁ ++ [.visit k md] ++ es₂)).srv.phase = .running ∧
      (run cfg (es ++ es₁ ++ [.visit k md] ++ es₂)).cli.phase = .running ∧
      ∃ l ∈ (run cfg (es ++ es₁ ++ [.visit k md] ++ es₂)).locals, l.1.id = i ∧
        .opened i l.2 (.connect a) ∈ (run cfg (es ++ es₁ ++ [.visit k md] ++ es₂)).cli.trace := by
  obtain ⟨es₁, e1, hroom, hidle, hs1, hc1, o1, o2, hu, hmaps⟩ := make_room cfg es hn hno hm hs hc
  have hn1 : Normal cfg (run cfg (es ++ es₁)) :=
    ⟨hn.serverId, hn.introduction, by rw [o1, o2]; exact hn.others, by rw [hu]; exact hn.used⟩
  have hno1 : NoLogins (run cfg (es ++ es₁)) := by unfold NoLogins; rw [o1]; exact hno
  have hm1 : NoMaps (run cfg (es ++ es₁)) := by unfold NoMaps; rw [o2]; exact hm
  have hfree1 : Free i (run cfg (es ++ es₁)) := by unfold Free; rw [o1, o2]; exact hfree
  have hown := hfree.own hn
  have hown1 := hfree1.own hn1
  have hne : cfg.client.mappings.map bare ≠ [] := by
    rcases server_maps hown hn.fit hm with h | h
    · exact absurd h hknown
    · rw [← h]; exact hknown
  have hmap : (run cfg (es ++ es₁)).srv.mappings = cfg.client.mappings.map bare := by
    rcases server_maps hown1 hn1.fit hm1 with h | h
    · exfalso
      rcases hmaps _ (.inl rfl) with h2 | ⟨j, h2⟩
      · rw [h] at h2; exact hknown h2.symm
      · refine hne ?_
        have hb := base_run cfg (es ++ es₁)
        have hms := maps_run cfg (es ++ es₁) i hown1 hn1.fit hm1
        have hseen := seen_server hb hn1.fit
        obtain ⟨f, hf1, hf2⟩ := List.mem_map.1 (hseen.subset (List.mem_filterMap.2 ⟨_, h2, rfl⟩))
        rw [h] at hf2
        cases f with
        | create k x =>
          cases x with
          | none => simp [asReceived] at hf2
          | some t => cases t <;> simp [asReceived] at hf2
        | mapping k xs =>
          simp only [asReceived, Frame.mapping.injEq] at hf2
          rw [hms k xs hf1] at hf2
          exact hf2.2
        | _ => simp [asReceived] at hf2
    · exact h
  have hst : run cfg (es ++ es₁ ++ [.visit k md]) = { run cfg (es ++ es₁) with
      idle := (run cfg (es ++ es₁)).idle.eraseIdx k
      works := (run cfg (es ++ es₁)).works ++ [((run cfg (es ++ es₁)).visitors.length, wanted.name)]
      visitors := (run cfg (es ++ es₁)).visitors ++ [⟨Relay.init i, none, md⟩] } := by
    rw [run_snoc]
    simp only [step, hidle, hk, hmap, pickName_bare hw]
    rw [if_pos hs1, if_pos hroom]
  have hv : (⟨Relay.init i, none, md⟩ : Visitor) ∈ (run cfg (es ++ es₁ ++ [.visit k md])).visitors := by
    rw [hst]; simp
  have hn2 : Normal cfg (run cfg (es ++ es₁ ++ [.visit k md])) := by
    rw [hst]; exact ⟨hn1.serverId, hn1.introduction, hn1.others, hn1.used⟩
  obtain ⟨es₂, e2, r1, r2, l, l1, l2, l3⟩ := C177_served cfg (es ++ es₁ ++ [.visit k md]) hn2 (by rw [hst]; exact hno1)
    (by rw [hst]; exact hm1) ⟨Relay.init i, none, md⟩ hv (by rw [hst]; exact hfree1) (by rw [hst]; exact hs1)
    (by rw [hst]; exact hc1) wanted m a hw hl hp ha
  refine ⟨es₁, es₂, ?_, r1, r2, l, l1, l2, l3⟩
  intro e he
  rcases List.mem_append.1 he with he | he
  · exact e1 e he
  · exact e2 e he

/-- Twelve visitors have come, ten of them wait in the queue, which is full, two have only been accepted. -/
def crowd : List Event := [.cli (.wrote 1000), .srv (.read 1000)] ++ List.replicate 12 .accept ++
  List.replicate 12 (.visit 0 "tcp".toList)

example : let w := run webCfg crowd
    Normal webCfg w ∧ NoLogins w ∧ NoMaps w ∧ Free 4 w ∧ Free 24 w ∧ w.srv.phase = .running ∧ w.cli.phase = .running ∧
    w.works.length = workCap ∧ w.visitors.map (·.relay.id) = [2, 4, 6, 8, 10, 12, 14, 16, 18, 20] ∧ w.idle = [22, 24] ∧
    w.srv.mappings.isEmpty = false ∧ LastOfMode webCfg.client.mappings "tcp".toList web ∧
    Tunnel.LastMatch webCfg.client.mappings web.name web ∧ web.mode.map Char.toLower ≠ "proxy".toList ∧
    web.localAddr = some ⟨.v4 2130706433, 80⟩ := by
  have h1 : (run webCfg crowd).otherS = [] := by decide +kernel
  have h2 : (run webCfg crowd).otherC = [] := by decide +kernel
  refine ⟨web_normal _ h1 h2 (by decide +kernel), ?_, ?_, web_free _ h1 h2 _, web_free _ h1 h2 _, by decide +kernel,
    by decide +kernel, by decide +kernel, by decide +kernel, by decide +kernel, by decide +kernel, ⟨[], [], rfl, rfl, by simp⟩,
    ⟨[], [], rfl, .inr rfl, by simp⟩, by decide, rfl⟩
  · intro u p hf; rw [h1] at hf; cases hf
  · intro f hf; rw [h2] at hf; cases hf

end Wm.World
