import Verif.Proofs.WorldJust
/-! The end-to-end composition: which mapping a visitor's stream is opened with. -/
namespace Wm.Tunnel
open Wm Wm.Prot

/-! ### streams of a client are opened as the requested mapping says -/

def OpenedAs (cfg : Cfg) (s : St) : Prop := ∀ i h how, .opened i h how ∈ s.trace →
  ∃ d m, .got (.create i d) ∈ s.trace ∧ findMapping cfg.mappings (d.getD []) = some m ∧ outcome m i h = .opened i h how

theorem OpenedAs.more {cfg} {s s' : St} (h : OpenedAs cfg s) (u : List Obs) (ht : s'.trace = s.trace ++ u)
    (hu : ∀ i h how, .opened i h how ∉ u) : OpenedAs cfg s' := by
  intro i k how hm
  rw [ht, List.mem_append] at hm
  rcases hm with hm | hm
  · obtain ⟨d, m, h1, h2, h3⟩ := h i k how hm
    exact ⟨d, m, by rw [ht]; exact List.mem_append.2 (.inl h1), h2, h3⟩
  · exact absurd hm (hu i k how)

theorem OpenedAs.trySend {cfg} {s : St} (h : OpenedAs cfg s) (k f) : OpenedAs cfg (trySend k f s) := by
  unfold Tunnel.trySend
  split
  · exact h.more [.lost k f] rfl (by simp)
  · split
    · exact h.more [.put k f] rfl (by simp)
    · exact h.more [.overflow k f] rfl (by simp)

theorem OpenedAs.sendAwait {cfg} {s : St} (h : OpenedAs cfg s) (k f) : OpenedAs cfg (sendAwait k f s).1 := by
  unfold Tunnel.sendAwait
  split
  · exact h.more [.lost k f] rfl (by simp)
  · split
    · exact h.more [.put k f] rfl (by simp)
    · exact h

theorem OpenedAs.finish {cfg} {s : St} (h : OpenedAs cfg s) (p) : OpenedAs cfg (finish p s) :=
  h.more _ (finish_trace p s) (by simp)

theorem OpenedAs.closeFold {cfg} (m : List (Nat × Nat)) : ∀ s : St, OpenedAs cfg s →
    OpenedAs cfg (m.foldl (fun s x => Tunnel.trySend x.2 (.close x.1 []) s) s) := by
  induction m with
  | nil => intro s h; exact h
  | cons x m ih => intro s h; exact ih _ (h.trySend _ _)

theorem OpenedAs.register {cfg} {s : St} (h : OpenedAs cfg s) (id) : OpenedAs cfg (register id s) := by
  refine h.more (((match lookup id s.map with | some old => [.hangup old] | none => []) ++ [.reg id s.next])) ?_ ?_
  · rw [register_trace]; cases lookup id s.map <;> simp
  · cases lookup id s.map <;> simp

theorem OpenedAs.kept (cfg) : Kept (OpenedAs cfg) where
  buf s b h := h
  read s bs h _ := h.more [.arrived bs] rfl (by simp)
  fin s p h _ _ := h.finish p
  lost s h _ := by
    have h1 : OpenedAs cfg (emit .connLost s) := h.more [.connLost] rfl (by simp)
    exact (OpenedAs.closeFold _ _ h1).finish _
  submit s f h _ _ := h.more [.submitted f] rfl (by simp)
  take s k f q h _ _ := h.more [.took k f] rfl (by simp)
  drop s k h _ := h.more [.rxGone k] rfl (by simp)
  retry s k f h _ := OpenedAs.sendAwait (s := { s with pending := none }) h k f
  work s id d h _ := (h.register id).more [.queued false (.create id d)] rfl (by simp)
  recv s f q h _ _ := h.more [.queued true f] rfl (by simp)
  wrote s n h _ _ _ := h.more [.wrote (s.writeBuf.take n)] rfl (by simp)
  drained s n h _ _ _ := by
    have h1 : OpenedAs cfg (emit (.wrote (s.writeBuf.take n)) { s with writeBuf := s.writeBuf.drop n }) :=
      h.more [.wrote (s.writeBuf.take n)] rfl (by simp)
    exact h1.finish _

theorem OpenedAs.add {cfg} {s s' : St} (h : OpenedAs cfg s) {i k d m} (hm : findMapping cfg.mappings (d.getD []) = some m)
    (hg : .got (.create i d) ∈ s.trace) (ht : s'.trace = s.trace ++ [outcome m i k]) : OpenedAs cfg s' := by
  intro j n how hj
  rw [ht, List.mem_append] at hj
  rcases hj with hj | hj
  · obtain ⟨d', m', h1, h2, h3⟩ := h j n how hj
    exact ⟨d', m', by rw [ht]; exact List.mem_append.2 (.inl h1), h2, h3⟩
  · have hj := List.mem_singleton.1 hj
    have : i = j ∧ k = n := by
      unfold outcome at hj
      split at hj
      · cases hj; exact ⟨rfl, rfl⟩
      · split at hj <;> cases hj
        exact ⟨rfl, rfl⟩
    obtain ⟨rfl, rfl⟩ := this
    exact ⟨d, m, by rw [ht]; exact List.mem_append.2 (.inl hg), hm, hj.symm⟩

theorem OpenedAs.handle (cfg : Cfg) (s : St) (f : Frame) (h : OpenedAs cfg s) : OpenedAs cfg (clientHandle cfg s f).1 := by
  have hg : OpenedAs cfg (emit (.got f) s) := h.more [.got f] rfl (by simp)
  unfold clientHandle
  dsimp only
  cases f with
  | create id d =>
    dsimp only
    cases hm : findMapping cfg.mappings (d.getD []) with
    | none =>
      dsimp only
      unfold selfSend
      split
      · exact hg.more [.submitted _] rfl (by simp)
      · exact hg
    | some m =>
      have hr := hg.register id
      have hin : Obs.got (.create id d) ∈ (Tunnel.register id (emit (.got (.create id d)) s)).trace := by
        rw [register_trace]; cases lookup id (emit (.got (.create id d)) s).map <;> simp [emit]
      dsimp only
      split
      · rename_i hp
        exact hr.add (k := s.next) hm hin (by simp [emit, outcome_eq, hp])
      · rename_i hp
        split
        · rename_i ha
          exact hr.add (k := s.next) hm hin (by simp [emit, outcome_eq, hp, ha, setChan])
        · rename_i a ha
          exact hr.add (k := s.next) hm hin (by simp [emit, outcome_eq, hp, ha])
  | close id d =>
    dsimp only
    split
    · exact hg
    · split
      · exact hg.trySend _ _
      · exact hg
  | data id d =>
    dsimp only
    split
    · exact hg.trySend _ _
    · exact hg
  | mapping id ms => exact hg
  | token u p => exact hg.finish _

theorem client_openedAs (cfg : Cfg) (es : List Event) : OpenedAs cfg (clientRun cfg [] es) := by
  have hK : Kept (fun s => CInv (accepted (clientInit cfg []).trace) [] s ∧ OpenedAs cfg s) :=
    (Flow.kept.and (HInv.kept.and BInv.kept)).and (OpenedAs.kept cfg)
  have hP := Kept.preserved hK (H := clientHandle cfg) fun s f h hl => by
    have h1 := clientHandle_inv cfg _ _ s f h.1 hl
    exact ⟨⟨h1.1, OpenedAs.handle cfg s f h.2⟩, h1.2⟩
  refine (run_inv hP es _ ⟨(Fresh.init cfg []).cinv, ?_⟩).2
  intro i h how hm
  obtain ⟨f, e⟩ := (Fresh.init cfg []).trace _ hm
  cases e

end Wm.Tunnel

namespace Wm.World
open Wm Wm.Prot
open scoped List
open Wm.Tunnel (datas creates regCount openCount gots received submissions accepted relayed written arrived InnerL heads heads_received)

variable {T : Tunnel.St → Tunnel.Event → Tunnel.St}

/-! ### the mappings the server knows -/

/-- what an end accepts in one step: a new stream's open request, a submitted message, or the refusal -/
theorem accepted_new (hT : Steps T) {s : Tunnel.St} {e : Tunnel.Event} {f : Frame} (h : f ∈ accepted (T s e).trace) :
    f ∈ accepted s.trace ∨ f ∈ s.outq ∨ f = .close 0 Tunnel.notVerify ∨
    ∃ j d, e = .work j d ∧ f = .create j d := by
  obtain ⟨u, e1, e2, e3⟩ := hT s e
  clear e3
  rw [e1, Tunnel.accepted_append, Tunnel.accepted_append, List.mem_append, List.mem_append] at h
  rcases h with (h | hf) | h
  · exact .inl h
  · cases e <;> simp only [heads] at hf
    case work j d =>
      split at hf
      · have : f = .create j d := by
          cases hl : Tunnel.lookup j s.map <;> simpa [accepted, hl] using hf
        exact .inr (.inr (.inr ⟨j, d, rfl, this⟩))
      · cases hf
    case submit f => split at hf <;> cases hf
    case take j =>
      split at hf
      · cases hf
      · split at hf <;> cases hf
    case dropRx h => split at hf <;> cases hf
    case recv =>
      split at hf
      · split at hf
        · cases hf
        · rename_i g q hgq
          simp [accepted] at hf; subst hf
          exact .inr (.inl (by rw [hgq]; simp))
      · cases hf
    case readEnd => split at hf <;> cases hf
    case read => split at hf <;> cases hf
    case wrote n =>
      split at hf
      · split at hf <;> cases hf
      · cases hf
    case writeErr => cases hf
  · exact .inr (.inr (.inl (e2.accepted f h)))

theorem Calm.accepted (hT : Steps T) {s s' : Tunnel.St} (hc : Calm T s s') {f : Frame} (h : f ∈ accepted s'.trace) :
    f ∈ Tunnel.accepted s.trace ∨ f ∈ s.outq ∨ f = .close 0 Tunnel.notVerify := by
  rcases hc with rfl | ⟨e, he, rfl⟩
  · exact .inl h
  · rcases accepted_new hT h with h | h | h | ⟨j, d, h, _⟩
    · exact .inl h
    · exact .inr (.inl h)
    · exact .inr (.inr h)
    · exact absurd h (he j d)

/-- every step but the start of a stream leaves an end calm -/
theorem step_calm (cfg w e) (hb : Base cfg w) : Calm (Tunnel.clientStep cfg.client) w.cli (step cfg w e).cli ∧
    (e ≠ .work → Calm (Tunnel.serverStep cfg.server) w.srv (step cfg w e).srv) := by
  have hS := steps_server cfg.server
  have hC := steps_client cfg.client
  cases e <;> simp only [step]
  case accept => exact ⟨.inl rfl, fun _ => .inl rfl⟩
  case visit n mode =>
    cases w.idle[n]? with
    | none => exact ⟨.inl rfl, fun _ => .inl rfl⟩
    | some i =>
      dsimp only
      cases pickName w.srv.mappings mode with
      | none => exact ⟨.inl rfl, fun _ => .inl rfl⟩
      | some name =>
        dsimp only
        split
        · split <;> exact ⟨.inl rfl, fun _ => .inl rfl⟩
        · exact ⟨.inl rfl, fun _ => .inl rfl⟩
  case work =>
    refine ⟨?_, fun h => absurd rfl h⟩
    cases w.works with
    | nil => exact .inl rfl
    | cons p rest =>
      dsimp only
      cases w.visitors[p.1]? with
      | none => exact .inl rfl
      | some v => dsimp only; split <;> exact .inl rfl
  case srv e => exact ⟨.inl rfl, fun _ => loopStep_calm _ _ _⟩
  case cli e => exact ⟨loopStep_calm _ _ _, fun _ => .inl rfl⟩
  case otherS e => exact ⟨.inl rfl, fun _ => otherStep_calm _ _ _⟩
  case otherC e => exact ⟨otherStep_calm _ _ _, fun _ => .inl rfl⟩
  case vis n e =>
    cases hl : w.visitors[n]? with
    | none => exact ⟨.inl rfl, fun _ => .inl rfl⟩
    | some v => exact ⟨.inl rfl, fun _ => relayStep_calm _ _ _ _ _ (hb.visitors v (List.mem_of_getElem? hl))⟩
  case start id k => split <;> exact ⟨.inl rfl, fun _ => .inl rfl⟩
  case loc n e =>
    cases hl : w.locals[n]? with
    | none => exact ⟨.inl rfl, fun _ => .inl rfl⟩
    | some l => exact ⟨relayStep_calm _ _ _ _ _ (hb.locals l (List.mem_of_getElem? hl)), fun _ => .inl rfl⟩

/-- other tasks of the client announce no mappings -/
def NoMaps (w : St) : Prop := ∀ f ∈ w.otherC, ∀ i ms, f ≠ .mapping i ms

theorem NoMaps.back {cfg w e} (hb : Base cfg w) (h : NoMaps (step cfg w e)) : NoMaps w := by
  obtain ⟨_, _, _, h2, _⟩ := step_one cfg w e hb
  exact fun f hf => h f (h2.subset hf)

/-- the mappings a client announces are the configured ones -/
theorem maps_run (cfg es i) (ho : Own i (run cfg es)) (hf : Fit (run cfg es)) (hn : NoMaps (run cfg es)) :
    ∀ j ms, .mapping j ms ∈ accepted (run cfg es).cli.trace → ms = cfg.client.mappings := by
  induction es using List.reverseRecOn with
  | nil =>
    have hin : ∀ f s, (∀ j ms, .mapping j ms ∈ accepted s.trace → ms = cfg.client.mappings) →
        (∀ j ms, f = .mapping j ms → ms = cfg.client.mappings) →
        ∀ j ms, .mapping j ms ∈ accepted (Tunnel.introduce f s).trace → ms = cfg.client.mappings := by
      intro f s h hff j ms hg
      unfold Tunnel.introduce at hg
      split at hg
      · split at hg
        · simp only [Tunnel.enqueue, Tunnel.emit, Tunnel.accepted_append, List.mem_append] at hg
          rcases hg with hg | hg
          · exact h j ms hg
          · simp [accepted] at hg; exact hff j ms hg.symm
        · exact h j ms hg
        · exact h j ms hg
      · exact h j ms hg
    have h0 : ∀ j ms, .mapping j ms ∈ accepted (Tunnel.clientBlank []).trace → ms = cfg.client.mappings := by
      intro j ms h; simp [Tunnel.clientBlank, accepted] at h
    simp only [run, List.foldl_nil, init]
    unfold Tunnel.clientInit
    dsimp only
    have h1 : ∀ u p, ∀ j ms, .mapping j ms ∈ accepted (Tunnel.introduce (.token u p) (Tunnel.clientBlank [])).trace →
        ms = cfg.client.mappings := fun u p => hin _ _ h0 (by simp)
    have h2 : ∀ j ms, Frame.mapping 0 cfg.client.mappings = .mapping j ms → ms = cfg.client.mappings := by
      intro j ms h; cases h; rfl
    cases cfg.client.username with
    | none =>
      split
      · exact h0
      · exact hin _ _ h0 h2
    | some u =>
      cases cfg.client.password with
      | none =>
        split
        · exact h0
        · exact hin _ _ h0 h2
      | some p =>
        split
        · exact h1 _ _
        · exact hin _ _ (h1 _ _) h2
  | append_singleton es e ih =>
    rw [run_snoc] at ho hf hn ⊢
    have hb := base_run cfg es
    have ih := ih (ho.back hb) (hf.back hb) (hn.back hb)
    have hfar := far_run cfg es i (ho.back hb) (hf.back hb)
    have hn0 := hn.back hb
    generalize run cfg es = w at *
    intro j ms hm
    rcases (step_calm cfg w e hb).1.accepted (steps_client cfg.client) hm with h | h | h
    · exact ih j ms h
    · exfalso
      have hq := client_outq hb.cli
      rcases hfar.sub.mem _ (by rw [← hq]; exact List.mem_append.2 (.inr h)) with ⟨k, h1⟩ | h1 | ⟨r, hr, h1⟩
      · cases h1
      · exact hn0 _ h1 j ms rfl
      · obtain ⟨l, hl, rfl⟩ := List.mem_map.1 hr
        rcases sends_kind (hb.locals l hl) _ h1 with ⟨d, h2⟩ | h2 <;> cases h2
    · cases h

/-- what the peer sees of a mapping: all but the local address -/
def bare (m : MappingConfig) : MappingConfig := { m with localAddr := none }

theorem server_maps {cfg es i} (ho : Own i (run cfg es)) (hf : Fit (run cfg es)) (hn : NoMaps (run cfg es)) :
    (run cfg es).srv.mappings = [] ∨ (run cfg es).srv.mappings = cfg.client.mappings.map bare := by
  have hb := base_run cfg es
  have hm := maps_run cfg es i ho hf hn
  have hs := seen_server hb hf
  generalize run cfg es = w at *
  obtain ⟨es', he⟩ := hb.srv
  have hmf := Tunnel.server_mapFrom cfg.server es'
  rw [← he] at hmf
  rcases hmf with h | ⟨j, h⟩
  · exact .inl h
  · right
    obtain ⟨f, hf1, hf2⟩ := List.mem_map.1 (hs.subset (List.mem_filterMap.2 ⟨_, h, rfl⟩))
    cases f with
    | create k x =>
      cases x with
      | none => simp [asReceived] at hf2
      | some t => cases t <;> simp [asReceived] at hf2
    | mapping k xs =>
      simp only [asReceived, Frame.mapping.injEq] at hf2
      rw [← hf2.2, hm k xs hf1]
      rfl
    | _ => simp [asReceived] at hf2

/-! ### the name a visitor's stream asks for -/

structure Ask (cfg : Cfg) (i : Nat) (w : St) : Prop where
  works : ∀ p ∈ w.works, ∃ v, w.visitors[p.1]? = some v ∧ pickName (cfg.client.mappings.map bare) v.mode = some p.2
  asked : ∀ d, .create i d ∈ accepted w.srv.trace →
    ∃ v ∈ w.visitors, v.relay.id = i ∧ ∃ name, d = some name ∧
      pickName (cfg.client.mappings.map bare) v.mode = some name

theorem ask_step (cfg w e i) (hb : Base cfg w) (ho : Own i w) (hs : Side cfg i w)
    (hm : w.srv.mappings = [] ∨ w.srv.mappings = cfg.client.mappings.map bare) (h : Ask cfg i w) :
    Ask cfg i (step cfg w e) := by
  have hS := steps_server cfg.server
  have hrs : ∀ r ∈ w.visitors.map (·.relay), IsRun r := by
    intro r hr; obtain ⟨v, hv, rfl⟩ := List.mem_map.1 hr; exact hb.visitors v hv
  have hq := server_outq hb.srv
  have hout : ∀ d, .create i d ∉ w.srv.outq := by
    intro d hd
    rcases hs.sub.mem _ (by rw [← hq]; exact List.mem_append.2 (.inr hd)) with ⟨k, h1⟩ | h1 | ⟨r, hr, h1⟩
    · cases h1
    · exact ho.server _ h1 rfl
    · rcases sends_kind (hrs r hr) _ h1 with ⟨x, h2⟩ | h2 <;> cases h2
  -- calm steps accept no new open request with this id
  have calm : ∀ s', Calm (Tunnel.serverStep cfg.server) w.srv s' → ∀ d, .create i d ∈ accepted s'.trace →
      .create i d ∈ accepted w.srv.trace := by
    intro s' hc d hd
    rcases hc.accepted hS hd with h1 | h1 | h1
    · exact h1
    · exact absurd h1 (hout d)
    · cases h1
  have keep : ∀ (vs : List Visitor), (∀ (n : Nat) v, w.visitors[n]? = some v →
      ∃ v', vs[n]? = some v' ∧ v'.relay.id = v.relay.id ∧ v'.mode = v.mode) →
      (∀ p ∈ w.works, ∃ v, vs[p.1]? = some v ∧ pickName (cfg.client.mappings.map bare) v.mode = some p.2) ∧
      ∀ s' : Tunnel.St, (∀ d, .create i d ∈ accepted s'.trace → .create i d ∈ accepted w.srv.trace) →
        ∀ d, .create i d ∈ accepted s'.trace → ∃ v ∈ vs, v.relay.id = i ∧ ∃ name, d = some name ∧
          pickName (cfg.client.mappings.map bare) v.mode = some name := by
    intro vs hvs
    refine ⟨fun p hp => ?_, fun s' hs' d hd => ?_⟩
    · obtain ⟨v, h1, h2⟩ := h.works p hp
      obtain ⟨v', h3, _, h4⟩ := hvs _ v h1
      exact ⟨v', h3, by rw [h4]; exact h2⟩
    · obtain ⟨v, h1, h2, h3⟩ := h.asked d (hs' d hd)
      obtain ⟨n, hn⟩ := List.mem_iff_getElem?.1 h1
      obtain ⟨v', h4, h5, h6⟩ := hvs n v hn
      exact ⟨v', List.mem_of_getElem? h4, by rw [h5]; exact h2, by rw [h6]; exact h3⟩
  have same : ∀ (n : Nat) v, w.visitors[n]? = some v →
      ∃ v', w.visitors[n]? = some v' ∧ v'.relay.id = v.relay.id ∧ v'.mode = v.mode := fun n v hv => ⟨v, hv, rfl, rfl⟩
  have setv : ∀ (n : Nat) (v v' : Visitor), w.visitors[n]? = some v → v'.relay.id = v.relay.id → v'.mode = v.mode →
      ∀ (m : Nat) x, w.visitors[m]? = some x → ∃ x', (w.visitors.set n v')[m]? = some x' ∧
        x'.relay.id = x.relay.id ∧ x'.mode = x.mode := by
    intro n v v' hn h1 h2 m x hx
    by_cases hnm : n = m
    · subst hnm
      rw [hn] at hx; cases hx
      have := (List.getElem?_eq_some_iff.1 hn).1
      exact ⟨v', by simp [List.getElem?_set, this], h1, h2⟩
    · exact ⟨x, by rw [List.getElem?_set_ne hnm]; exact hx, rfl, rfl⟩
  cases e <;> simp only [step]
  case accept => exact ⟨h.works, h.asked⟩
  case visit n mode =>
    cases hn : w.idle[n]? with
    | none => exact h
    | some j =>
      have hadd : ∀ (m : Nat) v, w.visitors[m]? = some v →
          ∃ v', (w.visitors ++ [(⟨Relay.init j, none, mode⟩ : Visitor)])[m]? = some v' ∧ v'.relay.id = v.relay.id ∧
            v'.mode = v.mode := by
        intro m v hv
        have := (List.getElem?_eq_some_iff.1 hv).1
        exact ⟨v, by rw [List.getElem?_append_left this]; exact hv, rfl, rfl⟩
      dsimp only
      cases hp : pickName w.srv.mappings mode with
      | none => exact ⟨h.works, h.asked⟩
      | some name =>
        dsimp only
        have hpick : pickName (cfg.client.mappings.map bare) mode = some name := by
          rcases hm with h0 | h0
          · rw [h0] at hp; simp [pickName] at hp
          · rw [← h0]; exact hp
        obtain ⟨k1, k2⟩ := keep _ hadd
        split
        · split
          · refine ⟨fun p hpm => ?_, k2 w.srv fun _ hd => hd⟩
            rcases List.mem_append.1 hpm with hpm | hpm
            · exact k1 p hpm
            · simp at hpm; subst hpm
              exact ⟨⟨Relay.init j, none, mode⟩, by simp, hpick⟩
          · exact h
        · exact ⟨k1, k2 w.srv fun _ hd => hd⟩
  case work =>
    cases hw : w.works with
    | nil => exact h
    | cons p rest =>
      obtain ⟨n, name⟩ := p
      dsimp only
      cases hv : w.visitors[n]? with
      | none => exact h
      | some v =>
        dsimp only
        by_cases hidle : w.srv.phase = .running ∧ w.srv.pending = none
        · rw [if_pos hidle]
          obtain ⟨k1, k2⟩ := keep _ (setv n v { v with handle := some w.srv.next } hv rfl rfl)
          refine ⟨fun p hp => k1 p (by rw [hw]; exact List.mem_cons_of_mem _ hp), fun d hd => ?_⟩
          rcases accepted_new hS hd with h1 | h1 | h1 | ⟨j, x, h1, h2⟩
          · exact k2 w.srv (fun _ hd => hd) d h1
          · exact absurd h1 (hout d)
          · cases h1
          · cases h1; cases h2
            obtain ⟨v', h3, h4⟩ := h.works (n, name) (by rw [hw]; simp)
            rw [hv] at h3; cases h3
            have := (List.getElem?_eq_some_iff.1 hv).1
            exact ⟨{ v with handle := some w.srv.next }, List.mem_set this _, rfl, name, rfl, h4⟩
        · rw [if_neg hidle]; exact h
  case srv e =>
    obtain ⟨k1, k2⟩ := keep _ same
    exact ⟨k1, k2 _ (calm _ (loopStep_calm _ _ _))⟩
  case cli e => exact ⟨h.works, h.asked⟩
  case otherS e =>
    obtain ⟨k1, k2⟩ := keep _ same
    exact ⟨k1, k2 _ (calm _ (otherStep_calm _ _ _))⟩
  case otherC e => exact ⟨h.works, h.asked⟩
  case vis n e =>
    cases hv : w.visitors[n]? with
    | none => exact h
    | some v =>
      have hr := hb.visitors v (List.mem_of_getElem? hv)
      obtain ⟨k1, k2⟩ := keep _ (setv n v
        { v with relay := (relayStep (Tunnel.serverStep cfg.server) true w.srv v.relay v.handle e).2 } hv
        (relayStep_cases _ _ _ _ _ _ hr).1.1 rfl)
      exact ⟨k1, k2 _ (calm _ (relayStep_calm _ _ _ _ _ hr))⟩
  case start id k => split <;> exact ⟨h.works, h.asked⟩
  case loc n e => cases w.locals[n]? <;> exact ⟨h.works, h.asked⟩

theorem ask_run (cfg es i) (ho : Own i (run cfg es)) (hf : Fit (run cfg es)) (hn : NoMaps (run cfg es)) :
    Ask cfg i (run cfg es) := by
  induction es using List.reverseRecOn with
  | nil => exact ⟨by simp [run, init], fun d hd => by simp [run, init, Tunnel.serverInit, accepted] at hd⟩
  | append_singleton es e ih =>
    rw [run_snoc] at ho hf hn ⊢
    have hb := base_run cfg es
    exact ask_step cfg _ e i hb (ho.back hb) (side_run cfg es i (ho.back hb))
      (server_maps (ho.back hb) (hf.back hb) (hn.back hb)) (ih (ho.back hb) (hf.back hb) (hn.back hb))

/-- what was asked for is what is opened -/
theorem opened_run {cfg es i} (ho : Own i (run cfg es)) (hf : Fit (run cfg es)) (hn : NoMaps (run cfg es)) {h how}
    (hop : .opened i h how ∈ (run cfg es).cli.trace) :
    ∃ v ∈ (run cfg es).visitors, v.relay.id = i ∧ ∃ name m,
      pickName (cfg.client.mappings.map bare) v.mode = some name ∧
      Tunnel.findMapping cfg.client.mappings name = some m ∧ Tunnel.outcome m i h = .opened i h how := by
  have hb := base_run cfg es
  have ha := ask_run cfg es i ho hf hn
  have hs := seen_client hb hf
  generalize run cfg es = w at *
  obtain ⟨es', he⟩ := hb.cli
  have h1 := Tunnel.client_openedAs cfg.client es'
  rw [← he] at h1
  obtain ⟨d, m, hg, hfm, hout⟩ := h1 i h how hop
  obtain ⟨f, hf1, hf2⟩ := List.mem_map.1 (hs.subset (List.mem_filterMap.2 ⟨_, hg, rfl⟩))
  cases f with
  | create k x =>
    have : k = i ∧ d.getD [] = x.getD [] := by
      cases x with
      | none => simp [asReceived] at hf2; simp [hf2.1, ← hf2.2]
      | some t => cases t <;> (simp [asReceived] at hf2; simp [hf2.1, ← hf2.2])
    obtain ⟨rfl, hx⟩ := this
    obtain ⟨v, hv, hvi, name, e1, e2⟩ := ha.asked x hf1
    subst e1
    rw [hx] at hfm
    exact ⟨v, hv, hvi, name, m, e2, hfm, hout⟩
  | _ => simp [asReceived] at hf2

end Wm.World
