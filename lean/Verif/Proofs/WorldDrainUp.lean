import Verif.Props.WorldDrain
/-!
The other direction: what the client needs to take everything under way to it.
-/
namespace Wm.World
open Wm Wm.Prot
open scoped List
open Wm.Tunnel (datas creates regCount openCount gots received submissions accepted relayed written arrived InnerL heads
  LoggedIn streamCap RxSame)
open Wm.Relay (inputs outputs)

/-! ### the channel of a running local connection is open -/

/-- the old receivers stay as they are, and the streams newly connected have one -/
structure Grown (s s' : Tunnel.St) : Prop where
  same : RxSame s s'
  conn : ∀ p ∈ connects s'.trace, p ∈ connects s.trace ∨ (p.2 < s'.next ∧ (s'.chan p.2).rx = true)

theorem Grown.refl (s) : Grown s s := ⟨.refl s, fun _ h => .inl h⟩

theorem Grown.trans {a b c} (h1 : Grown a b) (h2 : Grown b c) : Grown a c := by
  refine ⟨h1.same.trans h2.same, fun p hp => ?_⟩
  rcases h2.conn p hp with h | h
  · rcases h1.conn p h with h | ⟨h, h'⟩
    · exact .inl h
    · exact .inr ⟨Nat.lt_of_lt_of_le h h2.same.next, by rw [h2.same.rx p.2 h]; exact h'⟩
  · exact .inr h

theorem Grown.of {s s'} (h : RxSame s s') {u : List Tunnel.Obs} (ht : s'.trace = s.trace ++ u) (hu : connects u = []) :
    Grown s s' := ⟨h, fun p hp => by rw [ht, connects_append, hu, List.append_nil] at hp; exact .inl hp⟩

theorem Grown.same' {s s'} (hn : s'.next = s.next) (hs : s'.chan = s.chan) {u : List Tunnel.Obs}
    (ht : s'.trace = s.trace ++ u) (hu : connects u = []) : Grown s s' := .of (.same hn hs) ht hu

theorem grown_finish (p s) : Grown s (Tunnel.finish p s) := by
  refine .of (Tunnel.rxSame_finish p s).toRxSame (Tunnel.finish_trace p s) ?_
  refine List.filterMap_eq_nil_iff.2 fun o ho => ?_
  obtain ⟨x, _, rfl⟩ := List.mem_map.1 ho
  rfl

theorem grown_trySend (k f s) : Grown s (Tunnel.trySend k f s) := by
  have h := (Tunnel.rxSame_trySend k f s).toRxSame
  unfold Tunnel.trySend at h ⊢
  split
  · exact .same' rfl rfl (u := [.lost k f]) rfl rfl
  · rename_i h1
    rw [if_neg h1] at h
    split
    · rename_i h2
      rw [if_pos h2] at h
      exact .of h (u := [.put k f]) rfl rfl
    · exact .same' rfl rfl (u := [.overflow k f]) rfl rfl

theorem grown_sendAwait (k f s) : Grown s (Tunnel.sendAwait k f s).1 := by
  have h := (Tunnel.rxSame_sendAwait k f s).toRxSame
  unfold Tunnel.sendAwait at h ⊢
  split
  · exact .same' rfl rfl (u := [.lost k f]) rfl rfl
  · rename_i h1
    rw [if_neg h1] at h
    split
    · rename_i h2
      rw [if_pos h2] at h
      exact .of h (u := [.put k f]) rfl rfl
    · exact .same' rfl rfl (u := []) (by simp) rfl

theorem grown_closeAll (s) : Grown s (Tunnel.closeAll s) := by
  unfold Tunnel.closeAll
  generalize s.map = m
  induction m generalizing s with
  | nil => exact .refl s
  | cons p m ih => exact (grown_trySend _ _ s).trans (ih _)

theorem grown_register (id s) : Grown s (Tunnel.register id s) := by
  refine .of (Tunnel.rxSame_register id s).toRxSame
    (u := (match Tunnel.lookup id s.map with | some old => [.hangup old] | none => []) ++ [.reg id s.next]) ?_ ?_
  · rw [Tunnel.register_trace]; cases Tunnel.lookup id s.map <;> simp
  · cases Tunnel.lookup id s.map <;> rfl

theorem grown_handle (cfg : Tunnel.Cfg) (s f) : Grown s (Tunnel.clientHandle cfg s f).1 := by
  have hg : Grown s (Tunnel.emit (.got f) s) := .same' rfl rfl (u := [.got f]) rfl rfl
  unfold Tunnel.clientHandle
  cases f with
  | create id dom =>
    dsimp only
    split
    · unfold Tunnel.selfSend
      split
      · exact .same' rfl rfl (u := [.got (.create id dom), .submitted (.close id [])]) (by simp [Tunnel.emit]) rfl
      · exact .same' rfl rfl (u := [.got (.create id dom)]) rfl rfl
    · rename_i m _
      have hr := hg.trans (grown_register id _)
      split
      · exact hr.trans (.same' rfl rfl (u := [.opened id _ (.proxy (some m.headers))]) rfl rfl)
      · split
        · refine ⟨⟨hr.same.next, fun k hk => ?_⟩, fun p hp => ?_⟩
          · have hne : k ≠ s.next := Nat.ne_of_lt hk
            refine Eq.trans ?_ (hr.same.rx k hk)
            simp [Tunnel.emit, Tunnel.setChan, hne]
          · have hp' : p ∈ connects ((Tunnel.register id (Tunnel.emit (.got (.create id dom)) s)).trace ++ [.rxGone s.next]) := hp
            rw [connects_append] at hp'
            rcases List.mem_append.1 hp' with hp' | hp'
            · have hin : p ∈ connects s.trace := by
                rw [Tunnel.register_trace, connects_append, connects_append] at hp'
                have h0 : connects (Tunnel.emit (.got (.create id dom)) s).trace = connects s.trace := by
                  show connects (s.trace ++ [_]) = _
                  rw [connects_append]; exact List.append_nil _
                rw [h0] at hp'
                rcases List.mem_append.1 hp' with hp' | hp'
                · rcases List.mem_append.1 hp' with hp' | hp'
                  · exact hp'
                  · cases hl : Tunnel.lookup id (Tunnel.emit (.got (.create id dom)) s).map <;> rw [hl] at hp' <;> cases hp'
                · cases hp'
              exact .inl hin
            · cases hp'
        · rename_i a _
          have hreg := Tunnel.register_rx id (Tunnel.emit (.got (.create id dom)) s)
          refine ⟨hr.same.trans (.same rfl rfl), fun p hp => ?_⟩
          have hp' : p ∈ connects ((Tunnel.register id (Tunnel.emit (.got (.create id dom)) s)).trace ++
            [.opened id s.next (.connect a)]) := hp
          rw [connects_append] at hp'
          rcases List.mem_append.1 hp' with hp' | hp'
          · exact hr.conn p hp'
          · have : p = (id, s.next) := by simpa [connects] using hp'
            subst this
            refine .inr ⟨?_, hreg.1⟩
            show s.next < (Tunnel.register id (Tunnel.emit (.got (.create id dom)) s)).next
            rw [hreg.2]; exact Nat.lt_succ_self _
  | data id d =>
    dsimp only
    split
    · exact hg.trans (grown_trySend _ _ _)
    · exact hg
  | close id d =>
    dsimp only
    split
    · exact hg
    · split
      · exact hg.trans (grown_trySend _ _ _)
      · exact hg
  | mapping i ms => exact hg
  | token u p => exact hg.trans (grown_finish _ _)

theorem grown_resume (cfg : Tunnel.Cfg) (s) : Grown s (Tunnel.resume (Tunnel.clientHandle cfg) s) := by
  unfold Tunnel.resume
  split
  · have h := (Tunnel.pump_inv (Tunnel.clientHandle cfg) (Grown s) (Grown s) (fun _ h => h)
      (fun x f hx => ⟨hx.trans (grown_handle cfg x f), fun _ => hx.trans (grown_handle cfg x f)⟩) s.readBuf s (.refl s)).1
    have h' : Grown s { (pump (Tunnel.clientHandle cfg) s s.readBuf).1 with
        readBuf := (pump (Tunnel.clientHandle cfg) s s.readBuf).2.1 } :=
      h.trans (.same' rfl rfl (u := []) (by simp) rfl)
    dsimp only
    split
    · exact h'.trans (grown_finish _ _)
    · exact h'.trans (grown_finish _ _)
    · exact h'
  · exact .refl s

theorem grown_retry (cfg : Tunnel.Cfg) (s) : Grown s (Tunnel.resumePending (Tunnel.clientHandle cfg) s) := by
  unfold Tunnel.resumePending
  split
  · exact .refl s
  · rename_i h f hp
    have h1 : Grown s (Tunnel.sendAwait h f { s with pending := none }).1 :=
      Grown.trans (b := { s with pending := none }) (.same' rfl rfl (u := []) (by simp) rfl) (grown_sendAwait _ _ _)
    dsimp only
    split
    · exact h1
    · exact h1.trans (grown_resume cfg _)

theorem grown_step (cfg : Tunnel.Cfg) (s : Tunnel.St) (e : Tunnel.Event) (he : ∀ h, e ≠ .dropRx h) :
    Grown s (Tunnel.clientStep cfg s e) := by
  unfold Tunnel.clientStep Tunnel.step
  cases e with
  | dropRx h => exact absurd rfl (he h)
  | submit f =>
    dsimp only
    split
    · exact .same' rfl rfl (u := [.submitted f]) rfl rfl
    · exact .refl s
  | take h =>
    dsimp only
    split
    · exact .refl s
    · rename_i f q _
      split
      · exact Grown.trans (b := Tunnel.emit (.took h f) (Tunnel.setChan h { s.chan h with q := q } s))
          (.of (.set (h := h) (c := { s.chan h with q := q }) rfl rfl rfl) (u := [.took h f]) rfl rfl) (grown_retry cfg _)
      · exact .refl s
  | work id d =>
    dsimp only
    split
    · exact (grown_register id s).trans (Grown.trans (b := Tunnel.enqueue (.create id d) (Tunnel.register id s))
        (.same' rfl rfl (u := [.queued false (.create id d)]) rfl rfl) (grown_resume cfg _))
    · exact .refl s
  | recv =>
    dsimp only
    split
    · split
      · exact .refl s
      · rename_i f q _
        exact Grown.trans (b := Tunnel.enqueue f { s with outq := q } true)
          (.same' rfl rfl (u := [.queued true f]) rfl rfl) (grown_resume cfg _)
    · exact .refl s
  | read bs =>
    dsimp only
    split
    · exact Grown.trans (b := Tunnel.emit (.arrived bs) { s with readBuf := s.readBuf ++ bs })
        (.same' rfl rfl (u := [.arrived bs]) rfl rfl) (grown_resume cfg _)
    · exact .refl s
  | readEnd =>
    dsimp only
    split
    · exact Grown.trans (b := Tunnel.emit .connLost s) (.same' rfl rfl (u := [.connLost]) rfl rfl)
        ((grown_closeAll _).trans (grown_finish _ _))
    · exact .refl s
  | wrote n =>
    dsimp only
    split
    · split
      · exact .refl s
      · have h1 : Grown s (Tunnel.emit (.wrote (s.writeBuf.take n)) { s with writeBuf := s.writeBuf.drop n }) :=
          .same' rfl rfl (u := [.wrote (s.writeBuf.take n)]) rfl rfl
        split
        · exact h1.trans (grown_finish _ _)
        · exact h1.trans (grown_resume cfg _)
    · exact .refl s
  | writeErr =>
    dsimp only
    split
    · split
      · exact .refl s
      · exact grown_resume cfg _
    · exact .refl s

/-- the end of a task closes its own channel only -/
theorem grown_drop (cfg : Tunnel.Cfg) (s : Tunnel.St) (h : Nat) :
    (∀ k < s.next, k ≠ h → ((Tunnel.clientStep cfg s (.dropRx h)).chan k).rx = (s.chan k).rx) ∧
    (∀ p ∈ connects (Tunnel.clientStep cfg s (.dropRx h)).trace, p ∈ connects s.trace ∨
      (p.2 < (Tunnel.clientStep cfg s (.dropRx h)).next ∧ ((Tunnel.clientStep cfg s (.dropRx h)).chan p.2).rx = true)) := by
  unfold Tunnel.clientStep Tunnel.step
  dsimp only
  split
  · have hg := grown_retry cfg (Tunnel.emit (.rxGone h) (Tunnel.setChan h { s.chan h with q := [], rx := false } s))
    refine ⟨fun k hk hne => (hg.same.rx k hk).trans (by simp [Tunnel.emit, Tunnel.setChan, hne]), fun p hp => ?_⟩
    rcases hg.conn p hp with h1 | h1
    · have h2 : p ∈ connects (s.trace ++ [.rxGone h]) := h1
      rw [connects_append] at h2
      exact .inl (by simpa [connects] using h2)
    · exact .inr h1
  · exact ⟨fun _ _ _ => rfl, fun p hp => .inl hp⟩

/-- every stream connected to a local service has a receiver, unless the relay of the stream is over -/
def Serving (w : St) : Prop :=
  ∀ p ∈ connects w.cli.trace, (∀ l ∈ w.locals, l.2 = p.2 → l.1.phase = .running) → (w.cli.chan p.2).rx = true

theorem connects_next {cfg es p} (h : p ∈ connects (run cfg es).cli.trace) : p.2 < (run cfg es).cli.next := by
  obtain ⟨o, ho, h1⟩ := List.mem_filterMap.1 h
  have : ∃ a, o = .opened p.1 p.2 (.connect a) := by
    split at h1
    · rename_i a
      exact ⟨a, by cases h1; rfl⟩
    · cases h1
  obtain ⟨a, rfl⟩ := this
  have hr := (just_run cfg es).opened _ _ _ ho
  obtain ⟨es', he⟩ := (base_run cfg es).cli
  rw [he] at hr ⊢
  exact ((Tunnel.client_inv cfg.client [] es').2.1.regs _ _ hr).2

theorem conn_new {cfg : Tunnel.Cfg} {s s' : Tunnel.St} (ho : One (Tunnel.clientStep cfg) s s') {p} (hp : p ∈ connects s'.trace) :
    p ∈ connects s.trace ∨ (s'.chan p.2).rx = true := by
  rcases ho with rfl | ⟨e, rfl⟩
  · exact .inl hp
  · by_cases hd : ∃ h, e = .dropRx h
    · obtain ⟨h, rfl⟩ := hd
      exact ((grown_drop cfg s h).2 p hp).imp id (·.2)
    · exact ((grown_step cfg s e fun h e' => hd ⟨h, e'⟩).conn p hp).imp id (·.2)

theorem Spares.rxC {cfg : Tunnel.Cfg} {k : Nat} {s s'} (h : Spares k (Tunnel.clientStep cfg) s s') (hk : k < s.next)
    (hr : (s.chan k).rx = true) : (s'.chan k).rx = true := by
  rcases h with rfl | ⟨e, he, rfl⟩
  · exact hr
  · by_cases hd : ∃ h, e = .dropRx h
    · obtain ⟨h, rfl⟩ := hd
      rw [(grown_drop cfg s h).1 k hk fun e => he (by rw [e])]; exact hr
    · rw [(grown_step cfg s e fun h e' => hd ⟨h, e'⟩).same.rx k hk]; exact hr

theorem Serving.quiet {cfg w} (hn : ∀ p ∈ connects w.cli.trace, p.2 < w.cli.next) (h : Serving w) (w' : St)
    (hl : w'.locals = w.locals) (ho : One (Tunnel.clientStep cfg) w.cli w'.cli)
    (hs : ∀ p ∈ connects w.cli.trace, Spares p.2 (Tunnel.clientStep cfg) w.cli w'.cli) : Serving w' := by
  intro p hp hr
  rw [hl] at hr
  rcases conn_new ho hp with h1 | h1
  · exact (hs p h1).rxC (hn p h1) (h p h1 hr)
  · exact h1

theorem serving_step (cfg w e) (hb : Base cfg w) (hn : ∀ p ∈ connects w.cli.trace, p.2 < w.cli.next) (h : Serving w) :
    Serving (step cfg w e) := by
  have ho := (step_one cfg w e hb).2.1
  cases e
  case accept => exact h
  case visit n mode =>
    simp only [step]
    split
    · exact h
    · split
      · exact h
      · split
        · split <;> exact h
        · exact h
  case work =>
    simp only [step]
    split
    · exact h
    · split
      · exact h
      · split <;> exact h
  case srv e => exact h
  case cli e => exact h.quiet hn _ rfl ho fun p hp => loopStep_spares _ _ _ _ _
  case otherS e => exact h
  case otherC e =>
    exact h.quiet hn _ rfl ho fun p hp => otherStep_spares e (List.mem_map.2 ⟨p, hp, rfl⟩)
  case vis n e =>
    simp only [step]
    split <;> exact h
  case start id k =>
    simp only [step]
    split
    · exact fun p hp hr => h p hp fun l hl => hr l (List.mem_append.2 (.inl hl))
    · exact h
  case loc n e =>
    simp only [step] at ho ⊢
    split
    · exact h
    · rename_i l hl
      simp only [hl] at ho
      intro p hp hr
      dsimp only at hp hr ⊢
      rcases conn_new ho hp with h1 | h1
      · have hset : ∀ l' ∈ w.locals, l'.2 = p.2 → l'.1.phase = .running := by
          intro l' hl' he'
          obtain ⟨j, hj⟩ := List.getElem?_of_mem hl'
          by_cases hnj : n = j
          · subst hnj
            rw [hl] at hj; cases hj
            exact relayStep_running_back _ _ _ _ _ _ (hr (_, l.2)
              (List.mem_of_getElem? (List.getElem?_set_self (List.getElem?_eq_some_iff.1 hl).1)) he')
          · exact hr l' (List.mem_of_getElem? (by rw [List.getElem?_set_ne hnj]; exact hj)) he'
        refine Spares.rxC (relayStep_spares e ?_) (hn p h1) (h p h1 hset)
        by_cases he' : l.2 = p.2
        · exact .inr (hset l (List.mem_of_getElem? hl) he')
        · exact .inl fun hh => he' (Option.some.inj hh)
      · exact h1

theorem serving_run (cfg es) : Serving (run cfg es) := by
  induction es using List.reverseRecOn with
  | nil =>
    intro p hp
    exfalso
    have hf := Tunnel.Fresh.init cfg.client []
    obtain ⟨o, ho, h1⟩ := List.mem_filterMap.1 hp
    obtain ⟨f, rfl⟩ := hf.trace _ ho
    cases h1
  | append_singleton es e ih =>
    rw [run_snoc]
    exact serving_step cfg _ e (base_run cfg es) (fun p hp => connects_next hp) ih

/-! ### a client that has room takes a message without loss -/

/-- no message of the kind `P` has been lost for lack of room in channel `h` -/
def Held (h : Nat) (P : Frame → Prop) (s : Tunnel.St) : Prop := ∀ f, P f → .overflow h f ∉ s.trace

theorem Held.more {h P} {s s' : Tunnel.St} (hk : Held h P s) {u : List Tunnel.Obs} (ht : s'.trace = s.trace ++ u)
    (hu : ∀ f, .overflow h f ∉ u) : Held h P s' := by
  intro f hf hd
  rw [ht] at hd
  rcases List.mem_append.1 hd with hd | hd
  · exact hk f hf hd
  · exact hu _ hd

theorem held_trySend {h P k f} {s : Tunnel.St} (hk : Held h P s) (hq : (∃ f, P f) → (s.chan h).q = []) :
    Held h P (Tunnel.trySend k f s) := by
  by_cases hP : ∃ f, P f
  case neg => exact fun g hg => absurd ⟨g, hg⟩ hP
  replace hq := hq hP
  unfold Tunnel.trySend
  split
  · exact hk.more (u := [.lost k f]) rfl (by simp)
  · split
    · exact hk.more (u := [.put k f]) rfl (by simp)
    · rename_i h2
      refine hk.more (u := [.overflow k f]) rfl ?_
      intro g hg
      have : h = k := by simp at hg; exact hg.1
      subst this
      rw [hq] at h2
      exact h2 (by decide)

theorem trySend_keeps' (k f) (s : Tunnel.St) : (Tunnel.trySend k f s).phase = s.phase := by
  unfold Tunnel.trySend
  split
  · rfl
  · split <;> rfl

theorem handle_room (cfg : Tunnel.Cfg) {h P} {s : Tunnel.St} {f : Frame} (hk : Held h P s) (ho : s.outq = [])
    (hq : (∃ f, P f) → (s.chan h).q = []) (hr : s.phase = .running) (hf : ∀ u p, f ≠ .token u p) :
    (Tunnel.clientHandle cfg s f).2 = false ∧ (Tunnel.clientHandle cfg s f).1.phase = .running ∧
    Held h P (Tunnel.clientHandle cfg s f).1 := by
  have hg : Held h P (Tunnel.emit (.got f) s) := hk.more (u := [.got f]) rfl (by simp)
  unfold Tunnel.clientHandle
  cases f with
  | create id dom =>
    dsimp only
    split
    · unfold Tunnel.selfSend
      rw [if_pos (by show s.outq.length < _; rw [ho]; decide)]
      exact ⟨rfl, hr, hg.more (u := [.submitted (.close id [])]) rfl (by simp)⟩
    · rename_i m _
      have hreg : Held h P (Tunnel.register id (Tunnel.emit (.got (.create id dom)) s)) := by
        refine hg.more (u := (match Tunnel.lookup id s.map with | some old => [.hangup old] | none => []) ++
          [.reg id s.next]) ?_ ?_
        · rw [Tunnel.register_trace]
          show _ ++ (match Tunnel.lookup id s.map with
            | some old => [Tunnel.Obs.hangup old] | none => []) ++ [Tunnel.Obs.reg id s.next] = _
          cases Tunnel.lookup id s.map <;> simp
        · intro g; cases Tunnel.lookup id s.map <;> simp
      have hph : (Tunnel.register id (Tunnel.emit (.got (.create id dom)) s)).phase = .running := by
        unfold Tunnel.register; dsimp only; cases Tunnel.lookup id (Tunnel.emit (.got (.create id dom)) s).map <;> exact hr
      split
      · exact ⟨rfl, hph, hreg.more (u := [.opened id _ (.proxy (some m.headers))]) rfl (by simp)⟩
      · split
        · exact ⟨rfl, hph, hreg.more (u := [.rxGone s.next]) rfl (by simp)⟩
        · rename_i a _
          exact ⟨rfl, hph, hreg.more (u := [.opened id s.next (.connect a)]) rfl (by simp)⟩
  | data id d =>
    dsimp only
    split
    · exact ⟨rfl, (trySend_keeps' _ _ _).trans hr, held_trySend hg hq⟩
    · exact ⟨rfl, hr, hg⟩
  | close id d =>
    dsimp only
    split
    · exact ⟨rfl, hr, hg⟩
    · split
      · exact ⟨rfl, (trySend_keeps' _ _ _).trans hr, held_trySend hg hq⟩
      · exact ⟨rfl, hr, hg⟩
  | mapping i ms => exact ⟨rfl, hr, hg⟩
  | token u p => exact absurd rfl (hf u p)

theorem trySend_outq (k f) (s : Tunnel.St) : (Tunnel.trySend k f s).outq = s.outq := by
  unfold Tunnel.trySend
  split
  · rfl
  · split <;> rfl

/-- all the client has to say to a message is that a stream is over -/
theorem handle_outq (cfg : Tunnel.Cfg) (s : Tunnel.St) (f : Frame) (ho : s.outq = []) (hf : ∀ u p, f ≠ .token u p) :
    ∀ g ∈ (Tunnel.clientHandle cfg s f).1.outq, g = .close f.sockMap [] := by
  have hno : ∀ {t : Tunnel.St}, t.outq = s.outq → ∀ g ∈ t.outq, g = .close f.sockMap [] := by
    intro t ht g hg; rw [ht, ho] at hg; cases hg
  unfold Tunnel.clientHandle
  cases f with
  | create id dom =>
    dsimp only
    split
    · unfold Tunnel.selfSend
      split
      · intro g hg
        have hg : g ∈ s.outq ++ [.close id []] := hg
        rw [ho] at hg
        exact List.mem_singleton.1 hg
      · exact hno rfl
    · have hreg : (Tunnel.register id (Tunnel.emit (.got (.create id dom)) s)).outq = s.outq := by
        unfold Tunnel.register; dsimp only; cases Tunnel.lookup id (Tunnel.emit (.got (.create id dom)) s).map <;> rfl
      split
      · exact hno hreg
      · split <;> exact hno hreg
  | data id d =>
    dsimp only
    split
    · exact hno (trySend_outq _ _ _)
    · exact hno rfl
  | close id d =>
    dsimp only
    split
    · exact hno rfl
    · split
      · exact hno (trySend_outq _ _ _)
      · exact hno rfl
  | mapping i ms => exact hno rfl
  | token u p => exact absurd rfl (hf u p)

/-- One more byte completes at most one message, and what the client says to it can be sent. -/
theorem byte_room_outq (cfg : Tunnel.Cfg) {fs : List Frame} (hS : Tunnel.Stream fs []) (es : List Tunnel.Event) {b : UInt8} {h P}
    (ha : arrived (Tunnel.clientRun cfg [] es).trace ++ [b] <+: fs.flatMap wire ++ [])
    (hr : (Tunnel.clientRun cfg [] es).phase = .running) (ht : ∀ u p, .token u p ∉ fs)
    (hk : Held h P (Tunnel.clientRun cfg [] es)) (ho : (Tunnel.clientRun cfg [] es).outq = [])
    (hq : (∃ f, P f) → ((Tunnel.clientRun cfg [] es).chan h).q = []) :
    (Tunnel.clientStep cfg (Tunnel.clientRun cfg [] es) (.read [b])).phase = .running ∧
    Held h P (Tunnel.clientStep cfg (Tunnel.clientRun cfg [] es) (.read [b])) ∧
    ∀ g ∈ (Tunnel.clientStep cfg (Tunnel.clientRun cfg [] es) (.read [b])).outq, Fits g := by
  have hat := Tunnel.client_at hS cfg [] es
  have hp := Tunnel.client_never_waits cfg [] es
  have hy := Tunnel.client_not_ready cfg [] es
  generalize Tunnel.clientRun cfg [] es = s at *
  have hpre := (List.prefix_append _ _).trans ha
  have hnc := hat.2 hpre ⟨hr, hy, hp⟩
  obtain ⟨c, rest, e1, e2, e3⟩ := hat.1 hpre
  unfold Tunnel.clientStep Tunnel.step
  dsimp only
  rw [if_pos ⟨hr, hp⟩]
  obtain ⟨t, ht'⟩ : ∃ t, t = Tunnel.emit (.arrived [b]) { s with readBuf := s.readBuf ++ [b] } := ⟨_, rfl⟩
  rw [← ht']
  have t1 : t.phase = .running := by rw [ht']; exact hr
  have t2 : Held h P t := hk.more (u := [.arrived [b]]) (by rw [ht']; rfl) (by simp)
  have t3 : t.outq = [] := by rw [ht']; exact ho
  have t4 : (∃ f, P f) → (t.chan h).q = [] := by rw [ht']; exact hq
  have t5 : t.readBuf = s.readBuf ++ [b] := by rw [ht']; rfl
  have t6 : Tunnel.Live t := by rw [ht']; exact ⟨hr, hy, hp⟩
  by_cases hc : Complete t.readBuf
  · obtain ⟨r, hr'⟩ := ha
    rw [e1, e3] at hr'
    have hr2 : t.readBuf ++ r = rest.flatMap wire ++ [] := by
      rw [t5]
      simp only [List.flatMap_append, List.append_assoc] at hr' ⊢
      exact List.append_cancel_left hr'
    obtain ⟨d1, d2, q, f1, f2, f3, f4⟩ := split_prefix rest (fun f hf => hS.fits f (by simp [e1, hf])) hS.part _ _ hr2
    cases d1 with
    | nil => rw [f2] at hc; exact absurd (by simpa using hc) f3
    | cons f d1 =>
      have hfit : Fits f := hS.fits f (by simp [e1, f1])
      have hlen : t.readBuf.length ≤ (wire f).length := by
        by_contra hlt
        refine hnc ?_
        have hw : wire f <+: s.readBuf := by
          refine List.prefix_of_prefix_length_le (l₃ := t.readBuf) ?_ ?_ ?_
          · rw [f2]; simp
          · rw [t5]; exact List.prefix_append _ _
          · have : t.readBuf.length = s.readBuf.length + 1 := by rw [t5]; simp
            omega
        obtain ⟨z, hz⟩ := hw
        rw [← hz]
        exact Tunnel.complete_wire hfit z
      have hbuf : t.readBuf = wire f := by
        rw [f2] at hlen ⊢
        simp only [List.flatMap_cons, List.append_assoc, List.length_append] at hlen ⊢
        have h1 : (d1.flatMap wire).length = 0 := by omega
        have h2 : q.length = 0 := by omega
        rw [List.length_eq_zero_iff.1 h1, List.length_eq_zero_iff.1 h2]; simp
      have hdec := (C01_frame_roundtrip f hfit [] []).2
      rw [List.append_nil, ← hbuf] at hdec
      have hnt : ∀ u p, asReceived f ≠ .token u p := by
        intro u p hup
        have : f = .token u p := by
          unfold asReceived at hup
          split at hup
          · cases hup
          · cases hup
          · exact hup
        subst this
        exact ht u p (by rw [e1, f1]; simp)
      obtain ⟨g1, g2, g3⟩ := handle_room cfg t2 t3 t4 t1 hnt
      unfold Tunnel.resume
      rw [if_pos (show t.phase = .running ∧ t.readyShutdown = false ∧ t.pending = none from t6)]
      have hpump : pump (Tunnel.clientHandle cfg) t t.readBuf = ((Tunnel.clientHandle cfg t (asReceived f)).1, [], .more) := by
        rw [pump_some _ _ hdec, if_neg (by rw [g1]; simp), pump_incomplete _ _ (by simp [Complete])]
      rw [hpump]
      refine ⟨g2, g3, fun g hg => ?_⟩
      have hs : (asReceived f).sockMap = f.sockMap := by
        unfold asReceived; split <;> rfl
      rw [handle_outq cfg t (asReceived f) t3 hnt g hg, hs]
      exact ⟨by simp [BodyFits, Short, utf8], hfit.2⟩
  · rw [Tunnel.resume_idle fun _ => hc]
    exact ⟨t1, t2, fun g hg => by rw [t3] at hg; cases hg⟩

theorem byte_room (cfg : Tunnel.Cfg) {fs : List Frame} (hS : Tunnel.Stream fs []) (es : List Tunnel.Event) {b : UInt8} {h P}
    (ha : arrived (Tunnel.clientRun cfg [] es).trace ++ [b] <+: fs.flatMap wire ++ [])
    (hr : (Tunnel.clientRun cfg [] es).phase = .running) (ht : ∀ u p, .token u p ∉ fs)
    (hk : Held h P (Tunnel.clientRun cfg [] es)) (ho : (Tunnel.clientRun cfg [] es).outq = [])
    (hq : (∃ f, P f) → ((Tunnel.clientRun cfg [] es).chan h).q = []) :
    (Tunnel.clientStep cfg (Tunnel.clientRun cfg [] es) (.read [b])).phase = .running ∧
    Held h P (Tunnel.clientStep cfg (Tunnel.clientRun cfg [] es) (.read [b])) :=
  have h := byte_room_outq cfg hS es ha hr ht hk ho hq
  ⟨h.1, h.2.1⟩

end Wm.World
