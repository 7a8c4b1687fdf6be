import Verif.Proofs.WorldMeet
/-! The end-to-end composition: every message of the connection fits the format, if the environment's do. -/
namespace Wm.Tunnel
open Wm Wm.Prot

/-! ### the server's mappings were announced by the peer -/

/-- the mappings are `M`, or were announced by the peer -/
def MapSince (M : List MappingConfig) (s : St) : Prop := s.mappings = M ∨ ∃ i, .got (.mapping i s.mappings) ∈ s.trace

variable {M : List MappingConfig}

theorem MapSince.more {s s' : St} (h : MapSince M s) (u : List Obs) (ht : s'.trace = s.trace ++ u)
    (hm : s'.mappings = s.mappings) : MapSince M s' := by
  unfold MapSince
  rw [hm, ht]
  rcases h with h | ⟨i, h⟩
  · exact .inl h
  · exact .inr ⟨i, List.mem_append.2 (.inl h)⟩

theorem MapSince.trySend {s : St} (h : MapSince M s) (k f) : MapSince M (trySend k f s) := by
  unfold Tunnel.trySend
  split
  · exact h.more [.lost k f] rfl rfl
  · split
    · exact h.more [.put k f] rfl rfl
    · exact h.more [.overflow k f] rfl rfl

theorem MapSince.sendAwait {s : St} (h : MapSince M s) (k f) : MapSince M (sendAwait k f s).1 := by
  unfold Tunnel.sendAwait
  split
  · exact h.more [.lost k f] rfl rfl
  · split
    · exact h.more [.put k f] rfl rfl
    · exact h

theorem hangupFold_mappings (m : List (Nat × Nat)) : ∀ s : St,
    (m.foldl (fun s x => hangup x.2 s) s).mappings = s.mappings := by
  induction m with
  | nil => intro s; rfl
  | cons p m ih => intro s; exact (ih _).trans rfl

theorem MapSince.finish {s : St} (h : MapSince M s) (p) : MapSince M (finish p s) :=
  h.more _ (finish_trace p s) (hangupFold_mappings _ _)

theorem MapSince.closeFold (m : List (Nat × Nat)) : ∀ s : St, MapSince M s →
    MapSince M (m.foldl (fun s x => Tunnel.trySend x.2 (.close x.1 []) s) s) := by
  induction m with
  | nil => intro s h; exact h
  | cons x m ih => intro s h; exact ih _ (h.trySend _ _)

theorem MapSince.register {s : St} (h : MapSince M s) (id) : MapSince M (register id s) := by
  refine h.more (((match lookup id s.map with | some old => [.hangup old] | none => []) ++ [.reg id s.next])) ?_ ?_
  · rw [register_trace]; cases lookup id s.map <;> simp
  · unfold Tunnel.register; cases lookup id s.map <;> rfl

theorem MapSince.kept : Kept (MapSince M) where
  buf s b h := h
  read s bs h _ := h.more [.arrived bs] rfl rfl
  fin s p h _ _ := h.finish p
  lost s h _ := by
    have h1 : MapSince M (emit .connLost s) := h.more [.connLost] rfl rfl
    exact (MapSince.closeFold _ _ h1).finish _
  submit s f h _ _ := h.more [.submitted f] rfl rfl
  take s k f q h _ _ := h.more [.took k f] rfl rfl
  drop s k h _ := h.more [.rxGone k] rfl rfl
  retry s k f h _ := MapSince.sendAwait (s := { s with pending := none }) h k f
  work s id d h _ := (h.register id).more [.queued false (.create id d)] rfl rfl
  recv s f q h _ _ := h.more [.queued true f] rfl rfl
  wrote s n h _ _ _ := h.more [.wrote (s.writeBuf.take n)] rfl rfl
  drained s n h _ _ _ := by
    have h1 : MapSince M (emit (.wrote (s.writeBuf.take n)) { s with writeBuf := s.writeBuf.drop n }) :=
      h.more [.wrote (s.writeBuf.take n)] rfl rfl
    exact h1.finish _

theorem MapSince.handle (cfg : Cfg) (s : St) (f : Frame) (h : MapSince M s) : MapSince M (serverHandle cfg s f).1 := by
  have hg : MapSince M (emit (.got f) s) := h.more [.got f] rfl rfl
  unfold serverHandle
  dsimp only
  split
  · exact hg
  · split
    · exact hg.more [.queued false (.close 0 notVerify)] rfl rfl
    · cases f with
      | create id d => exact (hg.register id).more [.opened id _ _] rfl rfl
      | close id d =>
        dsimp only
        split
        · exact hg.sendAwait _ _
        · exact hg
      | data id d =>
        dsimp only
        split
        · exact hg.sendAwait _ _
        · exact hg
      | mapping id ms => exact .inr ⟨id, by simp [emit]⟩
      | token u p => exact hg

theorem mapSince_step (cfg : Cfg) (es : List Event) (h : MapSince M (serverRun cfg es)) (e : Event) :
    MapSince M (serverStep cfg (serverRun cfg es) e) := by
  have hK : Kept (fun s => SInv cfg s ∧ MapSince M s) :=
    ((Flow.kept.and Guard.kept).and (HInv.kept.and BInv.kept)).and MapSince.kept
  have hP : Preserved (serverHandle cfg) (finish .panicked) (fun s => SInv cfg s ∧ MapSince M s) := by
    refine Kept.preserved' hK fun s f h hl => ?_
    have h1 := serverHandle_inv cfg s f h.1 hl
    exact ⟨⟨h1.1, MapSince.handle cfg s f h.2⟩, h1.2⟩
  exact (run_inv hP [e] _ ⟨server_inv cfg es, h⟩).2

theorem server_mapFrom (cfg : Cfg) (es : List Event) : MapSince [] (serverRun cfg es) := by
  induction es using List.reverseRecOn with
  | nil => exact .inl rfl
  | append_singleton es e ih =>
    show MapSince [] ((es ++ [e]).foldl _ _)
    rw [List.foldl_append]
    exact mapSince_step cfg es ih e

end Wm.Tunnel

namespace Wm.World
open Wm Wm.Prot
open scoped List
open Wm.Tunnel (datas creates regCount openCount gots received submissions accepted relayed written arrived InnerL heads heads_received)

variable {T : Tunnel.St → Tunnel.Event → Tunnel.St}

/-! ### relays send small messages -/

def SmallF : Frame → Prop
  | .data _ d => d.length ≤ readMax
  | _ => True

structure Small (r : Relay.St) : Prop where
  read : r.read.length ≤ readMax
  link : ∀ f ∈ r.link, SmallF f
  sends : ∀ f ∈ Relay.sends r.trace, SmallF f

theorem small_init (id) : Small (Relay.init id) := ⟨by simp [Relay.init], by simp [Relay.init], by simp [Relay.init, Relay.sends]⟩

theorem Small.top {r} (h : Small r) : Small (Relay.top r) ∧ (Relay.top r).read = [] := by
  unfold Relay.top
  split
  · rename_i h0; exact ⟨h, h0⟩
  · refine ⟨⟨by simp, fun f hf => ?_, h.sends⟩, rfl⟩
    rcases List.mem_append.1 hf with hf | hf
    · exact h.link f hf
    · simp at hf; subst hf; exact h.read

theorem sends_quiet (r : Relay.St) (o : Relay.Obs) (h : ∀ f, o ≠ .sent f) :
    Relay.sends (r.trace ++ [o]) = Relay.sends r.trace := by
  unfold Relay.sends
  rw [List.filterMap_append]
  cases o <;> try exact List.append_nil _
  exact absurd rfl (h _)

theorem small_step {r} (h : Small r) (e : Relay.Event) (he : ∀ bs, e = .read bs → bs.length ≤ readMax) :
    Small (Relay.step r e) := by
  unfold Relay.step
  cases hp : r.phase with
  | running =>
    obtain ⟨h1, h2⟩ := h.top
    dsimp only
    generalize Relay.top r = t at h1 h2
    cases e <;> simp only [Relay.branch]
    case read bs =>
      split
      · exact ⟨h1.read, h1.link, h1.sends⟩
      · refine ⟨?_, h1.link, ?_⟩
        · simp only [Relay.emit, h2, List.nil_append]; exact he bs rfl
        · simp only [Relay.emit]; rw [sends_quiet _ _ (by simp)]; exact h1.sends
    case readEnd => exact ⟨h1.read, h1.link, h1.sends⟩
    case wrote n =>
      split
      · exact h1
      · refine ⟨h1.read, h1.link, ?_⟩
        simp only [Relay.emit]; rw [sends_quiet _ _ (by simp)]; exact h1.sends
    case writeErr =>
      split
      · exact h1
      · exact ⟨h1.read, h1.link, h1.sends⟩
    case recv f =>
      cases f with
      | none => exact ⟨h1.read, h1.link, h1.sends⟩
      | some f =>
        have hs : ∀ g ∈ Relay.sends (t.trace ++ [.got f]), SmallF g := by
          rw [sends_quiet _ _ (by simp)]; exact h1.sends
        cases f <;> exact ⟨h1.read, h1.link, hs⟩
    case slot =>
      cases hl : t.link with
      | nil => exact h1
      | cons f l =>
        dsimp only
        split
        · refine ⟨h1.read, fun g hg => h1.link g (by rw [hl]; exact List.mem_cons_of_mem _ hg), ?_⟩
          intro g hg
          simp only [Relay.emit, Relay.sends, List.filterMap_append, List.mem_append] at hg
          rcases hg with hg | hg
          · exact h1.sends g hg
          · simp at hg; subst hg; exact h1.link g (by rw [hl]; simp)
        · exact ⟨h1.read, fun g hg => h1.link g (by rw [hl]; exact hg), h1.sends⟩
    case gone => exact ⟨h1.read, h1.link, h1.sends⟩
  | closing =>
    cases e <;> dsimp only <;> try exact h
    · split
      · refine ⟨h.read, h.link, ?_⟩
        intro g hg
        simp only [Relay.emit, Relay.sends, List.filterMap_append, List.mem_append] at hg
        rcases hg with hg | hg
        · exact h.sends g hg
        · simp at hg; subst hg; trivial
      · exact ⟨h.read, h.link, h.sends⟩
    · exact ⟨h.read, h.link, h.sends⟩
  | done => exact h

theorem relayStep_small (dies s) {r} (hd e) (h : Small r) : Small (relayStep T dies s r hd e).2 := by
  have q : ∀ ev : Relay.Event, (∀ bs, ev ≠ .read bs) → Small (Relay.step r ev) := fun ev h1 =>
    small_step h ev (fun bs hb => absurd hb (h1 bs))
  cases e <;> simp only [relayStep]
  case read bs =>
    split
    · rename_i hb
      exact small_step h _ (fun bs' e => by cases e; exact hb.2)
    · exact h
  case readEnd => exact q _ (by simp)
  case wrote n => exact q _ (by simp)
  case writeErr => exact q _ (by simp)
  case recv =>
    split
    · cases hd with
      | none =>
        dsimp only
        split
        · exact h
        · exact q _ (by simp)
      | some k =>
        dsimp only
        split
        · split
          · exact q _ (by simp)
          · exact h
        · split
          · exact h
          · exact q _ (by simp)
    · exact h
  case slot =>
    split
    · split
      · split
        · exact q _ (by simp)
        · exact h
      · exact h
    · split
      · exact small_step (q _ (by simp)) _ (by simp)
      · exact h
  case drop =>
    cases hd with
    | none => exact h
    | some k => dsimp only; split <;> exact h

theorem small_fits {r} (hr : IsRun r) (hs : Small r) (hi : IdFits r.id) : ∀ f ∈ Relay.sends r.trace, Fits f := by
  intro f hf
  have h2 := hs.sends f hf
  rcases sends_kind hr f hf with ⟨d, rfl⟩ | rfl
  · refine ⟨?_, hi⟩
    have h3 : d.length ≤ 20480 := h2
    show d.length < 2 ^ 24
    omega
  · exact ⟨by simp [BodyFits, Short, utf8], hi⟩

/-! ### both ends -/

/-- What is required of the rest: other tasks submit only messages that fit, few enough ids were allocated for them to
    fit (C06). -/
structure Tame (w : St) : Prop where
  server : ∀ f ∈ w.otherS, Fits f
  client : ∀ f ∈ w.otherC, Fits f
  used : w.used < 2 ^ 23

theorem Tame.back {cfg w e} (hb : Base cfg w) (h : Tame (step cfg w e)) : Tame w := by
  obtain ⟨_, _, h1, h2, h3⟩ := step_one cfg w e hb
  exact ⟨fun f hf => h.server f (h1.subset hf), fun f hf => h.client f (h2.subset hf), by have := h.used; omega⟩

structure AllFit (w : St) : Prop where
  srvA : ∀ f ∈ accepted w.srv.trace, Fits f
  srvS : ∀ f ∈ submissions w.srv.trace, Fits f
  cliA : ∀ f ∈ accepted w.cli.trace, Fits f
  cliS : ∀ f ∈ submissions w.cli.trace, Fits f
  works : ∀ p ∈ w.works, Short p.2
  idle : ∀ i ∈ w.idle, IdFits i
  vis : ∀ v ∈ w.visitors, Small v.relay ∧ IdFits v.relay.id
  loc : ∀ l ∈ w.locals, Small l.1 ∧ IdFits l.1.id

theorem AllFit.fit {w} (h : AllFit w) : Fit w := ⟨h.srvA, h.cliA⟩

theorem nth_fits {sid k : Nat} (hs : sid < 2 ^ 32) (hk : k + 1 < 2 ^ 23) : IdFits ((Tunnel.serverIds sid).nth k) := by
  rw [Tunnel.nth_eq _ _ (by simp [Tunnel.serverIds])]
  simp only [Tunnel.serverIds]
  unfold IdFits
  omega

theorem refusal_fits : Fits (.close 0 Tunnel.notVerify) := by
  refine ⟨?_, by unfold IdFits; decide⟩
  show (utf8 Tunnel.notVerify).length ≤ 255
  decide

/-- one step of an end: what it accepts and what is submitted fits -/
theorem end_fits (hT : Steps T) {s : Tunnel.St} {e : Tunnel.Event} (hA : ∀ f ∈ accepted s.trace, Fits f)
    (hS : ∀ f ∈ submissions s.trace, Fits f) (hq : relayed s.trace ++ s.outq = submissions s.trace)
    (hw : ∀ j d, e = .work j d → Fits (.create j d)) (hs : ∀ f, e = .submit f → Fits f)
    (hg : ∀ i d, .create i d ∈ gots (T s e).trace → IdFits i) :
    (∀ f ∈ accepted (T s e).trace, Fits f) ∧ ∀ f ∈ submissions (T s e).trace, Fits f := by
  obtain ⟨u, e1, e2, e3⟩ := hT s e
  clear e3
  have hgu : ∀ i d, .got (.create i d) ∈ u → IdFits i := by
    intro i d hm
    refine hg i d ?_
    rw [e1, Tunnel.gots_append']
    refine List.mem_append.2 (.inr ?_)
    exact List.mem_filterMap.2 ⟨_, hm, rfl⟩
  have hout : ∀ f ∈ s.outq, Fits f := fun f hf => hS f (by rw [← hq]; simp [hf])
  constructor
  · intro f hf
    rw [e1, Tunnel.accepted_append, Tunnel.accepted_append, List.mem_append, List.mem_append] at hf
    rcases hf with (hf | hf) | hf
    · exact hA f hf
    · cases e <;> simp only [heads] at hf
      case work j d =>
        split at hf
        · have : f = .create j d := by
            cases hl : Tunnel.lookup j s.map <;> simpa [accepted, hl] using hf
          rw [this]; exact hw j d rfl
        · cases hf
      case submit f => split at hf <;> cases hf
      case take j =>
        split at hf
        · cases hf
        · split at hf <;> cases hf
      case dropRx h => split at hf <;> cases hf
      case recv =>
        split at hf
        · split at hf
          · cases hf
          · rename_i g q hgq
            simp [accepted] at hf; subst hf
            exact hout f (by rw [hgq]; simp)
        · cases hf
      case readEnd => split at hf <;> cases hf
      case read => split at hf <;> cases hf
      case wrote n =>
        split at hf
        · split at hf <;> cases hf
        · cases hf
      case writeErr => cases hf
    · rw [e2.accepted f hf]; exact refusal_fits
  · intro f hf
    rw [e1, Tunnel.submissions_append, Tunnel.submissions_append, List.mem_append, List.mem_append] at hf
    rcases hf with (hf | hf) | hf
    · exact hS f hf
    · by_cases he : ∃ g, e = .submit g
      · obtain ⟨g, rfl⟩ := he
        rcases heads_submit (s := s) g with h2 | h2
        · rw [h2] at hf; simp at hf; subst hf; exact hs f rfl
        · rw [h2] at hf; cases hf
      · rw [heads_sub (fun g hg => he ⟨g, hg⟩)] at hf; cases hf
    · obtain ⟨o, ho, ho2⟩ := List.mem_filterMap.1 hf
      cases o <;> cases ho2
      obtain ⟨i, d, rfl, hm⟩ := e2.subs _ ho
      exact ⟨by simp [BodyFits, Short, utf8], hgu i d hm⟩

/-- open requests looked at carry ids that fit -/
theorem got_fits {fs gs : List Frame} (h : gs <+: fs.map asReceived) (hf : ∀ f ∈ fs, Fits f) {i d}
    (hm : .create i d ∈ gs) : IdFits i := by
  have := h.subset hm
  obtain ⟨f, hf1, hf2⟩ := List.mem_map.1 this
  have h3 := (hf f hf1).2
  cases f with
  | create j x =>
    have : j = i := by
      cases x with
      | none => simp [asReceived] at hf2; exact hf2.1
      | some t => cases t <;> (simp [asReceived] at hf2; exact hf2.1)
    rw [← this]; exact h3
  | _ => simp [asReceived] at hf2

theorem got_map_fits {fs gs : List Frame} (h : gs <+: fs.map asReceived) (hf : ∀ f ∈ fs, Fits f) {i ms}
    (hm : .mapping i ms ∈ gs) : ∀ m ∈ ms, Short m.name := by
  have := h.subset hm
  obtain ⟨f, hf1, hf2⟩ := List.mem_map.1 this
  have h3 := (hf f hf1).1
  cases f with
  | create j x =>
    cases x with
    | none => simp [asReceived] at hf2
    | some t => cases t <;> simp [asReceived] at hf2
  | mapping j xs =>
    simp only [asReceived, Frame.mapping.injEq] at hf2
    obtain ⟨_, rfl⟩ := hf2
    intro m hm'
    obtain ⟨x, hx, rfl⟩ := List.mem_map.1 hm'
    exact (h3.2.2 x hx).1
  | _ => simp [asReceived] at hf2

/-- the parts of `seen_client` and `seen_server` that are needed here -/
theorem seen_client' {cfg w} (hb : Base cfg w) (hf : ∀ f ∈ accepted w.srv.trace, Fits f) :
    gots w.cli.trace <+: (accepted w.srv.trace).map asReceived := by
  obtain ⟨es, e1⟩ := hb.cli
  obtain ⟨es', e2⟩ := hb.srv
  have hS : Tunnel.Stream (accepted w.srv.trace) [] := ⟨hf, by
    intro p hp hc
    rw [List.prefix_nil.1 hp] at hc
    simp [Complete, announced] at hc⟩
  have ha : arrived w.cli.trace <+: (accepted w.srv.trace).flatMap wire ++ [] := by
    rw [List.append_nil]
    refine List.IsPrefix.trans ⟨w.down, hb.down⟩ ?_
    rw [e2]; exact (Tunnel.C15_server_order cfg.server es').1
  rw [e1] at ha ⊢
  exact (Tunnel.C14_client_looks_at_everything hS cfg.client [] es ha).1

theorem seen_server' {cfg w} (hb : Base cfg w) (hf : ∀ f ∈ accepted w.cli.trace, Fits f) :
    gots w.srv.trace <+: (accepted w.cli.trace).map asReceived := by
  obtain ⟨es, e1⟩ := hb.srv
  obtain ⟨es', e2⟩ := hb.cli
  have hS : Tunnel.Stream (accepted w.cli.trace) [] := ⟨hf, by
    intro p hp hc
    rw [List.prefix_nil.1 hp] at hc
    simp [Complete, announced] at hc⟩
  have ha : arrived w.srv.trace <+: (accepted w.cli.trace).flatMap wire ++ [] := by
    rw [List.append_nil]
    refine List.IsPrefix.trans ⟨w.up, hb.up⟩ ?_
    rw [e2]; exact (Tunnel.C15_client_order cfg.client [] es').1
  rw [e1] at ha ⊢
  exact (Tunnel.C13_server_looks_at_everything hS cfg.server es ha).1

theorem pickName_mem {ms : List MappingConfig} {mode name} (h : pickName ms mode = some name) :
    ∃ m ∈ ms, m.name = name := by
  unfold pickName at h
  have : ∀ (ms : List MappingConfig) (acc : Option Text),
      ms.foldl (fun acc m => if m.mode == mode then some m.name else acc) acc = some name →
      acc = some name ∨ ∃ m ∈ ms, m.name = name := by
    intro ms
    induction ms with
    | nil => intro acc h; exact .inl h
    | cons m ms ih =>
      intro acc h
      rcases ih _ h with h1 | ⟨x, hx, h1⟩
      · dsimp only at h1
        split at h1
        · right; exact ⟨m, by simp, by simpa using h1⟩
        · exact .inl h1
      · exact .inr ⟨x, List.mem_cons_of_mem _ hx, h1⟩
  rcases this ms none h with h | h
  · cases h
  · exact h

/-- what the end's step is, apart from taking and closing channels: nothing but a message that fits is put in -/
def Fine (T : Tunnel.St → Tunnel.Event → Tunnel.St) (s s' : Tunnel.St) : Prop :=
  s' = s ∨ ∃ e, (∀ j d, e ≠ .work j d) ∧ (∀ f, e = .submit f → Fits f) ∧ s' = T s e

theorem loopStep_fine (s inb e) : Fine T s (loopStep T s inb e).1 := by
  cases e <;> simp only [loopStep]
  case read n =>
    split
    · exact .inr ⟨_, by simp, by simp, rfl⟩
    · exact .inl rfl
  all_goals exact .inr ⟨_, by simp, by simp, rfl⟩

theorem otherStep_fine (s mine e) (h : ∀ f ∈ submitted e, Fits f) : Fine T s (otherStep T s mine e) := by
  cases e <;> simp only [otherStep]
  · refine .inr ⟨_, by simp, ?_, rfl⟩
    intro f hf; cases hf; exact h _ (by simp [submitted])
  · split
    · exact .inl rfl
    · exact .inr ⟨_, by simp, by simp, rfl⟩
  · split
    · exact .inl rfl
    · exact .inr ⟨_, by simp, by simp, rfl⟩

theorem relayStep_fine (dies s) {r} (h e) (hr : IsRun r) (hs : Small r) (hi : IdFits r.id) :
    Fine T s (relayStep T dies s r h e).1 := by
  obtain ⟨⟨hid, hrun⟩, hc⟩ := relayStep_cases T dies s r h e hr
  rcases hc with ⟨e1, _⟩ | ⟨k, f, q, _, _, _, e1, _⟩ | ⟨f, _, _, e1, e2, _⟩ | ⟨k, _, e1, _⟩
  · exact .inl e1
  · exact .inr ⟨.take k, by simp, by simp, e1⟩
  · refine .inr ⟨.submit f, by simp, ?_, e1⟩
    intro g hg; cases hg
    exact small_fits hrun (relayStep_small dies s h e hs) (by rw [hid]; exact hi) f (by rw [e2]; simp)
  · exact .inr ⟨.dropRx k, by simp, by simp, e1⟩

theorem Fine.fits (hT : Steps T) {s s' : Tunnel.St} (h : Fine T s s') (hA : ∀ f ∈ accepted s.trace, Fits f)
    (hS : ∀ f ∈ submissions s.trace, Fits f) (hq : relayed s.trace ++ s.outq = submissions s.trace)
    (hg : ∀ i d, .create i d ∈ gots s'.trace → IdFits i) :
    (∀ f ∈ accepted s'.trace, Fits f) ∧ ∀ f ∈ submissions s'.trace, Fits f := by
  rcases h with rfl | ⟨e, h1, h2, rfl⟩
  · exact ⟨hA, hS⟩
  · exact end_fits hT hA hS hq (fun j d he => absurd he (h1 j d)) h2 hg

theorem allFit_init (cfg) (hi : ∀ f ∈ Tunnel.introduction cfg.client, Fits f) : AllFit (init cfg) := by
  have hf := Tunnel.Fresh.init cfg.client []
  have hs : submissions (Tunnel.clientInit cfg.client []).trace = [] := by
    refine List.filterMap_eq_nil_iff.2 fun o ho => ?_
    obtain ⟨f, rfl⟩ := hf.trace o ho; rfl
  refine ⟨by simp [init, Tunnel.serverInit, accepted], by simp [init, Tunnel.serverInit, submissions], ?_, ?_,
    by simp [init], by simp [init], by simp [init], by simp [init]⟩
  · have hin : ∀ f s, (∀ g ∈ accepted s.trace, Fits g) → Fits f →
        ∀ g ∈ accepted (Tunnel.introduce f s).trace, Fits g := by
      intro f s h hff g hg
      unfold Tunnel.introduce at hg
      split at hg
      · split at hg
        · simp only [Tunnel.enqueue, Tunnel.emit, Tunnel.accepted_append, List.mem_append] at hg
          rcases hg with hg | hg
          · exact h g hg
          · simp [accepted] at hg; subst hg; exact hff
        · exact h g hg
        · exact h g hg
      · exact h g hg
    have h0 : ∀ g ∈ accepted (Tunnel.clientBlank []).trace, Fits g := by simp [Tunnel.clientBlank, accepted]
    simp only [init]
    unfold Tunnel.introduction at hi
    unfold Tunnel.clientInit
    dsimp only
    cases hu : cfg.client.username with
    | none =>
      split
      · exact h0
      · rename_i hm
        exact hin _ _ h0 (hi _ (by simp [hm]))
    | some u =>
      cases hp : cfg.client.password with
      | none =>
        split
        · exact h0
        · rename_i hm
          exact hin _ _ h0 (hi _ (by simp [hm]))
      | some p =>
        rw [hu, hp] at hi
        have h1 := hin _ _ h0 (hi (.token u p) (by simp))
        dsimp only
        split
        · exact h1
        · rename_i hm
          exact hin _ _ h1 (hi _ (by simp [hm]))
  · simp only [init, hs]; simp

theorem allFit_step (cfg w e) (hsid : cfg.serverId < 2 ^ 32) (hb : Base cfg w) (hb' : Base cfg (step cfg w e))
    (hh : Hosts w) (ht' : Tame (step cfg w e)) (h : AllFit w) : AllFit (step cfg w e) := by
  have hS := steps_server cfg.server
  have hC := steps_client cfg.client
  have hqs := server_outq hb.srv
  have hqc := client_outq hb.cli
  -- what the server looks at after the step, when the client's end has not moved
  have gS : (step cfg w e).cli = w.cli → ∀ i d, .create i d ∈ gots (step cfg w e).srv.trace → IdFits i := by
    intro hc i d hm
    exact got_fits (seen_server' hb' (by rw [hc]; exact h.cliA)) (by rw [hc]; exact h.cliA) hm
  have gC : (step cfg w e).srv = w.srv → ∀ i d, .create i d ∈ gots (step cfg w e).cli.trace → IdFits i := by
    intro hc i d hm
    exact got_fits (seen_client' hb' (by rw [hc]; exact h.srvA)) (by rw [hc]; exact h.srvA) hm
  cases e <;> simp only [step] at ht' gS gC ⊢
  case accept =>
    refine ⟨h.srvA, h.srvS, h.cliA, h.cliS, h.works, ?_, h.vis, h.loc⟩
    intro i hi
    rcases List.mem_append.1 hi with hi | hi
    · exact h.idle i hi
    · simp at hi; subst hi
      have := ht'.used
      exact nth_fits hsid (by simpa using this)
  case visit n mode =>
    cases hn : w.idle[n]? with
    | none => exact h
    | some i =>
      dsimp only
      have hidle : ∀ j ∈ w.idle.eraseIdx n, IdFits j := fun j hj => h.idle j (List.mem_of_mem_eraseIdx hj)
      have hvis : ∀ v ∈ w.visitors ++ [(⟨Relay.init i, none, mode⟩ : Visitor)], Small v.relay ∧ IdFits v.relay.id := by
        intro v hv
        rcases List.mem_append.1 hv with hv | hv
        · exact h.vis v hv
        · simp at hv; subst hv; exact ⟨small_init i, h.idle i (List.mem_of_getElem? hn)⟩
      cases hp : pickName w.srv.mappings mode with
      | none => exact ⟨h.srvA, h.srvS, h.cliA, h.cliS, h.works, hidle, h.vis, h.loc⟩
      | some name =>
        dsimp only
        split
        · split
          · refine ⟨h.srvA, h.srvS, h.cliA, h.cliS, ?_, hidle, hvis, h.loc⟩
            intro p hpm
            rcases List.mem_append.1 hpm with hpm | hpm
            · exact h.works p hpm
            · simp at hpm; subst hpm
              obtain ⟨m, hm, rfl⟩ := pickName_mem hp
              obtain ⟨es, hes⟩ := hb.srv
              have hmf := Tunnel.server_mapFrom cfg.server es
              rw [← hes] at hmf
              rcases hmf with h0 | ⟨j, hj⟩
              · rw [h0] at hm; cases hm
              · exact got_map_fits (seen_server' hb h.cliA) h.cliA (List.mem_filterMap.2 ⟨_, hj, rfl⟩) m hm
          · exact h
        · exact ⟨h.srvA, h.srvS, h.cliA, h.cliS, h.works, hidle, hvis, h.loc⟩
  case work =>
    cases hw : w.works with
    | nil => exact h
    | cons p rest =>
      obtain ⟨n, name⟩ := p
      rw [hw] at gS
      dsimp only at gS ⊢
      cases hv : w.visitors[n]? with
      | none => exact h
      | some v =>
        rw [hv] at gS
        dsimp only at gS ⊢
        by_cases hidle : w.srv.phase = .running ∧ w.srv.pending = none
        · rw [if_pos hidle] at gS ⊢
          have hvf := h.vis v (List.mem_of_getElem? hv)
          obtain ⟨f1, f2⟩ := end_fits hS (e := .work v.relay.id (some name)) h.srvA h.srvS hqs
            (by
              intro j d he
              cases he
              exact ⟨by
                intro s hs; cases hs
                exact h.works (n, name) (by rw [hw]; simp), hvf.2⟩)
            (by simp) (gS rfl)
          refine ⟨f1, f2, h.cliA, h.cliS, fun p hp => h.works p (by rw [hw]; exact List.mem_cons_of_mem _ hp), h.idle,
            fun x hx => ?_, h.loc⟩
          rcases List.mem_or_eq_of_mem_set hx with hx | rfl
          · exact h.vis x hx
          · exact hvf
        · rw [if_neg hidle]; exact h
  case srv e =>
    obtain ⟨f1, f2⟩ := (loopStep_fine w.srv w.up e).fits hS h.srvA h.srvS hqs (gS trivial)
    exact ⟨f1, f2, h.cliA, h.cliS, h.works, h.idle, h.vis, h.loc⟩
  case cli e =>
    obtain ⟨f1, f2⟩ := (loopStep_fine w.cli w.down e).fits hC h.cliA h.cliS hqc (gC trivial)
    exact ⟨h.srvA, h.srvS, f1, f2, h.works, h.idle, h.vis, h.loc⟩
  case otherS e =>
    obtain ⟨f1, f2⟩ := (otherStep_fine w.srv (w.visitors.filterMap (·.handle)) e
      (fun f hf => ht'.server f (List.mem_append.2 (.inr hf)))).fits hS h.srvA h.srvS hqs (gS trivial)
    exact ⟨f1, f2, h.cliA, h.cliS, h.works, h.idle, h.vis, h.loc⟩
  case otherC e =>
    obtain ⟨f1, f2⟩ := (otherStep_fine w.cli ((connects w.cli.trace).map (·.2)) e
      (fun f hf => ht'.client f (List.mem_append.2 (.inr hf)))).fits hC h.cliA h.cliS hqc (gC trivial)
    exact ⟨h.srvA, h.srvS, f1, f2, h.works, h.idle, h.vis, h.loc⟩
  case vis n e =>
    cases hv : w.visitors[n]? with
    | none => exact h
    | some v =>
      rw [hv] at gS
      dsimp only at gS ⊢
      have hr := hb.visitors v (List.mem_of_getElem? hv)
      have hvf := h.vis v (List.mem_of_getElem? hv)
      obtain ⟨f1, f2⟩ := (relayStep_fine true w.srv v.handle e hr hvf.1 hvf.2).fits hS h.srvA h.srvS hqs (gS rfl)
      refine ⟨f1, f2, h.cliA, h.cliS, h.works, h.idle, fun x hx => ?_, h.loc⟩
      rcases List.mem_or_eq_of_mem_set hx with hx | rfl
      · exact h.vis x hx
      · exact ⟨relayStep_small true _ _ _ hvf.1, by rw [(relayStep_cases _ _ _ _ _ _ hr).1.1]; exact hvf.2⟩
  case start id k =>
    split
    · rename_i hc
      refine ⟨h.srvA, h.srvS, h.cliA, h.cliS, h.works, h.idle, h.vis, fun l hl => ?_⟩
      rcases List.mem_append.1 hl with hl | hl
      · exact h.loc l hl
      · simp at hl; subst hl
        refine ⟨small_init id, ?_⟩
        have h1 := connects_open hc.1
        have h2 := hh.opens id
        have h3 : 0 < creates id (gots w.cli.trace) := by omega
        obtain ⟨f, hf1, hf2⟩ := List.countP_pos_iff.1 h3
        cases f with
        | create j d =>
          simp at hf2; subst hf2
          exact got_fits (seen_client' hb h.srvA) h.srvA hf1
        | _ => simp at hf2
    · exact h
  case loc n e =>
    cases hl : w.locals[n]? with
    | none => exact h
    | some l =>
      rw [hl] at gC
      dsimp only at gC ⊢
      have hr := hb.locals l (List.mem_of_getElem? hl)
      have hvf := h.loc l (List.mem_of_getElem? hl)
      obtain ⟨f1, f2⟩ := (relayStep_fine false w.cli (some l.2) e hr hvf.1 hvf.2).fits hC h.cliA h.cliS hqc (gC rfl)
      refine ⟨h.srvA, h.srvS, f1, f2, h.works, h.idle, h.vis, fun x hx => ?_⟩
      rcases List.mem_or_eq_of_mem_set hx with hx | rfl
      · exact h.loc x hx
      · exact ⟨relayStep_small false _ _ _ hvf.1, by rw [(relayStep_cases _ _ _ _ _ _ hr).1.1]; exact hvf.2⟩

theorem allFit_run (cfg es) (hsid : cfg.serverId < 2 ^ 32) (hi : ∀ f ∈ Tunnel.introduction cfg.client, Fits f)
    (ht : Tame (run cfg es)) : AllFit (run cfg es) := by
  induction es using List.reverseRecOn with
  | nil => exact allFit_init cfg hi
  | append_singleton es e ih =>
    have hb' := base_run cfg (es ++ [e])
    rw [run_snoc] at ht hb' ⊢
    have hb := base_run cfg es
    exact allFit_step cfg _ e hsid hb hb' (hosts_run cfg es) ht (ih (ht.back hb))

end Wm.World
