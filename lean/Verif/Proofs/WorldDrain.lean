import Verif.Props.Slow
import Verif.Props.WorldClose
/-!
What is under way in a tunnel can be brought to its end, from every state.
-/
namespace Wm.Tunnel
open Wm Wm.Prot

theorem serverHandle_phase (cfg : Cfg) (s : St) (f : Frame) : (serverHandle cfg s f).1.phase = s.phase := by
  unfold serverHandle
  dsimp only
  split
  · rfl
  · split
    · rfl
    · cases f with
      | create id d => simp [emit]
      | close id d => dsimp only; split <;> simp [sendAwait_phase', emit]
      | data id d => dsimp only; split <;> simp [sendAwait_phase', emit]
      | mapping i ms => rfl
      | token u p => rfl

theorem sendAwait_free {k f} {s : St} (hp : s.pending = none) (h : (sendAwait k f s).2 = false) :
    (sendAwait k f s).1.pending = none := by
  unfold sendAwait at h ⊢
  split
  · exact hp
  · rename_i h1
    rw [if_neg h1] at h
    split
    · exact hp
    · rename_i h2
      rw [if_neg h2] at h; simp at h

theorem serverHandle_free (cfg : Cfg) {s : St} (f : Frame) (hp : s.pending = none) (h : (serverHandle cfg s f).2 = false) :
    (serverHandle cfg s f).1.pending = none := by
  unfold serverHandle at h ⊢
  dsimp only at h ⊢
  split
  · exact hp
  · rename_i h1
    rw [if_neg h1] at h
    split
    · rename_i h2; rw [if_pos h2] at h; simp at h
    · rename_i h2
      rw [if_neg h2] at h
      cases f with
      | create id d => simpa [emit] using hp
      | close id d =>
        dsimp only at h ⊢
        split at h
        · exact sendAwait_free (by simpa [emit] using hp) h
        · simpa [emit] using hp
      | data id d =>
        dsimp only at h ⊢
        split at h
        · exact sendAwait_free (by simpa [emit] using hp) h
        · simpa [emit] using hp
      | mapping i ms => exact hp
      | token u p => exact hp

theorem pump_stopped_short {σ : Type} (H : σ → Frame → σ × Bool) (s : σ) (buf : Bytes) :
    (pump H s buf).2.2 = .stopped → (pump H s buf).2.1.length < buf.length := by
  induction hn : buf.length using Nat.strongRecOn generalizing buf s with
  | ind n ih =>
    subst hn
    rcases hd : decodeFrame buf with ⟨r, b⟩
    rcases r with (_ | f) | e | _
    · rw [pump_none H s hd]; simp
    · rw [pump_some H s hd]
      have hb := decodeFrame_shrinks hd
      split
      · intro _; exact hb
      · intro h; exact Nat.lt_trans (ih b.length hb _ b rfl h) hb
    · rw [pump_err H s hd]; simp
    · rw [pump_panic H s hd]; simp

theorem resume_runs (cfg : Cfg) {fs : List Frame} (hS : Stream fs []) {s : St} (h : At fs [] s)
    (ha : arrived s.trace <+: fs.flatMap wire ++ []) (hr : s.phase = .running) :
    (resume (serverHandle cfg) s).phase = .running ∧
    (s.pending = none → (resume (serverHandle cfg) s).pending = none ∨
      (resume (serverHandle cfg) s).readBuf.length < s.readBuf.length) := by
  unfold resume
  split
  · rename_i hl
    obtain ⟨c, rest, e1, e2, e3⟩ := h ha
    obtain ⟨r, hr⟩ := ha
    rw [e1, e3] at hr
    have hr' : s.readBuf ++ r = rest.flatMap wire ++ [] := by
      simp only [List.flatMap_append, List.append_assoc] at hr
      exact List.append_cancel_left hr
    obtain ⟨d1, d2, q, f1, f2, f3, f4⟩ := split_prefix rest (fun f hf => hS.fits f (by simp [e1, hf])) hS.part _ _ hr'
    obtain ⟨c1, c2, g1, g2, g3, g4, g5⟩ :=
      pump_at (serverHandle_looks cfg) d1 (fun f hf => hS.fits f (by simp [e1, f1, hf])) q f3 s
    rw [← f2] at g2 g3 g4 g5
    have hp := pump_inv (serverHandle cfg) (fun x => x.phase = .running ∧ x.pending = none) (fun x => x.phase = .running)
      (fun _ h => h.1) (fun x f hx => ⟨(serverHandle_phase cfg x f).trans hx.1,
        fun hb => ⟨(serverHandle_phase cfg x f).trans hx.1, serverHandle_free cfg f hx.2 hb⟩⟩) s.readBuf s ⟨hl.1, hl.2.2⟩
    dsimp only
    rcases g5 with ⟨g5, g6⟩ | ⟨g5, g6⟩
    · rw [g5]
      exact ⟨hp.1, fun _ => .inl (hp.2 (by rw [g5]; simp)).2⟩
    · rw [g5]
      exact ⟨hp.1, fun _ => .inr (pump_stopped_short _ _ _ g5)⟩
  · exact ⟨hr, fun hp => .inl hp⟩

/-- a loop that has decoded all it can stays where it is -/
theorem resume_idle {H : St → Frame → St × Bool} {s : St} (h : Live s → ¬ Complete s.readBuf) : resume H s = s := by
  unfold resume
  split
  · rename_i hl
    rw [pump_incomplete H s (h hl)]
  · rfl

/-- the task for which the loop waits takes a message -/
theorem unblock_take (cfg : Cfg) {fs : List Frame} (hS : Stream fs []) (es : List Event)
    (ha : arrived (serverRun cfg es).trace <+: fs.flatMap wire ++ []) (hr : (serverRun cfg es).phase = .running)
    {h : Nat} {f : Frame} (hp : (serverRun cfg es).pending = some (h, f)) :
    (serverStep cfg (serverRun cfg es) (.take h)).phase = .running ∧
    ((serverStep cfg (serverRun cfg es) (.take h)).pending = none ∨
      (serverStep cfg (serverRun cfg es) (.take h)).readBuf.length < (serverRun cfg es).readBuf.length) := by
  have hat := (server_at hS cfg es).1
  obtain ⟨w1, w2⟩ := server_waits cfg es h f hp
  generalize serverRun cfg es = s at *
  obtain ⟨g, q, hq⟩ : ∃ g q, (s.chan h).q = g :: q := by
    cases hc : (s.chan h).q with
    | nil => rw [hc] at w2; simp [streamCap] at w2
    | cons g q => exact ⟨g, q, rfl⟩
  have hlen : q.length < streamCap := by rw [hq] at w2; simp at w2; omega
  unfold serverStep step
  simp only [hq, w1, if_true, resumePending, emit, setChan, hp, sendAwait, if_pos hlen, putChan, if_false, Bool.true_eq_false,
    Bool.false_eq_true]
  have hx : ∀ t : St, t.trace = s.trace ++ [.took h g, .put h f] → t.readBuf = s.readBuf → t.phase = s.phase → t.pending = none →
      (resume (serverHandle cfg) t).phase = .running ∧ ((resume (serverHandle cfg) t).pending = none ∨
        (resume (serverHandle cfg) t).readBuf.length < s.readBuf.length) := by
    intro t h1 h2 h3 h4
    have he : Ext s t := ⟨⟨_, h1, rfl, rfl⟩, h2⟩
    have := resume_runs cfg hS (hat.ext he) (by rw [h1]; simpa [arrived] using ha) (h3.trans hr)
    rw [← h2]
    exact ⟨this.1, this.2 h4⟩
  exact hx _ (by simp) rfl rfl rfl

/-- the task for which the loop waits goes away -/
theorem unblock_drop (cfg : Cfg) {fs : List Frame} (hS : Stream fs []) (es : List Event)
    (ha : arrived (serverRun cfg es).trace <+: fs.flatMap wire ++ []) (hr : (serverRun cfg es).phase = .running)
    {h : Nat} {f : Frame} (hp : (serverRun cfg es).pending = some (h, f)) :
    (serverStep cfg (serverRun cfg es) (.dropRx h)).phase = .running ∧
    ((serverStep cfg (serverRun cfg es) (.dropRx h)).pending = none ∨
      (serverStep cfg (serverRun cfg es) (.dropRx h)).readBuf.length < (serverRun cfg es).readBuf.length) := by
  have hat := (server_at hS cfg es).1
  obtain ⟨w1, w2⟩ := server_waits cfg es h f hp
  generalize serverRun cfg es = s at *
  unfold serverStep step
  simp only [w1, if_true, resumePending, emit, setChan, hp, sendAwait, if_false, Bool.false_eq_true]
  have hx : ∀ t : St, t.trace = s.trace ++ [.rxGone h, .lost h f] → t.readBuf = s.readBuf → t.phase = s.phase → t.pending = none →
      (resume (serverHandle cfg) t).phase = .running ∧ ((resume (serverHandle cfg) t).pending = none ∨
        (resume (serverHandle cfg) t).readBuf.length < s.readBuf.length) := by
    intro t h1 h2 h3 h4
    have he : Ext s t := ⟨⟨_, h1, rfl, rfl⟩, h2⟩
    have := resume_runs cfg hS (hat.ext he) (by rw [h1]; simpa [arrived] using ha) (h3.trans hr)
    rw [← h2]
    exact ⟨this.1, this.2 h4⟩
  exact hx _ (by simp) rfl rfl rfl

/-- a loop that waits for nobody reads on -/
theorem read_runs (cfg : Cfg) {fs : List Frame} (hS : Stream fs []) (es : List Event) (bs : Bytes)
    (ha : arrived (serverRun cfg es).trace ++ bs <+: fs.flatMap wire ++ []) (hr : (serverRun cfg es).phase = .running)
    (hp : (serverRun cfg es).pending = none) : (serverStep cfg (serverRun cfg es) (.read bs)).phase = .running := by
  have hat := (server_at hS cfg es).1
  generalize serverRun cfg es = s at *
  unfold serverStep step
  dsimp only
  rw [if_pos ⟨hr, hp⟩]
  refine (resume_runs cfg hS (s := emit (.arrived bs) { s with readBuf := s.readBuf ++ bs }) ?_ ?_ hr).1
  · intro h
    obtain ⟨c, rest, e1, e2, e3⟩ := hat ((List.prefix_append _ _).trans ha)
    refine ⟨c, rest, e1, ?_, ?_⟩
    · simpa [emit, gots] using e2
    · simp [emit, arrived] at e3 ⊢; rw [e3]; simp
  · simpa [emit, arrived] using ha

/-! ### mappings are stored only for a peer that has logged in -/

def MapOk (s : St) : Prop := s.mappings = [] ∨ s.verify = true

theorem MapOk.more {s s' : St} (h : MapOk s) (hm : s'.mappings = s.mappings) (hv : s'.verify = s.verify) : MapOk s' := by
  unfold MapOk
  rw [hm, hv]; exact h

theorem trySend_maps (k f) (s : St) : (trySend k f s).mappings = s.mappings ∧ (trySend k f s).verify = s.verify := by
  unfold trySend
  split
  · exact ⟨rfl, rfl⟩
  · split <;> exact ⟨rfl, rfl⟩

theorem sendAwait_maps (k f) (s : St) : (sendAwait k f s).1.mappings = s.mappings ∧ (sendAwait k f s).1.verify = s.verify := by
  unfold sendAwait
  split
  · exact ⟨rfl, rfl⟩
  · split <;> exact ⟨rfl, rfl⟩

theorem hangupFold_maps (m : List (Nat × Nat)) : ∀ s : St,
    (m.foldl (fun s x => hangup x.2 s) s).mappings = s.mappings ∧ (m.foldl (fun s x => hangup x.2 s) s).verify = s.verify := by
  induction m with
  | nil => intro s; exact ⟨rfl, rfl⟩
  | cons p m ih => intro s; exact ⟨(ih _).1.trans rfl, (ih _).2.trans rfl⟩

theorem MapOk.finish {s : St} (h : MapOk s) (p) : MapOk (finish p s) :=
  h.more (hangupFold_maps _ _).1 (hangupFold_maps _ _).2

theorem MapOk.closeFold (m : List (Nat × Nat)) : ∀ s : St, MapOk s →
    MapOk (m.foldl (fun s x => Tunnel.trySend x.2 (.close x.1 []) s) s) := by
  induction m with
  | nil => intro s h; exact h
  | cons x m ih => intro s h; exact ih _ (h.more (trySend_maps _ _ _).1 (trySend_maps _ _ _).2)

theorem MapOk.register {s : St} (h : MapOk s) (id) : MapOk (register id s) := by
  refine h.more ?_ ?_ <;> (unfold Tunnel.register; cases lookup id s.map <;> rfl)

theorem MapOk.kept : Kept MapOk where
  buf s b h := h
  read s bs h _ := h
  fin s p h _ _ := h.finish p
  lost s h _ := (MapOk.closeFold _ (emit .connLost s) h).finish _
  submit s f h _ _ := h
  take s k f q h _ _ := h
  drop s k h _ := h
  retry s k f h _ := h.more (sendAwait_maps _ _ _).1 (sendAwait_maps _ _ _).2
  work s id d h _ := h.register id
  recv s f q h _ _ := h
  wrote s n h _ _ _ := h
  drained s n h _ _ _ := MapOk.finish (s := emit (.wrote (s.writeBuf.take n)) { s with writeBuf := s.writeBuf.drop n }) h _

theorem MapOk.handle (cfg : Cfg) (s : St) (f : Frame) (h : MapOk s) : MapOk (serverHandle cfg s f).1 := by
  unfold serverHandle
  dsimp only
  split
  · exact .inr rfl
  · split
    · exact h
    · rename_i hv
      cases f with
      | create id d => exact MapOk.register (s := emit (.got (.create id d)) s) h id
      | close id d =>
        dsimp only
        split
        · exact h.more (sendAwait_maps _ _ _).1 (sendAwait_maps _ _ _).2
        · exact h
      | data id d =>
        dsimp only
        split
        · exact h.more (sendAwait_maps _ _ _).1 (sendAwait_maps _ _ _).2
        · exact h
      | mapping id ms => exact .inr (by simpa [emit] using hv)
      | token u p => exact h

theorem server_mapOk (cfg : Cfg) (es : List Event) : MapOk (serverRun cfg es) := by
  have hK : Kept (fun s => SInv cfg s ∧ MapOk s) :=
    ((Flow.kept.and Guard.kept).and (HInv.kept.and BInv.kept)).and MapOk.kept
  have hP : Preserved (serverHandle cfg) (finish .panicked) (fun s => SInv cfg s ∧ MapOk s) := by
    refine Kept.preserved' hK fun s f h hl => ?_
    have h1 := serverHandle_inv cfg s f h.1 hl
    exact ⟨⟨h1.1, MapOk.handle cfg s f h.2⟩, h1.2⟩
  exact (run_inv hP es _ ⟨server_inv cfg [], .inl rfl⟩).2

theorem loggedIn_mapped (cfg : Cfg) (es : List Event) (h : (serverRun cfg es).mappings ≠ []) :
    LoggedIn cfg (serverRun cfg es).trace := by
  have h1 := (server_mapOk cfg es).resolve_left h
  rw [(server_inv cfg es).1.2.verify] at h1
  exact of_decide_eq_true h1

theorem loggedIn_open (cfg : Cfg) (es : List Event) (h : LoggedIn cfg (serverRun cfg es).trace) :
    (serverRun cfg es).readyShutdown = false := by
  have hg := (server_inv cfg es).1.2
  generalize serverRun cfg es = s at *
  rcases h with h | ⟨f, hf, hl⟩
  · exact hg.open_ h
  · by_cases hp : Protected cfg
    · rcases hg.first hp with h1 | ⟨_, _, _, _, h1⟩ | ⟨g, h1, h2, _, _⟩
      · exact h1.2
      · exact h1
      · obtain ⟨t1, t2, e, e1, e2⟩ := h2
        have : gots s.trace = [g] := by
          rw [e, gots_append', e1, gots_cons]; simpa [gots] using e2
        rw [this, List.mem_singleton] at hf
        exact absurd (hf ▸ hl) h1
    · exact hg.open_ hp

/-! ### the receiving end of a channel goes only with its task -/

structure RxSame (s s' : St) : Prop where
  next : s.next ≤ s'.next
  rx : ∀ k < s.next, (s'.chan k).rx = (s.chan k).rx

theorem RxSame.refl (s) : RxSame s s := ⟨Nat.le_refl _, fun _ _ => rfl⟩
theorem RxSame.trans {a b c} (h1 : RxSame a b) (h2 : RxSame b c) : RxSame a c :=
  ⟨Nat.le_trans h1.next h2.next, fun k hk => (h2.rx k (Nat.lt_of_lt_of_le hk h1.next)).trans (h1.rx k hk)⟩

theorem RxSame.set {s s' : St} {h : Nat} {c : Chan} (hc : c.rx = (s.chan h).rx) (hn : s'.next = s.next)
    (hs : s'.chan = (setChan h c s).chan) : RxSame s s' := by
  refine ⟨Nat.le_of_eq hn.symm, fun k _ => ?_⟩
  rw [hs]; unfold setChan; dsimp only
  split
  · rename_i hk; rw [hk]; exact hc
  · rfl

theorem RxSame.same {s s' : St} (hn : s'.next = s.next) (hs : s'.chan = s.chan) : RxSame s s' :=
  ⟨Nat.le_of_eq hn.symm, fun k _ => by rw [hs]⟩

/-- moreover, new channels have their receiver -/
structure RxFresh (s s' : St) : Prop extends RxSame s s' where
  fresh : ∀ k, s.next ≤ k → k < s'.next → (s'.chan k).rx = true

theorem RxFresh.refl (s) : RxFresh s s := ⟨.refl s, fun _ h1 h2 => absurd h2 (Nat.not_lt.2 h1)⟩
theorem RxFresh.trans {a b c} (h1 : RxFresh a b) (h2 : RxFresh b c) : RxFresh a c := by
  refine ⟨h1.toRxSame.trans h2.toRxSame, fun k hk hc => ?_⟩
  by_cases hb : k < b.next
  · rw [h2.rx k hb]; exact h1.fresh k hk hb
  · exact h2.fresh k (Nat.not_lt.1 hb) hc

theorem RxFresh.set {s s' : St} {h : Nat} {c : Chan} (hc : c.rx = (s.chan h).rx) (hn : s'.next = s.next)
    (hs : s'.chan = (setChan h c s).chan) : RxFresh s s' :=
  ⟨.set hc hn hs, fun k h1 h2 => absurd (hn ▸ h2) (Nat.not_lt.2 h1)⟩

theorem RxFresh.same {s s' : St} (hn : s'.next = s.next) (hs : s'.chan = s.chan) : RxFresh s s' :=
  ⟨.same hn hs, fun k h1 h2 => absurd (hn ▸ h2) (Nat.not_lt.2 h1)⟩

theorem rxSame_hangup (h s) : RxFresh s (hangup h s) := RxFresh.set (c := { s.chan h with tx := false }) rfl rfl rfl

theorem rxSame_fold (m : List (Nat × Nat)) : ∀ s : St, RxFresh s (m.foldl (fun s x => hangup x.2 s) s) := by
  induction m with
  | nil => intro s; exact .refl s
  | cons p m ih => intro s; exact (rxSame_hangup p.2 s).trans (ih _)

theorem rxSame_finish (p s) : RxFresh s (finish p s) := (rxSame_fold s.map s).trans (.same rfl rfl)

theorem rxSame_register (id s) : RxFresh s (register id s) := by
  have h1 : ∀ s1 : St, RxFresh s s1 → s1.next = s.next → RxFresh s (emit (.reg id s.next)
      { setChan s.next ⟨[], true, true⟩ s1 with map := (id, s.next) :: s.map.filter (fun p => p.1 ≠ id), next := s.next + 1 }) := by
    intro s1 h hn
    refine ⟨⟨Nat.le_succ _, fun k hk => ?_⟩, fun k h1 h2 => ?_⟩
    · have : k ≠ s.next := Nat.ne_of_lt hk
      simp only [emit, setChan, if_neg this]
      exact h.rx k hk
    · have : k = s.next := Nat.le_antisymm (Nat.le_of_lt_succ h2) h1
      simp [emit, setChan, this]
  unfold register
  dsimp only
  cases lookup id s.map with
  | none => exact h1 s (.refl s) rfl
  | some old => exact h1 _ (rxSame_hangup old s) rfl

theorem register_rx (id s) : ((register id s).chan s.next).rx = true ∧ (register id s).next = s.next + 1 := by
  unfold register
  simp [emit, setChan]

theorem rxSame_sendAwait (k f s) : RxFresh s (sendAwait k f s).1 := by
  unfold sendAwait
  split
  · exact .same rfl rfl
  · split
    · exact RxFresh.set (h := k) (c := { s.chan k with q := (s.chan k).q ++ [f] }) rfl rfl rfl
    · exact .same rfl rfl

theorem rxSame_trySend (k f s) : RxFresh s (trySend k f s) := by
  unfold trySend
  split
  · exact .same rfl rfl
  · split
    · exact RxFresh.set (h := k) (c := { s.chan k with q := (s.chan k).q ++ [f] }) rfl rfl rfl
    · exact .same rfl rfl

theorem rxSame_closeAll (s) : RxFresh s (closeAll s) := by
  unfold closeAll
  generalize s.map = m
  induction m generalizing s with
  | nil => exact .refl s
  | cons p m ih => exact (rxSame_trySend _ _ s).trans (ih _)

theorem rxSame_handle (cfg : Cfg) (s f) : RxFresh s (serverHandle cfg s f).1 := by
  have hg : RxFresh s (emit (.got f) s) := .same rfl rfl
  unfold serverHandle
  dsimp only
  split
  · exact .same rfl rfl
  · split
    · exact .same rfl rfl
    · cases f with
      | create id d => exact hg.trans ((rxSame_register id _).trans (.same rfl rfl))
      | close id d =>
        dsimp only
        split
        · exact hg.trans (rxSame_sendAwait _ _ _)
        · exact hg
      | data id d =>
        dsimp only
        split
        · exact hg.trans (rxSame_sendAwait _ _ _)
        · exact hg
      | mapping id ms => exact .same rfl rfl
      | token u p => exact hg

theorem rxSame_resume (cfg : Cfg) (s) : RxFresh s (resume (serverHandle cfg) s) := by
  unfold resume
  split
  · have h := (pump_inv (serverHandle cfg) (RxFresh s) (RxFresh s) (fun _ h => h)
      (fun x f hx => ⟨hx.trans (rxSame_handle cfg x f), fun _ => hx.trans (rxSame_handle cfg x f)⟩) s.readBuf s (.refl s)).1
    have h' : RxFresh s { (pump (serverHandle cfg) s s.readBuf).1 with readBuf := (pump (serverHandle cfg) s s.readBuf).2.1 } :=
      h.trans (.same rfl rfl)
    dsimp only
    split
    · exact h'.trans (rxSame_finish _ _)
    · exact h'.trans (rxSame_finish _ _)
    · exact h'
  · exact .refl s

theorem rxSame_retry (cfg : Cfg) (s) : RxFresh s (resumePending (serverHandle cfg) s) := by
  unfold resumePending
  split
  · exact .refl s
  · rename_i h f hp
    have h1 : RxFresh s (sendAwait h f { s with pending := none }).1 :=
      RxFresh.trans (b := { s with pending := none }) (.same rfl rfl) (rxSame_sendAwait _ _ _)
    dsimp only
    split
    · exact h1
    · exact h1.trans (rxSame_resume cfg _)

theorem step_same (cfg : Cfg) (s : St) (e : Event) (hd : ¬ ∃ h, e = .dropRx h) : RxFresh s (serverStep cfg s e) := by
  unfold serverStep step
  cases e with
  | dropRx h => exact absurd ⟨h, rfl⟩ hd
  | submit f => dsimp only; split <;> exact .same rfl rfl
  | take h =>
    dsimp only
    split
    · exact .refl s
    · rename_i f q _
      split
      · exact RxFresh.trans (b := emit (.took h f) (setChan h { s.chan h with q := q } s))
          (.set (h := h) (c := { s.chan h with q := q }) rfl rfl rfl) (rxSame_retry cfg _)
      · exact .refl s
  | work id d =>
    dsimp only
    split
    · exact (rxSame_register id s).trans (RxFresh.trans (b := enqueue (.create id d) (register id s)) (.same rfl rfl)
        (rxSame_resume cfg _))
    · exact .refl s
  | recv =>
    dsimp only
    split
    · split
      · exact .refl s
      · exact RxFresh.trans (b := enqueue _ { s with outq := _ } true) (.same rfl rfl) (rxSame_resume cfg _)
    · exact .refl s
  | read bs =>
    dsimp only
    split
    · exact RxFresh.trans (b := emit (.arrived bs) { s with readBuf := s.readBuf ++ bs }) (.same rfl rfl) (rxSame_resume cfg _)
    · exact .refl s
  | readEnd =>
    dsimp only
    split
    · exact RxFresh.trans (b := emit .connLost s) (.same rfl rfl) ((rxSame_closeAll _).trans (rxSame_finish _ _))
    · exact .refl s
  | wrote n =>
    dsimp only
    split
    · split
      · exact .refl s
      · have h1 : RxFresh s (emit (.wrote (s.writeBuf.take n)) { s with writeBuf := s.writeBuf.drop n }) := .same rfl rfl
        split
        · exact h1.trans (rxSame_finish _ _)
        · exact h1.trans (rxSame_resume cfg _)
    · exact .refl s
  | writeErr =>
    dsimp only
    split
    · split
      · exact .refl s
      · exact rxSame_finish _ _
    · exact .refl s

theorem step_rx (cfg : Cfg) (s : St) (e : Event) {k : Nat} (hk : k < s.next) (he : e ≠ .dropRx k) :
    ((serverStep cfg s e).chan k).rx = (s.chan k).rx := by
  by_cases hd : ∃ h, e = .dropRx h
  · obtain ⟨h, rfl⟩ := hd
    have hne : k ≠ h := fun e => he (e ▸ rfl)
    unfold serverStep step
    dsimp only
    split
    · refine ((rxSame_retry cfg (emit (.rxGone h) (setChan h { s.chan h with q := [], rx := false } s))).rx k hk).trans ?_
      simp [emit, setChan, hne]
    · rfl
  · exact (step_same cfg s e hd).rx k hk

/-- a new channel has its receiver -/
theorem step_rx_new (cfg : Cfg) (s : St) (e : Event) {k : Nat} (hk : s.next ≤ k) (hk' : k < (serverStep cfg s e).next) :
    ((serverStep cfg s e).chan k).rx = true := by
  by_cases hd : ∃ h, e = .dropRx h
  · obtain ⟨h, rfl⟩ := hd
    unfold serverStep step at hk' ⊢
    dsimp only at hk' ⊢
    split
    · rename_i hr
      rw [if_pos hr] at hk'
      exact (rxSame_retry cfg (emit (.rxGone h) (setChan h { s.chan h with q := [], rx := false } s))).fresh k hk hk'
    · rename_i hr
      rw [if_neg hr] at hk'
      exact absurd hk' (Nat.not_lt.2 hk)
  · exact (step_same cfg s e hd).fresh k hk hk'

/-- a dropped receiver is gone -/
theorem drop_rx (cfg : Cfg) (s : St) {k : Nat} (hk : k < s.next) : ((serverStep cfg s (.dropRx k)).chan k).rx = false := by
  unfold serverStep step
  dsimp only
  split
  · refine ((rxSame_retry cfg (emit (.rxGone k) (setChan k { s.chan k with q := [], rx := false } s))).rx k hk).trans ?_
    simp [emit, setChan]
  · rename_i hr; simpa using hr

theorem work_rx (cfg : Cfg) (s : St) (id d) (hr : s.phase = .running) (hp : s.pending = none) :
    ((serverStep cfg s (.work id d)).chan s.next).rx = true := by
  unfold serverStep step
  dsimp only
  rw [if_pos ⟨hr, hp⟩]
  have h1 := register_rx id s
  refine ((rxSame_resume cfg _).rx s.next ?_).trans h1.1
  show s.next < (register id s).next
  rw [h1.2]; exact Nat.lt_succ_self _

end Wm.Tunnel

namespace Wm.World
open Wm Wm.Prot
open scoped List
open Wm.Tunnel (datas creates regCount openCount gots received submissions accepted relayed written arrived InnerL heads
  LoggedIn streamCap)
open Wm.Relay (inputs outputs)

/-! ### the channel of a running visitor is open, and its client has logged in -/

theorem relay_running_back {r : Relay.St} {e : Relay.Event} (h : (Relay.step r e).phase = .running) :
    r.phase = .running := by
  unfold Relay.step at h
  split at h
  · assumption
  · rename_i hp
    cases e <;> simp_all [Relay.emit]
    split at h <;> simp_all
  · exact h

theorem relayStep_running_back (T) (dies s r hd e) (h : (relayStep T dies s r hd e).2.phase = .running) :
    r.phase = .running := by
  unfold relayStep at h
  cases e <;> dsimp only at h
  all_goals (repeat' split at h)
  all_goals first | exact h | exact relay_running_back h | exact relay_running_back (relay_running_back h) | assumption

/-- a step of a tunnel end other than the end of the task of stream `k` -/
def Spares (k : Nat) (T : Tunnel.St → Tunnel.Event → Tunnel.St) (s s' : Tunnel.St) : Prop :=
  s' = s ∨ ∃ e, e ≠ .dropRx k ∧ s' = T s e

theorem loopStep_spares (k T s inb e) : Spares k T s (loopStep T s inb e).1 := by
  cases e <;> simp only [loopStep]
  · exact .inr ⟨.recv, by simp, rfl⟩
  · exact .inr ⟨.wrote _, by simp, rfl⟩
  · exact .inr ⟨.writeErr, by simp, rfl⟩
  · exact .inr ⟨.readEnd, by simp, rfl⟩
  · split
    · exact .inr ⟨.read _, by simp, rfl⟩
    · exact .inl rfl

theorem otherStep_spares {k T s mine} (e) (hk : k ∈ mine) : Spares k T s (otherStep T s mine e) := by
  cases e <;> simp only [otherStep]
  · exact .inr ⟨.submit _, by simp, rfl⟩
  · split
    · exact .inl rfl
    · exact .inr ⟨.take _, by simp, rfl⟩
  · rename_i h
    split
    · exact .inl rfl
    · rename_i hm
      exact .inr ⟨.dropRx h, fun e => hm (by cases e; exact hk), rfl⟩

theorem relayStep_spares {k T dies s r hd} (e) (hk : hd ≠ some k ∨ r.phase = .running) :
    Spares k T s (relayStep T dies s r hd e).1 := by
  unfold relayStep
  cases e <;> dsimp only
  all_goals (repeat' split)
  all_goals first | exact .inl rfl | exact .inr ⟨.take _, by simp, rfl⟩ | exact .inr ⟨.submit _, by simp, rfl⟩ | skip
  rename_i h hr
  refine .inr ⟨.dropRx h, ?_, rfl⟩
  rcases hk with hk | hk
  · intro e; cases e; exact hk rfl
  · exact absurd hk hr

structure Opens (cfg : Cfg) (w : St) : Prop where
  rx : ∀ v ∈ w.visitors, ∀ k, v.handle = some k → v.relay.phase = .running → (w.srv.chan k).rx = true
  login : w.visitors ≠ [] → LoggedIn cfg.server w.srv.trace

theorem Spares.rx {cfg : Tunnel.Cfg} {k s s'} (h : Spares k (Tunnel.serverStep cfg) s s') (hk : k < s.next)
    (hr : (s.chan k).rx = true) : (s'.chan k).rx = true := by
  rcases h with rfl | ⟨e, he, rfl⟩
  · exact hr
  · rw [Tunnel.step_rx cfg s e hk he]; exact hr

theorem loggedIn_mono {cfg : Tunnel.Cfg} {s s'} (h : LoggedIn cfg s.trace) (ho : One (Tunnel.serverStep cfg) s s') :
    LoggedIn cfg s'.trace := by
  rcases ho with rfl | ⟨e, rfl⟩
  · exact h
  · obtain ⟨u, hu, _⟩ := steps_server cfg s e
    rcases h with h | ⟨f, hf, hl⟩
    · exact .inl h
    · refine .inr ⟨f, ?_, hl⟩
      rw [hu, Tunnel.gots_append', Tunnel.gots_append']
      simp [hf]

theorem pickName_nil (mode) : pickName [] mode = none := rfl

theorem Opens.quiet {cfg w} (hg : Guests cfg w) (h : Opens cfg w) (w' : St) (hv : w'.visitors = w.visitors)
    (ho : One (Tunnel.serverStep cfg.server) w.srv w'.srv)
    (hs : ∀ v ∈ w.visitors, ∀ k, v.handle = some k → Spares k (Tunnel.serverStep cfg.server) w.srv w'.srv) : Opens cfg w' := by
  refine ⟨fun v hvm k hk hr => ?_, fun hne => loggedIn_mono (h.login (hv ▸ hne)) ho⟩
  rw [hv] at hvm
  exact (hs v hvm k hk).rx (hg.handle v hvm k hk) (h.rx v hvm k hk hr)

theorem opens_step (cfg w e) (hb : Base cfg w) (hg : Guests cfg w) (h : Opens cfg w) : Opens cfg (step cfg w e) := by
  have ho := (step_one cfg w e hb).1
  cases e
  case accept => exact ⟨h.rx, h.login⟩
  case visit n mode =>
    simp only [step]
    have hadd : ∀ id name, pickName w.srv.mappings mode = some name →
        (∀ v ∈ w.visitors ++ [⟨Relay.init id, none, mode⟩], ∀ k, v.handle = some k → v.relay.phase = .running →
          (w.srv.chan k).rx = true) ∧ LoggedIn cfg.server w.srv.trace := by
      intro id name hp
      refine ⟨fun v hv k hk hr => ?_, ?_⟩
      · rcases List.mem_append.1 hv with hv | hv
        · exact h.rx v hv k hk hr
        · simp at hv; subst hv; cases hk
      · obtain ⟨es, he⟩ := hb.srv
        rw [he] at hp ⊢
        refine Tunnel.loggedIn_mapped cfg.server es fun hm => ?_
        rw [hm, pickName_nil] at hp; cases hp
    split
    · exact h
    · split
      · exact ⟨h.rx, h.login⟩
      · rename_i id _ _ name hp
        have := hadd id name hp
        split
        · split
          · exact ⟨this.1, fun _ => this.2⟩
          · exact h
        · exact ⟨this.1, fun _ => this.2⟩
  case work =>
    simp only [step] at ho ⊢
    split
    · exact h
    · rename_i n name rest hw
      rw [hw] at ho
      split
      · exact h
      · rename_i v hv
        simp only [hv] at ho
        split
        · rename_i hr
          rw [if_pos hr] at ho
          have hvm := List.mem_of_getElem? hv
          refine ⟨fun x hx k hk hrun => ?_, fun _ => loggedIn_mono (h.login (List.ne_nil_of_mem hvm)) ho⟩
          rcases List.mem_or_eq_of_mem_set hx with hx | rfl
          · have hlt := hg.handle x hx k hk
            show ((Tunnel.serverStep cfg.server w.srv _).chan k).rx = true
            rw [Tunnel.step_rx cfg.server w.srv _ hlt (by simp)]
            exact h.rx x hx k hk hrun
          · dsimp only at hk ⊢
            cases hk
            exact Tunnel.work_rx cfg.server w.srv _ _ hr.1 hr.2
        · exact h
  case srv e => exact h.quiet hg _ rfl ho fun v hv k hk => loopStep_spares _ _ _ _ _
  case cli e => exact ⟨h.rx, h.login⟩
  case otherS e =>
    exact h.quiet hg _ rfl ho fun v hv k hk => otherStep_spares e (List.mem_filterMap.2 ⟨v, hv, hk⟩)
  case otherC e => exact ⟨h.rx, h.login⟩
  case vis n e =>
    simp only [step] at ho ⊢
    split
    · exact h
    · rename_i v hv
      simp only [hv] at ho
      have hvm := List.mem_of_getElem? hv
      refine ⟨fun x hx k hk hrun => ?_, fun _ => loggedIn_mono (h.login (List.ne_nil_of_mem hvm)) ho⟩
      obtain ⟨m, hm⟩ := List.getElem?_of_mem hx
      dsimp only at hm ⊢
      by_cases hnm : n = m
      · subst hnm
        rw [List.getElem?_set_self (List.getElem?_eq_some_iff.1 hv).1] at hm
        cases hm
        dsimp only at hk hrun
        have hr := relayStep_running_back _ _ _ _ _ _ hrun
        exact (relayStep_spares e (.inr hr)).rx (hg.handle v hvm k hk) (h.rx v hvm k hk hr)
      · rw [List.getElem?_set_ne hnm] at hm
        have hxm := List.mem_of_getElem? hm
        refine (relayStep_spares e (.inl fun hh => hnm (hg.inj n m v x k hv hm hh hk))).rx (hg.handle x hxm k hk)
          (h.rx x hxm k hk hrun)
  case start id k =>
    simp only [step]
    split
    · exact ⟨h.rx, h.login⟩
    · exact h
  case loc n e =>
    simp only [step]
    split
    · exact h
    · exact ⟨h.rx, h.login⟩

theorem opens_run (cfg es) : Opens cfg (run cfg es) := by
  induction es using List.reverseRecOn with
  | nil => exact ⟨by simp [run, init], by simp [run, init]⟩
  | append_singleton es e ih =>
    rw [run_snoc]
    exact opens_step cfg _ e (base_run cfg es) (guests_run cfg es) ih

end Wm.World
