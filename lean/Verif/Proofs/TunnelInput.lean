import Verif.Proofs.TunnelRun
/-! What a tunnel end looks at is what the peer sent. -/
namespace Wm.Tunnel
open Wm Wm.Prot

theorem arrived_append (a b : List Obs) : arrived (a ++ b) = arrived a ++ arrived b := by simp [arrived]

/-- the trace grew without input being read or looked at, and the read buffer is the same -/
def Ext (s s' : St) : Prop :=
  (∃ u, s'.trace = s.trace ++ u ∧ gots u = [] ∧ arrived u = []) ∧ s'.readBuf = s.readBuf

theorem Ext.refl (s : St) : Ext s s := ⟨⟨[], by simp, rfl, rfl⟩, rfl⟩

theorem Ext.trans {a b c : St} (h : Ext a b) (h' : Ext b c) : Ext a c := by
  obtain ⟨⟨u, e1, e2, e3⟩, r⟩ := h
  obtain ⟨⟨v, f1, f2, f3⟩, r'⟩ := h'
  exact ⟨⟨u ++ v, by simp [f1, e1], by simp [gots_append, e2, f2], by simp [arrived_append, e3, f3]⟩, r'.trans r⟩

theorem Ext.one {s s' : St} (o : Obs) (ht : s'.trace = s.trace ++ [o]) (hg : gots [o] = []) (ha : arrived [o] = [])
    (hr : s'.readBuf = s.readBuf) : Ext s s' := ⟨⟨[o], ht, hg, ha⟩, hr⟩

theorem Ext.hangup (k : Nat) (s : St) : Ext s (hangup k s) := Ext.one (.hangup k) rfl rfl rfl rfl

theorem Ext.hangupFold (m : List (Nat × Nat)) : ∀ s, Ext s (m.foldl (fun s x => Tunnel.hangup x.2 s) s) := by
  induction m with
  | nil => intro s; exact Ext.refl s
  | cons x m ih => intro s; exact (Ext.hangup x.2 s).trans (ih _)

theorem Ext.finish (p : Phase) (s : St) : Ext s (finish p s) := Ext.hangupFold s.map s

theorem Ext.register (id : Nat) (s : St) : Ext s (register id s) := by
  unfold Tunnel.register
  cases lookup id s.map with
  | none => exact Ext.one (.reg id s.next) rfl rfl rfl rfl
  | some old => exact (Ext.hangup old s).trans (Ext.one (.reg id s.next) rfl rfl rfl rfl)

theorem Ext.trySend (k : Nat) (f : Frame) (s : St) : Ext s (trySend k f s) := by
  unfold Tunnel.trySend
  split
  · exact Ext.one (.lost k f) rfl rfl rfl rfl
  · split
    · exact Ext.one (.put k f) rfl rfl rfl rfl
    · exact Ext.one (.overflow k f) rfl rfl rfl rfl

theorem Ext.sendAwait (k : Nat) (f : Frame) (s : St) : Ext s (sendAwait k f s).1 := by
  unfold Tunnel.sendAwait
  split
  · exact Ext.one (.lost k f) rfl rfl rfl rfl
  · split
    · exact Ext.one (.put k f) rfl rfl rfl rfl
    · exact ⟨⟨[], by simp, rfl, rfl⟩, rfl⟩

theorem Ext.closeFold (m : List (Nat × Nat)) : ∀ s,
    Ext s (m.foldl (fun s x => Tunnel.trySend x.2 (.close x.1 []) s) s) := by
  induction m with
  | nil => intro s; exact Ext.refl s
  | cons x m ih => intro s; exact (Ext.trySend _ _ s).trans (ih _)

theorem Ext.enqueue (f : Frame) (b : Bool) (s : St) : Ext s (Tunnel.enqueue f s b) :=
  Ext.one (.queued b f) rfl rfl rfl rfl

/-- the handler looks at its message, and stops only by leaving the live state -/
def Looks (H : St → Frame → St × Bool) : Prop :=
  ∀ s f, Ext (emit (.got f) s) (H s f).1 ∧ ((H s f).2 = true → ¬ Live (H s f).1)

theorem serverHandle_looks (cfg : Cfg) : Looks (serverHandle cfg) := by
  intro s f
  have hsend : ∀ k, Ext (emit (.got f) s) (sendAwait k f (emit (.got f) s)).1 ∧
      ((sendAwait k f (emit (.got f) s)).2 = true → ¬ Live (sendAwait k f (emit (.got f) s)).1) := by
    intro k
    refine ⟨Ext.sendAwait k f _, ?_⟩
    unfold sendAwait
    split
    · intro h; cases h
    · split
      · intro h; cases h
      · intro _ hl; simp [Live] at hl
  unfold serverHandle
  dsimp only
  split
  · exact ⟨⟨⟨[], by simp, rfl, rfl⟩, rfl⟩, by simp⟩
  · split
    · refine ⟨Ext.one (.queued false (.close 0 notVerify)) rfl rfl rfl rfl, fun _ hl => ?_⟩
      simp [Live] at hl
    · cases f with
      | create id d =>
        exact ⟨(Ext.register id _).trans (Ext.one (.opened id s.next (.proxy none)) rfl rfl rfl rfl), by simp⟩
      | close id d =>
        dsimp only
        split
        · exact hsend _
        · exact ⟨Ext.refl _, by simp⟩
      | data id d =>
        dsimp only
        split
        · exact hsend _
        · exact ⟨Ext.refl _, by simp⟩
      | mapping id ms => exact ⟨Ext.one (.setMap ms) rfl rfl rfl rfl, by simp⟩
      | token u p => exact ⟨Ext.refl _, by simp⟩

theorem clientHandle_looks (cfg : Cfg) : Looks (clientHandle cfg) := by
  intro s f
  unfold clientHandle
  dsimp only
  cases f with
  | create id d =>
    dsimp only
    split
    · unfold selfSend
      split
      · exact ⟨Ext.one (.submitted (.close id [])) rfl rfl rfl rfl, by simp⟩
      · exact ⟨⟨⟨[], by simp, rfl, rfl⟩, rfl⟩, fun _ hl => by simp [Live] at hl⟩
    · rename_i m _
      have h1 := Ext.register id (emit (.got (.create id d)) s)
      split
      · exact ⟨h1.trans (Ext.one (.opened id s.next (.proxy (some m.headers))) rfl rfl rfl rfl), by simp⟩
      · split
        · exact ⟨h1.trans (Ext.one (.rxGone s.next) rfl rfl rfl rfl), by simp⟩
        · exact ⟨h1.trans (Ext.one (.opened id s.next (.connect _)) rfl rfl rfl rfl), by simp⟩
  | close id d =>
    dsimp only
    split
    · exact ⟨Ext.refl _, by simp⟩
    · split
      · exact ⟨Ext.trySend _ _ _, by simp⟩
      · exact ⟨Ext.refl _, by simp⟩
  | data id d =>
    dsimp only
    split
    · exact ⟨Ext.trySend _ _ _, by simp⟩
    · exact ⟨Ext.refl _, by simp⟩
  | mapping id ms => exact ⟨Ext.refl _, by simp⟩
  | token u p => exact ⟨Ext.finish _ _, fun _ hl => by simp [Live] at hl⟩

/-- a stream of whole messages followed by a part of one -/
structure Stream (fs : List Frame) (part : Bytes) : Prop where
  fits : ∀ f ∈ fs, Fits f
  part : ∀ p, p <+: part → ¬ Complete p

/-- the messages looked at are a beginning `c` of the stream, the read buffer is what follows them -/
def At (fs : List Frame) (part : Bytes) (s : St) : Prop :=
  arrived s.trace <+: fs.flatMap wire ++ part →
    ∃ c rest, fs = c ++ rest ∧ gots s.trace = c.map asReceived ∧ arrived s.trace = c.flatMap wire ++ s.readBuf

def AtIdle (fs : List Frame) (part : Bytes) (s : St) : Prop :=
  At fs part s ∧ (arrived s.trace <+: fs.flatMap wire ++ part → Live s → ¬ Complete s.readBuf)

theorem At.ext {fs part s s'} (h : At fs part s) (e : Ext s s') : At fs part s' := by
  obtain ⟨⟨u, e1, e2, e3⟩, er⟩ := e
  unfold At at *
  rw [e1, arrived_append, e3, List.append_nil, gots_append, e2, List.append_nil, er]
  exact h

theorem AtIdle.ext {fs part s s'} (h : AtIdle fs part s) (e : Ext s s') (hl : Live s' → Live s) : AtIdle fs part s' := by
  refine ⟨h.1.ext e, fun ha hl' => ?_⟩
  obtain ⟨⟨u, e1, e2, e3⟩, er⟩ := e
  rw [e1, arrived_append, e3, List.append_nil] at ha
  rw [er]; exact h.2 ha (hl hl')

theorem AtIdle.dead {fs part s} (h : At fs part s) (hl : ¬ Live s) : AtIdle fs part s :=
  ⟨h, fun _ h' => absurd h' hl⟩

theorem pump_at {H : St → Frame → St × Bool} (hH : Looks H) (c : List Frame) (hc : ∀ f ∈ c, Fits f) (q : Bytes)
    (hq : ¬ Complete q) : ∀ (s : St),
    ∃ c1 c2, c = c1 ++ c2 ∧
      gots (pump H s (c.flatMap wire ++ q)).1.trace = gots s.trace ++ c1.map asReceived ∧
      arrived (pump H s (c.flatMap wire ++ q)).1.trace = arrived s.trace ∧
      (pump H s (c.flatMap wire ++ q)).2.1 = c2.flatMap wire ++ q ∧
      ((pump H s (c.flatMap wire ++ q)).2.2 = .more ∧ c2 = [] ∨
        (pump H s (c.flatMap wire ++ q)).2.2 = .stopped ∧ ¬ Live (pump H s (c.flatMap wire ++ q)).1) := by
  induction c with
  | nil =>
    intro s
    have := pump_incomplete H s hq
    simp only [List.flatMap_nil, List.nil_append]
    rw [this]
    exact ⟨[], [], rfl, by simp, rfl, by simp, by simp⟩
  | cons f t ih =>
    intro s
    have h1 : decodeFrame ((f :: t).flatMap wire ++ q)
        = (.ok (some (asReceived f)), t.flatMap wire ++ q) := by
      rw [List.flatMap_cons, List.append_assoc]
      have h := frame_roundtrip_any_id f (hc f (by simp)).1 (hc f (by simp)).2.1 [] (t.flatMap wire ++ q)
      rw [wireId_fits (hc f (by simp)).2, withId_self] at h
      exact h.2
    rw [pump_some H s h1]
    obtain ⟨⟨⟨u, e1, e2, e3⟩, er⟩, hst⟩ := hH s (asReceived f)
    have hg : gots (H s (asReceived f)).1.trace = gots s.trace ++ [asReceived f] := by
      rw [e1, gots_append, e2]; simp [emit, gots_snoc]
    have ha : arrived (H s (asReceived f)).1.trace = arrived s.trace := by
      rw [e1, arrived_append, e3]; simp [emit, arrived_snoc]
    cases hb : (H s (asReceived f)).2 with
    | true =>
      simp only [if_true]
      exact ⟨[f], t, rfl, by simpa using hg, ha, rfl, .inr ⟨trivial, hst hb⟩⟩
    | false =>
      simp only [Bool.false_eq_true, if_false]
      obtain ⟨c1, c2, i1, i2, i3, i4, i5⟩ := ih (fun x hx => hc x (by simp [hx])) (H s (asReceived f)).1
      exact ⟨f :: c1, c2, by simp [i1], by rw [i2, hg]; simp, i3.trans ha, i4, i5⟩

theorem resume_at {H : St → Frame → St × Bool} (hH : Looks H) {fs part} (hS : Stream fs part) (s : St)
    (h : At fs part s) : AtIdle fs part (resume H s) := by
  unfold resume
  split
  · rename_i hl
    by_cases ha : arrived s.trace <+: fs.flatMap wire ++ part
    · obtain ⟨c, rest, e1, e2, e3⟩ := h ha
      obtain ⟨r, hr⟩ := ha
      rw [e1, e3] at hr
      have hr' : s.readBuf ++ r = rest.flatMap wire ++ part := by
        simp only [List.flatMap_append, List.append_assoc] at hr
        exact List.append_cancel_left hr
      obtain ⟨d1, d2, q, f1, f2, f3, f4⟩ := split_prefix rest (fun f hf => hS.fits f (by simp [e1, hf])) hS.part _ _ hr'
      obtain ⟨c1, c2, g1, g2, g3, g4, g5⟩ :=
        pump_at hH d1 (fun f hf => hS.fits f (by simp [e1, f1, hf])) q f3 s
      rw [← f2] at g2 g3 g4 g5
      have hat : ∀ s' : St, s'.trace = (pump H s s.readBuf).1.trace → s'.readBuf = (pump H s s.readBuf).2.1 →
          At fs part s' := by
        intro s' h1 h2 _
        refine ⟨c ++ c1, c2 ++ d2, by simp [e1, f1, g1], ?_, ?_⟩
        · rw [h1, g2, e2]; simp
        · rw [h1, g3, h2, g4, e3, f2, g1]; simp
      dsimp only
      rcases g5 with ⟨g5, g6⟩ | ⟨g5, g6⟩
      · rw [g5]
        refine ⟨hat _ rfl rfl, fun _ _ => ?_⟩
        show ¬ Complete (pump H s s.readBuf).2.1
        rw [g4, g6]; simpa using f3
      · rw [g5]; exact AtIdle.dead (hat _ rfl rfl) g6
    · -- not a beginning of this stream: nothing to show, since what was read does not change
      have hp := pump_inv H (fun x => arrived x.trace = arrived s.trace) (fun x => arrived x.trace = arrived s.trace)
        (fun _ h => h) (fun x f hx => by
          have : arrived (H x f).1.trace = arrived s.trace := by
            obtain ⟨⟨⟨u, e1, e2, e3⟩, er⟩, hst⟩ := hH x f
            rw [e1, arrived_append, e3]; simp [emit, arrived_snoc, hx]
          exact ⟨this, fun _ => this⟩) s.readBuf s rfl
      have hno : ∀ s' : St, arrived s'.trace = arrived s.trace → AtIdle fs part s' := by
        intro s' e
        refine ⟨fun h' => absurd (e ▸ h') ha, fun h' => absurd (e ▸ h') ha⟩
      have hf : ∀ (x : St) p, arrived x.trace = arrived s.trace → arrived (finish p x).trace = arrived s.trace := by
        intro x p hx
        obtain ⟨⟨u, e1, e2, e3⟩, _⟩ := Ext.finish p x
        rw [e1, arrived_append, e3, hx, List.append_nil]
      dsimp only
      cases (pump H s s.readBuf).2.2 with
      | more => exact hno _ hp.1
      | stopped => exact hno _ hp.1
      | err e => exact hno _ (hf _ _ hp.1)
      | panic => exact hno _ (hf _ _ hp.1)
  · rename_i hl
    exact AtIdle.dead h hl

theorem resumePending_at {H : St → Frame → St × Bool} (hH : Looks H) {fs part} (hS : Stream fs part) (s : St)
    (h : AtIdle fs part s) : AtIdle fs part (resumePending H s) := by
  unfold resumePending
  split
  · exact h
  · rename_i k f hp
    dsimp only
    have h1 : At fs part (sendAwait k f { s with pending := none }).1 :=
      h.1.ext (Ext.trans (b := { s with pending := none }) ⟨⟨[], by simp, rfl, rfl⟩, rfl⟩ (Ext.sendAwait k f _))
    split
    · rename_i hb
      refine AtIdle.dead h1 ?_
      unfold sendAwait at hb ⊢
      split at hb
      · simp at hb
      · rename_i hr
        split at hb
        · simp at hb
        · rename_i hq; rw [if_neg hr, if_neg hq]; simp [Live]
    · exact resume_at hH hS _ h1

theorem step_at {H : St → Frame → St × Bool} (hH : Looks H) {we : St → St} {fs part} (hS : Stream fs part)
    (hwe : ∀ s, AtIdle fs part s → AtIdle fs part (we s)) (s : St) (e : Event) (hs : AtIdle fs part s) :
    AtIdle fs part (step H we s e) := by
  cases e <;> simp only [step]
  case submit f =>
    split
    · exact hs.ext (Ext.one (.submitted f) rfl rfl rfl rfl) (fun h => h)
    · exact hs
  case take h =>
    split
    · exact hs
    · rename_i f q hq
      split
      · exact resumePending_at hH hS _ (hs.ext (Ext.one (.took h f) rfl rfl rfl rfl) (fun h => h))
      · exact hs
  case dropRx h =>
    split
    · exact resumePending_at hH hS _ (hs.ext (Ext.one (.rxGone h) rfl rfl rfl rfl) (fun h => h))
    · exact hs
  case work id d =>
    split
    · exact resume_at hH hS _ (hs.1.ext ((Ext.register id s).trans (Ext.enqueue _ _ _)))
    · exact hs
  case recv =>
    split
    · split
      · exact hs
      · rename_i f q hq
        exact resume_at hH hS _ (hs.1.ext (Ext.trans (b := { s with outq := q }) ⟨⟨[], by simp, rfl, rfl⟩, rfl⟩
          (Ext.enqueue _ _ _)))
    · exact hs
  case read bs =>
    split
    · refine resume_at hH hS _ ?_
      intro ha
      simp only [emit, arrived_snoc] at ha
      obtain ⟨c, rest, e1, e2, e3⟩ := hs.1 ((List.prefix_append _ _).trans ha)
      refine ⟨c, rest, e1, ?_, ?_⟩
      · simp only [emit, gots_snoc, List.append_nil]; exact e2
      · simp only [emit, arrived_snoc]; rw [e3]; simp
    · exact hs
  case readEnd =>
    split
    · refine AtIdle.dead (hs.1.ext ?_) (by simp [Live])
      have h1 : Ext s (emit .connLost s) := Ext.one .connLost rfl rfl rfl rfl
      exact (h1.trans (Ext.closeFold _ _)).trans (Ext.finish _ _)
    · exact hs
  case wrote n =>
    split
    · split
      · exact hs
      · have h1 : Ext s (emit (.wrote (s.writeBuf.take n)) { s with writeBuf := s.writeBuf.drop n }) :=
          Ext.one (.wrote (s.writeBuf.take n)) rfl rfl rfl rfl
        split
        · exact AtIdle.dead (hs.1.ext (h1.trans (Ext.finish _ _))) (by simp [Live])
        · exact resume_at hH hS _ (hs.1.ext h1)
    · exact hs
  case writeErr =>
    split
    · split
      · exact hs
      · exact hwe s hs
    · exact hs

theorem server_at {fs part} (hS : Stream fs part) (cfg : Cfg) (es : List Event) :
    AtIdle fs part (serverRun cfg es) := by
  have hinit : AtIdle fs part (serverInit cfg) := by
    refine ⟨fun _ => ⟨[], fs, rfl, rfl, rfl⟩, fun _ _ => ?_⟩
    simp [serverInit, Complete]
  unfold serverRun
  generalize serverInit cfg = s at hinit
  induction es generalizing s with
  | nil => exact hinit
  | cons e t ih =>
    exact ih _ (step_at (serverHandle_looks cfg) hS
      (fun s h => AtIdle.dead (h.1.ext (Ext.finish _ _)) (by simp [Live])) s e hinit)

theorem client_at {fs part} (hS : Stream fs part) (cfg : Cfg) (q : List Frame) (es : List Event) :
    AtIdle fs part (clientRun cfg q es) := by
  have hread : (clientInit cfg q).readBuf = [] := by
    have hi : ∀ f s, (introduce f s).readBuf = s.readBuf := by
      intro f s; unfold introduce; split
      · split <;> rfl
      · rfl
    unfold clientInit; dsimp only
    split <;> split <;> simp [hi, clientBlank]
  have hinit : AtIdle fs part (clientInit cfg q) := by
    have hf := (Fresh.init cfg q).trace
    have h1 : gots (clientInit cfg q).trace = [] := by
      refine List.filterMap_eq_nil_iff.2 fun o ho => ?_
      obtain ⟨f, rfl⟩ := hf o ho; rfl
    have h2 : arrived (clientInit cfg q).trace = [] := by
      unfold arrived; rw [List.flatMap_eq_nil_iff]; intro o ho; obtain ⟨f, rfl⟩ := hf o ho; rfl
    refine ⟨fun _ => ⟨[], fs, rfl, by simp [h1], by simp [h2, hread]⟩, fun _ _ => ?_⟩
    simp [hread, Complete]
  unfold clientRun
  generalize clientInit cfg q = s at hinit
  induction es generalizing s with
  | nil => exact hinit
  | cons e t ih =>
    exact ih _ (step_at (clientHandle_looks cfg) hS (fun s h => resume_at (clientHandle_looks cfg) hS s h.1) s e hinit)

end Wm.Tunnel
