import Verif.Model.Select
import Verif.Proofs.TunnelProgress
/-! The branch-by-branch loop refines the tunnel end; what is written and accepted by each branch. -/
namespace Wm.Select
open Wm Wm.Prot Wm.Tunnel

theorem run_snoc (T s0 evs e) : run T s0 (evs ++ [e]) = step T (run T s0 evs) e := by simp [run]

/-! ### refinement -/

theorem step_refines (T : Tunnel.St → Event → Tunnel.St) (s : St) (e : Ev) :
    (step T s e).tun = s.tun ∨ ∃ x, (step T s e).tun = T s.tun x := by
  cases e with
  | task a =>
    cases a with
    | work id d => simp only [step, taskStep]; split <;> exact .inl rfl
    | submit f =>
      simp only [step, taskStep]; split
      · exact .inr ⟨_, rfl⟩
      · exact .inl rfl
    | take h => exact .inr ⟨_, rfl⟩
    | dropRx h => exact .inr ⟨_, rfl⟩
  | poll r =>
    simp only [step]
    split
    · unfold pollStep
      split
      · split
        · exact .inl rfl
        · exact .inr ⟨_, rfl⟩
      · split
        · exact .inl rfl
        · exact .inr ⟨_, rfl⟩
      · split
        · exact .inr ⟨_, rfl⟩
        · exact .inr ⟨_, rfl⟩
        · exact .inl rfl
      · split
        · exact .inl rfl
        · split
          · exact .inr ⟨_, rfl⟩
          · exact .inr ⟨_, rfl⟩
          · exact .inl rfl
      · exact .inl rfl
    · exact .inl rfl

theorem run_refines (T : Tunnel.St → Event → Tunnel.St) (s0 : Tunnel.St) (evs : List Ev) :
    ∃ es : List Event, (run T s0 evs).tun = es.foldl T s0 := by
  induction evs using List.reverseRecOn with
  | nil => exact ⟨[], rfl⟩
  | append_singleton evs e ih =>
    obtain ⟨es, h⟩ := ih
    rw [run_snoc]
    rcases step_refines T (run T s0 evs) e with h1 | ⟨x, h1⟩
    · exact ⟨es, by rw [h1, h]⟩
    · exact ⟨es ++ [x], by rw [h1, h]; simp⟩

/-! ### what a branch adds to the trace -/

/-- neither a submitted message accepted nor bytes written -/
def Plain (o : Obs) : Prop := (∀ f, o ≠ .queued true f) ∧ ∀ bs, o ≠ .wrote bs

/-- the trace grew by plain happenings after `t0` -/
def Calm (t0 : List Obs) (s : Tunnel.St) : Prop := ∃ u, s.trace = t0 ++ u ∧ ∀ o ∈ u, Plain o

theorem Calm.refl (s : Tunnel.St) : Calm s.trace s := ⟨[], by simp, by simp⟩

theorem Calm.more {t0 s s'} (h : Calm t0 s) (u : List Obs) (e : s'.trace = s.trace ++ u) (hu : ∀ o ∈ u, Plain o) :
    Calm t0 s' := by
  obtain ⟨v, hv, hp⟩ := h
  refine ⟨v ++ u, by rw [e, hv]; simp, fun o ho => ?_⟩
  rcases List.mem_append.1 ho with h | h
  · exact hp o h
  · exact hu o h

theorem Calm.one {t0 s s'} (h : Calm t0 s) (o : Obs) (e : s'.trace = s.trace ++ [o]) (ho : Plain o) : Calm t0 s' :=
  h.more [o] e (by simpa using ho)

theorem Calm.same {t0 s s'} (h : Calm t0 s) (e : s'.trace = s.trace) : Calm t0 s' := h.more [] (by simp [e]) (by simp)

theorem Calm.finish {t0 s} (h : Calm t0 s) (p : Phase) : Calm t0 (finish p s) :=
  h.more _ (finish_trace p s) (by
    intro o ho
    obtain ⟨x, _, rfl⟩ := List.mem_map.1 ho
    exact ⟨by simp, by simp⟩)

theorem Calm.trySend {t0 s} (h : Calm t0 s) (k f) : Calm t0 (trySend k f s) := by
  unfold Tunnel.trySend
  split
  · exact h.one _ rfl ⟨by simp, by simp⟩
  · split
    · exact h.one (.put k f) rfl ⟨by simp, by simp⟩
    · exact h.one _ rfl ⟨by simp, by simp⟩

theorem Calm.sendAwait {t0 s} (h : Calm t0 s) (k f) : Calm t0 (sendAwait k f s).1 := by
  unfold Tunnel.sendAwait
  split
  · exact h.one (.lost k f) rfl ⟨by simp, by simp⟩
  · split
    · exact h.one (.put k f) rfl ⟨by simp, by simp⟩
    · exact h.same rfl

theorem Calm.register {t0 s} (h : Calm t0 s) (id) : Calm t0 (register id s) := by
  refine h.more _ ((register_trace id s).trans (List.append_assoc ..)) ?_
  intro o ho
  cases hl : lookup id s.map <;> rw [hl] at ho <;> simp at ho
  · subst ho; exact ⟨by simp, by simp⟩
  · rcases ho with rfl | rfl <;> exact ⟨by simp, by simp⟩

theorem Calm.closeFold {t0} (m : List (Nat × Nat)) : ∀ s, Calm t0 s →
    Calm t0 (m.foldl (fun s x => Tunnel.trySend x.2 (.close x.1 []) s) s) := by
  induction m with
  | nil => intro s h; exact h
  | cons p m ih => intro s h; exact ih _ (h.trySend p.2 _)

/-- a message handler adds plain happenings -/
def CalmH (H : Tunnel.St → Frame → Tunnel.St × Bool) : Prop := ∀ t0 s f, Calm t0 s → Calm t0 (H s f).1

theorem serverHandle_calm (cfg : Cfg) : CalmH (serverHandle cfg) := by
  intro t0 s f h
  unfold serverHandle
  dsimp only
  have h1 : Calm t0 (emit (.got f) s) := h.one (.got f) rfl ⟨by simp, by simp⟩
  split
  · exact h1.same rfl
  · split
    · exact h1.one (.queued false (.close 0 notVerify)) rfl ⟨by simp, by simp⟩
    · have hd : ∀ id, Calm t0 (match lookup id (emit (.got f) s).map with
            | some h => Tunnel.sendAwait h f (emit (.got f) s)
            | none => (emit (.got f) s, false)).1 := by
        intro id
        split
        · exact h1.sendAwait _ _
        · exact h1
      cases f with
      | create id d => exact (h1.register id).one (.opened id _ (.proxy none)) rfl ⟨by simp, by simp⟩
      | close id d => exact hd id
      | data id d => exact hd id
      | mapping id ms => exact h1.one (.setMap ms) rfl ⟨by simp, by simp⟩
      | token u p => exact h1

theorem clientHandle_calm (cfg : Cfg) : CalmH (clientHandle cfg) := by
  intro t0 s f h
  unfold clientHandle
  dsimp only
  have h1 : Calm t0 (emit (.got f) s) := h.one (.got f) rfl ⟨by simp, by simp⟩
  have hd : ∀ id, Calm t0 (match lookup id (emit (.got f) s).map with
        | some h => (Tunnel.trySend h f (emit (.got f) s), false)
        | none => (emit (.got f) s, false)).1 := by
    intro id
    split
    · exact h1.trySend _ _
    · exact h1
  cases f with
  | create id dom =>
    dsimp only
    split
    · unfold selfSend
      split
      · exact h1.one (.submitted (.close id [])) rfl ⟨by simp, by simp⟩
      · exact h1.same rfl
    · split
      · exact (h1.register id).one _ rfl ⟨by simp, by simp⟩
      · split
        · exact (h1.register id).one (.rxGone _) rfl ⟨by simp, by simp⟩
        · exact (h1.register id).one _ rfl ⟨by simp, by simp⟩
  | data id d => exact hd id
  | close id d =>
    dsimp only
    split
    · exact h1
    · exact hd id
  | mapping id ms => exact h1
  | token u p => exact h1.finish _

/-- handlers keep the loop alive unless they stop it (needed to run `resume_inv`) -/
theorem resume_calm {H : Tunnel.St → Frame → Tunnel.St × Bool} (hH : CalmH H) {t0 s} (h : Calm t0 s) :
    Calm t0 (resume H s) := by
  unfold resume
  split
  · have hp := pump_inv H (Calm t0) (Calm t0) (fun _ x => x) (fun s f x => ⟨hH t0 s f x, fun _ => hH t0 s f x⟩)
      s.readBuf s h
    dsimp only
    cases he : (pump H s s.readBuf).2.2 with
    | more => exact hp.1.same rfl
    | stopped => exact hp.1.same rfl
    | err e => refine Calm.finish ?_ _; exact hp.1.same rfl
    | panic => refine Calm.finish ?_ _; exact hp.1.same rfl
  · exact h

theorem resumePending_calm {H : Tunnel.St → Frame → Tunnel.St × Bool} (hH : CalmH H) {t0 s} (h : Calm t0 s) :
    Calm t0 (resumePending H s) := by
  unfold resumePending
  split
  · exact h
  · dsimp only
    have h1 := Calm.sendAwait (s := { s with pending := none }) (h.same rfl)
    split
    · exact h1 _ _
    · exact resume_calm hH (h1 _ _)

/-- what one event adds to the trace of a tunnel end -/
theorem step_adds {H : Tunnel.St → Frame → Tunnel.St × Bool} {we : Tunnel.St → Tunnel.St} (hH : CalmH H)
    (hw : ∀ t0 s, Calm t0 s → Calm t0 (we s)) (s : Tunnel.St) (e : Event) :
    (Calm s.trace (Tunnel.step H we s e)) ∨
    (∃ f q, e = .recv ∧ s.outq = f :: q ∧ Calm (s.trace ++ [.queued true f]) (Tunnel.step H we s e)) ∨
    (∃ n, e = .wrote n ∧ Calm (s.trace ++ [.wrote (s.writeBuf.take n)]) (Tunnel.step H we s e)) := by
  have h0 := Calm.refl s
  cases e <;> simp only [Tunnel.step]
  case submit f =>
    left; split
    · exact h0.one (.submitted f) rfl ⟨by simp, by simp⟩
    · exact h0
  case take h =>
    left; split
    · exact h0
    · rename_i f q hq
      split
      · exact resumePending_calm hH (h0.one (.took h f) rfl ⟨by simp, by simp⟩)
      · exact h0
  case dropRx h =>
    left; split
    · exact resumePending_calm hH (h0.one (.rxGone h) rfl ⟨by simp, by simp⟩)
    · exact h0
  case work id d =>
    left; split
    · exact resume_calm hH ((h0.register id).one (.queued false (.create id d)) rfl ⟨by simp, by simp⟩)
    · exact h0
  case recv =>
    split
    · split
      · exact .inl h0
      · rename_i f q hq
        right; left
        refine ⟨f, q, trivial, by first | exact hq | rfl, ?_⟩
        refine resume_calm hH ⟨[], by simp [enqueue, emit], by simp⟩
    · exact .inl h0
  case read bs =>
    left; split
    · exact resume_calm hH (h0.one (.arrived bs) rfl ⟨by simp, by simp⟩)
    · exact h0
  case readEnd =>
    left; split
    · have h1 : Calm s.trace (emit .connLost s) := h0.one .connLost rfl ⟨by simp, by simp⟩
      exact (Calm.closeFold _ _ h1).finish _
    · exact h0
  case wrote n =>
    split
    · split
      · exact .inl h0
      · right; right
        refine ⟨n, rfl, ?_⟩
        have h1 : Calm (s.trace ++ [.wrote (s.writeBuf.take n)])
            (emit (.wrote (s.writeBuf.take n)) { s with writeBuf := s.writeBuf.drop n }) := ⟨[], by simp [emit], by simp⟩
        split
        · exact h1.finish _
        · exact resume_calm hH h1
    · exact .inl h0
  case writeErr =>
    left; split
    · split
      · exact h0
      · exact hw _ _ h0
    · exact h0

theorem written_calm {t0 s} (h : Calm t0 s) : written s.trace = written t0 := by
  obtain ⟨u, e, hp⟩ := h
  have h1 : written u = [] := by
    unfold written
    rw [List.flatMap_eq_nil_iff]
    intro o ho
    have := (hp o ho).2
    cases o <;> simp_all
  have h2 : written (t0 ++ u) = written t0 ++ written u := by simp [written]
  rw [e, h2, h1, List.append_nil]

/-! ### the server's outgoing channel is only touched by `submit` and `recv` -/

theorem hangupFold_outq (m : List (Nat × Nat)) : ∀ s : Tunnel.St,
    (m.foldl (fun s x => hangup x.2 s) s).outq = s.outq := by
  induction m with
  | nil => intro s; rfl
  | cons p m ih => intro s; exact (ih _).trans rfl

theorem finish_outq (p s) : (finish p s).outq = s.outq := hangupFold_outq _ _

theorem trySend_outq (k f s) : (trySend k f s).outq = s.outq := by
  unfold trySend; split
  · rfl
  · split <;> rfl

theorem sendAwait_outq (k f s) : (sendAwait k f s).1.outq = s.outq := by
  unfold sendAwait; split
  · rfl
  · split <;> rfl

theorem register_outq (id s) : (register id s).outq = s.outq := by
  unfold register; dsimp only [emit, setChan]; split <;> rfl

theorem closeAll_outq (s) : (closeAll s).outq = s.outq := by
  unfold closeAll
  generalize s.map = m
  induction m generalizing s with
  | nil => rfl
  | cons p m ih => simp only [List.foldl_cons]; rw [ih, trySend_outq]

theorem serverHandle_outq (cfg s f) : (serverHandle cfg s f).1.outq = s.outq := by
  unfold serverHandle
  dsimp only
  split
  · rfl
  · split
    · rfl
    · have hd : ∀ id, (match lookup id (emit (.got f) s).map with
            | some h => Tunnel.sendAwait h f (emit (.got f) s)
            | none => (emit (.got f) s, false)).1.outq = s.outq := by
        intro id
        split
        · exact sendAwait_outq _ _ _
        · rfl
      cases f with
      | create id d => exact register_outq _ _
      | close id d => exact hd id
      | data id d => exact hd id
      | mapping id ms => rfl
      | token u p => rfl

theorem resume_outq (cfg s) : (resume (serverHandle cfg) s).outq = s.outq := by
  unfold resume
  split
  · have hp := pump_inv (serverHandle cfg) (fun x => x.outq = s.outq) (fun x => x.outq = s.outq) (fun _ x => x)
      (fun x f h => ⟨(serverHandle_outq cfg x f).trans h, fun _ => (serverHandle_outq cfg x f).trans h⟩)
      s.readBuf s rfl
    dsimp only
    cases he : (pump (serverHandle cfg) s s.readBuf).2.2 with
    | more => exact hp.1
    | stopped => exact hp.1
    | err e => dsimp only; rw [finish_outq]; exact hp.1
    | panic => dsimp only; rw [finish_outq]; exact hp.1
  · rfl

theorem resumePending_outq (cfg s) : (resumePending (serverHandle cfg) s).outq = s.outq := by
  unfold resumePending
  split
  · rfl
  · dsimp only
    split
    · exact sendAwait_outq _ _ _
    · rw [resume_outq]; exact sendAwait_outq _ _ _

theorem serverStep_outq (cfg s) (e : Event) (h1 : ∀ f, e ≠ .submit f) (h2 : e ≠ .recv) :
    (serverStep cfg s e).outq = s.outq := by
  unfold serverStep
  cases e <;> simp only [Tunnel.step]
  case submit f => exact absurd rfl (h1 f)
  case recv => exact absurd rfl h2
  case take h =>
    split
    · rfl
    · split
      · rw [resumePending_outq]; rfl
      · rfl
  case dropRx h =>
    split
    · rw [resumePending_outq]; rfl
    · rfl
  case work id d =>
    split
    · rw [resume_outq]; exact register_outq _ _
    · rfl
  case read bs =>
    split
    · rw [resume_outq]; rfl
    · rfl
  case readEnd =>
    split
    · rw [finish_outq, closeAll_outq]; rfl
    · rfl
  case wrote n =>
    split
    · split
      · rfl
      · split
        · rw [finish_outq]; rfl
        · rw [resume_outq]; rfl
    · rfl
  case writeErr =>
    split
    · split
      · rfl
      · rw [finish_outq]
    · rfl

end Wm.Select
