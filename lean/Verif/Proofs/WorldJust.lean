import Verif.Proofs.WorldFit
/-! The end-to-end composition: streams of the client are registered by an open request. -/
namespace Wm.World
open Wm Wm.Prot
open scoped List
open Wm.Tunnel (datas creates regCount openCount gots received submissions accepted relayed written arrived InnerL heads heads_received)

variable {T : Tunnel.St → Tunnel.Event → Tunnel.St}

/-- every registered stream was opened by a request looked at just before -/
structure Just (t : List Tunnel.Obs) : Prop where
  regs : ∀ i, regCount i t ≤ creates i (gots t)
  just : ∀ a b i h, t = a ++ .reg i h :: b → ∃ a' d pre, a = a' ++ .got (.create i d) :: pre ∧ gots pre = []
  opened : ∀ i h how, .opened i h how ∈ t → .reg i h ∈ t

/-- happenings that concern no registration and no incoming message -/
def Dull (u : List Tunnel.Obs) : Prop := (∀ i h, .reg i h ∉ u) ∧ (∀ i h how, .opened i h how ∉ u)

theorem dull_regs {u i} (h : Dull u) : regCount i u = 0 := by
  refine List.countP_eq_zero.2 fun o ho => ?_
  cases o <;> simp
  exact fun e => h.1 _ _ (e ▸ ho)

theorem heads_dull (s) {e : Tunnel.Event} (he : ∀ j d, e ≠ .work j d) : Dull (heads s e) := by
  cases e <;> simp only [heads]
  case work j d => exact absurd rfl (he j d)
  case submit f => split <;> exact ⟨by simp, by simp⟩
  case take j =>
    split
    · exact ⟨by simp, by simp⟩
    · split <;> exact ⟨by simp, by simp⟩
  case dropRx h => split <;> exact ⟨by simp, by simp⟩
  case recv =>
    split
    · split <;> exact ⟨by simp, by simp⟩
    · exact ⟨by simp, by simp⟩
  case readEnd => split <;> exact ⟨by simp, by simp⟩
  case read => split <;> exact ⟨by simp, by simp⟩
  case wrote n =>
    split
    · split <;> exact ⟨by simp, by simp⟩
    · exact ⟨by simp, by simp⟩
  case writeErr => exact ⟨by simp, by simp⟩

theorem Just.dull {t u} (h : Just t) (hd : Dull u) : Just (t ++ u) := by
  refine ⟨fun i => ?_, fun a b i k hab => ?_, fun i k how hm => ?_⟩
  · rw [Tunnel.regCount_append, dull_regs hd, Tunnel.gots_append', Tunnel.creates_append]
    have := h.regs i; omega
  · rcases List.append_eq_append_iff.1 hab with ⟨c, h1, h2⟩ | ⟨c, h1, h2⟩
    · exact absurd (by rw [h2]; simp) (hd.1 i k)
    · cases c with
      | nil => exact absurd (by rw [← List.nil_append u, ← h2]; simp) (hd.1 i k)
      | cons o c =>
        simp only [List.cons_append, List.cons.injEq] at h2
        obtain ⟨rfl, h2⟩ := h2
        exact h.just a c i k h1
  · rcases List.mem_append.1 hm with hm | hm
    · exact List.mem_append.2 (.inl (h.opened i k how hm))
    · exact absurd hm (hd.2 i k how)

theorem Just.inner {t u} (h : Just t) (hu : InnerL u) : Just (t ++ u) := by
  refine ⟨fun i => ?_, fun a b i k hab => ?_, fun i k how hm => ?_⟩
  · rw [Tunnel.regCount_append, Tunnel.gots_append', Tunnel.creates_append]
    have := h.regs i; have := hu.regs i; omega
  · rcases List.append_eq_append_iff.1 hab with ⟨c, h1, h2⟩ | ⟨c, h1, h2⟩
    · obtain ⟨a', d, pre, e1, e2⟩ := hu.just c b i k h2
      exact ⟨t ++ a', d, pre, by rw [h1, e1]; simp, e2⟩
    · cases c with
      | nil =>
        obtain ⟨a', d, pre, e1, e2⟩ := hu.just [] b i k (by simpa using h2.symm)
        simp at e1
      | cons o c =>
        simp only [List.cons_append, List.cons.injEq] at h2
        obtain ⟨rfl, h2⟩ := h2
        exact h.just a c i k h1
  · rcases List.mem_append.1 hm with hm | hm
    · exact List.mem_append.2 (.inl (h.opened i k how hm))
    · exact List.mem_append.2 (.inr (hu.openReg i k how hm))

theorem Just.calm (hT : Steps T) {s s'} (h : Just s.trace) (hc : Calm T s s') : Just s'.trace := by
  rcases hc with rfl | ⟨e, he, rfl⟩
  · exact h
  · obtain ⟨u, e1, e2, _⟩ := hT s e
    rw [e1]
    exact (h.dull (heads_dull s he)).inner e2

theorem just_run (cfg es) : Just (run cfg es).cli.trace := by
  induction es using List.reverseRecOn with
  | nil =>
    have hf := Tunnel.Fresh.init cfg.client []
    have : Just ([] : List Tunnel.Obs) := ⟨by simp [regCount], by simp, by simp⟩
    have h2 := this.dull (u := (Tunnel.clientInit cfg.client []).trace) ⟨fun i h hm => (by
      obtain ⟨f, e⟩ := hf.trace _ hm; cases e), fun i h how hm => (by
      obtain ⟨f, e⟩ := hf.trace _ hm; cases e)⟩
    exact h2
  | append_singleton es e ih =>
    rw [run_snoc]
    have hb := base_run cfg es
    have hC := steps_client cfg.client
    generalize run cfg es = w at ih hb
    cases e <;> simp only [step]
    case accept => exact ih
    case visit n mode =>
      cases w.idle[n]? with
      | none => exact ih
      | some i =>
        dsimp only
        cases pickName w.srv.mappings mode with
        | none => exact ih
        | some name =>
          dsimp only
          split
          · split <;> exact ih
          · exact ih
    case work =>
      cases w.works with
      | nil => exact ih
      | cons p rest =>
        dsimp only
        cases w.visitors[p.1]? with
        | none => exact ih
        | some v => dsimp only; split <;> exact ih
    case srv e => exact ih
    case cli e => exact ih.calm hC (loopStep_calm _ _ _)
    case otherS e => exact ih
    case otherC e => exact ih.calm hC (otherStep_calm _ _ _)
    case vis n e => cases w.visitors[n]? <;> exact ih
    case start id k => split <;> exact ih
    case loc n e =>
      cases hl : w.locals[n]? with
      | none => exact ih
      | some l => exact ih.calm hC (relayStep_calm _ _ _ _ _ (hb.locals l (List.mem_of_getElem? hl)))

end Wm.World
