import Verif.Props.Chain
/-!
Property C220: how many users wait at a client to be announced to the server above.
-/
namespace Wm.Chain
open Wm Wm.Prot
open Wm.World (Cfg)

/-- the users who have been accepted and not been announced yet -/
def unannounced (w : St) : Nat := w.users.countP fun u => u.handle.isNone

structure Waits (w : St) : Prop where
  cap : w.works.length ≤ 10
  all : w.cli.phase = .running → unannounced w ≤ w.works.length

theorem Waits.same {cfg : Cfg} {w w' : St} (h : Waits w) (ho : World.One (Tunnel.clientStep cfg.client) w.cli w'.cli)
    (hw : w'.works = w.works) (hu : unannounced w' = unannounced w) : Waits w' := by
  refine ⟨by rw [hw]; exact h.cap, fun hr => ?_⟩
  rw [hw, hu]
  refine h.all (Decidable.byContradiction fun hc => ?_)
  exact ho.over (World.final_client cfg.client) hc hr

theorem waits_run (cfg es) : Waits (run cfg es) := by
  induction es using List.reverseRecOn with
  | nil => exact ⟨by simp [run, init], by simp [run, init, unannounced]⟩
  | append_singleton es e h =>
    have hg := guests_run cfg es
    have hb := base_run cfg es
    rw [run_snoc]
    generalize run cfg es = w at *
    cases e with
    | accept =>
      simp only [step]
      split
      · rename_i hp
        exact ⟨h.cap, fun hr => absurd (hp.symm.trans hr) (by decide)⟩
      · split
        · rename_i hc
          refine ⟨?_, fun hr => ?_⟩
          · have : w.works.length < 10 := hc
            simp; omega
          · have := h.all hr
            simp [unannounced, List.countP_append] at this ⊢
            omega
        · exact h
    | work =>
      simp only [step]
      split
      · exact h
      · rename_i n rest hw
        split
        · exact h
        · rename_i u hu
          split
          · rename_i hi
            have hcap := h.cap
            have hall := h.all hi.1
            rw [hw] at hcap hall
            refine ⟨by simp at hcap ⊢; omega, fun _ => ?_⟩
            obtain ⟨u', e1, e2⟩ := hg.works n (by rw [hw]; simp)
            rw [hu] at e1; cases e1
            obtain ⟨hlt, hget⟩ := List.getElem?_eq_some_iff.1 hu
            simp only [unannounced] at hall ⊢
            rw [List.countP_set hlt]
            simp [hget, e2] at hall ⊢
            omega
          · exact h
    | srv e => exact h.same (cfg := cfg) (.inl rfl) rfl rfl
    | cli e => exact h.same (World.loopStep_one _ _ _) rfl rfl
    | otherS e => exact h.same (cfg := cfg) (.inl rfl) rfl rfl
    | otherC e => exact h.same (World.otherStep_one _ _ _) rfl rfl
    | user n e =>
      simp only [step]
      split
      · exact h
      · rename_i u hu
        refine h.same (World.relayStep_one _ _ _ _ _ (hb.users u (List.mem_of_getElem? hu))) rfl ?_
        obtain ⟨hlt, hget⟩ := List.getElem?_eq_some_iff.1 hu
        simp only [unannounced]
        rw [List.countP_set hlt, hget]
        have hpos : u.handle.isNone = true → 0 < w.users.countP (fun u => u.handle.isNone) := fun hi =>
          List.countP_pos_iff.2 ⟨u, List.mem_of_getElem? hu, hi⟩
        dsimp only
        split
        · rename_i hi; have := hpos hi; omega
        · omega
    | start id k =>
      simp only [step]
      split
      · exact h.same (cfg := cfg) (.inl rfl) rfl rfl
      · exact h
    | task n e =>
      simp only [step]
      split
      · exact h
      · split
        · exact h
        · exact h.same (cfg := cfg) (.inl rfl) rfl rfl

/-- **C220** while the client's end of the tunnel works, at most ten of the users the client has accepted have not been
    announced to the server above; it accepts no further one until the loop has announced one of them. -/
theorem C220_waiting (cfg : Cfg) (es : List Event) (hr : (run cfg es).cli.phase = .running) :
    unannounced (run cfg es) ≤ 10 :=
  Nat.le_trans ((waits_run cfg es).all hr) (waits_run cfg es).cap

/-- **C220** (none is left behind): while the client's end works and a user waits to be announced, the loop's next turn for new
    users announces one of them. -/
theorem C220_announced (cfg : Cfg) (es : List Event) (hr : (run cfg es).cli.phase = .running)
    (hw : 0 < unannounced (run cfg es)) :
    unannounced (run cfg (es ++ [.work])) + 1 = unannounced (run cfg es) := by
  have h := waits_run cfg es
  have hg := guests_run cfg es
  have hp : (run cfg es).cli.pending = none := by
    obtain ⟨es', he⟩ : ∃ es', (run cfg es).cli = Tunnel.clientRun cfg.client [] es' := (base_run cfg es).ends.cli
    rw [he]; exact Tunnel.client_never_waits cfg.client [] es'
  rw [run_snoc]
  generalize run cfg es = w at *
  cases hk : w.works with
  | nil => have := h.all hr; rw [hk] at this; simp at this; omega
  | cons n rest =>
    obtain ⟨u, hu, e2⟩ := hg.works n (by rw [hk]; simp)
    obtain ⟨hlt, hget⟩ := List.getElem?_eq_some_iff.1 hu
    simp only [step, hk, hu]
    rw [if_pos ⟨hr, hp⟩]
    simp only [unannounced] at hw ⊢
    rw [List.countP_set hlt]
    simp [hget, e2]
    omega

/-- twelve users come while the client's loop is busy: ten of them are taken in -/
example : unannounced (run plain (List.replicate 12 .accept)) = 10 ∧ (run plain (List.replicate 12 .accept)).users.length = 10 ∧
    (run plain (List.replicate 12 .accept)).cli.phase = .running := by decide +kernel

end Wm.Chain
