import Verif.Proofs.ChainFlow
import Verif.Proofs.WorldClose
/-! The users of a client and the proxy of its server: what ends a stream. -/
namespace Wm.Chain
open Wm Wm.Prot
open scoped List
open Wm.World (Cfg Handed Cause steps_server steps_client final_client map_set_same loopStep_one otherStep_one)
open Wm.Tunnel (creates openCount gots submissions accepted)

theorem handed_move {cfg w w'} (hb : Base cfg w) (hm : Move cfg w w') (h : Handed w.cli (w.users.map (·.relay))) :
    Handed w'.cli (w'.users.map (·.relay)) := by
  have hC := steps_client cfg.client
  have fC := final_client cfg.client
  cases hm with
  | stay => exact h
  | accept ws _ => rw [List.map_append]; exact h.add _
  | work n rest v hw hv hidle =>
    have hm := map_set_same (·.relay) (b := { v with handle := some w.cli.next }) hv rfl
    dsimp only at hm ⊢
    rw [hm]
    exact h.one hC fC (.inr ⟨_, rfl⟩)
  | srv e => exact h
  | cli e => exact h.one hC fC (loopStep_one _ _ _)
  | otherS e => exact h
  | otherC e => exact h.one hC fC (otherStep_one _ _ _)
  | user n v e hv =>
    rw [List.map_set]
    exact h.relay hC fC false v.handle e (by rw [List.getElem?_map, hv]; rfl) (hb.users v (List.mem_of_getElem? hv))
  | start id k _ => exact h
  | task n t e _ => exact h

theorem handed_run (cfg es) : Handed (run cfg es).cli ((run cfg es).users.map (·.relay)) :=
  both_run (P := fun w => Handed w.cli (w.users.map (·.relay)))
    ⟨by simp [init], by simp [init]⟩ (fun _ _ => handed_move) es

structure Causes (i : Nat) (w : St) : Prop where
  opens : openCount i w.cli.trace ≤ creates i (gots w.cli.trace)
  client : Cause i w.cli (w.users.map (·.relay))

theorem causes_move {cfg w w' i} (hb : Base cfg w) (hm : Move cfg w w') (ho' : Own i w') (h : Causes i w) :
    Causes i w' := by
  have hC := steps_client cfg.client
  have h0 : openCount i w'.cli.trace ≤ creates i (gots w'.cli.trace) := by
    rcases (move_one hb hm).2.1 with he | ⟨x, he⟩
    · rw [he]; exact h.opens
    · rw [he]; exact hC.hopens i _ _ h.opens
  obtain ⟨hs, h1⟩ := h
  refine ⟨h0, ?_⟩
  clear h0
  cases hm with
  | stay => exact h1
  | accept ws _ => rw [List.map_append]; exact h1.add _
  | work n rest v hw hv hidle =>
    have hm := map_set_same (·.relay) (b := { v with handle := some w.cli.next }) hv rfl
    dsimp only at hm ⊢
    rw [hm]
    exact h1.quiet hC hs (by simp)
  | srv e => exact h1
  | cli e => exact h1.loop hC hs _ _
  | otherS e => exact h1
  | otherC e => exact h1.other hC hs _ e (fun f hf => ho'.client f (List.mem_append.2 (.inr hf)))
  | user n v e hv =>
    rw [List.map_set]
    exact h1.relay hC hs false v.handle e (by rw [List.getElem?_map, hv]; rfl) (hb.users v (List.mem_of_getElem? hv))
  | start id k _ => exact h1
  | task n t e _ => exact h1

theorem causes_run (cfg es i) (ho : Own i (run cfg es)) : Causes i (run cfg es) := by
  induction es using List.reverseRecOn with
  | nil =>
    have hf := Tunnel.Fresh.init cfg.client []
    have hs : submissions (Tunnel.clientInit cfg.client []).trace = [] := by
      refine List.filterMap_eq_nil_iff.2 fun o ho => ?_
      obtain ⟨f, rfl⟩ := hf.trace o ho; rfl
    have h2 : openCount i (Tunnel.clientInit cfg.client []).trace = 0 := by
      refine List.countP_eq_zero.2 fun o ho => ?_
      obtain ⟨f, rfl⟩ := hf.trace o ho; simp
    refine ⟨?_, ?_⟩
    · simp only [run, init, List.foldl_nil, h2]; omega
    · intro t hm; simp only [run, init, List.foldl_nil, hs] at hm; cases hm
  | append_singleton es e ih =>
    rw [run_snoc] at ho ⊢
    have hb := base_run cfg es
    have hm := step_move cfg (run cfg es) e
    exact causes_move hb hm ho (ih (ho.back hb hm))

/-- ids of users are not the reserved one -/
theorem user_id {cfg w} (hg : Guests cfg w) {u} (hv : u ∈ w.users) : u.relay.id ≠ 0 := by
  obtain ⟨n, hn⟩ := List.mem_iff_getElem?.1 hv
  rw [hg.ids n u hn]
  exact (Tunnel.C05_disjoint 0 cfg.serverId 0 n).2.2.2

end Wm.Chain
