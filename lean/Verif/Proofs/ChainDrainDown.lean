import Verif.Proofs.ChainDrain
import Verif.Proofs.WorldDrainUp
import Verif.Props.Chain
/-!
The other direction: what is needed to bring everything under way to the user of a client.
-/
namespace Wm.Chain
open Wm Wm.Prot
open scoped List
open Wm.World (Cfg One Spares steps_server steps_client relayStep_spares relayStep_running_back loopStep_spares otherStep_spares)
open Wm.Tunnel (submissions accepted relayed gots)

/-! ### a read says nothing about writes -/

theorem read_trace (n : Nat) {v : Virtual.St} (h : v.inbox.length ≤ 1) :
    Virtual.accepts (Virtual.pollRead n v).trace = Virtual.accepts v.trace ∧
    (.writeWait ∈ (Virtual.pollRead n v).trace → .writeWait ∈ v.trace) := by
  have key : ∀ {x y : Virtual.St} (o : Virtual.Obs), x.trace = y.trace ++ [o] → Virtual.accepts [o] = [] → o ≠ .writeWait →
      Virtual.accepts x.trace = Virtual.accepts y.trace ∧ (.writeWait ∈ x.trace → .writeWait ∈ y.trace) := by
    intro x y o h1 h2 h3
    refine ⟨by rw [h1]; unfold Virtual.accepts at h2 ⊢; rw [List.flatMap_append, h2, List.append_nil], fun hw => ?_⟩
    rw [h1] at hw
    rcases List.mem_append.1 hw with hw | hw
    · exact hw
    · simp at hw; exact absurd hw.symm h3
  have h0 : ∀ x : Virtual.St, x.inbox = [] → Virtual.accepts (Virtual.pollRead n x).trace = Virtual.accepts x.trace ∧
      (.writeWait ∈ (Virtual.pollRead n x).trace → .writeWait ∈ x.trace) := by
    intro x hx
    rw [Virtual.pollRead]
    split
    · split
      · exact key .eof rfl rfl (by simp)
      · split
        · exact key .readWait rfl rfl (by simp)
        · exact key (.returned _) rfl rfl (by simp)
    · rename_i hb; rw [hx] at hb; cases hb
  cases hi : v.inbox with
  | nil => exact h0 v hi
  | cons f rest =>
    have hr : rest = [] := by rw [hi] at h; simpa using h
    subst hr
    rw [Virtual.pollRead]
    split
    · rename_i hb; rw [hi] at hb; cases hb
    · rename_i g rest hb
      rw [hi] at hb
      cases hb
      cases f <;> dsimp only
      · exact key .eof rfl rfl (by simp)
      · exact key .eof rfl rfl (by simp)
      · split
        · exact h0 { v with inbox := [], read := _ } rfl
        · exact key (y := v) (.returned _) rfl rfl (by simp)
      · split
        · exact h0 { v with inbox := [] } rfl
        · exact key (y := v) (.returned _) rfl rfl (by simp)
      · split
        · exact h0 { v with inbox := [] } rfl
        · exact key (y := v) (.returned _) rfl rfl (by simp)

/-! ### only tasks put messages into the server's outgoing queue -/

theorem srv_outq {cfg s} (h : ∃ es, s = Tunnel.serverRun cfg es) {e} (he : ∀ f, e ≠ .submit f) :
    ∀ f ∈ (Tunnel.serverStep cfg s e).outq, f ∈ s.outq := by
  have h1 := World.server_outq h
  have h2 := World.server_outq (World.run_one_server h (.inr ⟨e, rfl⟩))
  have h3 : submissions (Tunnel.serverStep cfg s e).trace = submissions s.trace := Tunnel.server_mute cfg s he
  obtain ⟨u, e1, _⟩ := steps_server cfg s e
  rw [h3, ← h1, e1] at h2
  have h4 : ∃ r, relayed (s.trace ++ Tunnel.heads s e ++ u) = relayed s.trace ++ r :=
    ⟨_, by rw [List.append_assoc, Tunnel.relayed_append]⟩
  obtain ⟨r, h4⟩ := h4
  rw [h4, List.append_assoc] at h2
  have h5 := List.append_cancel_left h2
  intro f hf
  rw [← h5]; exact List.mem_append.2 (.inr hf)

/-! ### the channel of a user at work is open -/

def Attended (w : St) : Prop :=
  ∀ u ∈ w.users, ∀ h, u.handle = some h → u.relay.phase = .running → (w.cli.chan h).rx = true

theorem work_rx_client (cfg : Tunnel.Cfg) (s : Tunnel.St) (id d) (hr : s.phase = .running) (hp : s.pending = none) :
    ((Tunnel.clientStep cfg s (.work id d)).chan s.next).rx = true := by
  unfold Tunnel.clientStep Tunnel.step
  dsimp only
  rw [if_pos ⟨hr, hp⟩]
  have h1 := Tunnel.register_rx id s
  refine ((World.grown_resume cfg _).same.rx s.next ?_).trans h1.1
  show s.next < (Tunnel.register id s).next
  rw [h1.2]; exact Nat.lt_succ_self _

theorem Attended.quiet {cfg : Cfg} {w} (h : Attended w) (hg : Guests cfg w) (w' : St) (hu : w'.users = w.users)
    (hs : ∀ u ∈ w.users, ∀ k, u.handle = some k → Spares k (Tunnel.clientStep cfg.client) w.cli w'.cli) : Attended w' := by
  intro u hum k hk hr
  rw [hu] at hum
  exact (hs u hum k hk).rxC (hg.handle u hum k hk) (h u hum k hk hr)

theorem attended_run (cfg es) : Attended (run cfg es) := by
  induction es using List.reverseRecOn with
  | nil => intro u hu; simp [run, init] at hu
  | append_singleton es e h =>
    have hg := guests_run cfg es
    have hm := step_move cfg (run cfg es) e
    rw [run_snoc]
    generalize run cfg es = w at *
    generalize step cfg w e = w' at *
    cases hm with
    | stay => exact h
    | accept ws _ =>
      intro u hu k hk hr
      rcases List.mem_append.1 hu with hu | hu
      · exact h u hu k hk hr
      · simp at hu; subst hu; cases hk
    | work n rest x hw hx hi =>
      intro u hu k hk hr
      rcases List.mem_or_eq_of_mem_set hu with hu | rfl
      · refine Spares.rxC (.inr ⟨.work x.relay.id none, by simp, rfl⟩) (hg.handle u hu k hk) (h u hu k hk hr)
      · have : w.cli.next = k := by simpa using hk
        subst this
        exact work_rx_client cfg.client w.cli _ _ hi.1 hi.2
    | srv e => exact h
    | cli e => exact h.quiet hg _ rfl fun _ _ _ _ => loopStep_spares _ _ _ _ _
    | otherS e => exact h
    | otherC e => exact h.quiet hg _ rfl fun u hu k hk => otherStep_spares e (List.mem_filterMap.2 ⟨u, hu, hk⟩)
    | user n x e hx =>
      intro u hu k hk hr
      obtain ⟨j, hj⟩ := List.getElem?_of_mem hu
      have hxm := List.mem_of_getElem? hx
      by_cases hnj : n = j
      · subst hnj
        rw [List.getElem?_set_self (List.getElem?_eq_some_iff.1 hx).1] at hj
        cases hj
        have hxr := relayStep_running_back _ _ _ _ _ _ hr
        exact (relayStep_spares e (.inr hxr)).rxC (hg.handle x hxm k hk) (h x hxm k hk hxr)
      · rw [List.getElem?_set_ne hnj] at hj
        have hum := List.mem_of_getElem? hj
        refine Spares.rxC (relayStep_spares e (.inl fun hh => hnj ?_)) (hg.handle u hum k hk) (h u hum k hk hr)
        exact hg.inj n j x u k hx hj hh hk
    | start => exact h
    | task => exact h

end Wm.Chain
