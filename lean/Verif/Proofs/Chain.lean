import Verif.Model.Chain
import Verif.Proofs.WorldClose
import Verif.Props.Virtual
/-! Users of a client served by the proxy of its server: what each step adds, and the invariants of every reachable
state. -/
namespace Wm.Tunnel
open Wm Wm.Prot

/-! ### the server itself submits nothing -/

/-- nothing was submitted between `s` and `s'` -/
def Mute (s s' : St) : Prop := submissions s'.trace = submissions s.trace

theorem Mute.refl (s : St) : Mute s s := rfl
theorem Mute.trans {a b c : St} (h1 : Mute a b) (h2 : Mute b c) : Mute a c := Eq.trans h2 h1
theorem Mute.emit {s : St} {o : Obs} (h : submissions [o] = []) : Mute s (emit o s) := by
  unfold Mute Tunnel.emit
  simp only [submissions_append, h, List.append_nil]

theorem Mute.noise {s s' : St} {u : List Obs} (ht : s'.trace = s.trace ++ u) (hu : ∀ o ∈ u, Noise o) : Mute s s' := by
  unfold Mute
  rw [ht, submissions_append]
  have : submissions u = [] := by
    refine List.filterMap_eq_nil_iff.2 fun o ho => ?_
    have := hu o ho; cases o <;> simp_all [Noise]
  rw [this, List.append_nil]

theorem Mute.trySend (k f) (s : St) : Mute s (trySend k f s) := by
  unfold Tunnel.trySend
  split
  · exact Mute.noise (u := [.lost k f]) rfl (by simp [Noise])
  · split
    · exact Mute.noise (u := [.put k f]) rfl (by simp [Noise])
    · exact Mute.noise (u := [.overflow k f]) rfl (by simp [Noise])

theorem Mute.sendAwait (k f) (s : St) : Mute s (sendAwait k f s).1 := by
  unfold Tunnel.sendAwait
  split
  · exact Mute.noise (u := [.lost k f]) rfl (by simp [Noise])
  · split
    · exact Mute.noise (u := [.put k f]) rfl (by simp [Noise])
    · exact Mute.noise (u := []) (by simp) (by simp)

theorem Mute.finish (p) (s : St) : Mute s (finish p s) :=
  Mute.noise (finish_trace p s) (fun o ho => by obtain ⟨x, _, rfl⟩ := List.mem_map.1 ho; trivial)

theorem Mute.closeFold (m : List (Nat × Nat)) : ∀ s : St,
    Mute s (m.foldl (fun s x => Tunnel.trySend x.2 (.close x.1 []) s) s) := by
  induction m with
  | nil => intro s; exact Mute.refl _
  | cons x m ih => intro s; exact (Mute.trySend _ _ _).trans (ih _)

theorem Mute.register (id) (s : St) : Mute s (register id s) := by
  unfold Mute
  rw [register_trace]
  cases lookup id s.map <;> simp [submissions]

theorem Mute.server (cfg : Cfg) (s : St) (f : Frame) : Mute s (serverHandle cfg s f).1 := by
  have hg : Mute s (Tunnel.emit (.got f) s) := Mute.emit rfl
  unfold serverHandle
  dsimp only
  split
  · exact hg
  · split
    · exact hg.trans (Mute.emit (s := Tunnel.emit (.got f) s) (o := .queued false (.close 0 notVerify)) rfl)
    · cases f with
      | create id d =>
        refine (hg.trans (Mute.register id _)).trans ?_
        exact Mute.emit rfl
      | close id d =>
        dsimp only
        split
        · exact hg.trans (Mute.sendAwait _ _ _)
        · exact hg
      | data id d =>
        dsimp only
        split
        · exact hg.trans (Mute.sendAwait _ _ _)
        · exact hg
      | mapping id ms => exact hg.trans (Mute.noise (u := [.setMap ms]) rfl (by simp [Noise]))
      | token u p => exact hg

theorem Mute.resume (cfg : Cfg) (s : St) : Mute s (resume (serverHandle cfg) s) := by
  unfold Tunnel.resume
  split
  · have hp := (pump_inv (serverHandle cfg) (fun x => Mute s x) (fun x => Mute s x) (fun _ h => h)
      (fun x f h => ⟨h.trans (Mute.server cfg x f), fun _ => h.trans (Mute.server cfg x f)⟩) s.readBuf s (Mute.refl s)).1
    have hp' : Mute s { (pump (serverHandle cfg) s s.readBuf).1 with readBuf := (pump (serverHandle cfg) s s.readBuf).2.1 } := hp
    dsimp only
    split
    · exact hp'.trans (Mute.finish _ _)
    · exact hp'.trans (Mute.finish _ _)
    · exact hp'
  · exact Mute.refl _

theorem Mute.resumePending (cfg : Cfg) (s : St) : Mute s (resumePending (serverHandle cfg) s) := by
  unfold Tunnel.resumePending
  split
  · exact Mute.refl _
  · rename_i h f hp
    dsimp only
    have h1 : Mute s (Tunnel.sendAwait h f { s with pending := none }).1 := Mute.sendAwait h f { s with pending := none }
    split
    · exact h1
    · exact h1.trans (Mute.resume cfg _)

theorem server_mute (cfg : Cfg) (s : St) {e : Event} (he : ∀ f, e ≠ .submit f) : Mute s (serverStep cfg s e) := by
  cases e <;> simp only [serverStep, step]
  case submit f => exact absurd rfl (he f)
  case take h =>
    split
    · exact Mute.refl _
    · split
      · refine Mute.trans ?_ (Mute.resumePending cfg _)
        exact Mute.emit (s := setChan h _ s) rfl
      · exact Mute.refl _
  case dropRx h =>
    split
    · refine Mute.trans ?_ (Mute.resumePending cfg _)
      exact Mute.emit (s := setChan h _ s) rfl
    · exact Mute.refl _
  case work id d =>
    split
    · refine Mute.trans ((Mute.register id s).trans ?_) (Mute.resume cfg _)
      exact Mute.emit (s := register id s) (o := .queued false (.create id d)) rfl
    · exact Mute.refl _
  case recv =>
    split
    · split
      · exact Mute.refl _
      · rename_i f q _
        refine Mute.trans ?_ (Mute.resume cfg _)
        exact Mute.emit (s := s) (o := .queued true f) rfl
    · exact Mute.refl _
  case read bs =>
    split
    · refine Mute.trans ?_ (Mute.resume cfg _)
      exact Mute.emit (s := s) (o := .arrived bs) rfl
    · exact Mute.refl _
  case readEnd =>
    split
    · refine Mute.trans ?_ (Mute.finish _ _)
      exact (Mute.emit (s := s) (o := .connLost) rfl).trans (Mute.closeFold _ _)
    · exact Mute.refl _
  case wrote n =>
    split
    · split
      · exact Mute.refl _
      · have h1 : Mute s (emit (.wrote (s.writeBuf.take n)) { s with writeBuf := s.writeBuf.drop n }) :=
          Mute.emit (s := s) (o := .wrote (s.writeBuf.take n)) rfl
        split
        · exact h1.trans (Mute.finish _ _)
        · exact h1.trans (Mute.resume cfg _)
    · exact Mute.refl _
  case writeErr =>
    split
    · split
      · exact Mute.refl _
      · exact Mute.finish _ _
    · exact Mute.refl _

end Wm.Tunnel

namespace Wm.Chain
open Wm Wm.Prot
open scoped List
open Wm.World (Cfg LoopEv RelayEv OtherEv loopStep relayStep otherStep submitted workCap IsRun Steps One Calm Sub Uniq
  steps_server steps_client map_set_same)
open Wm.Tunnel (datas creates regCount openCount gots received submissions accepted relayed written arrived heads
  heads_received)

variable {T : Tunnel.St → Tunnel.Event → Tunnel.St}

/-! ### the task at its tunnel end -/

theorem vstep_id (v : Virtual.St) (e : Virtual.Event) : (Virtual.step v e).id = v.id := by
  have hr : ∀ n : Nat, ∀ s : Virtual.St, (Virtual.pollRead n s).id = s.id := by
    intro n s
    induction hl : s.inbox.length using Nat.strongRecOn generalizing s with
    | _ k ih =>
      rw [Virtual.pollRead]
      split
      · split
        · rfl
        · split <;> rfl
      · rename_i f rest hb
        have hlt : rest.length < k := by rw [← hl, hb]; simp
        cases f with
        | create i d => rfl
        | close i d => rfl
        | data i d =>
          dsimp only
          split
          · exact ih _ hlt _ rfl
          · rfl
        | token u p =>
          dsimp only
          split
          · exact ih _ hlt _ rfl
          · rfl
        | mapping i ms =>
          dsimp only
          split
          · exact ih _ hlt _ rfl
          · rfl
  cases e <;> simp only [Virtual.step]
  case arrive f => split <;> rfl
  case read n => exact hr n v
  case write bs o => cases o <;> rfl
  case flush o =>
    unfold Virtual.pollFlush
    split
    · rfl
    · cases o <;> rfl

/-- every reachable stream -/
def IsRunV (v : Virtual.St) : Prop := ∃ es, v = Virtual.run v.id es

theorem IsRunV.init (id) : IsRunV (Virtual.init id) := ⟨[], rfl⟩

theorem IsRunV.step {v} (h : IsRunV v) (e : Virtual.Event) : IsRunV (Virtual.step v e) := by
  obtain ⟨es, he⟩ := h
  refine ⟨es ++ [e], ?_⟩
  rw [vstep_id, Virtual.run_snoc, ← he]

/-- reading hands nothing over and lets nothing arrive -/
theorem read_still (n : Nat) (v : Virtual.St) :
    Virtual.arrivals (Virtual.step v (.read n)).trace = Virtual.arrivals v.trace ∧
    Virtual.sends (Virtual.step v (.read n)).trace = Virtual.sends v.trace := by
  have key : ∀ o : Virtual.Obs, (∀ f, o ≠ .arrived f) → (∀ f, o ≠ .sent f) → ∀ t,
      Virtual.arrivals (t ++ [o]) = Virtual.arrivals t ∧ Virtual.sends (t ++ [o]) = Virtual.sends t := by
    intro o h1 h2 t
    cases o <;> simp_all [Virtual.arrivals, Virtual.sends]
  simp only [Virtual.step]
  cases Virtual.pollRead_result n v with
  | wait h1 h2 h3 h4 h5 h6 h7 => rw [h7]; exact key _ (by simp) (by simp) _
  | bytes c' h1 h2 h3 h4 h5 h6 h7 => rw [h7]; exact key _ (by simp) (by simp) _
  | endClose c' f h1 h2 h3 h4 h5 h6 => rw [h6]; exact key _ (by simp) (by simp) _
  | endChan c' h1 h2 h3 h4 h5 h6 h7 => rw [h7]; exact key _ (by simp) (by simp) _

/-- the four ways a task's step can go -/
theorem taskStep_cases (s : Tunnel.St) (v : Virtual.St) (h : Nat) (e : TaskEv) (hv : IsRunV v) :
    ((taskStep T s v h e).2.id = v.id ∧ IsRunV (taskStep T s v h e).2) ∧
    (((taskStep T s v h e).1 = s ∧ Virtual.arrivals (taskStep T s v h e).2.trace = Virtual.arrivals v.trace ∧
        Virtual.sends (taskStep T s v h e).2.trace = Virtual.sends v.trace) ∨
     (∃ f q, (s.chan h).q = f :: q ∧ (s.chan h).rx = true ∧ (taskStep T s v h e).1 = T s (.take h) ∧
        Virtual.arrivals (taskStep T s v h e).2.trace = Virtual.arrivals v.trace ++ [f] ∧
        Virtual.sends (taskStep T s v h e).2.trace = Virtual.sends v.trace) ∨
     (∃ d, s.phase = .running ∧ s.outq.length < Tunnel.outCap ∧
        (taskStep T s v h e).1 = T s (.submit (.data v.id d)) ∧
        Virtual.arrivals (taskStep T s v h e).2.trace = Virtual.arrivals v.trace ∧
        Virtual.sends (taskStep T s v h e).2.trace = Virtual.sends v.trace ++ [.data v.id d]) ∨
     ((taskStep T s v h e).1 = T s (.dropRx h) ∧ (taskStep T s v h e).2 = v)) := by
  have hready : slotOf s = .ready → s.phase = .running ∧ s.outq.length < Tunnel.outCap := by
    unfold slotOf
    split
    · split
      · exact fun _ => ⟨by assumption, by assumption⟩
      · intro h; cases h
    · intro h; cases h
  cases e with
  | read n =>
    simp only [taskStep]
    cases hq : (s.chan h).q with
    | nil =>
      dsimp only
      split
      · exact ⟨⟨vstep_id _ _, hv.step (.read n)⟩, .inl ⟨rfl, read_still n v⟩⟩
      · exact ⟨⟨by rw [vstep_id, vstep_id], (hv.step .close).step (.read n)⟩, .inl ⟨rfl, read_still n _⟩⟩
    | cons f q =>
      dsimp only
      by_cases hc : (s.chan h).rx = true ∧ v.closed = false
      · rw [if_pos hc]
        refine ⟨⟨by rw [vstep_id, vstep_id], (hv.step (.arrive f)).step (.read n)⟩, .inr (.inl ⟨f, q, rfl, hc.1, rfl, ?_, ?_⟩)⟩
        · rw [(read_still n _).1]
          simp only [Virtual.step, hc.2, Virtual.emit]
          simp [Virtual.arrivals]
        · rw [(read_still n _).2]
          simp only [Virtual.step, hc.2, Virtual.emit]
          simp [Virtual.sends]
      · rw [if_neg hc]
        exact ⟨⟨rfl, hv⟩, .inl ⟨rfl, rfl, rfl⟩⟩
  | write bs =>
    refine ⟨⟨vstep_id _ _, hv.step (.write bs (slotOf s))⟩, ?_⟩
    simp only [taskStep]
    cases hs : slotOf s with
    | ready =>
      obtain ⟨h1, h2⟩ := hready hs
      rw [if_pos rfl]
      refine .inr (.inr (.inl ⟨v.write ++ bs, h1, h2, rfl, ?_, ?_⟩)) <;>
        simp [Virtual.step, Virtual.pollWrite, Virtual.emit, Virtual.arrivals, Virtual.sends]
    | wait =>
      rw [if_neg (by simp)]
      refine .inl ⟨rfl, ?_, ?_⟩ <;>
        simp [Virtual.step, Virtual.pollWrite, Virtual.emit, Virtual.arrivals, Virtual.sends]
    | closed =>
      rw [if_neg (by simp)]
      refine .inl ⟨rfl, ?_, ?_⟩ <;>
        simp [Virtual.step, Virtual.pollWrite, Virtual.emit, Virtual.arrivals, Virtual.sends]
  | flush =>
    refine ⟨⟨vstep_id _ _, hv.step (.flush (slotOf s))⟩, ?_⟩
    simp only [taskStep]
    by_cases hw : v.write = []
    · rw [if_neg (by simp [hw])]
      refine .inl ⟨rfl, ?_, ?_⟩ <;>
        simp [Virtual.step, Virtual.pollFlush, hw, Virtual.emit, Virtual.arrivals, Virtual.sends]
    · cases hs : slotOf s with
      | ready =>
        obtain ⟨h1, h2⟩ := hready hs
        rw [if_pos ⟨rfl, hw⟩]
        refine .inr (.inr (.inl ⟨v.write, h1, h2, rfl, ?_, ?_⟩)) <;>
          simp [Virtual.step, Virtual.pollFlush, hw, Virtual.emit, Virtual.arrivals, Virtual.sends]
      | wait =>
        rw [if_neg (by simp)]
        refine .inl ⟨rfl, ?_, ?_⟩ <;>
          simp [Virtual.step, Virtual.pollFlush, hw, Virtual.emit, Virtual.arrivals, Virtual.sends]
      | closed =>
        rw [if_neg (by simp)]
        refine .inl ⟨rfl, ?_, ?_⟩ <;>
          simp [Virtual.step, Virtual.pollFlush, hw, Virtual.emit, Virtual.arrivals, Virtual.sends]
  | drop => exact ⟨⟨rfl, hv⟩, .inr (.inr (.inr ⟨rfl, rfl⟩))⟩

/-- a stream only hands over data -/
theorem sends_data {v : Virtual.St} (hv : IsRunV v) : ∀ f ∈ Virtual.sends v.trace, ∃ d, f = .data v.id d := by
  obtain ⟨es, he⟩ := hv
  have hid := (Virtual.run_winv v.id es).2.1
  generalize v.id = i at *
  subst he
  have : (∀ f ∈ Virtual.sends (Virtual.run i es).trace, ∃ d, f = .data i d) ∧ (Virtual.run i es).id = i := by
    clear hid
    induction es using List.reverseRecOn with
    | nil => exact ⟨by simp [Virtual.run, Virtual.init, Virtual.sends], rfl⟩
    | append_singleton es e ih =>
      rw [Virtual.run_snoc]
      generalize Virtual.run i es = v at *
      refine ⟨?_, (vstep_id v e).trans ih.2⟩
      obtain ⟨ih, hid⟩ := ih
      intro f hf
      cases e with
      | arrive g =>
        simp only [Virtual.step] at hf
        split at hf
        · exact ih f hf
        · simp [Virtual.emit, Virtual.sends] at hf; exact ih f (by simpa [Virtual.sends] using hf)
      | close => exact ih f hf
      | read n => rw [(read_still n v).2] at hf; exact ih f hf
      | write bs o =>
        cases o <;> simp only [Virtual.step, Virtual.pollWrite, Virtual.emit, Virtual.sends_snoc] at hf <;>
          simp only [List.mem_append] at hf
        · rcases hf with ((hf | hf) | hf) | hf
          · exact ih f hf
          · simp [Virtual.sends] at hf
          · simp [Virtual.sends] at hf; exact ⟨_, by rw [hf, hid]⟩
          · simp [Virtual.sends] at hf
        · rcases hf with (hf | hf) | hf
          · exact ih f hf
          · simp [Virtual.sends] at hf
          · simp [Virtual.sends] at hf
        · rcases hf with (hf | hf) | hf
          · exact ih f hf
          · simp [Virtual.sends] at hf
          · simp [Virtual.sends] at hf
      | flush o =>
        simp only [Virtual.step, Virtual.pollFlush] at hf
        split at hf
        · simp only [Virtual.emit, Virtual.sends_snoc, List.mem_append] at hf
          rcases hf with hf | hf
          · exact ih f hf
          · simp [Virtual.sends] at hf
        · cases o <;> simp only [Virtual.emit, Virtual.sends_snoc, List.mem_append] at hf
          · rcases hf with (hf | hf) | hf
            · exact ih f hf
            · simp [Virtual.sends] at hf; exact ⟨_, by rw [hf, hid]⟩
            · simp [Virtual.sends] at hf
          · rcases hf with hf | hf
            · exact ih f hf
            · simp [Virtual.sends] at hf
          · rcases hf with hf | hf
            · exact ih f hf
            · simp [Virtual.sends] at hf
  exact this.1

theorem taskStep_calm (s v h e) (hv : IsRunV v) : Calm T s (taskStep T s v h e).1 := by
  rcases (taskStep_cases (T := T) s v h e hv).2 with ⟨e1, _⟩ | ⟨f, q, _, _, e1, _⟩ | ⟨d, _, _, e1, _⟩ | ⟨e1, _⟩
  · exact .inl e1
  · exact .inr ⟨_, by simp, e1⟩
  · exact .inr ⟨_, by simp, e1⟩
  · exact .inr ⟨_, by simp, e1⟩

theorem calm_one {s s'} (h : Calm T s s') : One T s s' := by
  rcases h with h | ⟨e, _, h⟩
  · exact .inl h
  · exact .inr ⟨e, h⟩

theorem taskStep_io (hT : Steps T) (s v h e) (hv : IsRunV v) : World.SameIO s (taskStep T s v h e).1 := by
  rcases (taskStep_cases (T := T) s v h e hv).2 with ⟨e1, _⟩ | ⟨f, q, _, _, e1, _⟩ | ⟨d, _, _, e1, _⟩ | ⟨e1, _⟩
  · rw [e1]; exact World.SameIO.refl _
  all_goals rw [e1]; exact hT.noIO s trivial

theorem taskStep_received (hT : Steps T) (s v h e) (hv : IsRunV v) {k : Nat} (hk : h ≠ k) :
    received k (taskStep T s v h e).1.trace = received k s.trace := by
  rcases (taskStep_cases (T := T) s v h e hv).2 with ⟨e1, _⟩ | ⟨f, q, _, _, e1, _⟩ | ⟨d, _, _, e1, _⟩ | ⟨e1, _⟩
  · rw [e1]
  · rw [e1]; exact hT.hreceived_same (by rintro ⟨⟩; exact hk rfl)
  · rw [e1]; exact hT.hreceived_same (by simp)
  · rw [e1]; exact hT.hreceived_same (by simp)

theorem taskStep_own (hT : Steps T) (s v k e) (hv : IsRunV v) (h : received k s.trace = Virtual.arrivals v.trace) :
    received k (taskStep T s v k e).1.trace = Virtual.arrivals (taskStep T s v k e).2.trace := by
  rcases (taskStep_cases (T := T) s v k e hv).2 with ⟨e1, e2, _⟩ | ⟨f, q, hq, hrx, e1, e2, _⟩ | ⟨d, _, _, e1, e2, _⟩ |
    ⟨e1, e2⟩
  · rw [e1, e2, h]
  · rw [e1, e2, hT.hreceived, World.heads_take hq hrx, h]
  · rw [e1, e2, hT.hreceived_same (by simp), h]
  · rw [e1, e2, hT.hreceived_same (by simp), h]

/-! ### what one step does -/

inductive Move (cfg : Cfg) (w : St) : St → Prop where
  | stay : Move cfg w w
  | accept (ws : List Nat) (h : ws = [] ∨ ws = [w.users.length]) :
      Move cfg w { w with
        works := w.works ++ ws
        users := w.users ++ [⟨Relay.init ((Tunnel.clientIds cfg.serverId).nth w.users.length), none⟩] }
  | work (n : Nat) (rest : List Nat) (u : User) (hw : w.works = n :: rest) (hu : w.users[n]? = some u)
      (hi : w.cli.phase = .running ∧ w.cli.pending = none) :
      Move cfg w { w with
        cli := Tunnel.clientStep cfg.client w.cli (.work u.relay.id none)
        works := rest
        users := w.users.set n { u with handle := some w.cli.next } }
  | srv (e : LoopEv) : Move cfg w { w with
      srv := (loopStep (Tunnel.serverStep cfg.server) w.srv w.up e).1
      up := (loopStep (Tunnel.serverStep cfg.server) w.srv w.up e).2.1
      down := w.down ++ (loopStep (Tunnel.serverStep cfg.server) w.srv w.up e).2.2 }
  | cli (e : LoopEv) : Move cfg w { w with
      cli := (loopStep (Tunnel.clientStep cfg.client) w.cli w.down e).1
      down := (loopStep (Tunnel.clientStep cfg.client) w.cli w.down e).2.1
      up := w.up ++ (loopStep (Tunnel.clientStep cfg.client) w.cli w.down e).2.2 }
  | otherS (e : OtherEv) : Move cfg w { w with
      srv := otherStep (Tunnel.serverStep cfg.server) w.srv ((proxied w.srv.trace).map (·.2)) e
      otherS := w.otherS ++ submitted e }
  | otherC (e : OtherEv) : Move cfg w { w with
      cli := otherStep (Tunnel.clientStep cfg.client) w.cli (w.users.filterMap (·.handle)) e
      otherC := w.otherC ++ submitted e }
  | user (n : Nat) (u : User) (e : RelayEv) (hu : w.users[n]? = some u) : Move cfg w { w with
      cli := (relayStep (Tunnel.clientStep cfg.client) false w.cli u.relay u.handle e).1
      users := w.users.set n
        { u with relay := (relayStep (Tunnel.clientStep cfg.client) false w.cli u.relay u.handle e).2 } }
  | start (id h : Nat) (hc : (id, h) ∈ proxied w.srv.trace ∧ h ∉ w.tasks.map (·.chan)) :
      Move cfg w { w with tasks := w.tasks ++ [⟨Virtual.init id, h, false⟩] }
  | task (n : Nat) (t : Task) (e : TaskEv) (ht : w.tasks[n]? = some t) : Move cfg w { w with
      srv := (taskStep (Tunnel.serverStep cfg.server) w.srv t.io t.chan e).1
      tasks := w.tasks.set n
        { t with io := (taskStep (Tunnel.serverStep cfg.server) w.srv t.io t.chan e).2, gone := e = .drop } }

theorem step_move (cfg w e) : Move cfg w (step cfg w e) := by
  cases e <;> simp only [step]
  case accept =>
    split
    · have := Move.accept (cfg := cfg) (w := w) [] (.inl rfl)
      rwa [List.append_nil] at this
    · split
      · exact .accept _ (.inr rfl)
      · exact .stay
  case work =>
    split
    · exact .stay
    · split
      · exact .stay
      · split
        · exact .work _ _ _ (by assumption) (by assumption) (by assumption)
        · exact .stay
  case srv e => exact .srv e
  case cli e => exact .cli e
  case otherS e => exact .otherS e
  case otherC e => exact .otherC e
  case user n e =>
    split
    · exact .stay
    · exact .user _ _ _ (by assumption)
  case start id h =>
    split
    · exact .start _ _ (by assumption)
    · exact .stay
  case task n e =>
    split
    · exact .stay
    · split
      · exact .stay
      · exact .task _ _ _ (by assumption)

theorem run_snoc (cfg es e) : run cfg (es ++ [e]) = step cfg (run cfg es) e := by simp [run]

/-- an invariant of the moves holds in every reachable state -/
theorem run_of_move {cfg : Cfg} {P : St → Prop} (h0 : P (init cfg)) (hs : ∀ w w', Move cfg w w' → P w → P w') (es) :
    P (run cfg es) := by
  induction es using List.reverseRecOn with
  | nil => exact h0
  | append_singleton es e ih => rw [run_snoc]; exact hs _ _ (step_move cfg _ e) ih

/-! ### reachable states: the parts -/

/-- the two ends and the connection, seen as in `Verif.Model.World` -/
def ends (w : St) : World.St := ⟨w.srv, w.cli, w.down, w.up, 0, [], [], [], [], [], []⟩

structure Base (cfg : Cfg) (w : St) : Prop where
  ends : World.Base cfg (ends w)
  users : ∀ u ∈ w.users, IsRun u.relay
  tasks : ∀ t ∈ w.tasks, IsRunV t.io

theorem base_init (cfg) : Base cfg (init cfg) := by
  have h := World.base_init cfg
  exact ⟨⟨h.srv, h.cli, h.down, h.up, by simp [Chain.ends], by simp [Chain.ends]⟩, by simp [init], by simp [init]⟩

/-- a step of the server's end that neither reads nor writes -/
theorem Base.srv {cfg w} (h : Base cfg w) {s'} (ho : One (Tunnel.serverStep cfg.server) w.srv s')
    (hio : World.SameIO w.srv s') : World.Base cfg (Chain.ends { w with srv := s' }) :=
  ⟨World.run_one_server h.ends.srv ho, h.ends.cli, by have := h.ends.down; simp only [Chain.ends] at this ⊢; rw [hio.1]; exact this,
    by have := h.ends.up; simp only [Chain.ends] at this ⊢; rw [hio.2]; exact this, by simp [Chain.ends], by simp [Chain.ends]⟩

theorem Base.cli {cfg w} (h : Base cfg w) {s'} (ho : One (Tunnel.clientStep cfg.client) w.cli s')
    (hio : World.SameIO w.cli s') : World.Base cfg (Chain.ends { w with cli := s' }) :=
  ⟨h.ends.srv, World.run_one_client h.ends.cli ho, by have := h.ends.down; simp only [Chain.ends] at this ⊢; rw [hio.2]; exact this,
    by have := h.ends.up; simp only [Chain.ends] at this ⊢; rw [hio.1]; exact this, by simp [Chain.ends], by simp [Chain.ends]⟩

theorem mem_set_run {α : Type} {P : α → Prop} {l : List α} {n : Nat} {b : α} (h : ∀ a ∈ l, P a) (hb : P b) :
    ∀ a ∈ l.set n b, P a := by
  intro a ha
  rcases List.mem_or_eq_of_mem_set ha with ha | rfl
  · exact h a ha
  · exact hb

theorem base_move {cfg w w'} (hm : Move cfg w w') (h : Base cfg w) : Base cfg w' := by
  have hS := steps_server cfg.server
  have hC := steps_client cfg.client
  cases hm with
  | stay => exact h
  | accept ws _ =>
    refine ⟨h.ends, fun u hu => ?_, h.tasks⟩
    rcases List.mem_append.1 hu with hu | hu
    · exact h.users u hu
    · simp at hu; subst hu; exact IsRun.init _
  | work n rest u hw hu hi =>
    exact ⟨h.cli (.inr ⟨.work u.relay.id none, rfl⟩) (hC.noIO w.cli (e := .work u.relay.id none) trivial),
      mem_set_run (P := fun u : User => IsRun u.relay) h.users (h.users u (List.mem_of_getElem? hu)), h.tasks⟩
  | srv e =>
    have hio := World.loopStep_io hS w.srv w.up e
    have h1 := h.ends.down
    have h2 := h.ends.up
    refine ⟨⟨World.run_one_server h.ends.srv (World.loopStep_one _ _ _), h.ends.cli, ?_, ?_, by simp [Chain.ends],
      by simp [Chain.ends]⟩, h.users, h.tasks⟩
    · simp only [Chain.ends] at h1 ⊢; rw [hio.1, ← h1]; simp
    · simp only [Chain.ends] at h2 ⊢; rw [hio.2]; exact h2
  | cli e =>
    have hio := World.loopStep_io hC w.cli w.down e
    have h1 := h.ends.down
    have h2 := h.ends.up
    refine ⟨⟨h.ends.srv, World.run_one_client h.ends.cli (World.loopStep_one _ _ _), ?_, ?_, by simp [Chain.ends],
      by simp [Chain.ends]⟩, h.users, h.tasks⟩
    · simp only [Chain.ends] at h1 ⊢; rw [hio.2]; exact h1
    · simp only [Chain.ends] at h2 ⊢; rw [hio.1, ← h2]; simp
  | otherS e => exact ⟨h.srv (World.otherStep_one _ _ _) (World.otherStep_io hS _ _ _), h.users, h.tasks⟩
  | otherC e => exact ⟨h.cli (World.otherStep_one _ _ _) (World.otherStep_io hC _ _ _), h.users, h.tasks⟩
  | user n u e hu =>
    have hr := h.users u (List.mem_of_getElem? hu)
    exact ⟨h.cli (World.relayStep_one _ _ _ _ _ hr) (World.relayStep_io hC _ _ _ _ _ hr),
      mem_set_run (P := fun u : User => IsRun u.relay) h.users (World.relayStep_cases _ _ _ _ _ _ hr).1.2, h.tasks⟩
  | start id k hc =>
    refine ⟨h.ends, h.users, fun t ht => ?_⟩
    rcases List.mem_append.1 ht with ht | ht
    · exact h.tasks t ht
    · simp at ht; subst ht; exact IsRunV.init _
  | task n t e ht =>
    have hv := h.tasks t (List.mem_of_getElem? ht)
    exact ⟨h.srv (calm_one (taskStep_calm _ _ _ _ hv)) (taskStep_io hS _ _ _ _ hv), h.users,
      mem_set_run (P := fun t : Task => IsRunV t.io) h.tasks (taskStep_cases _ _ _ _ hv).1.2⟩

theorem base_run (cfg es) : Base cfg (run cfg es) := run_of_move (base_init cfg) (fun _ _ => base_move) es

end Wm.Chain
