import Verif.Proofs.WorldDrain
import Verif.Proofs.ChainClose
import Mathlib.Data.List.Nodup
/-!
What the users of a client send can be brought to the proxy of the server above: what stays as it is meanwhile.
-/
namespace Wm.Tunnel
open Wm Wm.Prot

/-! ### the channels of registered streams have their sender -/

/-- every registered stream's channel has a sender, and no two streams share a channel -/
structure TxM (s : St) : Prop where
  tx : ∀ p ∈ s.map, p.2 < s.next ∧ (s.chan p.2).tx = true
  nodup : (s.map.map (·.2)).Nodup

theorem TxM.same {s s' : St} (h : TxM s) (hm : s'.map = s.map) (hn : s'.next = s.next)
    (hc : ∀ k, (s'.chan k).tx = (s.chan k).tx) : TxM s' := by
  refine ⟨fun p hp => ?_, by rw [hm]; exact h.nodup⟩
  rw [hm] at hp
  rw [hn, hc]
  exact h.tx p hp

theorem TxM.set {s : St} (h : TxM s) (k : Nat) (c : Chan) (hc : c.tx = (s.chan k).tx) (s' : St) (hs : s'.chan = (setChan k c s).chan)
    (hm : s'.map = s.map) (hn : s'.next = s.next) : TxM s' := by
  refine h.same hm hn fun j => ?_
  rw [hs]
  unfold setChan
  dsimp only
  split
  · rename_i hj; rw [hj]; exact hc
  · rfl

theorem TxM.finish (p) (s : St) : TxM (finish p s) :=
  ⟨fun x hx => absurd hx List.not_mem_nil, List.nodup_nil⟩

theorem TxM.register {s : St} (h : TxM s) (id) : TxM (register id s) := by
  have hmap : (Tunnel.register id s).map = (id, s.next) :: s.map.filter (fun p => p.1 ≠ id) := rfl
  have hnext : (Tunnel.register id s).next = s.next + 1 := rfl
  refine ⟨fun p hp => ?_, ?_⟩
  · rw [hmap] at hp
    rw [hnext]
    rcases List.mem_cons.1 hp with rfl | hp
    · refine ⟨Nat.lt_succ_self _, ?_⟩
      unfold Tunnel.register
      simp [emit, setChan]
    · obtain ⟨hp, hne⟩ := List.mem_filter.1 hp
      have hne : p.1 ≠ id := by simpa using hne
      obtain ⟨h1, h2⟩ := h.tx p hp
      have hlt : p.2 ≠ s.next := Nat.ne_of_lt h1
      refine ⟨Nat.lt_succ_of_lt h1, ?_⟩
      unfold Tunnel.register
      cases hl : lookup id s.map with
      | none => simp [emit, setChan, hlt, h2]
      | some old =>
        have hold : p.2 ≠ old := by
          intro he
          have := List.inj_on_of_nodup_map h.nodup hp (lookup_mem hl) he
          exact hne (by rw [this])
        simp [emit, setChan, hangup, hlt, hold, h2]
  · rw [hmap, List.map_cons, List.nodup_cons]
    refine ⟨fun hm => ?_, (h.nodup.sublist (List.Sublist.map _ List.filter_sublist))⟩
    obtain ⟨p, hp, he⟩ := List.mem_map.1 hm
    have := (h.tx p (List.mem_filter.1 hp).1).1
    omega

theorem TxM.sendAwait {s : St} (h : TxM s) (k f) : TxM (sendAwait k f s).1 := by
  unfold Tunnel.sendAwait
  split
  · exact h.same rfl rfl fun _ => rfl
  · split
    · exact h.set k { s.chan k with q := (s.chan k).q ++ [f] } rfl _ rfl rfl rfl
    · exact h.same rfl rfl fun _ => rfl

theorem TxM.kept : Kept TxM where
  buf s b h := h.same rfl rfl fun _ => rfl
  read s bs h _ := h.same rfl rfl fun _ => rfl
  fin s p h _ _ := .finish _ _
  lost s h _ := .finish _ _
  submit s f h _ _ := h.same rfl rfl fun _ => rfl
  take s k f q h _ _ := h.set k { s.chan k with q := q } rfl _ rfl rfl rfl
  drop s k h _ := h.set k { s.chan k with q := [], rx := false } rfl _ rfl rfl rfl
  retry s k f h _ := TxM.sendAwait (s := { s with pending := none }) (h.same rfl rfl fun _ => rfl) k f
  work s id d h _ := (h.register id).same rfl rfl fun _ => rfl
  recv s f q h _ _ := h.same rfl rfl fun _ => rfl
  wrote s n h _ _ _ := h.same rfl rfl fun _ => rfl
  drained s n h _ _ _ := .finish _ _

theorem TxM.handle (cfg : Cfg) (s : St) (f : Frame) (h : TxM s) : TxM (serverHandle cfg s f).1 := by
  have hg : TxM (emit (.got f) s) := h.same rfl rfl fun _ => rfl
  unfold serverHandle
  dsimp only
  split
  · exact h.same rfl rfl fun _ => rfl
  · split
    · exact h.same rfl rfl fun _ => rfl
    · cases f with
      | create id d => exact (hg.register id).same rfl rfl fun _ => rfl
      | close id d =>
        dsimp only
        split
        · exact hg.sendAwait _ _
        · exact hg
      | data id d =>
        dsimp only
        split
        · exact hg.sendAwait _ _
        · exact hg
      | mapping id ms => exact h.same rfl rfl fun _ => rfl
      | token u p => exact hg

theorem server_txM (cfg : Cfg) (es : List Event) : TxM (serverRun cfg es) := by
  have hK : Kept (fun s => SInv cfg s ∧ TxM s) :=
    ((Flow.kept.and Guard.kept).and (HInv.kept.and BInv.kept)).and TxM.kept
  have hP : Preserved (serverHandle cfg) (finish .panicked) (fun s => SInv cfg s ∧ TxM s) := by
    refine Kept.preserved' hK fun s f h hl => ?_
    have h1 := serverHandle_inv cfg s f h.1 hl
    exact ⟨⟨h1.1, TxM.handle cfg s f h.2⟩, h1.2⟩
  exact (run_inv hP es _ ⟨server_inv cfg [], ⟨fun _ hx => absurd hx List.not_mem_nil, List.nodup_nil⟩⟩).2

/-- the channel of a stream that was registered last under its id has its sender while the end works -/
theorem server_tx (cfg : Cfg) (es : List Event) (hr : (serverRun cfg es).phase = .running) {i k t1 rest}
    (ht : (serverRun cfg es).trace = t1 ++ .reg i k :: rest) (hc : regCount i rest = 0) :
    ((serverRun cfg es).chan k).tx = true := by
  have hD := (server_inv cfg es).1.1.1
  have h1 := hD.mapOwner hr i
  have h2 : owner (serverRun cfg es).trace i = some k := by
    rw [ht]
    clear ht
    induction rest using List.reverseRecOn with
    | nil => rw [owner_snoc]; simp
    | append_singleton rest o ih =>
      rw [regCount_append] at hc
      rw [← List.cons_append, ← List.append_assoc, owner_other (by omega)]
      exact ih (by omega)
  rw [h2] at h1
  exact ((server_txM cfg es).tx _ (lookup_mem h1)).2

end Wm.Tunnel

namespace Wm.Chain
open Wm Wm.Prot
open scoped List
open Wm.World (Cfg LoopEv RelayEv OtherEv loopStep relayStep otherStep submitted IsRun Spares One steps_server steps_client
  loopStep_spares otherStep_spares)
open Wm.Tunnel (datas creates regCount openCount gots received submissions accepted LoggedIn heads)

/-! ### the streams of the tasks hold no message back -/

theorem read_inbox (n : Nat) {v : Virtual.St} (h : v.inbox.length ≤ 1) :
    (Virtual.pollRead n v).inbox = [] ∧ (Virtual.pollRead n v).closed = v.closed := by
  have h0 : ∀ x : Virtual.St, x.inbox = [] → (Virtual.pollRead n x).inbox = [] ∧ (Virtual.pollRead n x).closed = x.closed := by
    intro x hx
    rw [Virtual.pollRead]
    split
    · split
      · exact ⟨hx, rfl⟩
      · split
        · exact ⟨hx, rfl⟩
        · exact ⟨hx, rfl⟩
    · rename_i hb; rw [hx] at hb; cases hb
  cases hi : v.inbox with
  | nil => exact h0 v hi
  | cons f rest =>
    have hr : rest = [] := by rw [hi] at h; simpa using h
    subst hr
    rw [Virtual.pollRead]
    split
    · rename_i hb; rw [hi] at hb; cases hb
    · rename_i g rest hb
      rw [hi] at hb
      cases hb
      cases f <;> dsimp only
      · exact ⟨rfl, rfl⟩
      · exact ⟨rfl, rfl⟩
      · split
        · exact h0 _ rfl
        · exact ⟨rfl, rfl⟩
      · split
        · exact h0 _ rfl
        · exact ⟨rfl, rfl⟩
      · split
        · exact h0 _ rfl
        · exact ⟨rfl, rfl⟩

theorem taskStep_inbox {T} (s h e) {v : Virtual.St} (hv : v.inbox = []) : (taskStep T s v h e).2.inbox = [] := by
  cases e with
  | read n =>
    simp only [taskStep]
    split
    · split
      · refine (read_inbox n ?_).1
        simp only [Virtual.step]
        split
        · rw [hv]; simp
        · simp [Virtual.emit, hv]
      · exact hv
    · split
      · exact (read_inbox n (by rw [hv]; simp)).1
      · exact (read_inbox n (v := Virtual.step v .close) (by simp [Virtual.step, hv])).1
  | write bs =>
    simp only [taskStep, Virtual.step, Virtual.pollWrite]
    split <;> exact hv
  | flush =>
    simp only [taskStep, Virtual.step, Virtual.pollFlush]
    split
    · exact hv
    · split <;> exact hv
  | drop => exact hv

theorem inbox_run (cfg es) : ∀ t ∈ (run cfg es).tasks, t.io.inbox = [] := by
  refine run_of_move (P := fun w => ∀ t ∈ w.tasks, t.io.inbox = []) (by simp [init]) (fun w w' hm h => ?_) es
  cases hm with
  | start id k hc =>
    intro t ht
    rcases List.mem_append.1 ht with ht | ht
    · exact h t ht
    · simp at ht; subst ht; rfl
  | task n t e ht =>
    exact mem_set_run (P := fun t : Task => t.io.inbox = []) h (taskStep_inbox _ _ _ (h t (List.mem_of_getElem? ht)))
  | _ => exact h

/-! ### users send small messages -/

theorem small_run (cfg es) : ∀ u ∈ (run cfg es).users, World.Small u.relay := by
  refine run_of_move (P := fun w => ∀ u ∈ w.users, World.Small u.relay) (by simp [init]) (fun w w' hm h => ?_) es
  cases hm with
  | accept ws _ =>
    intro u hu
    rcases List.mem_append.1 hu with hu | hu
    · exact h u hu
    · simp at hu; subst hu; exact World.small_init _
  | work n rest u hw hu hi =>
    exact mem_set_run (P := fun u : User => World.Small u.relay) h (h u (List.mem_of_getElem? hu))
  | user n u e hu =>
    exact mem_set_run (P := fun u : User => World.Small u.relay) h
      (World.relayStep_small false _ _ _ (h u (List.mem_of_getElem? hu)))
  | _ => exact h

/-! ### a task holds its receiver until it is over -/

theorem proxied_mem {t i h} (hp : (i, h) ∈ proxied t) : ∃ how, Tunnel.Obs.opened i h how ∈ t := by
  obtain ⟨o, ho1, ho2⟩ := List.mem_filterMap.1 hp
  cases o with
  | opened i h how =>
    cases how <;> simp at ho2
    obtain ⟨rfl, rfl⟩ := ho2
    exact ⟨_, ho1⟩
  | _ => simp at ho2

theorem proxied_lt {cfg es} {p} (hp : p ∈ proxied (run cfg es).srv.trace) : p.2 < (run cfg es).srv.next := by
  obtain ⟨how, ho⟩ := proxied_mem (i := p.1) (h := p.2) hp
  have hreg := (just_run cfg es).opened _ _ _ ho
  obtain ⟨es', he⟩ : ∃ x, (run cfg es).srv = Tunnel.serverRun cfg.server x := (base_run cfg es).ends.srv
  rw [he] at hreg ⊢
  exact ((Tunnel.server_inv cfg.server es').2.1.regs _ _ hreg).2

theorem heads_opened (s e i h how) : Tunnel.Obs.opened i h how ∉ heads s e := by
  cases e <;> simp only [heads]
  all_goals (repeat' split)
  all_goals simp

/-- a stream newly given to the proxy has a new channel -/
theorem proxied_new {cfg : Tunnel.Cfg} {s s'} (ho : One (Tunnel.serverStep cfg) s s') {p} (hp : p ∈ proxied s'.trace) :
    p ∈ proxied s.trace ∨ s.next ≤ p.2 := by
  rcases ho with rfl | ⟨e, rfl⟩
  · exact .inl hp
  · obtain ⟨u, hu, h1, _, h2⟩ := steps_server cfg s e
    rw [hu, proxied_append, proxied_append, List.mem_append, List.mem_append] at hp
    rcases hp with (hp | hp) | hp
    · exact .inl hp
    · obtain ⟨how, h⟩ := proxied_mem (i := p.1) (h := p.2) hp
      exact absurd h (heads_opened _ _ _ _ _)
    · obtain ⟨how, h⟩ := proxied_mem (i := p.1) (h := p.2) hp
      exact .inr (h2 _ _ (h1.openReg _ _ _ h))

/-- who holds the receivers of the proxy's streams -/
structure Holds (w : St) : Prop where
  task : ∀ t ∈ w.tasks, (w.srv.chan t.chan).rx = !t.gone
  waiting : ∀ p ∈ proxied w.srv.trace, p.2 ∉ w.tasks.map (·.chan) → (w.srv.chan p.2).rx = true

theorem spares_rx {cfg : Tunnel.Cfg} {k s s'} (h : Spares k (Tunnel.serverStep cfg) s s') (hk : k < s.next) :
    (s'.chan k).rx = (s.chan k).rx := by
  rcases h with rfl | ⟨e, he, rfl⟩
  · rfl
  · exact Tunnel.step_rx cfg s e hk he

theorem Holds.quiet {cfg : Cfg} {w} (h : Holds w) (hlt : ∀ p ∈ proxied w.srv.trace, p.2 < w.srv.next) (hh : Hosts w) (w' : St)
    (ht : w'.tasks = w.tasks) (ho : One (Tunnel.serverStep cfg.server) w.srv w'.srv)
    (hlt' : ∀ p ∈ proxied w'.srv.trace, p.2 < w'.srv.next)
    (hs : ∀ p ∈ proxied w.srv.trace, Spares p.2 (Tunnel.serverStep cfg.server) w.srv w'.srv) : Holds w' := by
  refine ⟨fun t htm => ?_, fun p hp hn => ?_⟩
  · rw [ht] at htm
    have hc := hh.conn t htm
    rw [spares_rx (hs _ hc) (hlt _ hc)]
    exact h.task t htm
  · rw [ht] at hn
    by_cases hold : p ∈ proxied w.srv.trace
    · rw [spares_rx (hs p hold) (hlt p hold)]
      exact h.waiting p hold hn
    · have hnew := (proxied_new ho hp).resolve_left hold
      have hl := hlt' p hp
      rcases ho with he | ⟨e, he⟩
      · rw [he] at hl; exact absurd hl (Nat.not_lt.2 hnew)
      · rw [he] at hl ⊢
        exact Tunnel.step_rx_new cfg.server w.srv e hnew hl

theorem taskStep_spares {k T s v h} (e : TaskEv) (hk : h ≠ k ∨ e ≠ .drop) : Spares k T s (taskStep T s v h e).1 := by
  cases e with
  | read n =>
    simp only [taskStep]
    split
    · split
      · exact .inr ⟨.take h, by simp, rfl⟩
      · exact .inl rfl
    · split <;> exact .inl rfl
  | write bs =>
    simp only [taskStep]
    split
    · exact .inr ⟨.submit _, by simp, rfl⟩
    · exact .inl rfl
  | flush =>
    simp only [taskStep]
    split
    · exact .inr ⟨.submit _, by simp, rfl⟩
    · exact .inl rfl
  | drop =>
    refine .inr ⟨.dropRx h, fun he => ?_, rfl⟩
    cases he
    rcases hk with hk | hk <;> exact hk rfl

theorem holds_run (cfg es) : Holds (run cfg es) := by
  induction es using List.reverseRecOn with
  | nil => constructor <;> simp [run, init, proxied, Tunnel.serverInit]
  | append_singleton es e h =>
    have hlt := fun p hp => proxied_lt (cfg := cfg) (es := es) (p := p) hp
    have hlt' := fun p hp => proxied_lt (cfg := cfg) (es := es ++ [e]) (p := p) hp
    have hh := hosts_run cfg es
    have hb := base_run cfg es
    rw [run_snoc] at hlt' ⊢
    have ho := (move_one hb (step_move cfg _ e)).1
    generalize run cfg es = w at *
    have same : ∀ w', w'.tasks = w.tasks → w'.srv = w.srv → Holds w' := fun w' h1 h2 =>
      ⟨by rw [h1, h2]; exact h.task, by rw [h1, h2]; exact h.waiting⟩
    cases e with
    | accept =>
      simp only [step]
      split
      · exact same _ rfl rfl
      · split <;> exact same _ rfl rfl
    | work =>
      simp only [step]
      split
      · exact h
      · split
        · exact h
        · split <;> exact same _ rfl rfl
    | srv e => exact h.quiet hlt hh _ rfl ho hlt' fun p _ => loopStep_spares _ _ _ _ _
    | cli e => exact same _ rfl rfl
    | otherS e =>
      exact h.quiet hlt hh _ rfl ho hlt' fun p hp => otherStep_spares _ (List.mem_map.2 ⟨p, hp, rfl⟩)
    | otherC e => exact same _ rfl rfl
    | user n e =>
      simp only [step]
      split <;> exact same _ rfl rfl
    | start id k =>
      simp only [step]
      split
      · rename_i hc
        refine ⟨fun t ht => ?_, fun p hp hn => h.waiting p hp fun hm => hn ?_⟩
        · rcases List.mem_append.1 ht with ht | ht
          · exact h.task t ht
          · simp at ht; subst ht
            exact h.waiting (id, k) hc.1 hc.2
        · rw [List.map_append]; exact List.mem_append.2 (.inl hm)
      · exact h
    | task n e =>
      simp only [step] at ho hlt' ⊢
      cases hn : w.tasks[n]? with
      | none => exact h
      | some t =>
        rw [hn] at ho hlt'
        dsimp only at ho hlt' ⊢
        by_cases hg : t.gone = true
        · rw [if_pos hg]; exact h
        rw [if_neg hg] at ho hlt' ⊢
        dsimp only at ho hlt' ⊢
        have htm := List.mem_of_getElem? hn
        have hmap : (w.tasks.set n { t with
            io := (taskStep (Tunnel.serverStep cfg.server) w.srv t.io t.chan e).2, gone := e = .drop }).map (·.chan) =
            w.tasks.map (·.chan) := by apply World.map_set_same (·.chan) hn; rfl
        refine ⟨fun x hx => ?_, fun p hp hnm => ?_⟩
        · obtain ⟨j, hj⟩ := List.getElem?_of_mem hx
          by_cases hjn : n = j
          · subst hjn
            rw [List.getElem?_set_self (List.getElem?_eq_some_iff.1 hn).1] at hj
            cases hj
            dsimp only
            have hc := hlt _ (hh.conn t htm)
            by_cases he : e = .drop
            · subst he
              simp only [taskStep, decide_true, Bool.not_true]
              exact Tunnel.drop_rx cfg.server w.srv hc
            · rw [spares_rx (taskStep_spares e (.inr he)) hc, h.task t htm]
              simp [he, hg]
          · rw [List.getElem?_set_ne hjn] at hj
            have hxm := List.mem_of_getElem? hj
            have hc := hlt _ (hh.conn x hxm)
            have hne : t.chan ≠ x.chan := by
              intro hcx
              have h1 : (w.tasks.map (·.chan))[n]? = some t.chan := by simp [hn]
              have h2 : (w.tasks.map (·.chan))[j]? = some t.chan := by simp [hj, hcx]
              exact hjn ((List.getElem?_inj (by simpa using (List.getElem?_eq_some_iff.1 hn).1) hh.nodup).1 (h1.trans h2.symm))
            rw [spares_rx (taskStep_spares e (.inl hne)) hc]
            exact h.task x hxm
        · rw [hmap] at hnm
          by_cases hold : p ∈ proxied w.srv.trace
          · have hne : t.chan ≠ p.2 := fun he => hnm (List.mem_map.2 ⟨t, htm, he⟩)
            rw [spares_rx (taskStep_spares e (.inl hne)) (hlt p hold)]
            exact h.waiting p hold hnm
          · have hnew := (proxied_new ho hp).resolve_left hold
            have hl := hlt' p hp
            rcases ho with he | ⟨e', he⟩
            · rw [he] at hl; exact absurd hl (Nat.not_lt.2 hnew)
            · rw [he] at hl ⊢
              exact Tunnel.step_rx_new cfg.server w.srv e' hnew hl

/-! ### the server has let its client log in -/

theorem task_login {cfg es} {t} (ht : t ∈ (run cfg es).tasks) (hr : (run cfg es).srv.phase = .running) :
    (run cfg es).srv.readyShutdown = false := by
  obtain ⟨how, ho⟩ := proxied_mem ((hosts_run cfg es).conn t ht)
  obtain ⟨es', he⟩ : ∃ x, (run cfg es).srv = Tunnel.serverRun cfg.server x := (base_run cfg es).ends.srv
  rw [he] at ho hr ⊢
  obtain ⟨a, b, hab⟩ := List.append_of_mem ho
  have h1 := (Tunnel.server_inv cfg.server es').1.2.served a _ b hab trivial fun hc =>
    Tunnel.server_whole cfg.server es' hr (by rw [hab]; exact List.mem_append.2 (.inl hc))
  refine Tunnel.loggedIn_open cfg.server es' ?_
  rw [hab]
  exact h1.mono _

/-! ### what a step of the server adds to what it writes -/

theorem srv_accepted (cfg : Tunnel.Cfg) (s : Tunnel.St) (e : Tunnel.Event) (he : accepted (heads s e) = []) {f}
    (hf : f ∈ accepted (Tunnel.serverStep cfg s e).trace) : f ∈ accepted s.trace ∨ Fits f := by
  obtain ⟨u, hu, h1, _⟩ := steps_server cfg s e
  rw [hu, Tunnel.accepted_append, Tunnel.accepted_append, he, List.append_nil, List.mem_append] at hf
  rcases hf with hf | hf
  · exact .inl hf
  · rw [h1.accepted f hf]; exact .inr World.refusal_fits

theorem heads_take (s h) : accepted (heads s (.take h)) = [] := by
  simp only [heads]
  split
  · rfl
  · split <;> rfl
theorem heads_drop (s h) : accepted (heads s (.dropRx h)) = [] := by
  simp only [heads]; split <;> rfl
theorem heads_read (s bs) : accepted (heads s (.read bs)) = [] := by
  simp only [heads]; split <;> rfl

end Wm.Chain
