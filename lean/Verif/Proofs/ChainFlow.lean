import Verif.Proofs.ChainEnds
/-! The users of a client and the proxy of its server: what is submitted, announced and opened under one id. -/
namespace Wm.Chain
open Wm Wm.Prot
open scoped List
open Wm.World (Cfg LoopEv RelayEv OtherEv loopStep relayStep otherStep submitted workCap IsRun Steps One Calm Sub Uniq
  steps_server steps_client map_set_same loopStep_one otherStep_one relayStep_one loopStep_received otherStep_received
  relayStep_received relayStep_own relayStep_cases creates_loop creates_other creates_relay creates_quiet heads_sub
  heads_submit heads_submit_now datas_ne Met)
open Wm.Tunnel (datas creates regCount openCount gots received submissions accepted relayed written arrived heads
  heads_received)

variable {T : Tunnel.St → Tunnel.Event → Tunnel.St}

/-- Nobody else uses the id, and ids have not begun to repeat. -/
structure Own (i : Nat) (w : St) : Prop where
  server : ∀ f ∈ w.otherS, f.sockMap ≠ i
  client : ∀ f ∈ w.otherC, f.sockMap ≠ i
  used : w.users.length ≤ 2 ^ 31

/-- what one step can do to the two ends -/
theorem move_one {cfg w w'} (hb : Base cfg w) (hm : Move cfg w w') :
    One (Tunnel.serverStep cfg.server) w.srv w'.srv ∧ One (Tunnel.clientStep cfg.client) w.cli w'.cli ∧
    w.otherS <+: w'.otherS ∧ w.otherC <+: w'.otherC ∧ w.users.length ≤ w'.users.length := by
  have same : One (Tunnel.serverStep cfg.server) w.srv w.srv ∧ One (Tunnel.clientStep cfg.client) w.cli w.cli ∧
      w.otherS <+: w.otherS ∧ w.otherC <+: w.otherC ∧ w.users.length ≤ w.users.length :=
    ⟨.inl rfl, .inl rfl, List.prefix_refl _, List.prefix_refl _, Nat.le_refl _⟩
  cases hm with
  | stay => exact same
  | accept ws _ => exact ⟨same.1, same.2.1, same.2.2.1, same.2.2.2.1, by simp⟩
  | work n rest u hw hu hi => exact ⟨same.1, .inr ⟨.work u.relay.id none, rfl⟩, same.2.2.1, same.2.2.2.1, by simp⟩
  | srv e => exact ⟨loopStep_one _ _ _, same.2⟩
  | cli e => exact ⟨same.1, loopStep_one _ _ _, same.2.2⟩
  | otherS e => exact ⟨otherStep_one _ _ _, same.2.1, List.prefix_append _ _, same.2.2.2⟩
  | otherC e => exact ⟨same.1, otherStep_one _ _ _, same.2.2.1, List.prefix_append _ _, Nat.le_refl _⟩
  | user n u e hu =>
    exact ⟨same.1, relayStep_one _ _ _ _ _ (hb.users u (List.mem_of_getElem? hu)), same.2.2.1, same.2.2.2.1, by simp⟩
  | start id k hc => exact same
  | task n t e ht => exact ⟨calm_one (taskStep_calm _ _ _ _ (hb.tasks t (List.mem_of_getElem? ht))), same.2⟩

theorem Own.back {cfg w w' i} (hb : Base cfg w) (hm : Move cfg w w') (h : Own i w') : Own i w := by
  obtain ⟨_, _, h1, h2, h3⟩ := move_one hb hm
  exact ⟨fun f hf => h.server f (h1.subset hf), fun f hf => h.client f (h2.subset hf), by have := h.used; omega⟩

theorem fit_back {cfg w w'} (hb : Base cfg w) (hm : Move cfg w w') (h : World.Fit (ends w')) : World.Fit (ends w) := by
  obtain ⟨h1, h2, _⟩ := move_one hb hm
  exact ⟨fun f hf => h.server f ((h1.accepted (steps_server _)).subset hf),
    fun f hf => h.client f ((h2.accepted (steps_client _)).subset hf)⟩

/-- no two users have the same id -/
theorem uniq_users {cfg w i} (h : Guests cfg w) (hu : w.users.length ≤ 2 ^ 31) : Uniq i (w.users.map (·.relay)) := by
  intro n m r r' hn hm hr hr'
  rw [List.getElem?_map] at hn hm
  cases hvn : w.users[n]? with
  | none => rw [hvn] at hn; cases hn
  | some v =>
    cases hvm : w.users[m]? with
    | none => rw [hvm] at hm; cases hm
    | some v' =>
      rw [hvn] at hn; rw [hvm] at hm
      simp only [Option.map_some, Option.some.injEq] at hn hm
      subst hn; subst hm
      have h1 := h.ids n v hvn
      have h2 := h.ids m v' hvm
      have l1 := (List.getElem?_eq_some_iff.1 hvn).1
      have l2 := (List.getElem?_eq_some_iff.1 hvm).1
      apply Classical.byContradiction
      intro hne
      exact (Tunnel.C05_distinct cfg.serverId n m (by omega) (by omega) hne).2 (by rw [← h1, ← h2, hr, hr'])

/-! ### the client's side of one id -/

structure Side (i : Nat) (w : St) : Prop where
  sub : Sub i w.cli (w.users.map (·.relay)) w.otherC
  zero : (∀ v ∈ w.users, v.relay.id = i → v.handle = none) → creates i (accepted w.cli.trace) = 0
  one : creates i (accepted w.cli.trace) ≤ 1

theorem side_init (cfg i) : Side i (init cfg) := by
  have h := World.far_init cfg i
  refine ⟨⟨?_, by simp [init]⟩, fun _ => h.noCreate, by have := h.noCreate; simp only [World.init, init] at this ⊢; omega⟩
  intro f hf
  rcases h.sub.mem f hf with h1 | h1 | ⟨r, hr, _⟩
  · exact .inl h1
  · exact .inr (.inl h1)
  · cases hr

theorem Side.more {i w} (h : Side i w) (w' : St) (hs : Sub i w'.cli (w'.users.map (·.relay)) w'.otherC)
    (hc : creates i (accepted w'.cli.trace) = creates i (accepted w.cli.trace))
    (hv : (∀ v ∈ w'.users, v.relay.id = i → v.handle = none) → ∀ v ∈ w.users, v.relay.id = i → v.handle = none) :
    Side i w' := ⟨hs, fun hn => by rw [hc]; exact h.zero (hv hn), by rw [hc]; exact h.one⟩

theorem side_move {cfg w w' i} (hb : Base cfg w) (hg : Guests cfg w) (hg' : Guests cfg w') (hm : Move cfg w w')
    (ho' : Own i w') (h : Side i w) : Side i w' := by
  have hC := steps_client cfg.client
  have ho := ho'.back hb hm
  have hrs : ∀ r ∈ w.users.map (·.relay), IsRun r := by
    intro r hr; obtain ⟨v, hv, rfl⟩ := List.mem_map.1 hr; exact hb.users v hv
  have hq := h.sub.outq ho.client hrs (World.client_outq hb.ends.cli)
  have hun := uniq_users (i := i) hg ho.used
  cases hm with
  | stay => exact h
  | accept ws _ =>
    have hsub : Sub i w.cli ((w.users ++
        [(⟨Relay.init ((Tunnel.clientIds cfg.serverId).nth w.users.length), none⟩ : User)]).map (·.relay)) w.otherC := by
      rw [List.map_append]
      refine h.sub.add _ ho.client hrs fun hi r hr hri => ?_
      obtain ⟨v, hv, rfl⟩ := List.mem_map.1 hr
      obtain ⟨n, hn⟩ := List.mem_iff_getElem?.1 hv
      have h1 := hg.ids n v hn
      have l1 := (List.getElem?_eq_some_iff.1 hn).1
      have hul := ho'.used
      simp only [List.length_append, List.length_cons, List.length_nil] at hul
      exact (Tunnel.C05_distinct cfg.serverId n w.users.length (by omega) (by omega) (by omega)).2
        (by rw [← h1, hri, hi])
    exact h.more _ hsub rfl fun hn v hv => hn v (List.mem_append.2 (.inl hv))
  | work n rest v hw hv hidle =>
    have hsub := h.sub.quiet hC (e := .work v.relay.id none) (by simp)
    have hm := map_set_same (·.relay) (b := { v with handle := some w.cli.next }) hv rfl
    have hcr : creates i (accepted (heads w.cli (.work v.relay.id none))) = if v.relay.id = i then 1 else 0 := by
      simp only [heads, if_pos hidle]
      by_cases hvi : v.relay.id = i
      · cases Tunnel.lookup v.relay.id w.cli.map <;> simp [accepted, creates, hvi]
      · cases Tunnel.lookup v.relay.id w.cli.map <;> simp [accepted, creates, hvi]
    have hnone : v.handle = none := by
      obtain ⟨v', e1, e2⟩ := hg.works n (by rw [hw]; simp)
      rw [hv] at e1; cases e1; exact e2
    have hlt : n < w.users.length := (List.getElem?_eq_some_iff.1 hv).1
    refine ⟨?_, fun hn => ?_, ?_⟩
    · dsimp only at hm ⊢; rw [hm]; exact hsub
    · dsimp only at hn ⊢
      rw [hC.hcreates, hcr]
      by_cases hvi : v.relay.id = i
      · have := hn { v with handle := some w.cli.next } (List.mem_iff_getElem?.2 ⟨n, List.getElem?_set_self hlt⟩) hvi
        cases this
      · rw [if_neg hvi, Nat.add_zero]
        refine h.zero fun x hx hxi => ?_
        obtain ⟨m, hm⟩ := List.mem_iff_getElem?.1 hx
        by_cases hnm : n = m
        · subst hnm; rw [hv] at hm; cases hm; exact hnone
        · exact hn x (List.mem_iff_getElem?.2 ⟨m, by rw [List.getElem?_set_ne hnm]; exact hm⟩) hxi
    · dsimp only
      rw [hC.hcreates, hcr]
      by_cases hvi : v.relay.id = i
      · have hz : creates i (accepted w.cli.trace) = 0 := by
          refine h.zero fun x hx hxi => ?_
          obtain ⟨m, hm⟩ := List.mem_iff_getElem?.1 hx
          have : n = m := hun n m v.relay x.relay (by rw [List.getElem?_map, hv]; rfl)
            (by rw [List.getElem?_map, hm]; rfl) hvi hxi
          subst this; rw [hv] at hm; cases hm; exact hnone
        rw [if_pos hvi, hz]; omega
      · rw [if_neg hvi]; exact h.one
  | srv e => exact h.more _ h.sub rfl (fun hn => hn)
  | cli e => exact h.more _ (h.sub.loop hC _ _) (creates_loop hC _ _ hq) (fun hn => hn)
  | otherS e => exact h.more _ h.sub rfl (fun hn => hn)
  | otherC e =>
    refine h.more _ (h.sub.other hC _ e fun f hf => ?_) (creates_other hC _ _ hq) (fun hn => hn)
    exact ho'.client f (List.mem_append.2 (.inr hf))
  | user n v e hv =>
    have hr := hb.users v (List.mem_of_getElem? hv)
    have hlt : n < w.users.length := (List.getElem?_eq_some_iff.1 hv).1
    refine h.more _ ?_ (creates_relay hC _ _ _ _ hr hq) (fun hn x hx hxi => ?_)
    · rw [List.map_set]
      exact h.sub.relay hC false v.handle e (by rw [List.getElem?_map, hv]; rfl) hr hun
    · obtain ⟨m, hm⟩ := List.mem_iff_getElem?.1 hx
      by_cases hnm : n = m
      · subst hnm; rw [hv] at hm; cases hm
        have hid := (relayStep_cases (Tunnel.clientStep cfg.client) false w.cli v.relay v.handle e hr).1.1
        exact hn { v with relay := (relayStep (Tunnel.clientStep cfg.client) false w.cli v.relay v.handle e).2 }
          (List.mem_iff_getElem?.2 ⟨n, List.getElem?_set_self hlt⟩) (hid.trans hxi)
      · exact hn x (List.mem_iff_getElem?.2 ⟨m, by rw [List.getElem?_set_ne hnm]; exact hm⟩) hxi
  | start id k hc => exact h.more _ h.sub rfl (fun hn => hn)
  | task n t e ht => exact h.more _ h.sub rfl (fun hn => hn)

theorem side_run (cfg es i) (ho : Own i (run cfg es)) : Side i (run cfg es) := by
  induction es using List.reverseRecOn with
  | nil => exact side_init cfg i
  | append_singleton es e ih =>
    have hg' := guests_run cfg (es ++ [e])
    rw [run_snoc] at ho hg' ⊢
    have hb := base_run cfg es
    have hm := step_move cfg (run cfg es) e
    exact side_move hb (guests_run cfg es) hg' hm ho (ih (ho.back hb hm))

/-! ### the server's side of one id -/

/-- What has been submitted at the server's end: by the proxy's tasks, or by others; and the data with id `i` is that of
    the task with this id. -/
structure VSub (i : Nat) (s : Tunnel.St) (vs : List Virtual.St) (other : List Frame) : Prop where
  mem : ∀ f ∈ submissions s.trace, f ∈ other ∨ ∃ v ∈ vs, f ∈ Virtual.sends v.trace
  of : ∀ v ∈ vs, v.id = i → datas i (submissions s.trace) = datas i (Virtual.sends v.trace)

theorem VSub.mute {i s s' vs o} (h : VSub i s vs o) (hm : Tunnel.Mute s s') : VSub i s' vs o := by
  have hm : submissions s'.trace = submissions s.trace := hm
  exact ⟨by rw [hm]; exact h.mem, by rw [hm]; exact h.of⟩

/-- nothing is submitted, except by the given event -/
theorem submit_subs (cfg : Tunnel.Cfg) (s : Tunnel.St) (f : Frame) :
    submissions (Tunnel.serverStep cfg s (.submit f)).trace =
      submissions s.trace ++ submissions (heads s (.submit f)) := by
  have hT := steps_server cfg s (.submit f)
  simp only [Tunnel.serverStep, Tunnel.step, heads]
  split
  · simp [Tunnel.emit, Tunnel.submissions_append, submissions]
  · simp [submissions]

theorem VSub.loop {cfg : Tunnel.Cfg} {i s vs o} (h : VSub i s vs o) (inb e) :
    VSub i (loopStep (Tunnel.serverStep cfg) s inb e).1 vs o := by
  cases e <;> simp only [loopStep]
  case read n =>
    split
    · exact h.mute (Tunnel.server_mute cfg s (by simp))
    · exact h
  all_goals exact h.mute (Tunnel.server_mute cfg s (by simp))

theorem VSub.other {cfg : Tunnel.Cfg} {i s vs o} (h : VSub i s vs o) (mine e) (hi : ∀ f ∈ submitted e, f.sockMap ≠ i) :
    VSub i (otherStep (Tunnel.serverStep cfg) s mine e) vs (o ++ submitted e) := by
  have hq : ∀ {s'}, VSub i s' vs o → VSub i s' vs (o ++ []) := by intro s' h; rwa [List.append_nil]
  cases e <;> simp only [otherStep]
  case submit f =>
    refine ⟨fun g hg => ?_, fun r hr hri => ?_⟩
    · rw [submit_subs, List.mem_append] at hg
      rcases hg with h1 | h1
      · rcases h.mem g h1 with h2 | h2
        · exact .inl (List.mem_append.2 (.inl h2))
        · exact .inr h2
      · left
        rcases heads_submit (s := s) f with h2 | h2
        · rw [h2] at h1; exact List.mem_append.2 (.inr h1)
        · rw [h2] at h1; cases h1
    · rw [submit_subs, Tunnel.datas_append]
      have : datas i (submissions (heads s (.submit f))) = [] := by
        refine datas_ne fun g hg => ?_
        rcases heads_submit (s := s) f with h2 | h2
        · rw [h2] at hg; exact hi g hg
        · rw [h2] at hg; cases hg
      rw [this, List.append_nil]; exact h.of r hr hri
  case take k =>
    apply hq
    split
    · exact h
    · exact h.mute (Tunnel.server_mute cfg s (by simp))
  case dropRx k =>
    apply hq
    split
    · exact h
    · exact h.mute (Tunnel.server_mute cfg s (by simp))

/-- at most one stream has id `i` -/
def VUniq (i : Nat) (vs : List Virtual.St) : Prop :=
  ∀ (n m : Nat) (r r' : Virtual.St), vs[n]? = some r → vs[m]? = some r' → r.id = i → r'.id = i → n = m

theorem VSub.task {cfg : Tunnel.Cfg} {i s vs o} (h : VSub i s vs o) (k e) {n : Nat} {v : Virtual.St} (hn : vs[n]? = some v)
    (hv : IsRunV v) (hu : VUniq i vs) :
    VSub i (taskStep (Tunnel.serverStep cfg) s v k e).1 (vs.set n (taskStep (Tunnel.serverStep cfg) s v k e).2) o := by
  obtain ⟨⟨hid, hrun⟩, hc⟩ := taskStep_cases (T := Tunnel.serverStep cfg) s v k e hv
  have hlt : n < vs.length := (List.getElem?_eq_some_iff.1 hn).1
  have hsame : ∀ {s'} (r' : Virtual.St), VSub i s' vs o → r'.id = v.id → Virtual.sends r'.trace = Virtual.sends v.trace →
      VSub i s' (vs.set n r') o := by
    intro s' r' h hid hs
    refine ⟨fun f hf => ?_, fun x hx hxi => ?_⟩
    · rcases h.mem f hf with h1 | ⟨x, hx, h1⟩
      · exact .inl h1
      · right
        obtain ⟨m, hm⟩ := List.mem_iff_getElem?.1 hx
        by_cases hnm : n = m
        · subst hnm
          rw [hn] at hm; cases hm
          exact ⟨r', List.mem_iff_getElem?.2 ⟨n, List.getElem?_set_self hlt⟩, by rw [hs]; exact h1⟩
        · exact ⟨x, List.mem_iff_getElem?.2 ⟨m, by rw [List.getElem?_set_ne hnm]; exact hm⟩, h1⟩
    · rcases List.mem_or_eq_of_mem_set hx with hx | rfl
      · exact h.of x hx hxi
      · rw [hs]; exact h.of v (List.mem_of_getElem? hn) (hid ▸ hxi)
  rcases hc with ⟨e1, _, e2⟩ | ⟨f, q, _, _, e1, _, e2⟩ | ⟨d, hph, hcap, e1, _, e2⟩ | ⟨e1, e2⟩
  · rw [e1]; exact hsame _ h hid e2
  · rw [e1]; exact hsame _ (h.mute (Tunnel.server_mute cfg s (by simp))) hid e2
  · rw [e1]
    refine ⟨fun g hg => ?_, fun x hx hxi => ?_⟩
    · rw [submit_subs, List.mem_append] at hg
      rcases hg with h1 | h1
      · rcases h.mem g h1 with h2 | ⟨x, hx, h2⟩
        · exact .inl h2
        · right
          obtain ⟨m, hm⟩ := List.mem_iff_getElem?.1 hx
          by_cases hnm : n = m
          · subst hnm
            rw [hn] at hm; cases hm
            exact ⟨_, List.mem_iff_getElem?.2 ⟨n, List.getElem?_set_self hlt⟩, by rw [e2]; simp [h2]⟩
          · exact ⟨x, List.mem_iff_getElem?.2 ⟨m, by rw [List.getElem?_set_ne hnm]; exact hm⟩, h2⟩
      · right
        rw [heads_submit_now _ hph hcap, List.mem_singleton] at h1
        subst h1
        exact ⟨_, List.mem_iff_getElem?.2 ⟨n, List.getElem?_set_self hlt⟩, by rw [e2]; simp⟩
    · rw [submit_subs, heads_submit_now _ hph hcap, Tunnel.datas_append]
      obtain ⟨m, hm⟩ := List.mem_iff_getElem?.1 hx
      rw [List.getElem?_set] at hm
      split at hm
      · cases hm
        rw [e2, Tunnel.datas_append, h.of v (List.mem_of_getElem? hn) (hid ▸ hxi)]
      · rename_i hnm
        have : v.id ≠ i := fun hfx => hnm (hu n m v x hn hm hfx hxi)
        rw [datas_ne (fs := [.data v.id d]) (by simpa [Frame.sockMap] using this), List.append_nil]
        exact h.of x (List.mem_of_getElem? hm) hxi
  · rw [e1, e2]; exact hsame _ (h.mute (Tunnel.server_mute cfg s (by simp))) rfl rfl

theorem VSub.none {i s vs o} (h : VSub i s vs o) (ho : ∀ f ∈ o, f.sockMap ≠ i) (hr : ∀ v ∈ vs, IsRunV v)
    (hn : ∀ v ∈ vs, v.id ≠ i) : datas i (submissions s.trace) = [] := by
  refine datas_ne fun f hf => ?_
  rcases h.mem f hf with h1 | ⟨v, hv, h1⟩
  · exact ho f h1
  · obtain ⟨d, rfl⟩ := sends_data (hr v hv) f h1
    exact hn v hv

theorem VSub.add {i s vs o} (h : VSub i s vs o) (j : Nat) (ho : ∀ f ∈ o, f.sockMap ≠ i) (hr : ∀ v ∈ vs, IsRunV v)
    (hn : j = i → ∀ v ∈ vs, v.id ≠ i) : VSub i s (vs ++ [Virtual.init j]) o := by
  refine ⟨fun f hf => ?_, fun r hx hi => ?_⟩
  · rcases h.mem f hf with h1 | ⟨r, hx, h1⟩
    · exact .inl h1
    · exact .inr ⟨r, List.mem_append.2 (.inl hx), h1⟩
  · rcases List.mem_append.1 hx with hx | hx
    · exact h.of r hx hi
    · simp at hx; subst hx
      rw [h.none ho hr (hn hi)]; rfl

/-- messages of the id at the server are the task's data -/
theorem VSub.kind {i s vs o} (h : VSub i s vs o) (ho : ∀ f ∈ o, f.sockMap ≠ i) (hr : ∀ v ∈ vs, IsRunV v) :
    ∀ f ∈ submissions s.trace, f.sockMap = i → ∃ d, f = .data i d := by
  intro f hf hfi
  rcases h.mem f hf with h1 | ⟨v, hv, h1⟩
  · exact absurd hfi (ho f h1)
  · obtain ⟨d, rfl⟩ := sends_data (hr v hv) f h1
    exact ⟨d, by rw [show v.id = i from hfi]⟩

theorem VSub.outq {i s vs o} (h : VSub i s vs o) (ho : ∀ f ∈ o, f.sockMap ≠ i) (hr : ∀ v ∈ vs, IsRunV v)
    (hb : relayed s.trace ++ s.outq = submissions s.trace) : ∀ f ∈ s.outq, creates i [f] = 0 := by
  intro f hf
  by_cases hfi : f.sockMap = i
  · obtain ⟨d, rfl⟩ := h.kind ho hr f (by rw [← hb]; simp [hf]) hfi; rfl
  · exact World.creates_ne hfi

/-! ### streams of one id at the server -/

theorem open_once {cfg w i} (hb : Base cfg w) (hf : World.Fit (ends w)) (hh : Hosts w) (hs : Side i w) :
    openCount i w.srv.trace ≤ creates i (accepted w.cli.trace) ∧ openCount i w.srv.trace ≤ 1 := by
  have h1 := hh.opens i
  have h2 : creates i (gots w.srv.trace) ≤ creates i (accepted w.cli.trace) := World.seen_server_creates hb.ends hf i
  have h3 := hs.one
  omega

theorem uniq_tasks {cfg w i} (hb : Base cfg w) (hf : World.Fit (ends w)) (hh : Hosts w) (hs : Side i w) :
    VUniq i (w.tasks.map (·.io)) := by
  intro n m r r' hn hm hr hr'
  rw [List.getElem?_map] at hn hm
  cases hvn : w.tasks[n]? with
  | none => rw [hvn] at hn; cases hn
  | some v =>
    cases hvm : w.tasks[m]? with
    | none => rw [hvm] at hm; cases hm
    | some v' =>
      rw [hvn] at hn; rw [hvm] at hm
      simp only [Option.map_some, Option.some.injEq] at hn hm
      subst hn; subst hm
      have c1 := hh.conn v (List.mem_of_getElem? hvn)
      have c2 := hh.conn v' (List.mem_of_getElem? hvm)
      rw [hr] at c1; rw [hr'] at c2
      have heq := proxied_unique (open_once hb hf hh hs).2 c1 c2
      have g1 : (w.tasks.map (·.chan))[n]? = some v.chan := by rw [List.getElem?_map, hvn]; rfl
      have g2 : (w.tasks.map (·.chan))[m]? = some v'.chan := by rw [List.getElem?_map, hvm]; rfl
      obtain ⟨l1, f1⟩ := List.getElem?_eq_some_iff.1 g1
      obtain ⟨l2, f2⟩ := List.getElem?_eq_some_iff.1 g2
      exact (hh.nodup.getElem_inj_iff).1 (by rw [f1, f2, heq])

structure Far (i : Nat) (w : St) : Prop where
  sub : VSub i w.srv (w.tasks.map (·.io)) w.otherS
  noCreate : creates i (accepted w.srv.trace) = 0

theorem far_init (cfg i) : Far i (init cfg) := by
  refine ⟨⟨?_, ?_⟩, ?_⟩ <;> simp [init, Tunnel.serverInit, submissions, accepted, creates]

theorem far_move {cfg w w' i} (hb : Base cfg w) (hf : World.Fit (ends w)) (hh : Hosts w) (hs : Side i w)
    (hm : Move cfg w w') (ho' : Own i w') (h : Far i w) : Far i w' := by
  have hS := steps_server cfg.server
  have ho := ho'.back hb hm
  have hrs : ∀ r ∈ w.tasks.map (·.io), IsRunV r := by
    intro r hr; obtain ⟨v, hv, rfl⟩ := List.mem_map.1 hr; exact hb.tasks v hv
  have hq := h.sub.outq ho.server hrs (World.server_outq hb.ends.srv)
  have hun := uniq_tasks hb hf hh hs
  cases hm with
  | stay => exact h
  | accept ws _ => exact ⟨h.sub, h.noCreate⟩
  | work n rest u hw hu hi => exact ⟨h.sub, h.noCreate⟩
  | srv e => exact ⟨h.sub.loop _ _, (creates_loop hS _ _ hq).trans h.noCreate⟩
  | cli e => exact ⟨h.sub, h.noCreate⟩
  | otherS e =>
    exact ⟨h.sub.other _ e fun f hf => ho'.server f (List.mem_append.2 (.inr hf)),
      (creates_other hS _ _ hq).trans h.noCreate⟩
  | otherC e => exact ⟨h.sub, h.noCreate⟩
  | user n u e hu => exact ⟨h.sub, h.noCreate⟩
  | start id k hc =>
    refine ⟨?_, h.noCreate⟩
    rw [List.map_append]
    refine h.sub.add id ho.server hrs ?_
    rintro rfl r hr hri
    obtain ⟨l, hl, rfl⟩ := List.mem_map.1 hr
    have c1 := hh.conn l hl
    rw [hri] at c1
    exact hc.2 (List.mem_map.2 ⟨l, hl, proxied_unique (open_once hb hf hh hs).2 c1 hc.1⟩)
  | task n t e ht =>
    have hr := hb.tasks t (List.mem_of_getElem? ht)
    refine ⟨?_, ?_⟩
    · rw [List.map_set]
      exact h.sub.task t.chan e (by rw [List.getElem?_map, ht]; rfl) hr hun
    · refine Eq.trans ?_ h.noCreate
      dsimp only
      rcases (taskStep_cases (T := Tunnel.serverStep cfg.server) w.srv t.io t.chan e hr).2 with ⟨e1, _⟩ |
        ⟨f, q, _, _, e1, _⟩ | ⟨d, _, _, e1, _⟩ | ⟨e1, _⟩
      · rw [e1]
      all_goals rw [e1]; exact creates_quiet hS (by simp) hq

theorem far_run (cfg es i) (ho : Own i (run cfg es)) (hf : World.Fit (ends (run cfg es))) : Far i (run cfg es) := by
  induction es using List.reverseRecOn with
  | nil => exact far_init cfg i
  | append_singleton es e ih =>
    rw [run_snoc] at ho hf ⊢
    have hb := base_run cfg es
    have hm := step_move cfg (run cfg es) e
    exact far_move hb (fit_back hb hm hf) (hosts_run cfg es) (side_run cfg es i (ho.back hb hm)) hm ho
      (ih (ho.back hb hm) (fit_back hb hm hf))

/-! ### nothing comes back before the stream is announced -/

theorem no_data_back {cfg w i} (hb : Base cfg w) (hf : World.Fit (ends w)) (hh : Hosts w) (hs : Side i w) (ho : Own i w)
    (h : Far i w) (hz : creates i (accepted w.cli.trace) = 0) : datas i (submissions w.srv.trace) = [] := by
  have hrs : ∀ r ∈ w.tasks.map (·.io), IsRunV r := by
    intro r hr; obtain ⟨v, hv, rfl⟩ := List.mem_map.1 hr; exact hb.tasks v hv
  refine h.sub.none ho.server hrs fun r hr hri => ?_
  obtain ⟨l, hl, rfl⟩ := List.mem_map.1 hr
  have c1 := hh.conn l hl
  rw [hri] at c1
  have := proxied_open c1
  have := (open_once hb hf hh hs).1
  omega

theorem calm_met (hT : Steps T) {i h s s'} (ho : Calm T s s') (hm : Met i h s.trace)
    (hc : creates i (gots s'.trace) = 0) : Met i h s'.trace := by
  rcases ho with e | ⟨e, he, e1⟩
  · rw [e]; exact hm
  · rw [e1] at hc ⊢
    obtain ⟨u, e1, e2, _⟩ := hT s e
    have := e2.regs i
    rw [e1, Tunnel.gots_append', Tunnel.creates_append] at hc
    obtain ⟨t1, rest, h0, h1, h2⟩ := hm
    rw [e1, h0]
    refine ⟨t1, rest ++ (heads s e ++ u), by simp, h1, ?_⟩
    rw [Tunnel.regCount_append, Tunnel.regCount_append, World.heads_regs (he i)]; omega

theorem work_met (hT : Steps T) {i h s j d} (hm : Met i h s.trace)
    (hc : creates i (gots (T s (.work j d)).trace) = 0) (hj : j ≠ i) : Met i h (T s (.work j d)).trace := by
  obtain ⟨u, e1, e2, _⟩ := hT s (.work j d)
  have := e2.regs i
  rw [e1, Tunnel.gots_append', Tunnel.creates_append] at hc
  obtain ⟨t1, rest, h0, h1, h2⟩ := hm
  rw [e1, h0]
  refine ⟨t1, rest ++ (heads s (.work j d) ++ u), by simp, h1, ?_⟩
  rw [Tunnel.regCount_append, Tunnel.regCount_append,
    World.heads_regs (fun d' he => hj (by injection he))]; omega

def Meets (i : Nat) (w : St) : Prop :=
  ∀ u ∈ w.users, u.relay.id = i → ∀ h, u.handle = some h → Met i h w.cli.trace

theorem meets_move {cfg w w' i} (hb : Base cfg w) (hb' : Base cfg w') (hf' : World.Fit (ends w'))
    (hg : Guests cfg w) (hh : Hosts w) (hs : Side i w) (hm : Move cfg w w') (ho' : Own i w') (hfar : Far i w)
    (hfar' : Far i w') (h : Meets i w) : Meets i w' := by
  have hC := steps_client cfg.client
  have ho := ho'.back hb hm
  have hf := fit_back hb hm hf'
  have hc : creates i (gots w'.cli.trace) = 0 := by
    have h1 : creates i (gots w'.cli.trace) ≤ creates i (accepted w'.srv.trace) :=
      World.seen_client_creates hb'.ends hf' i
    have := hfar'.noCreate
    omega
  have hun := uniq_users (i := i) hg ho.used
  clear hb' hf' hfar' ho'
  cases hm with
  | stay => exact h
  | accept ws _ =>
    intro v hv hvi k hk
    rcases List.mem_append.1 hv with hv | hv
    · exact h v hv hvi k hk
    · simp at hv; subst hv; cases hk
  | work n rest v hw hv hidle =>
    dsimp only at hc
    have hnone : v.handle = none := by
      obtain ⟨v', e1, e2⟩ := hg.works n (by rw [hw]; simp)
      rw [hv] at e1; cases e1; exact e2
    intro x hx hxi k hk
    dsimp only at hx ⊢
    obtain ⟨m, hm⟩ := List.mem_iff_getElem?.1 hx
    rw [List.getElem?_set] at hm
    split at hm
    · split at hm
      · cases hm
        dsimp only at hxi hk
        cases hk
        have hz : creates i (accepted w.cli.trace) = 0 := by
          refine hs.zero fun y hy hyi => ?_
          obtain ⟨m', hm'⟩ := List.mem_iff_getElem?.1 hy
          have : n = m' := hun n m' v.relay y.relay (by rw [List.getElem?_map, hv]; rfl)
            (by rw [List.getElem?_map, hm']; rfl) hxi hyi
          subst this; rw [hv] at hm'; cases hm'; exact hnone
        have hd : datas i (gots w.cli.trace) = [] := by
          have h1 : datas i (gots w.cli.trace) <+: datas i (accepted w.srv.trace) :=
            World.seen_client_datas hb.ends hf i
          have h2 : datas i (accepted w.srv.trace) <+: datas i (submissions w.srv.trace) :=
            World.server_datas hb.ends.srv i
          rw [no_data_back hb hf hh hs ho hfar hz] at h2
          rw [List.prefix_nil.1 h2] at h1
          exact List.prefix_nil.1 h1
        obtain ⟨u, e1, e2, _⟩ := hC w.cli (.work v.relay.id none)
        have hru : regCount i u = 0 := by
          have := e2.regs i
          rw [e1, Tunnel.gots_append', Tunnel.creates_append] at hc
          omega
        rw [e1]
        simp only [heads, if_pos hidle, hxi]
        refine ⟨w.cli.trace ++ (match Tunnel.lookup i w.cli.map with | some old => [.hangup old] | none => []),
          .queued false (.create i none) :: u, ?_, ?_, ?_⟩
        · cases Tunnel.lookup i w.cli.map <;> simp
        · rw [Tunnel.gots_append', Tunnel.datas_append, hd]
          cases Tunnel.lookup i w.cli.map <;> rfl
        · have : regCount i (.queued false (.create i none) :: u) = regCount i u := by simp [regCount]
          rw [this, hru]
      · cases hm
    · rename_i hnm
      have hx2 := List.mem_of_getElem? hm
      refine work_met hC (h x hx2 hxi k hk) hc fun hvi => ?_
      exact hnm (hun n m v.relay x.relay (by rw [List.getElem?_map, hv]; rfl)
            (by rw [List.getElem?_map, hm]; rfl) hvi hxi)
  | srv e => exact h
  | cli e => exact fun v hv hvi k hk => calm_met hC (World.loopStep_calm _ _ _) (h v hv hvi k hk) hc
  | otherS e => exact h
  | otherC e => exact fun v hv hvi k hk => calm_met hC (World.otherStep_calm _ _ _) (h v hv hvi k hk) hc
  | user n v e hv =>
    have hr := hb.users v (List.mem_of_getElem? hv)
    have hid := (relayStep_cases (Tunnel.clientStep cfg.client) false w.cli v.relay v.handle e hr).1.1
    intro x hx hxi k hk
    dsimp only at hx hc ⊢
    refine calm_met hC (World.relayStep_calm _ _ _ _ _ hr) ?_ hc
    rcases List.mem_or_eq_of_mem_set hx with hx | rfl
    · exact h x hx hxi k hk
    · exact h v (List.mem_of_getElem? hv) (hid ▸ hxi) k hk
  | start id k hc' => exact h
  | task n t e ht => exact h

theorem meets_run (cfg es i) (ho : Own i (run cfg es)) (hf : World.Fit (ends (run cfg es))) : Meets i (run cfg es) := by
  induction es using List.reverseRecOn with
  | nil => intro v hv; simp [run, init] at hv
  | append_singleton es e ih =>
    have hfar' := far_run cfg (es ++ [e]) i ho hf
    have hb' := base_run cfg (es ++ [e])
    rw [run_snoc] at ho hf hfar' hb' ⊢
    have hb := base_run cfg es
    have hm := step_move cfg (run cfg es) e
    exact meets_move hb hb' hf (guests_run cfg es) (hosts_run cfg es) (side_run cfg es i (ho.back hb hm)) hm ho
      (far_run cfg es i (ho.back hb hm) (fit_back hb hm hf)) hfar' (ih (ho.back hb hm) (fit_back hb hm hf))

end Wm.Chain
