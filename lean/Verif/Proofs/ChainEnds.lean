import Verif.Proofs.Chain
import Verif.Props.Ids
/-! The users of a client and the proxy of its server: ids, channels, and what each side receives. -/

namespace Wm.Tunnel
theorem work_nextId_client (cfg : Cfg) (s : St) (id d) (hc : s.phase = .running ∧ s.pending = none) :
    s.next < (clientStep cfg s (.work id d)).next := by
  obtain ⟨_, _, _, h, _⟩ := resume_grow (clientHandle_grow cfg) (enqueue (.create id d) (register id s))
  simp only [clientStep, step]
  rw [if_pos hc]
  have h2 : (enqueue (.create id d) (register id s)).next = s.next + 1 := by simp [enqueue, emit]
  rw [h2] at h
  exact h
end Wm.Tunnel

namespace Wm.Chain
open Wm Wm.Prot
open scoped List
open Wm.World (Cfg LoopEv RelayEv OtherEv loopStep relayStep otherStep submitted workCap IsRun Steps One Calm Sub Uniq
  steps_server steps_client map_set_same loopStep_one otherStep_one relayStep_one loopStep_received otherStep_received
  relayStep_received relayStep_own relayStep_cases)
open Wm.Tunnel (datas creates regCount openCount gots received submissions accepted relayed written arrived heads
  heads_received)

variable {T : Tunnel.St → Tunnel.Event → Tunnel.St}

/-! ### users -/

structure Guests (cfg : Cfg) (w : St) : Prop where
  works : ∀ n ∈ w.works, ∃ u, w.users[n]? = some u ∧ u.handle = none
  worksNodup : w.works.Nodup
  handle : ∀ u ∈ w.users, ∀ h, u.handle = some h → h < w.cli.next
  inj : ∀ (n m : Nat) (u u' : User) (h : Nat), w.users[n]? = some u → w.users[m]? = some u' →
    u.handle = some h → u'.handle = some h → n = m
  ids : ∀ (n : Nat) (u : User), w.users[n]? = some u → u.relay.id = (Tunnel.clientIds cfg.serverId).nth n
  recv : ∀ u ∈ w.users, ∀ h, u.handle = some h → received h w.cli.trace = Relay.gots u.relay.trace
  recvNone : ∀ u ∈ w.users, u.handle = none → Relay.gots u.relay.trace = []

theorem guests_init (cfg) : Guests cfg (init cfg) := by
  constructor <;> simp [init]

/-- a step that takes nothing from the users' channels -/
theorem Guests.cli {cfg w} (h : Guests cfg w) (w' : St) (hw : w'.works = w.works) (hv : w'.users = w.users)
    (hn : w.cli.next ≤ w'.cli.next)
    (hr : ∀ u ∈ w.users, ∀ h, u.handle = some h → received h w'.cli.trace = received h w.cli.trace) :
    Guests cfg w' := by
  obtain ⟨h1, h2, h3, h4, h5, h7, h8⟩ := h
  refine ⟨by rw [hw, hv]; exact h1, by rw [hw]; exact h2, ?_, by rw [hv]; exact h4, by rw [hv]; exact h5,
    ?_, by rw [hv]; exact h8⟩
  · rw [hv]; intro v hv k hk; have := h3 v hv k hk; omega
  · rw [hv]; intro v hv k hk; rw [hr v hv k hk]; exact h7 v hv k hk

theorem guests_move {cfg w w'} (hb : Base cfg w) (hm : Move cfg w w') (h : Guests cfg w) : Guests cfg w' := by
  have hC := steps_client cfg.client
  obtain ⟨h1, h2, h3, h4, h5, h7, h8⟩ := id h
  cases hm with
  | stay => exact h
  | accept ws hws =>
    have hnew : ∀ (m : Nat) (u : User), (w.users ++
        [(⟨Relay.init ((Tunnel.clientIds cfg.serverId).nth w.users.length), none⟩ : User)])[m]? = some u →
        w.users[m]? = some u ∨ m = w.users.length ∧
          u = ⟨Relay.init ((Tunnel.clientIds cfg.serverId).nth w.users.length), none⟩ := by
      intro m v hm
      rw [List.getElem?_append] at hm
      split at hm
      · exact .inl hm
      · right
        obtain ⟨hl, he⟩ := List.getElem?_eq_some_iff.1 hm
        simp at hl
        have : m = w.users.length := by omega
        subst this
        simp at he
        exact ⟨rfl, he.symm⟩
    refine ⟨?_, ?_, ?_, ?_, ?_, ?_, ?_⟩
    · intro n hn
      rcases List.mem_append.1 hn with hn | hn
      · obtain ⟨v, hv, hh⟩ := h1 n hn
        obtain ⟨hlt, _⟩ := List.getElem?_eq_some_iff.1 hv
        exact ⟨v, by rw [List.getElem?_append_left hlt]; exact hv, hh⟩
      · rcases hws with rfl | rfl
        · cases hn
        · simp at hn; subst hn
          exact ⟨⟨Relay.init ((Tunnel.clientIds cfg.serverId).nth w.users.length), none⟩, by simp, rfl⟩
    · rcases hws with rfl | rfl
      · simpa using h2
      · refine List.nodup_append.2 ⟨h2, by simp, ?_⟩
        intro a ha b hb
        obtain ⟨v, hv, _⟩ := h1 a ha
        obtain ⟨hlt, _⟩ := List.getElem?_eq_some_iff.1 hv
        simp at hb; subst hb; omega
    · intro v hv k hk
      rcases List.mem_append.1 hv with hv | hv
      · exact h3 v hv k hk
      · simp at hv; subst hv; cases hk
    · intro a b v v' k ha hb hv hv'
      rcases hnew a v ha with ha | ⟨_, ha⟩
      · rcases hnew b v' hb with hb | ⟨_, hb⟩
        · exact h4 a b v v' k ha hb hv hv'
        · rw [hb] at hv'; cases hv'
      · rw [ha] at hv; cases hv
    · intro n u hu
      rcases hnew n u hu with hu | ⟨rfl, rfl⟩
      · exact h5 n u hu
      · rfl
    · intro v hv k hk
      rcases List.mem_append.1 hv with hv | hv
      · exact h7 v hv k hk
      · simp at hv; subst hv; cases hk
    · intro v hv hk
      rcases List.mem_append.1 hv with hv | hv
      · exact h8 v hv hk
      · simp at hv; subst hv; rfl
  | work n rest v hw hv hi =>
    have hnone : v.handle = none := by
      obtain ⟨v', e1, e2⟩ := h1 n (by rw [hw]; simp)
      rw [hv] at e1; cases e1; exact e2
    have hn2 : n ∉ rest ∧ rest.Nodup := by rw [hw] at h2; simpa using h2
    have hfresh : received w.cli.next w.cli.trace = [] := (World.client_fresh hb.ends.cli (Nat.le_refl w.cli.next)).1
    have hrc : ∀ k, received k (Tunnel.clientStep cfg.client w.cli (.work v.relay.id none)).trace =
        received k w.cli.trace := fun k => hC.hreceived_same (by simp)
    have hnext : w.cli.next < (Tunnel.clientStep cfg.client w.cli (.work v.relay.id none)).next :=
      Tunnel.work_nextId_client cfg.client _ _ _ hi
    refine ⟨?_, hn2.2, ?_, ?_, ?_, ?_, ?_⟩
    · intro p hp
      obtain ⟨x, e1, e2⟩ := h1 p (by rw [hw]; simp [hp])
      have hne : n ≠ p := fun x => hn2.1 (x ▸ hp)
      exact ⟨x, by rw [List.getElem?_set_ne hne]; exact e1, e2⟩
    · intro x hx k hk
      rcases List.mem_or_eq_of_mem_set hx with hx | rfl
      · have := h3 x hx k hk; simp only; omega
      · simp only [Option.some.injEq] at hk; subst hk; exact hnext
    · intro a b x y k ha hb' hx hy
      rw [List.getElem?_set] at ha hb'
      have hlow : ∀ (m : Nat) (z : User), w.users[m]? = some z → z.handle = some w.cli.next → False := by
        intro m z hz hz'; have := h3 z (List.mem_of_getElem? hz) _ hz'; omega
      split at ha <;> split at hb'
      · omega
      · split at ha
        · cases ha; simp only [Option.some.injEq] at hx; subst hx; exact (hlow b y hb' hy).elim
        · cases ha
      · split at hb'
        · cases hb'; simp only [Option.some.injEq] at hy; subst hy; exact (hlow a x ha hx).elim
        · cases hb'
      · exact h4 a b x y k ha hb' hx hy
    · intro m x hx
      rw [List.getElem?_set] at hx
      split at hx
      · rename_i hm; subst hm
        split at hx
        · cases hx; exact h5 _ v hv
        · cases hx
      · exact h5 m x hx
    · intro x hx k hk
      rw [hrc]
      rcases List.mem_or_eq_of_mem_set hx with hx | rfl
      · exact h7 x hx k hk
      · simp only [Option.some.injEq] at hk; subst hk
        rw [hfresh, h8 v (List.mem_of_getElem? hv) hnone]
    · intro x hx hk
      rcases List.mem_or_eq_of_mem_set hx with hx | rfl
      · exact h8 x hx hk
      · cases hk
  | srv e => exact h.cli _ rfl rfl (Nat.le_refl _) (fun _ _ _ _ => rfl)
  | cli e => exact h.cli _ rfl rfl ((loopStep_one _ _ _).next hC) (fun _ _ k _ => loopStep_received hC _ _ _ k)
  | otherS e => exact h.cli _ rfl rfl (Nat.le_refl _) (fun _ _ _ _ => rfl)
  | otherC e =>
    refine h.cli _ rfl rfl ((otherStep_one _ _ _).next hC) (fun v hv k hk => otherStep_received hC _ _ _ ?_)
    exact List.mem_filterMap.2 ⟨v, hv, hk⟩
  | user n v e hv =>
    have hvm := List.mem_of_getElem? hv
    have hr := hb.users v hvm
    have hc := relayStep_cases (Tunnel.clientStep cfg.client) false w.cli v.relay v.handle e hr
    have hnext := (relayStep_one (T := Tunnel.clientStep cfg.client) false w.cli v.relay v.handle e hr).next hC
    have hold : ∀ (m : Nat) (z : User), (w.users.set n { v with
          relay := (relayStep (Tunnel.clientStep cfg.client) false w.cli v.relay v.handle e).2 })[m]? = some z →
        ∃ z', w.users[m]? = some z' ∧ z'.handle = z.handle ∧ z'.relay.id = z.relay.id := by
      intro m z hz
      rw [List.getElem?_set] at hz
      split at hz
      · rename_i hm; subst hm
        split at hz
        · cases hz; exact ⟨v, hv, rfl, hc.1.1.symm⟩
        · cases hz
      · exact ⟨z, hz, rfl, rfl⟩
    refine ⟨?_, h2, ?_, ?_, ?_, ?_, ?_⟩
    · intro p hp
      obtain ⟨x, e1, e2⟩ := h1 p hp
      by_cases hne : n = p
      · subst hne
        rw [hv] at e1; cases e1
        obtain ⟨hlt, _⟩ := List.getElem?_eq_some_iff.1 hv
        refine ⟨_, List.getElem?_set_self hlt, e2⟩
      · exact ⟨x, by rw [List.getElem?_set_ne hne]; exact e1, e2⟩
    · intro x hx k hk
      rcases List.mem_or_eq_of_mem_set hx with hx | rfl
      · have := h3 x hx k hk; simp only; omega
      · have := h3 v hvm k hk; simp only; omega
    · intro a b x y k ha hb' hx hy
      obtain ⟨x', ea, ex, _⟩ := hold a x ha
      obtain ⟨y', eb, ey, _⟩ := hold b y hb'
      exact h4 a b x' y' k ea eb (ex.trans hx) (ey.trans hy)
    · intro m x hx
      obtain ⟨x', ea, _, ex⟩ := hold m x hx
      rw [← ex]; exact h5 m x' ea
    · intro x hx k hk
      obtain ⟨m, hm⟩ := List.mem_iff_getElem?.1 hx
      rw [List.getElem?_set] at hm
      split at hm
      · split at hm
        · cases hm
          simp only at hk
          rw [hk]
          exact relayStep_own hC false w.cli v.relay k e hr (h7 v hvm k hk)
        · cases hm
      · rename_i hne
        rw [relayStep_received hC false w.cli v.relay v.handle e hr]
        · exact h7 x (List.mem_of_getElem? hm) k hk
        · intro hvk
          exact hne (h4 n m v x k hv hm hvk hk)
    · intro x hx hk
      rcases List.mem_or_eq_of_mem_set hx with hx | rfl
      · exact h8 x hx hk
      · simp only at hk ⊢
        rcases hc.2 with ⟨_, e2⟩ | ⟨j, f, q, e0, _⟩ | ⟨f, _, _, _, _, e2⟩ | ⟨j, e0, _⟩
        · rw [e2.2]; exact h8 v hvm hk
        · rw [hk] at e0; cases e0
        · rw [e2]; exact h8 v hvm hk
        · rw [hk] at e0; cases e0
  | start id k hc => exact h.cli _ rfl rfl (Nat.le_refl _) (fun _ _ _ _ => rfl)
  | task n t e ht => exact h.cli _ rfl rfl (Nat.le_refl _) (fun _ _ _ _ => rfl)

theorem both_run {cfg : Cfg} {P : St → Prop} (h0 : P (init cfg))
    (hs : ∀ w w', Base cfg w → Move cfg w w' → P w → P w') (es) : P (run cfg es) :=
  (run_of_move (P := fun w => Base cfg w ∧ P w) ⟨base_init cfg, h0⟩
    (fun w w' hm h => ⟨base_move hm h.1, hs w w' h.1 hm h.2⟩) es).2

theorem guests_run (cfg es) : Guests cfg (run cfg es) := both_run (guests_init cfg) (fun _ _ => guests_move) es

/-! ### the proxy's tasks -/

theorem proxied_append (a b) : proxied (a ++ b) = proxied a ++ proxied b := by simp [proxied]

theorem heads_proxied (s : Tunnel.St) (e) : proxied (heads s e) = [] := by
  cases e <;> simp only [heads]
  case submit f => split <;> simp [proxied]
  case take j =>
    split
    · simp [proxied]
    · split <;> simp [proxied]
  case dropRx h => split <;> simp [proxied]
  case work id d =>
    split
    · cases Tunnel.lookup id s.map <;> simp [proxied]
    · simp [proxied]
  case recv =>
    split
    · split <;> simp [proxied]
    · simp [proxied]
  case readEnd => split <;> simp [proxied]
  case read => split <;> simp [proxied]
  case wrote n =>
    split
    · split <;> simp [proxied]
    · simp [proxied]
  case writeErr => simp [proxied]

theorem one_proxied (hT : Steps T) {s s'} (ho : One T s s') : ∃ l, proxied s'.trace = proxied s.trace ++ l ∧
    ∀ p ∈ l, s.next ≤ p.2 := by
  rcases ho with rfl | ⟨e, rfl⟩
  · exact ⟨[], by simp, by simp⟩
  obtain ⟨u, e1, e2, _, e3⟩ := hT s e
  refine ⟨proxied u, by rw [e1, proxied_append, proxied_append, heads_proxied, List.append_nil], ?_⟩
  rintro ⟨i, h⟩ hp
  simp only [proxied, List.mem_filterMap] at hp
  obtain ⟨o, ho, ho2⟩ := hp
  cases o <;> try cases ho2
  rename_i how
  cases how <;> cases ho2
  exact e3 i h (e2.openReg _ _ _ ho)

theorem openCount_proxied (i : Nat) (t : List Tunnel.Obs) :
    ((proxied t).filter (fun p => p.1 == i)).length ≤ openCount i t := by
  induction t with
  | nil => simp [proxied]
  | cons o t ih =>
    have e1 : proxied (o :: t) = proxied [o] ++ proxied t := by rw [← proxied_append]; rfl
    have e2 : openCount i (o :: t) = openCount i [o] + openCount i t := by rw [← Tunnel.openCount_append]; rfl
    rw [e1, e2, List.filter_append, List.length_append]
    refine Nat.add_le_add ?_ ih
    cases o <;> try exact Nat.zero_le _
    rename_i j h how
    cases how with
    | connect _ => exact Nat.zero_le _
    | proxy a => by_cases hj : j = i <;> simp [proxied, openCount, hj]

theorem proxied_unique {i h h' : Nat} {t : List Tunnel.Obs} (ho : openCount i t ≤ 1) (h1 : (i, h) ∈ proxied t)
    (h2 : (i, h') ∈ proxied t) : h = h' := by
  by_cases he : h = h'
  · exact he
  · have := World.two_le_length (List.mem_filter.2 ⟨h1, by simp⟩ : (i, h) ∈ (proxied t).filter (fun p => p.1 == i))
      (List.mem_filter.2 ⟨h2, by simp⟩) (by simpa using he)
    have := openCount_proxied i t
    omega

theorem proxied_open {i h : Nat} {t : List Tunnel.Obs} (h1 : (i, h) ∈ proxied t) : 1 ≤ openCount i t := by
  have h2 : (i, h) ∈ (proxied t).filter (fun p => p.1 == i) := List.mem_filter.2 ⟨h1, by simp⟩
  have := openCount_proxied i t
  have := List.length_pos_of_mem h2
  omega

theorem server_fresh {cfg s} (h : ∃ es, s = Tunnel.serverRun cfg es) {k} (hk : s.next ≤ k) :
    received k s.trace = [] ∧ (s.chan k).rx = false := by
  obtain ⟨es, rfl⟩ := h
  have := (Tunnel.server_inv cfg es).1.1.1.fresh k hk
  exact ⟨(Tunnel.attempts_fresh this.2).2.2, this.1⟩

structure Hosts (w : St) : Prop where
  conn : ∀ t ∈ w.tasks, (t.io.id, t.chan) ∈ proxied w.srv.trace
  nodup : (w.tasks.map (·.chan)).Nodup
  recv : ∀ t ∈ w.tasks, received t.chan w.srv.trace = Virtual.arrivals t.io.trace
  waiting : ∀ p ∈ proxied w.srv.trace, p.2 ∉ w.tasks.map (·.chan) → received p.2 w.srv.trace = []
  opens : ∀ i, openCount i w.srv.trace ≤ creates i (gots w.srv.trace)

theorem hosts_init (cfg) : Hosts (init cfg) := by
  constructor <;> simp [init, Tunnel.serverInit, proxied, openCount]

theorem Hosts.quiet {cfg w} (hb : Base cfg w) (h : Hosts w) (w' : St) (hl : w'.tasks = w.tasks)
    (ho : One (Tunnel.serverStep cfg.server) w.srv w'.srv)
    (hr : ∀ k ∈ (proxied w.srv.trace).map (·.2), received k w'.srv.trace = received k w.srv.trace) : Hosts w' := by
  have hS := steps_server cfg.server
  obtain ⟨l, e1, e2⟩ := one_proxied hS ho
  refine ⟨?_, by rw [hl]; exact h.nodup, ?_, ?_, fun i => ?_⟩
  · rw [hl, e1]; intro x hx; exact List.mem_append.2 (.inl (h.conn x hx))
  · rw [hl]; intro x hx
    rw [hr x.chan (List.mem_map.2 ⟨_, h.conn x hx, rfl⟩)]; exact h.recv x hx
  · rw [hl, e1]
    intro p hp hn
    rcases List.mem_append.1 hp with hp | hp
    · rw [hr p.2 (List.mem_map.2 ⟨_, hp, rfl⟩)]; exact h.waiting p hp hn
    · exact ho.fresh hS (server_fresh hb.ends.srv (e2 p hp))
  · rcases ho with e | ⟨e, he⟩
    · rw [e]; exact h.opens i
    · rw [he]; exact hS.hopens i _ _ (h.opens i)

theorem hosts_move {cfg w w'} (hb : Base cfg w) (hm : Move cfg w w') (h : Hosts w) : Hosts w' := by
  have hS := steps_server cfg.server
  have keep : ∀ w' : St, w'.tasks = w.tasks → w'.srv = w.srv → Hosts w' := by
    intro w' h1 h2
    exact ⟨by rw [h1, h2]; exact h.conn, by rw [h1]; exact h.nodup, by rw [h1, h2]; exact h.recv,
      by rw [h1, h2]; exact h.waiting, by rw [h2]; exact h.opens⟩
  cases hm with
  | stay => exact h
  | accept ws _ => exact keep _ rfl rfl
  | work n rest u hw hu hi => exact keep _ rfl rfl
  | srv e => exact h.quiet hb _ rfl (loopStep_one _ _ _) (fun k _ => loopStep_received hS _ _ _ k)
  | cli e => exact keep _ rfl rfl
  | otherS e => exact h.quiet hb _ rfl (otherStep_one _ _ _) (fun k hk => otherStep_received hS _ _ _ hk)
  | otherC e => exact keep _ rfl rfl
  | user n u e hu => exact keep _ rfl rfl
  | start id k hc =>
    refine ⟨?_, ?_, ?_, ?_, h.opens⟩
    · intro l hl
      rcases List.mem_append.1 hl with hl | hl
      · exact h.conn l hl
      · simp at hl; subst hl; exact hc.1
    · rw [List.map_append]
      refine List.nodup_append.2 ⟨h.nodup, by simp, ?_⟩
      intro a ha b hb e
      simp at hb; subst hb; subst e; exact hc.2 ha
    · intro l hl
      rcases List.mem_append.1 hl with hl | hl
      · exact h.recv l hl
      · simp at hl; subst hl; exact h.waiting (id, k) hc.1 hc.2
    · intro p hp hn
      exact h.waiting p hp (fun hm => hn (by rw [List.map_append]; exact List.mem_append.2 (.inl hm)))
  | task n l e hl =>
    have hr := hb.tasks l (List.mem_of_getElem? hl)
    have ho := calm_one (taskStep_calm (T := Tunnel.serverStep cfg.server) w.srv l.io l.chan e hr)
    obtain ⟨cs, e1, e2⟩ := one_proxied hS ho
    have hid := (taskStep_cases (T := Tunnel.serverStep cfg.server) w.srv l.io l.chan e hr).1.1
    have hm := map_set_same (·.chan) (b := ({ l with
        io := (taskStep (Tunnel.serverStep cfg.server) w.srv l.io l.chan e).2, gone := e = .drop } : Task)) hl rfl
    refine ⟨?_, ?_, ?_, ?_, fun i => ?_⟩
    · intro x hx
      dsimp only at hx ⊢
      rw [e1]
      refine List.mem_append.2 (.inl ?_)
      rcases List.mem_or_eq_of_mem_set hx with hx | rfl
      · exact h.conn x hx
      · dsimp only; rw [hid]; exact h.conn l (List.mem_of_getElem? hl)
    · dsimp only at hm ⊢; rw [hm]; exact h.nodup
    · intro x hx
      dsimp only at hx ⊢
      obtain ⟨m, hx'⟩ := List.mem_iff_getElem?.1 hx
      rw [List.getElem?_set] at hx'
      split at hx'
      · split at hx'
        · cases hx'
          exact taskStep_own hS w.srv l.io l.chan e hr (h.recv l (List.mem_of_getElem? hl))
        · cases hx'
      · rename_i hnm
        have hx2 := List.mem_of_getElem? hx'
        rw [taskStep_received hS _ _ _ _ hr]
        · exact h.recv x hx2
        · intro heq
          have g1 : (w.tasks.map (·.chan))[n]? = some l.chan := by rw [List.getElem?_map, hl]; rfl
          have g2 : (w.tasks.map (·.chan))[m]? = some x.chan := by rw [List.getElem?_map, hx']; rfl
          obtain ⟨l1, f1⟩ := List.getElem?_eq_some_iff.1 g1
          obtain ⟨l2, f2⟩ := List.getElem?_eq_some_iff.1 g2
          exact hnm ((h.nodup.getElem_inj_iff).1 (by rw [f1, f2, heq]))
    · intro p hp hn
      dsimp only at hm hp hn ⊢
      rw [hm] at hn
      rw [e1] at hp
      rcases List.mem_append.1 hp with hp | hp
      · rw [taskStep_received hS _ _ _ _ hr]
        · exact h.waiting p hp hn
        · intro heq
          exact hn (List.mem_map.2 ⟨l, List.mem_of_getElem? hl, heq⟩)
      · exact ho.fresh hS (server_fresh hb.ends.srv (e2 p hp))
    · dsimp only
      rcases ho with e | ⟨e, he⟩
      · rw [e]; exact h.opens i
      · rw [he]; exact hS.hopens i _ _ (h.opens i)

theorem hosts_run (cfg es) : Hosts (run cfg es) := both_run (hosts_init cfg) (fun _ _ => hosts_move) es

/-- every stream of the server was registered by an open request -/
theorem just_run (cfg es) : World.Just (run cfg es).srv.trace := by
  have hS := steps_server cfg.server
  refine both_run (cfg := cfg) (P := fun w => World.Just w.srv.trace)
    ⟨by simp [init, Tunnel.serverInit, regCount], by simp [init, Tunnel.serverInit], by simp [init, Tunnel.serverInit]⟩
    (fun w w' hb hm ih => ?_) es
  cases hm with
  | stay => exact ih
  | accept ws _ => exact ih
  | work n rest u hw hu hi => exact ih
  | srv e => exact ih.calm hS (World.loopStep_calm _ _ _)
  | cli e => exact ih
  | otherS e => exact ih.calm hS (World.otherStep_calm _ _ _)
  | otherC e => exact ih
  | user n u e hu => exact ih
  | start id k hc => exact ih
  | task n t e ht => exact ih.calm hS (taskStep_calm _ _ _ _ (hb.tasks t (List.mem_of_getElem? ht)))

end Wm.Chain
