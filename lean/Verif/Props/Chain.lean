import Verif.Proofs.ChainClose
import Verif.Props.World
import Verif.Props.WorldClose
import Verif.Props.Virtual
/-!
Properties C127, C128: users of a client whose connections are served by the proxy of the server above it. The bytes the
proxy reads are bytes the user sent, the bytes written to the user are bytes the proxy wrote (C127); when one side ends,
the other is told (C128).
-/
namespace Wm.Chain
open Wm Wm.Prot
open scoped List
open Wm.Relay (inputs outputs)
open Wm.World (Cfg IsRun payload_datas relay_io relay_all flatten_prefix flatten_sublist data_asReceived close_asReceived
  creates_asReceived relay_got_close Delivered AnnouncedAll server_mine client_mine relayed_accepted Settled)
open Wm.Tunnel (datas creates regCount openCount gots received submissions accepted Announced)

/-! ### What is required of the environment -/

/-- Every message handed to a tunnel end can be written (C01, C03, C06), and ids have not begun to repeat (C05). -/
structure Normal (w : St) : Prop where
  fits : ∀ f ∈ accepted w.srv.trace ++ accepted w.cli.trace, Fits f
  users : w.users.length ≤ 2 ^ 31

/-- no other task sends messages under the id `i` -/
def Free (i : Nat) (w : St) : Prop := ∀ f ∈ w.otherS ++ w.otherC, f.sockMap ≠ i

/-! ### Proof -/

theorem Normal.fit {w} (h : Normal w) : World.Fit (ends w) :=
  ⟨fun f hf => h.fits f (List.mem_append.2 (.inl hf)), fun f hf => h.fits f (List.mem_append.2 (.inr hf))⟩

theorem Free.own {i w} (h : Free i w) (hn : Normal w) : Own i w :=
  ⟨fun f hf => h f (by simp [hf]), fun f hf => h f (by simp [hf]), hn.users⟩

theorem payload_same : Virtual.payload = Relay.payload := by
  funext f; cases f <;> rfl

/-- what is known of the stream of a task -/
theorem task_stream {cfg es} (hn : Normal (run cfg es)) {t} (ht : t ∈ (run cfg es).tasks)
    (hfree : Free t.io.id (run cfg es)) :
    (∃ u ∈ (run cfg es).users, u.relay.id = t.io.id) ∧ .reg t.io.id t.chan ∈ (run cfg es).srv.trace ∧
    (Virtual.arrivals t.io.trace).flatMap Virtual.payload =
      (datas t.io.id (received t.chan (run cfg es).srv.trace)).flatten := by
  have hb := base_run cfg es
  have hf := hn.fit
  have ho := hfree.own hn
  have hh := hosts_run cfg es
  have hs := side_run cfg es t.io.id ho
  have hj := just_run cfg es
  generalize run cfg es = w at *
  have c1 := hh.conn t ht
  have c2 := proxied_open c1
  have c3 := hh.opens t.io.id
  have c4 : creates t.io.id (gots w.srv.trace) ≤ creates t.io.id (accepted w.cli.trace) :=
    World.seen_server_creates hb.ends hf t.io.id
  have hreg : .reg t.io.id t.chan ∈ w.srv.trace := by
    obtain ⟨o, ho1, ho2⟩ := List.mem_filterMap.1 c1
    cases o with
    | opened i h how =>
      cases how <;> simp at ho2
      obtain ⟨rfl, rfl⟩ := ho2
      exact hj.opened _ _ _ ho1
    | _ => simp at ho2
  refine ⟨?_, hreg, ?_⟩
  · apply Classical.byContradiction
    intro hno
    have := hs.zero fun v hv hvi => absurd ⟨v, hv, hvi⟩ hno
    omega
  · rw [hh.recv t ht, payload_same]
    refine payload_datas fun f hfm => ?_
    rw [← hh.recv t ht] at hfm
    obtain ⟨es', he⟩ : ∃ es, w.srv = Tunnel.serverRun cfg.server es := hb.ends.srv
    rw [he] at hreg hfm
    have h1 := Tunnel.C12_server_own_id cfg.server es' t.chan f hfm
    have h2 := ((Tunnel.server_inv cfg.server es').2.1.regs _ _ hreg).1
    rw [h1] at h2
    exact Option.some.inj h2

/-- the data seen by the server under a user's id is what its relay sent -/
theorem user_sends {cfg es} (hn : Normal (run cfg es)) {u} (hu : u ∈ (run cfg es).users)
    (hfree : Free u.relay.id (run cfg es)) :
    (datas u.relay.id (gots (run cfg es).srv.trace)).flatten <+: inputs u.relay.trace := by
  have hb := base_run cfg es
  have hs := side_run cfg es u.relay.id (hfree.own hn)
  have h1 : datas u.relay.id (gots (run cfg es).srv.trace) <+: datas u.relay.id (accepted (run cfg es).cli.trace) :=
    World.seen_server_datas hb.ends hn.fit u.relay.id
  have h2 : datas u.relay.id (accepted (run cfg es).cli.trace) <+: datas u.relay.id (submissions (run cfg es).cli.trace) :=
    World.client_datas hb.ends.cli u.relay.id
  rw [hs.sub.of u.relay (List.mem_map.2 ⟨u, hu, rfl⟩) rfl] at h2
  exact (flatten_prefix (h1.trans h2)).trans (relay_io (hb.users u hu)).1

/-- **C127**, partial (to the proxy): every task of the proxy belongs to a user of the client, and the bytes the task
    reads are bytes that this user sent, in their order. Nothing comes from another user. Missing: that nothing is left
    out, see `C127_overtaken_fails`. -/
theorem C127_up_partial (cfg : Cfg) (es : List Event) (hn : Normal (run cfg es)) (t) (ht : t ∈ (run cfg es).tasks)
    (hfree : Free t.io.id (run cfg es)) :
    ∃ u ∈ (run cfg es).users, u.relay.id = t.io.id ∧ Virtual.returns t.io.trace <+ inputs u.relay.trace := by
  obtain ⟨⟨u, hu, hui⟩, _, hd⟩ := task_stream hn ht hfree
  refine ⟨u, hu, hui, ?_⟩
  have hb := base_run cfg es
  obtain ⟨vs, hv⟩ := hb.tasks t ht
  have h1 := Virtual.C22_reads_in_order t.io.id vs
  rw [← hv, hd] at h1
  refine h1.sublist.trans (List.Sublist.trans ?_ (user_sends hn hu (hui ▸ hfree)).sublist)
  rw [hui]
  refine flatten_sublist ?_
  obtain ⟨es', he⟩ : ∃ x, (run cfg es).srv = Tunnel.serverRun cfg.server x := hb.ends.srv
  rw [he]
  have h2 := Tunnel.received_sub_due (Tunnel.server_inv cfg.server es').1.1.1 t.chan
  exact (h2.filterMap _).trans (Tunnel.datas_dueFrom_sub _ _ _ _ [])

/-- The registration of a task's stream: nothing of the stream's messages came before (of those of which the client wrote
    none before the open request), and none replaces it. -/
theorem task_reg {cfg es} (hn : Normal (run cfg es)) {t} (ht : t ∈ (run cfg es).tasks)
    (hfree : Free t.io.id (run cfg es)) (f : Frame) (hff : ∀ y, asReceived y = f → y = f)
    (hfc : ∀ d, f ≠ .create t.io.id d)
    (ha : ∀ pre post, accepted (run cfg es).cli.trace = pre ++ f :: post → ∃ d, .create t.io.id d ∈ pre) :
    ∃ t1 rest, (run cfg es).srv.trace = t1 ++ .reg t.io.id t.chan :: rest ∧ regCount t.io.id rest = 0 ∧ f ∉ gots t1 := by
  obtain ⟨_, hreg, _⟩ := task_stream hn ht hfree
  have hb := base_run cfg es
  have hf := hn.fit
  have hs := side_run cfg es t.io.id (hfree.own hn)
  have hj := just_run cfg es
  have hseen : gots (run cfg es).srv.trace <+: (accepted (run cfg es).cli.trace).map asReceived :=
    World.seen_server hb.ends hf
  have hle : creates t.io.id (gots (run cfg es).srv.trace) ≤ creates t.io.id (accepted (run cfg es).cli.trace) :=
    World.seen_server_creates hb.ends hf t.io.id
  generalize run cfg es = w at *
  generalize t.io.id = i at *
  obtain ⟨a, b, hab⟩ := List.append_of_mem hreg
  obtain ⟨a', d, pre, e1, e2⟩ := hj.just a b i t.chan hab
  have hone := hs.one
  have hcr := hj.regs i
  refine ⟨a, b, hab, ?_, ?_⟩
  · rw [hab, Tunnel.regCount_append] at hcr
    have : regCount i (Tunnel.Obs.reg i t.chan :: b) = regCount i b + 1 := by simp [regCount]
    rw [← hab] at hcr
    omega
  · intro hx
    rw [e1, Tunnel.gots_append', Tunnel.gots_cons, e2, List.append_nil, List.mem_append] at hx
    have hfm : f ∈ gots a' := by
      rcases hx with hx | hx
      · exact hx
      · simp [gots] at hx; exact absurd hx (hfc d)
    obtain ⟨p, q, hpq⟩ := List.append_of_mem hfm
    have hg : gots w.srv.trace = p ++ f :: (q ++ .create i d :: gots b) := by
      rw [hab, e1, Tunnel.gots_append', Tunnel.gots_append', Tunnel.gots_cons, e2, hpq, Tunnel.gots_cons (.reg _ _)]
      simp [gots]
    obtain ⟨z, hz⟩ := hseen
    rw [hg] at hz
    obtain ⟨A, R, hAR, hA, hR⟩ := List.map_eq_append_iff.1 (hz.symm.trans (List.append_assoc _ _ _))
    rw [List.cons_append] at hR
    obtain ⟨y, R', rfl, hy, hR'⟩ := List.map_eq_cons_iff.1 hR
    have hyd : y = f := hff y hy
    rw [hyd] at hAR
    obtain ⟨x, hx⟩ := ha A R' hAR
    have c1 : 1 ≤ creates i A := List.countP_pos_iff.2 ⟨_, hx, by simp⟩
    have c2 : 1 ≤ creates i R' := by
      rw [← creates_asReceived, hR', List.append_assoc, Tunnel.creates_append]
      have : 1 ≤ creates i (Frame.create i d :: gots b ++ z) := List.countP_pos_iff.2 ⟨_, List.mem_cons_self, by simp⟩
      exact Nat.le_add_left_of_le this
    rw [hAR, Tunnel.creates_append] at hone
    have : creates i R' ≤ creates i (f :: R') := List.Sublist.countP_le (List.sublist_cons_self _ _)
    omega

theorem task_met {cfg es} (hn : Normal (run cfg es)) {t} (ht : t ∈ (run cfg es).tasks)
    (hfree : Free t.io.id (run cfg es)) (ha : Announced t.io.id (accepted (run cfg es).cli.trace)) :
    World.Met t.io.id t.chan (run cfg es).srv.trace := by
  obtain ⟨_, hreg, _⟩ := task_stream hn ht hfree
  have h := fun d => task_reg hn ht hfree (.data t.io.id d) (fun y => data_asReceived) (by simp)
    (fun pre post e => ha pre d post e)
  generalize run cfg es = w at *
  obtain ⟨a, b, hab, h1, _⟩ := h []
  refine ⟨a, b, hab, ?_, h1⟩
  cases hd : datas t.io.id (gots a) with
  | nil => rfl
  | cons x xs =>
    exfalso
    have hx : x ∈ datas t.io.id (gots a) := by rw [hd]; simp
    obtain ⟨f, hfm, hfx⟩ := List.mem_filterMap.1 hx
    have hfd : f = .data t.io.id x := by
      cases f <;> simp at hfx
      obtain ⟨h1, rfl⟩ := hfx
      rw [h1]
    subst hfd
    obtain ⟨a2, b2, hab2, h2, h3⟩ := h x
    -- the registration is the same one
    have hc : ∀ {a b a' b' : List Tunnel.Obs}, a ++ Tunnel.Obs.reg t.io.id t.chan :: b = a' ++ .reg t.io.id t.chan :: b' →
        regCount t.io.id b = 0 → regCount t.io.id b' = 0 → a = a' := by
      intro a b a' b' e hb hb'
      rcases List.append_eq_append_iff.1 e with ⟨c, rfl, h2⟩ | ⟨c, rfl, h2⟩
      · cases c with
        | nil => simp
        | cons o c =>
          have h3 : b = c ++ Tunnel.Obs.reg t.io.id t.chan :: b' := (List.cons.inj h2).2
          rw [h3, Tunnel.regCount_append] at hb
          simp [regCount] at hb
      · cases c with
        | nil => simp
        | cons o c =>
          have h3 : b' = c ++ Tunnel.Obs.reg t.io.id t.chan :: b := (List.cons.inj h2).2
          rw [h3, Tunnel.regCount_append] at hb'
          simp [regCount] at hb'
    exact h3 (hc (hab.symm.trans hab2) h1 h2 ▸ hfm)

/-- **C127**, partial (to the proxy, exactly): the bytes a task of the proxy reads are exactly the first bytes its user
    sent, if the client wrote the stream's open request before the stream's data. Missing: that it does, see
    `C127_overtaken_fails`. -/
theorem C127_up_exact_partial (cfg : Cfg) (es : List Event) (hn : Normal (run cfg es)) (t) (ht : t ∈ (run cfg es).tasks)
    (hfree : Free t.io.id (run cfg es)) (ha : Announced t.io.id (accepted (run cfg es).cli.trace)) :
    ∃ u ∈ (run cfg es).users, u.relay.id = t.io.id ∧ Virtual.returns t.io.trace <+: inputs u.relay.trace := by
  obtain ⟨⟨u, hu, hui⟩, _, hd⟩ := task_stream hn ht hfree
  refine ⟨u, hu, hui, ?_⟩
  obtain ⟨t1, rest, hr, h1, h2⟩ := task_met hn ht hfree ha
  have hb := base_run cfg es
  obtain ⟨vs, hv⟩ := hb.tasks t ht
  have h3 := Virtual.C22_reads_in_order t.io.id vs
  rw [← hv, hd] at h3
  refine h3.trans (List.IsPrefix.trans ?_ (user_sends hn hu (hui ▸ hfree)))
  rw [hui]
  refine flatten_prefix ?_
  obtain ⟨es', he⟩ : ∃ x, (run cfg es).srv = Tunnel.serverRun cfg.server x := hb.ends.srv
  rw [he] at hr ⊢
  exact Tunnel.server_data_prefix cfg.server es' t.io.id t.chan t1 rest hr h1 h2

/-- what a user's relay was given is what came for it -/
theorem user_got {cfg es} (hn : Normal (run cfg es)) {u} (hu : u ∈ (run cfg es).users)
    (hfree : Free u.relay.id (run cfg es)) {k} (hk : u.handle = some k) :
    (Relay.gots u.relay.trace).flatMap Relay.payload =
      (datas u.relay.id (received k (run cfg es).cli.trace)).flatten := by
  have hb := base_run cfg es
  have hg := guests_run cfg es
  have hmeet := meets_run cfg es u.relay.id (hfree.own hn) hn.fit
  generalize run cfg es = w at *
  have hrecv := hg.recv u hu k hk
  obtain ⟨t1, rest, ht, _, _⟩ := hmeet u hu rfl k hk
  rw [hrecv]
  refine payload_datas fun f hfm => ?_
  rw [← hrecv] at hfm
  obtain ⟨es', he⟩ : ∃ es, w.cli = Tunnel.clientRun cfg.client [] es := hb.ends.cli
  have hreg : Tunnel.Obs.reg u.relay.id k ∈ w.cli.trace := by rw [ht]; simp
  rw [he] at hreg hfm
  have h1 := Tunnel.C12_client_own_id cfg.client [] es' k f hfm
  have h2 := ((Tunnel.client_inv cfg.client [] es').2.1.regs _ _ hreg).1
  rw [h1] at h2
  exact Option.some.inj h2

/-- the data seen by the client under a user's id is what the proxy's task sent, or nothing if there is no task -/
theorem task_sends {cfg es} (hn : Normal (run cfg es)) {i} (hfree : Free i (run cfg es)) :
    (∃ t ∈ (run cfg es).tasks, t.io.id = i ∧
      datas i (gots (run cfg es).cli.trace) <+: datas i (Virtual.sends t.io.trace)) ∨
    datas i (gots (run cfg es).cli.trace) = [] := by
  have hb := base_run cfg es
  have hown := hfree.own hn
  have hfar := far_run cfg es i hown hn.fit
  have h1 : datas i (gots (run cfg es).cli.trace) <+: datas i (accepted (run cfg es).srv.trace) :=
    World.seen_client_datas hb.ends hn.fit i
  have h2 : datas i (accepted (run cfg es).srv.trace) <+: datas i (submissions (run cfg es).srv.trace) :=
    World.server_datas hb.ends.srv i
  generalize run cfg es = w at *
  by_cases hl : ∃ t ∈ w.tasks, t.io.id = i
  · obtain ⟨t, ht, hti⟩ := hl
    rw [hfar.sub.of t.io (List.mem_map.2 ⟨t, ht, rfl⟩) hti] at h2
    exact .inl ⟨t, ht, hti, h1.trans h2⟩
  · right
    have hz : datas i (submissions w.srv.trace) = [] := by
      refine hfar.sub.none hown.server ?_ ?_
      · intro r hr; obtain ⟨x, hx, rfl⟩ := List.mem_map.1 hr; exact hb.tasks x hx
      · intro r hr hri; obtain ⟨x, hx, rfl⟩ := List.mem_map.1 hr; exact hl ⟨x, hx, hri⟩
    rw [hz] at h2
    rw [List.prefix_nil.1 h2] at h1
    exact List.prefix_nil.1 h1

theorem virtual_sends {v : Virtual.St} (h : IsRunV v) :
    (datas v.id (Virtual.sends v.trace)).flatten <+: Virtual.offers v.trace ∧
    (.writeWait ∉ v.trace → (datas v.id (Virtual.sends v.trace)).flatten = Virtual.accepts v.trace) := by
  obtain ⟨es, he⟩ := h
  obtain ⟨h1, _, h3, h4⟩ := Virtual.run_winv v.id es
  rw [← he] at h1 h3 h4
  rw [← payload_datas h3, ← payload_same]
  refine ⟨h1 ▸ List.prefix_append _ _, fun hw => ?_⟩
  obtain ⟨h5, h6⟩ := h4 hw
  rw [h5, List.append_nil] at h1
  rw [h1, h6]

/-- **C127**, partial (to the user): the bytes written to a user are bytes that the proxy's task of its stream offered for
    writing, in their order; nothing comes from another stream. Missing: that none is left out, see
    `C127_slow_user_fails`, and that none is repeated, see `C127_repeated_fails`. -/
theorem C127_down_partial (cfg : Cfg) (es : List Event) (hn : Normal (run cfg es)) (u) (hu : u ∈ (run cfg es).users)
    (hfree : Free u.relay.id (run cfg es)) :
    outputs u.relay.trace = [] ∨
    ∃ t ∈ (run cfg es).tasks, t.io.id = u.relay.id ∧ outputs u.relay.trace <+ Virtual.offers t.io.trace := by
  have hb := base_run cfg es
  have hio := (relay_io (hb.users u hu)).2
  cases hh : u.handle with
  | none =>
    rw [(guests_run cfg es).recvNone u hu hh] at hio
    exact .inl (List.prefix_nil.1 hio)
  | some k =>
    rw [user_got hn hu hfree hh] at hio
    have h3 : datas u.relay.id (received k (run cfg es).cli.trace) <+ datas u.relay.id (gots (run cfg es).cli.trace) := by
      obtain ⟨es', he⟩ : ∃ x, (run cfg es).cli = Tunnel.clientRun cfg.client [] x := hb.ends.cli
      rw [he]
      have h2 := Tunnel.received_sub_due (Tunnel.client_inv cfg.client [] es').1.1 k
      exact (h2.filterMap _).trans (Tunnel.datas_dueFrom_sub _ _ _ _ [])
    rcases task_sends hn hfree with ⟨t, ht, hti, h4⟩ | h4
    · refine .inr ⟨t, ht, hti, ?_⟩
      have h5 := (virtual_sends (hb.tasks t ht)).1
      rw [hti] at h5
      exact (hio.sublist.trans (flatten_sublist (h3.trans h4.sublist))).trans h5.sublist
    · left
      rw [h4, List.sublist_nil] at h3
      rw [h3] at hio
      exact List.prefix_nil.1 hio

/-- **C127**, partial (to the user, exactly): the bytes written to a user are exactly the first bytes the proxy's task
    wrote, if no write of the task had to wait, and no message was discarded at the client because the stream's channel
    was full. Missing: that this is so, see `C127_repeated_fails` and `C127_slow_user_fails`. -/
theorem C127_down_exact_partial (cfg : Cfg) (es : List Event) (hn : Normal (run cfg es)) (u) (hu : u ∈ (run cfg es).users)
    (hfree : Free u.relay.id (run cfg es))
    (ho : ∀ h d, .overflow h (.data u.relay.id d) ∉ (run cfg es).cli.trace)
    (hw : ∀ t ∈ (run cfg es).tasks, t.io.id = u.relay.id → .writeWait ∉ t.io.trace) :
    outputs u.relay.trace = [] ∨
    ∃ t ∈ (run cfg es).tasks, t.io.id = u.relay.id ∧ outputs u.relay.trace <+: Virtual.accepts t.io.trace := by
  have hb := base_run cfg es
  have hio := (relay_io (hb.users u hu)).2
  have hmeet := meets_run cfg es u.relay.id (hfree.own hn) hn.fit
  cases hh : u.handle with
  | none =>
    rw [(guests_run cfg es).recvNone u hu hh] at hio
    exact .inl (List.prefix_nil.1 hio)
  | some k =>
    rw [user_got hn hu hfree hh] at hio
    obtain ⟨t1, rest, ht, h1, h2⟩ := hmeet u hu rfl k hh
    have h3 : datas u.relay.id (received k (run cfg es).cli.trace) <+: datas u.relay.id (gots (run cfg es).cli.trace) := by
      obtain ⟨es', he⟩ : ∃ x, (run cfg es).cli = Tunnel.clientRun cfg.client [] x := hb.ends.cli
      rw [he] at ht ho ⊢
      exact Tunnel.client_data_prefix cfg.client [] es' u.relay.id k t1 rest ht h1 h2 (ho k)
    rcases task_sends hn hfree with ⟨t, ht, hti, h4⟩ | h4
    · refine .inr ⟨t, ht, hti, ?_⟩
      have h5 := (virtual_sends (hb.tasks t ht)).2 (hw t ht hti)
      rw [hti] at h5
      rw [← h5]
      exact hio.trans (flatten_prefix (h3.trans h4))
    · left
      rw [h4] at h3
      rw [List.prefix_nil.1 h3] at hio
      exact List.prefix_nil.1 hio

/-- **C127**, partial (to the proxy, nothing is lost): once nothing is under way from a user to its task of the proxy, the
    task has read all the bytes the user sent, if the client wrote the stream's open request first. -/
theorem C127_up_all_partial (cfg : Cfg) (es : List Event) (hn : Normal (run cfg es)) (t) (ht : t ∈ (run cfg es).tasks)
    (hfree : Free t.io.id (run cfg es)) (ha : Announced t.io.id (accepted (run cfg es).cli.trace))
    (u) (hu : u ∈ (run cfg es).users) (hui : u.relay.id = t.io.id)
    (hsend : u.relay.read = [] ∧ u.relay.link = [])
    (hset : Delivered (run cfg es).cli (run cfg es).up (run cfg es).srv t.chan)
    (hrecv : t.io.inbox = [] ∧ t.io.read = []) :
    Virtual.returns t.io.trace = inputs u.relay.trace := by
  obtain ⟨_, _, hd⟩ := task_stream hn ht hfree
  obtain ⟨t1, rest, hr, h1, h2⟩ := task_met hn ht hfree ha
  have hb := base_run cfg es
  have hf := hn.fit
  have hs := side_run cfg es u.relay.id ((hui ▸ hfree : Free u.relay.id (run cfg es)).own hn)
  generalize run cfg es = w at *
  obtain ⟨vs, hv⟩ := hb.tasks t ht
  obtain ⟨c, hc⟩ := Virtual.run_rinv t.io.id vs
  rw [← hv] at hc
  have e0 : Virtual.returns t.io.trace = (Virtual.arrivals t.io.trace).flatMap Virtual.payload := by
    have h3 := hc.1
    have h4 := hc.2
    rw [hrecv.1, List.append_nil] at h3
    rw [hrecv.2, List.append_nil] at h4
    rw [h3, h4]
  rw [e0, hd, ← (relay_all (hb.users u hu)).1 hsend, ← hs.sub.of u.relay (List.mem_map.2 ⟨u, hu, rfl⟩) rfl]
  have e1 : datas t.io.id (received t.chan w.srv.trace) = datas t.io.id (gots w.srv.trace) := by
    obtain ⟨es', he⟩ : ∃ x, w.srv = Tunnel.serverRun cfg.server x := hb.ends.srv
    have hw := hset.working
    have hc := hset.channel
    rw [he] at hr hw hc ⊢
    exact Tunnel.server_data_all cfg.server es' t.io.id t.chan t1 rest hr h1 h2 hw hc.1 hc.2
  have e2 := World.client_outq hb.ends.cli
  have e4 : datas t.io.id (gots w.srv.trace) = datas t.io.id (accepted w.cli.trace) :=
    World.seen_all_server hb.ends hf hset.network hset.outgoing.2 hset.working t.io.id
  have e5 : datas t.io.id (accepted w.cli.trace) = datas t.io.id (Tunnel.relayed w.cli.trace) :=
    World.client_datas_eq hb.ends.cli t.io.id
  have e6 : w.cli.outq = [] := hset.outgoing.1
  have e7 : Tunnel.relayed w.cli.trace ++ w.cli.outq = submissions w.cli.trace := e2
  rw [e6, List.append_nil] at e7
  rw [e1, e4, e5, e7, hui]

/-- **C127**, partial (to the user, nothing is lost): once nothing is under way from a task of the proxy to its user, the
    user has been given all the bytes the task wrote, with the provisos of `C127_down_exact_partial`. -/
theorem C127_down_all_partial (cfg : Cfg) (es : List Event) (hn : Normal (run cfg es)) (u) (hu : u ∈ (run cfg es).users)
    (hfree : Free u.relay.id (run cfg es))
    (t) (ht : t ∈ (run cfg es).tasks) (hti : t.io.id = u.relay.id) (hw : .writeWait ∉ t.io.trace)
    (k) (hk : u.handle = some k) (ho : ∀ d, .overflow k (.data u.relay.id d) ∉ (run cfg es).cli.trace)
    (hset : Delivered (run cfg es).srv (run cfg es).down (run cfg es).cli k)
    (hrecv : u.relay.write = []) :
    outputs u.relay.trace = Virtual.accepts t.io.trace := by
  have hb := base_run cfg es
  have hf := hn.fit
  have hown := hfree.own hn
  have hfar := far_run cfg es u.relay.id hown hf
  have hgot := user_got hn hu hfree hk
  obtain ⟨t1, rest, hr, h1, h2⟩ := meets_run cfg es u.relay.id hown hf u hu rfl k hk
  generalize run cfg es = w at *
  have h5 := (virtual_sends (hb.tasks t ht)).2 hw
  rw [(relay_all (hb.users u hu)).2 hrecv, hgot, ← h5, hti, ← hfar.sub.of t.io (List.mem_map.2 ⟨t, ht, rfl⟩) hti]
  have e1 : datas u.relay.id (received k w.cli.trace) = datas u.relay.id (gots w.cli.trace) := by
    obtain ⟨es', he⟩ : ∃ x, w.cli = Tunnel.clientRun cfg.client [] x := hb.ends.cli
    have hwk := hset.working
    have hc := hset.channel
    rw [he] at hr hwk hc ho ⊢
    exact Tunnel.client_data_all cfg.client [] es' u.relay.id k t1 rest hr h1 h2 ho hwk hc.1 hc.2
  have e4 : datas u.relay.id (gots w.cli.trace) = datas u.relay.id (accepted w.srv.trace) :=
    World.seen_all_client hb.ends hf hset.network hset.outgoing.2 hset.working u.relay.id
  have e5 : datas u.relay.id (accepted w.srv.trace) = datas u.relay.id (Tunnel.relayed w.srv.trace) :=
    World.server_datas_eq hb.ends.srv u.relay.id
  have e7 : Tunnel.relayed w.srv.trace ++ w.srv.outq = submissions w.srv.trace := World.server_outq hb.ends.srv
  have e6 : w.srv.outq = [] := hset.outgoing.1
  rw [e6, List.append_nil] at e7
  rw [e1, e4, e5, e7]

/-! ## C128 -/

/-- **C128** fails: whatever the proxy's task of a user's stream does, be it that it leaves because the target closed its
    connection, the user's connection is never told the end of the stream, as long as the tunnel lives. -/
theorem C128_never_told_fails (cfg : Cfg) (es : List Event) (hn : Normal (run cfg es)) (u) (hu : u ∈ (run cfg es).users)
    (hfree : Free u.relay.id (run cfg es)) (hr : (run cfg es).cli.phase = .running) (x) :
    .close u.relay.id x ∉ Relay.gots u.relay.trace := by
  intro hc
  have hb := base_run cfg es
  have hf := hn.fit
  have hg := guests_run cfg es
  have hown := hfree.own hn
  have hid := user_id hg hu
  have hfar := far_run cfg es u.relay.id hown hf
  generalize run cfg es = w at *
  have hgot : .close u.relay.id x ∈ gots w.cli.trace := by
    cases hh : u.handle with
    | none => rw [hg.recvNone u hu hh] at hc; cases hc
    | some k =>
      rw [← hg.recv u hu k hh] at hc
      obtain ⟨es', he⟩ : ∃ x, w.cli = Tunnel.clientRun cfg.client [] x := hb.ends.cli
      rw [he] at hc hr ⊢
      have h1 := (Tunnel.received_sub_due (Tunnel.client_inv cfg.client [] es').1.1 k).subset hc
      rcases Tunnel.mem_due h1 with ⟨p, q, hpq, _⟩ | ⟨p, q, _, hpq, _⟩
      · rw [hpq, Tunnel.gots_append', Tunnel.gots_cons]; simp [gots]
      · exact absurd (by rw [hpq]; simp) (Tunnel.client_whole cfg.client [] es' hr)
  have hacc : .close u.relay.id x ∈ accepted w.srv.trace := by
    have hs : gots w.cli.trace <+: (accepted w.srv.trace).map asReceived := World.seen_client hb.ends hf
    obtain ⟨y, hy, hy2⟩ := List.mem_map.1 (hs.subset hgot)
    rw [← close_asReceived hy2]; exact hy
  rcases server_mine hb.ends.srv _ hacc with h1 | h1 | ⟨j, d, h1⟩
  · obtain ⟨d, hd⟩ := hfar.sub.kind hown.server
      (by intro r hr; obtain ⟨y, hy, rfl⟩ := List.mem_map.1 hr; exact hb.tasks y hy) _ h1 rfl
    cases hd
  · exact absurd h1 hid
  · cases h1

/-- **C128**, partial (from the user to the proxy): once a user's connection has ended and nothing is under way to its
    task of the proxy, the end of the stream has been put before the task, if the client wrote the stream's open request
    before everything else of the stream. Missing: that it does; the opposite direction, see `C128_never_told_fails`. -/
theorem C128_up_partial (cfg : Cfg) (es : List Event) (hn : Normal (run cfg es)) (t) (ht : t ∈ (run cfg es).tasks)
    (hfree : Free t.io.id (run cfg es)) (u) (hu : u ∈ (run cfg es).users) (hui : u.relay.id = t.io.id)
    (hend : u.relay.phase = .done) (ha : AnnouncedAll t.io.id (accepted (run cfg es).cli.trace))
    (hset : Delivered (run cfg es).cli (run cfg es).up (run cfg es).srv t.chan) :
    .close t.io.id [] ∈ Virtual.arrivals t.io.trace := by
  obtain ⟨t1, rest, htr, h2, h3⟩ := task_reg hn ht hfree (.close t.io.id []) (fun y => close_asReceived) (by simp)
    (by
      intro pre post e
      rcases ha pre _ post e rfl with ⟨d, hd⟩ | h
      · cases hd
      · exact h)
  have hb := base_run cfg es
  have hf := hn.fit
  have h1 := (handed_run cfg es).close (List.mem_map.2 ⟨u, hu, rfl⟩) (hb.users u hu) hend hset.sending
  have hh := hosts_run cfg es
  rw [hui] at h1
  generalize run cfg es = w at *
  rw [← hh.recv t ht]
  have hq : Tunnel.relayed w.cli.trace ++ w.cli.outq = submissions w.cli.trace := World.client_outq hb.ends.cli
  rw [hset.outgoing.1, List.append_nil] at hq
  rw [← hq] at h1
  have hgot : .close t.io.id [] ∈ gots w.srv.trace := by
    have e : gots w.srv.trace = (accepted w.cli.trace).map asReceived :=
      World.seen_each_server hb.ends hf hset.network hset.outgoing.2 hset.working
    rw [e]
    exact List.mem_map.2 ⟨_, relayed_accepted h1, rfl⟩
  obtain ⟨es', he⟩ : ∃ x, w.srv = Tunnel.serverRun cfg.server x := hb.ends.srv
  have hw := hset.working
  have hch := hset.channel
  rw [he] at htr hw hch hgot ⊢
  exact Tunnel.server_mem_all cfg.server es' (.close t.io.id []) t.chan t1 rest (.inr ⟨_, _, rfl⟩) htr
    h3 h2 hw hch.1 hch.2 hgot

/-- **C128**, partial (nothing else ends a stream): the proxy's task is told the end of its stream only if the user's
    connection has ended, or the tunnel itself has. -/
theorem C128_up_only_partial (cfg : Cfg) (es : List Event) (hn : Normal (run cfg es)) (t) (ht : t ∈ (run cfg es).tasks)
    (hfree : Free t.io.id (run cfg es)) (x) (hc : .close t.io.id x ∈ Virtual.arrivals t.io.trace) :
    (∃ u ∈ (run cfg es).users, u.relay.id = t.io.id ∧ u.relay.phase = .done) ∨ (run cfg es).srv.phase ≠ .running := by
  by_cases hr : (run cfg es).srv.phase = .running
  case neg => exact .inr hr
  left
  have hb := base_run cfg es
  have hf := hn.fit
  have hown := hfree.own hn
  obtain ⟨⟨u, hu, hui⟩, _⟩ := task_stream hn ht hfree
  have hid := user_id (guests_run cfg es) hu
  rw [hui] at hid
  have hcs := (causes_run cfg es t.io.id hown).client
  have hno := (far_run cfg es t.io.id hown hf).noCreate
  have hh := hosts_run cfg es
  generalize run cfg es = w at *
  have hle : creates t.io.id (gots w.cli.trace) ≤ creates t.io.id (accepted w.srv.trace) :=
    World.seen_client_creates hb.ends hf t.io.id
  have hgot : .close t.io.id x ∈ gots w.srv.trace := by
    rw [← hh.recv t ht] at hc
    obtain ⟨es', he⟩ : ∃ x, w.srv = Tunnel.serverRun cfg.server x := hb.ends.srv
    rw [he] at hc hr ⊢
    have h1 := (Tunnel.received_sub_due (Tunnel.server_inv cfg.server es').1.1.1 t.chan).subset hc
    rcases Tunnel.mem_due h1 with ⟨p, q, hpq, _⟩ | ⟨p, q, _, hpq, _⟩
    · rw [hpq, Tunnel.gots_append', Tunnel.gots_cons]; simp [gots]
    · exact absurd (by rw [hpq]; simp) (Tunnel.server_whole cfg.server es' hr)
  have hacc : .close t.io.id x ∈ accepted w.cli.trace := by
    have hs : gots w.srv.trace <+: (accepted w.cli.trace).map asReceived := World.seen_server hb.ends hf
    obtain ⟨y, hy, hy2⟩ := List.mem_map.1 (hs.subset hgot)
    rw [← close_asReceived hy2]; exact hy
  rcases client_mine hb.ends.cli _ hacc with h1 | h1 | ⟨j, d, h1⟩
  · rcases hcs x h1 with ⟨r, hr1, h2, h3⟩ | h2
    · obtain ⟨v, hv, rfl⟩ := List.mem_map.1 hr1
      exact ⟨v, hv, h2, h3⟩
    · omega
  · exact absurd h1 hid
  · cases h1

/-! ### Examples and counterexamples -/

/-- no login, no mappings -/
def plain : Cfg := ⟨⟨none, none, []⟩, ⟨none, none, []⟩, 0⟩

/-- a user comes; the stream is opened up to the proxy -/
def opening : List Event := [.work, .cli (.wrote 1000), .srv (.read 1000), .start 1 0]
/-- a message of the user is brought to the server -/
def bring : List Event := [.user 0 .slot, .cli .recv, .cli (.wrote 1000), .srv (.read 1000)]
/-- a message of the proxy is brought to the client -/
def back : List Event := [.srv .recv, .srv (.wrote 1000), .cli (.read 1000)]
/-- and to the user -/
def hand : List Event := [.user 0 .recv, .user 0 (.wrote 10)]
/-- "hi" to the proxy, "ok" back -/
def talk : List Event := [.accept] ++ opening ++ [.user 0 (.read [104, 105])] ++ bring ++
  [.task 0 (.read 10), .task 0 (.write [111, 107])] ++ back ++ hand

/-- short messages that fit -/
def Small : Frame → Bool
  | .create i none => i < 1000
  | .data i d => i < 1000 && d.length < 1000
  | .close i [] => i < 1000
  | _ => false

theorem Small.fits {f : Frame} (h : Small f = true) : Fits f := by
  have hid : ∀ i, i < 1000 → IdFits i := fun i hi => ⟨by omega, by omega⟩
  cases f with
  | create i d =>
    cases d <;> simp [Small] at h
    exact ⟨by simp [BodyFits], hid i h⟩
  | data i d =>
    simp [Small] at h
    exact ⟨by simp only [BodyFits]; omega, hid i h.1⟩
  | close i r =>
    cases r <;> simp [Small] at h
    exact ⟨by simp [BodyFits, Short, utf8], hid i h⟩
  | _ => simp [Small] at h

theorem normal_of {w : St} (h : (accepted w.srv.trace ++ accepted w.cli.trace).all Small = true)
    (hu : w.users.length ≤ 2 ^ 31) : Normal w :=
  ⟨fun f hf => Small.fits (List.all_eq_true.1 h f hf), hu⟩

theorem free_of {w : St} (i) (h : (w.otherS ++ w.otherC).all (fun f => f.sockMap != i) = true) : Free i w := by
  intro f hf; simpa using List.all_eq_true.1 h f hf

/-- both directions, nothing under way: everything required of `C127` is met -/
example : let w := run plain talk
    Normal w ∧ Free 1 w ∧
    w.users.map (fun u => (u.relay.id, u.handle, inputs u.relay.trace, outputs u.relay.trace)) =
      [(1, some 0, [104, 105], [111, 107])] ∧
    (∀ u ∈ w.users, u.relay.read = [] ∧ u.relay.link = [] ∧ u.relay.write = []) ∧
    w.tasks.map (fun t => (t.io.id, t.chan, Virtual.returns t.io.trace, Virtual.accepts t.io.trace)) =
      [(1, 0, [104, 105], [111, 107])] ∧
    (∀ t ∈ w.tasks, t.io.inbox = [] ∧ t.io.read = []) ∧
    accepted w.cli.trace = [.create 1 none, .data 1 [104, 105]] ∧
    (∀ t ∈ w.tasks, .writeWait ∉ t.io.trace) ∧
    (w.cli.trace.all fun | .overflow _ _ => false | _ => true) = true ∧
    Delivered w.cli w.up w.srv 0 ∧ Delivered w.srv w.down w.cli 0 := by
  refine ⟨normal_of ?_ ?_, free_of _ ?_, ?_, ?_, ?_, ?_, ?_, ?_, ?_, ⟨?_, ?_, ?_, ?_, ?_⟩, ⟨?_, ?_, ?_, ?_, ?_⟩⟩ <;> decide +kernel

/-- such lists of messages are as required -/
example : Announced 1 [.create 1 none, .data 1 [104, 105]] ∧
    AnnouncedAll 1 [.create 1 none, .data 1 [104, 105], .close 1 []] := by
  constructor
  · intro pre d post h
    match pre, h with
    | [], h => cases (List.cons.inj h).1
    | x :: pre, h => exact ⟨_, by rw [← (List.cons.inj h).1]; exact List.mem_cons_self⟩
  · intro pre f post h _
    match pre, h with
    | [], h => exact .inl ⟨_, (List.cons.inj h).1.symm⟩
    | x :: pre, h => exact .inr ⟨_, by rw [← (List.cons.inj h).1]; exact List.mem_cons_self⟩

/-- **C127** fails when the user's first bytes overtake the open request (C92): they never reach the proxy, which is given
    the rest as if nothing were missing. Here 1, 2 is sent and only 2 is read. -/
theorem C127_overtaken_fails :
    let w := run plain ([.accept, .user 0 (.read [1])] ++ bring ++ opening ++ [.user 0 (.read [2])] ++ bring ++
      [.task 0 (.read 10)])
    Normal w ∧ Free 1 w ∧ w.users.map (fun u => (u.relay.id, inputs u.relay.trace)) = [(1, [1, 2])] ∧
    w.tasks.map (fun t => (t.io.id, Virtual.returns t.io.trace)) = [(1, [2])] ∧
    w.srv.phase = .running ∧ w.cli.phase = .running := by
  refine ⟨normal_of ?_ ?_, free_of _ ?_, ?_, ?_, ?_, ?_⟩ <;> decide +kernel

/-- **C127** fails when the user is slow (C14): the eleventh message arrives at the client while ten wait, it is dropped, and
    the user is given the messages before and after it. Here the proxy writes 0 .. 11, and 10 is missing. -/
theorem C127_slow_user_fails :
    let w := run plain ([.accept] ++ opening ++
      (List.range 11).flatMap (fun n => Event.task 0 (.write [UInt8.ofNat n]) :: back) ++ hand ++
      Event.task 0 (.write [11]) :: back ++ (List.range 10).flatMap (fun _ => hand))
    Normal w ∧ Free 1 w ∧
    w.users.map (fun u => (u.relay.id, outputs u.relay.trace)) = [(1, [0, 1, 2, 3, 4, 5, 6, 7, 8, 9, 11])] ∧
    w.tasks.map (fun t => (t.io.id, Virtual.accepts t.io.trace)) = [(1, [0, 1, 2, 3, 4, 5, 6, 7, 8, 9, 10, 11])] ∧
    w.srv.phase = .running ∧ w.cli.phase = .running := by
  refine ⟨normal_of ?_ ?_, free_of _ ?_, ?_, ?_, ?_, ?_⟩ <;> decide +kernel

/-- **C127** fails when the server is busy (C23): a write of the proxy finds the outgoing channel full with the messages of
    other streams and has to be repeated, and the user is given the bytes twice. The proxy writes 7 once; the user is
    given 7, 7. -/
theorem C127_repeated_fails :
    let w := run plain ([.accept] ++ opening ++ List.replicate 100 (.otherS (.submit (.data 3 []))) ++
      [.task 0 (.write [7]), .srv .recv, .task 0 (.write [7])] ++ List.replicate 100 (.srv .recv) ++
      [.srv (.wrote 10000), .cli (.read 10000)] ++ hand)
    Normal w ∧ Free 1 w ∧ w.users.map (fun u => (u.relay.id, outputs u.relay.trace)) = [(1, [7, 7])] ∧
    w.tasks.map (fun t => (t.io.id, Virtual.accepts t.io.trace)) = [(1, [7])] ∧
    w.srv.phase = .running ∧ w.cli.phase = .running := by
  refine ⟨normal_of ?_ ?_, free_of _ ?_, ?_, ?_, ?_, ?_⟩ <;> decide +kernel

/-- the user ends its connection; the notice is brought to the server -/
def userEnds : List Event := .user 0 .readEnd :: bring

/-- the user ends its connection, and the proxy's task is told -/
example : let w := run plain (talk ++ userEnds ++ [.task 0 (.read 10)])
    Normal w ∧ Free 1 w ∧ w.users.map (fun u => (u.relay.id, u.relay.phase)) = [(1, .done)] ∧
    w.tasks.map (fun t => (t.io.id, t.chan, Virtual.arrivals t.io.trace)) = [(1, 0, [.data 1 [104, 105], .close 1 []])] ∧
    (∀ t ∈ w.tasks, .eof ∈ t.io.trace) ∧
    accepted w.cli.trace = [.create 1 none, .data 1 [104, 105], .close 1 []] ∧ Delivered w.cli w.up w.srv 0 := by
  refine ⟨normal_of ?_ ?_, free_of _ ?_, ?_, ?_, ?_, ?_, ⟨?_, ?_, ?_, ?_, ?_⟩⟩ <;> decide +kernel

/-- **C128** fails: the proxy's task of a user has ended, nothing is under way, both tunnel ends are at work, and the user's
    connection stays open. -/
theorem C128_left_open_fails :
    let w := run plain (talk ++ [.task 0 .drop] ++ back ++ hand)
    Normal w ∧ Free 1 w ∧ w.tasks.map (fun t => (t.io.id, t.gone)) = [(1, true)] ∧
    w.users.map (fun u => (u.relay.id, u.handle, u.relay.phase)) = [(1, some 0, .running)] ∧
    Delivered w.srv w.down w.cli 0 := by
  refine ⟨normal_of ?_ ?_, free_of _ ?_, ?_, ?_, ⟨?_, ?_, ?_, ?_, ?_⟩⟩ <;> decide +kernel

/-- **C128** fails when the notice that the user has gone overtakes the open request (C92): the proxy is started for a user
    who has left, and is never told. -/
theorem C128_overtaken_fails :
    let w := run plain ([.accept] ++ userEnds ++ opening ++ [.task 0 (.read 10)])
    Normal w ∧ Free 1 w ∧ w.users.map (fun u => (u.relay.id, u.relay.phase)) = [(1, .done)] ∧
    w.tasks.map (fun t => (t.io.id, t.chan, t.gone, t.io.trace)) = [(1, 0, false, [.readWait])] ∧
    Delivered w.cli w.up w.srv 0 := by
  refine ⟨normal_of ?_ ?_, free_of _ ?_, ?_, ?_, ⟨?_, ?_, ?_, ?_, ?_⟩⟩ <;> decide +kernel

end Wm.Chain
