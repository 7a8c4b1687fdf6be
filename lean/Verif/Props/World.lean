import Verif.Proofs.WorldAsk
/-!
Properties C104, C105: the tunnel end to end. The bytes written to a local service are bytes its visitor sent, the
bytes written to a visitor are bytes its local service sent (C104); the local service is that of the mapping of the
listener's mode (C105).
-/
namespace Wm.World
open Wm Wm.Prot
open scoped List
open Wm.Relay (inputs outputs)
open Wm.Tunnel (datas creates regCount openCount gots received submissions accepted Announced)

/-! ### What is required of the environment -/

/-- What is required of the configuration, of the other tasks, and of the number of visitors, so that every message can
    be written at all (C01, C03, C06): the server's id is a `u32`; login and mappings of the client fit into messages;
    other tasks only submit messages that fit; fewer than 2²³ visitors have come. -/
structure Normal (cfg : Cfg) (w : St) : Prop where
  serverId : cfg.serverId < 2 ^ 32
  introduction : ∀ f ∈ Tunnel.introduction cfg.client, Fits f
  others : ∀ f ∈ w.otherS ++ w.otherC, Fits f
  used : w.used < 2 ^ 23

/-- no other task sends messages under the id `i` (ids handed out are distinct: C06) -/
def Free (i : Nat) (w : St) : Prop := ∀ f ∈ w.otherS ++ w.otherC, f.sockMap ≠ i

/-- Nothing is under way from the connection of relay `a` through the tunnel end `s`, the bytes `net` on the connection,
    and the other end `t`, which is at work, to the connection of relay `b` with channel `k`. -/
structure Settled (a : Relay.St) (s : Tunnel.St) (net : Bytes) (t : Tunnel.St) (k : Nat) (b : Relay.St) : Prop where
  sender : a.read = [] ∧ a.link = []
  outgoing : s.outq = [] ∧ s.writeBuf = []
  network : net = []
  working : t.phase = .running ∧ t.readyShutdown = false ∧ t.pending = none
  channel : (t.chan k).rx = true ∧ (t.chan k).q = []
  receiver : b.write = []

/-! ### Proof -/

theorem Normal.fit {cfg es} (h : Normal cfg (run cfg es)) : Fit (run cfg es) :=
  (allFit_run cfg es h.serverId h.introduction ⟨fun f hf => h.others f (by simp [hf]),
    fun f hf => h.others f (by simp [hf]), h.used⟩).fit

theorem Free.own {cfg i es} (h : Free i (run cfg es)) (hn : Normal cfg (run cfg es)) : Own i (run cfg es) :=
  ⟨fun f hf => h f (by simp [hf]), fun f hf => h f (by simp [hf]), by have := hn.used; omega⟩

/-- the data of a list of messages of one stream -/
theorem payload_datas {i : Nat} {fs : List Frame} (h : ∀ f ∈ fs, f.sockMap = i) :
    fs.flatMap Relay.payload = (datas i fs).flatten := by
  induction fs with
  | nil => rfl
  | cons f fs ih =>
    have e : datas i (f :: fs) = datas i [f] ++ datas i fs := by rw [← Tunnel.datas_append]; rfl
    rw [e, List.flatten_append, ← ih fun g hg => h g (List.mem_cons_of_mem _ hg), List.flatMap_cons]
    congr 1
    have := h f (by simp)
    cases f <;> simp_all [datas, Relay.payload, Frame.sockMap]

theorem relay_io {r : Relay.St} (h : IsRun r) :
    (datas r.id (Relay.sends r.trace)).flatten <+: inputs r.trace ∧
    outputs r.trace <+: (Relay.gots r.trace).flatMap Relay.payload := by
  have h2 := sends_id h
  obtain ⟨es, he⟩ := h
  have h3 := Relay.C19_bytes_preserved r.id es
  rw [← he] at h3
  rw [← payload_datas h2]
  exact ⟨h3.1, h3.2.1⟩

theorem flatten_prefix {a b : List Bytes} (h : a <+: b) : a.flatten <+: b.flatten := by
  obtain ⟨c, rfl⟩ := h; rw [List.flatten_append]; exact List.prefix_append _ _

theorem flatten_sublist {a b : List Bytes} (h : a <+ b) : a.flatten <+ b.flatten := by
  induction h with
  | slnil => exact List.Sublist.refl _
  | cons x _ ih => rw [List.flatten_cons]; exact ih.trans (List.sublist_append_right _ _)
  | cons_cons x _ ih => rw [List.flatten_cons, List.flatten_cons]; exact (List.Sublist.refl x).append ih

/-- what is known of the stream of a local connection -/
theorem local_stream {cfg es} (hn : Normal cfg (run cfg es)) {l} (hl : l ∈ (run cfg es).locals)
    (hfree : Free l.1.id (run cfg es)) :
    (∃ v ∈ (run cfg es).visitors, v.relay.id = l.1.id) ∧ .reg l.1.id l.2 ∈ (run cfg es).cli.trace ∧
    (Relay.gots l.1.trace).flatMap Relay.payload = (datas l.1.id (received l.2 (run cfg es).cli.trace)).flatten := by
  have hb := base_run cfg es
  have hf := hn.fit
  have ho := hfree.own hn
  have hh := hosts_run cfg es
  have hs := side_run cfg es l.1.id ho
  have hj := just_run cfg es
  generalize run cfg es = w at *
  have c1 := hh.conn l hl
  have c2 := connects_open c1
  have c3 := hh.opens l.1.id
  have c4 := seen_client_creates hb hf l.1.id
  have hreg : .reg l.1.id l.2 ∈ w.cli.trace := by
    obtain ⟨o, ho1, ho2⟩ := List.mem_filterMap.1 c1
    cases o with
    | opened i h how =>
      cases how <;> simp at ho2
      obtain ⟨rfl, rfl⟩ := ho2
      exact hj.opened _ _ _ ho1
    | _ => simp at ho2
  refine ⟨?_, hreg, ?_⟩
  · apply Classical.byContradiction
    intro hno
    have := hs.zero fun v hv hvi => absurd ⟨v, hv, hvi⟩ hno
    omega
  · rw [hh.recv l hl]
    refine payload_datas fun f hfm => ?_
    rw [← hh.recv l hl] at hfm
    obtain ⟨es', he⟩ := hb.cli
    rw [he] at hreg hfm
    have h1 := Tunnel.C12_client_own_id cfg.client [] es' l.2 f hfm
    have h2 := ((Tunnel.client_inv cfg.client [] es').2.1.regs _ _ hreg).1
    rw [h1] at h2
    exact Option.some.inj h2

/-- the data submitted under a visitor's id is what its relay sent -/
theorem visitor_sends {cfg es} (hn : Normal cfg (run cfg es)) {v} (hv : v ∈ (run cfg es).visitors)
    (hfree : Free v.relay.id (run cfg es)) :
    (datas v.relay.id (gots (run cfg es).cli.trace)).flatten <+: inputs v.relay.trace := by
  have hb := base_run cfg es
  have hs := side_run cfg es v.relay.id (hfree.own hn)
  have h1 := seen_client_datas hb hn.fit v.relay.id
  have h2 := server_datas hb.srv v.relay.id
  rw [hs.sub.of v.relay (List.mem_map.2 ⟨v, hv, rfl⟩) rfl] at h2
  exact (flatten_prefix (h1.trans h2)).trans (relay_io (hb.visitors v hv)).1

/-- **C104** (to the local service): every local connection belongs to a visitor of the server, and the bytes written
    to the local service are bytes that this visitor sent, in their order. Nothing comes from another visitor. -/
theorem C104_up_partial (cfg : Cfg) (es : List Event) (hn : Normal cfg (run cfg es)) (l) (hl : l ∈ (run cfg es).locals)
    (hfree : Free l.1.id (run cfg es)) :
    ∃ v ∈ (run cfg es).visitors, v.relay.id = l.1.id ∧ outputs l.1.trace <+ inputs v.relay.trace := by
  obtain ⟨⟨v, hv, hvi⟩, _, hd⟩ := local_stream hn hl hfree
  refine ⟨v, hv, hvi, ?_⟩
  have hb := base_run cfg es
  have h1 := (relay_io (hb.locals l hl)).2
  rw [hd] at h1
  refine h1.sublist.trans (List.Sublist.trans ?_ (visitor_sends hn hv (hvi ▸ hfree)).sublist)
  rw [hvi]
  refine flatten_sublist ?_
  obtain ⟨es', he⟩ := hb.cli
  rw [he]
  have h2 := Tunnel.received_sub_due (Tunnel.client_inv cfg.client [] es').1.1 l.2
  exact (h2.filterMap _).trans (Tunnel.datas_dueFrom_sub _ _ _ _ [])

theorem data_asReceived {y : Frame} {i d} (h : asReceived y = .data i d) : y = .data i d := by
  cases y with
  | create j x =>
    cases x with
    | none => simp [asReceived] at h
    | some t => cases t <;> simp [asReceived] at h
  | data j x => exact h
  | _ => simp [asReceived] at h

/-- the registration of a local connection's stream: no data came before, and none replaces it -/
theorem local_met {cfg es} (hn : Normal cfg (run cfg es)) {l} (hl : l ∈ (run cfg es).locals)
    (hfree : Free l.1.id (run cfg es)) (ha : Announced l.1.id (accepted (run cfg es).srv.trace)) :
    Met l.1.id l.2 (run cfg es).cli.trace := by
  obtain ⟨_, hreg, _⟩ := local_stream hn hl hfree
  have hb := base_run cfg es
  have hf := hn.fit
  have hs := side_run cfg es l.1.id (hfree.own hn)
  have hj := just_run cfg es
  have hseen := seen_client hb hf
  have hle := seen_client_creates hb hf l.1.id
  generalize run cfg es = w at *
  generalize l.1.id = i at *
  obtain ⟨a, b, hab⟩ := List.append_of_mem hreg
  obtain ⟨a', d, pre, e1, e2⟩ := hj.just a b i l.2 hab
  have hone := hs.one
  have hcr := hj.regs i
  refine ⟨a, b, hab, ?_, ?_⟩
  · -- data before the registration would stand between two open requests
    rw [e1, Tunnel.gots_append', Tunnel.gots_cons, e2, List.append_nil, Tunnel.datas_append]
    have e3 : datas i (gots a') = [] := by
      cases hd : datas i (gots a') with
      | nil => rfl
      | cons x xs =>
        exfalso
        have hx : x ∈ datas i (gots a') := by rw [hd]; simp
        obtain ⟨f, hfm, hfx⟩ := List.mem_filterMap.1 hx
        have hfd : f = .data i x := by
          cases f <;> simp at hfx
          obtain ⟨rfl, rfl⟩ := hfx
          rfl
        subst hfd
        obtain ⟨p, q, hpq⟩ := List.append_of_mem hfm
        -- the messages looked at so far
        have hg : gots w.cli.trace = p ++ .data i x :: (q ++ .create i d :: gots b) := by
          rw [hab, e1, Tunnel.gots_append', Tunnel.gots_append', Tunnel.gots_cons, e2, hpq, Tunnel.gots_cons (.reg _ _)]
          simp [gots]
        obtain ⟨z, hz⟩ := hseen
        rw [hg] at hz
        obtain ⟨A, R, hAR, hA, hR⟩ := List.map_eq_append_iff.1 (hz.symm.trans (List.append_assoc _ _ _))
        rw [List.cons_append] at hR
        obtain ⟨y, R', rfl, hy, hR'⟩ := List.map_eq_cons_iff.1 hR
        have hyd : y = .data i x := data_asReceived hy
        rw [hyd] at hAR
        obtain ⟨t, ht⟩ := ha A _ R' hAR
        have c1 : 1 ≤ creates i A := List.countP_pos_iff.2 ⟨_, ht, by simp⟩
        have c2 : 1 ≤ creates i R' := by
          rw [← creates_asReceived, hR', List.append_assoc, Tunnel.creates_append]
          have : 1 ≤ creates i (Frame.create i d :: gots b ++ z) := List.countP_pos_iff.2 ⟨_, List.mem_cons_self, by simp⟩
          exact Nat.le_add_left_of_le this
        rw [hAR, Tunnel.creates_append] at hone
        have : creates i R' ≤ creates i (Frame.data i x :: R') := List.Sublist.countP_le (List.sublist_cons_self _ _)
        omega
    rw [e3]; rfl
  · rw [hab, Tunnel.regCount_append] at hcr
    have : regCount i (Tunnel.Obs.reg i l.2 :: b) = regCount i b + 1 := by simp [regCount]
    rw [← hab] at hcr
    omega

/-- **C104** (to the local service, exactly): the bytes written to the local service are exactly the first bytes the
    visitor sent, if the server wrote the stream's open request before the stream's data, and if no data was discarded
    at the client because the stream's channel was full. (Neither is assured: C92, C14.) -/
theorem C104_up_exact_partial (cfg : Cfg) (es : List Event) (hn : Normal cfg (run cfg es)) (l)
    (hl : l ∈ (run cfg es).locals) (hfree : Free l.1.id (run cfg es))
    (ha : Announced l.1.id (accepted (run cfg es).srv.trace))
    (ho : ∀ d, .overflow l.2 (.data l.1.id d) ∉ (run cfg es).cli.trace) :
    ∃ v ∈ (run cfg es).visitors, v.relay.id = l.1.id ∧ outputs l.1.trace <+: inputs v.relay.trace := by
  obtain ⟨⟨v, hv, hvi⟩, _, hd⟩ := local_stream hn hl hfree
  refine ⟨v, hv, hvi, ?_⟩
  obtain ⟨t1, rest, ht, h1, h2⟩ := local_met hn hl hfree ha
  have hb := base_run cfg es
  have h3 := (relay_io (hb.locals l hl)).2
  rw [hd] at h3
  refine h3.trans (List.IsPrefix.trans ?_ (visitor_sends hn hv (hvi ▸ hfree)))
  rw [hvi]
  refine flatten_prefix ?_
  obtain ⟨es', he⟩ := hb.cli
  rw [he] at ht ho ⊢
  exact Tunnel.client_data_prefix cfg.client [] es' l.1.id l.2 t1 rest ht h1 h2 ho

/-- **C104** (to the visitor): whatever was written to a visitor are exactly the first bytes that the local service of
    its stream sent. -/
theorem C104_down (cfg : Cfg) (es : List Event) (hn : Normal cfg (run cfg es)) (v)
    (hv : v ∈ (run cfg es).visitors) (hfree : Free v.relay.id (run cfg es)) :
    outputs v.relay.trace = [] ∨
    ∃ l ∈ (run cfg es).locals, l.1.id = v.relay.id ∧ outputs v.relay.trace <+: inputs l.1.trace := by
  have hb := base_run cfg es
  have hf := hn.fit
  have hg := guests_run cfg es
  have hown := hfree.own hn
  have hmeet := meets_run cfg es v.relay.id hown hf
  have hfar := far_run cfg es v.relay.id hown hf
  generalize run cfg es = w at *
  have hio := (relay_io (hb.visitors v hv)).2
  cases hh : v.handle with
  | none =>
    rw [hg.recvNone v hv hh] at hio
    exact .inl (List.prefix_nil.1 hio)
  | some k =>
    have hrecv := hg.recv v hv k hh
    obtain ⟨t1, rest, ht, h1, h2⟩ := (hmeet v hv rfl k hh).met
    have hd : (Relay.gots v.relay.trace).flatMap Relay.payload = (datas v.relay.id (received k w.srv.trace)).flatten := by
      rw [hrecv]
      refine payload_datas fun f hfm => ?_
      rw [← hrecv] at hfm
      obtain ⟨es', he⟩ := hb.srv
      have hreg : Tunnel.Obs.reg v.relay.id k ∈ w.srv.trace := by rw [ht]; simp
      rw [he] at hreg hfm
      have h1 := Tunnel.C12_server_own_id cfg.server es' k f hfm
      have h2 := ((Tunnel.server_inv cfg.server es').2.1.regs _ _ hreg).1
      rw [h1] at h2
      exact Option.some.inj h2
    rw [hd] at hio
    have h3 : datas v.relay.id (received k w.srv.trace) <+: datas v.relay.id (gots w.srv.trace) := by
      obtain ⟨es', he⟩ := hb.srv
      rw [he] at ht ⊢
      exact Tunnel.server_data_prefix cfg.server es' v.relay.id k t1 rest ht h1 h2
    have h4 := (h3.trans (seen_server_datas hb hf v.relay.id)).trans (client_datas hb.cli v.relay.id)
    by_cases hl : ∃ l ∈ w.locals, l.1.id = v.relay.id
    · obtain ⟨l, hl, hli⟩ := hl
      refine .inr ⟨l, hl, hli, ?_⟩
      rw [hfar.sub.of l.1 (List.mem_map.2 ⟨l, hl, rfl⟩) hli, ← hli] at h4
      rw [← hli] at hio
      exact (hio.trans (flatten_prefix h4)).trans (relay_io (hb.locals l hl)).1
    · left
      have hz : datas v.relay.id (submissions w.cli.trace) = [] := by
        refine hfar.sub.none hown.client ?_ ?_
        · intro r hr; obtain ⟨x, hx, rfl⟩ := List.mem_map.1 hr; exact hb.locals x hx
        · intro r hr hri; obtain ⟨x, hx, rfl⟩ := List.mem_map.1 hr; exact hl ⟨x, hx, hri⟩
      rw [hz] at h4
      rw [List.prefix_nil.1 h4] at hio
      exact List.prefix_nil.1 hio

theorem relay_all {r : Relay.St} (h : IsRun r) :
    (r.read = [] ∧ r.link = [] → (datas r.id (Relay.sends r.trace)).flatten = inputs r.trace) ∧
    (r.write = [] → outputs r.trace = (Relay.gots r.trace).flatMap Relay.payload) := by
  have h2 := sends_id h
  obtain ⟨es, he⟩ := h
  have h3 := Relay.run_inv r.id es
  rw [← he] at h3
  rw [← payload_datas h2]
  refine ⟨fun ⟨e1, e2⟩ => ?_, fun e1 => ?_⟩
  · have := h3.up; rw [e1, e2] at this; simpa using this
  · have := h3.down; rw [e1] at this; simpa using this

theorem seen_all_client {cfg w} (hb : Base cfg w) (hf : Fit w) (hd : w.down = []) (hw : w.srv.writeBuf = [])
    (hl : w.cli.phase = .running ∧ w.cli.readyShutdown = false ∧ w.cli.pending = none) (i) :
    datas i (gots w.cli.trace) = datas i (accepted w.srv.trace) := by
  have hdown := hb.down
  obtain ⟨es, e1⟩ := hb.cli
  obtain ⟨es', e2⟩ := hb.srv
  have hS : Tunnel.Stream (accepted w.srv.trace) [] := ⟨hf.server, by
    intro p hp hc
    rw [List.prefix_nil.1 hp] at hc
    simp [Complete, announced] at hc⟩
  have hwr : Tunnel.written w.srv.trace = (accepted w.srv.trace).flatMap wire ++ [] := by
    have := (Tunnel.server_inv cfg.server es').2.2.bytes
    rw [← e2, hw] at this
    rw [List.append_nil] at this ⊢
    exact this
  have ha : Tunnel.arrived w.cli.trace = (accepted w.srv.trace).flatMap wire ++ [] := by
    rw [← hwr, ← hdown, hd, List.append_nil]
  rw [e1] at ha hl ⊢
  rw [(Tunnel.C14_client_looks_at_everything hS cfg.client [] es (ha ▸ List.prefix_refl _)).2 ha hl, datas_asReceived]

theorem seen_all_server {cfg w} (hb : Base cfg w) (hf : Fit w) (hd : w.up = []) (hw : w.cli.writeBuf = [])
    (hl : w.srv.phase = .running ∧ w.srv.readyShutdown = false ∧ w.srv.pending = none) (i) :
    datas i (gots w.srv.trace) = datas i (accepted w.cli.trace) := by
  have hup := hb.up
  obtain ⟨es, e1⟩ := hb.srv
  obtain ⟨es', e2⟩ := hb.cli
  have hS : Tunnel.Stream (accepted w.cli.trace) [] := ⟨hf.client, by
    intro p hp hc
    rw [List.prefix_nil.1 hp] at hc
    simp [Complete, announced] at hc⟩
  have hwr : Tunnel.written w.cli.trace = (accepted w.cli.trace).flatMap wire ++ [] := by
    have := (Tunnel.client_inv cfg.client [] es').2.2.bytes
    rw [← e2, hw] at this
    rw [List.append_nil] at this ⊢
    exact this
  have ha : Tunnel.arrived w.srv.trace = (accepted w.cli.trace).flatMap wire ++ [] := by
    rw [← hwr, ← hup, hd, List.append_nil]
  rw [e1] at ha hl ⊢
  rw [(Tunnel.C13_server_looks_at_everything hS cfg.server es (ha ▸ List.prefix_refl _)).2 ha hl, datas_asReceived]

/-- **C104** (to the local service, nothing is lost): once nothing is under way, the bytes written to the local service
    are all the bytes its visitor sent, with the provisos of `C104_up_exact_partial`. -/
theorem C104_up_all_partial (cfg : Cfg) (es : List Event) (hn : Normal cfg (run cfg es)) (l)
    (hl : l ∈ (run cfg es).locals) (hfree : Free l.1.id (run cfg es))
    (ha : Announced l.1.id (accepted (run cfg es).srv.trace))
    (ho : ∀ d, .overflow l.2 (.data l.1.id d) ∉ (run cfg es).cli.trace) (v) (hv : v ∈ (run cfg es).visitors)
    (hvi : v.relay.id = l.1.id)
    (hset : Settled v.relay (run cfg es).srv (run cfg es).down (run cfg es).cli l.2 l.1) :
    outputs l.1.trace = inputs v.relay.trace := by
  obtain ⟨_, _, hd⟩ := local_stream hn hl hfree
  obtain ⟨t1, rest, ht, h1, h2⟩ := local_met hn hl hfree ha
  have hb := base_run cfg es
  have hf := hn.fit
  have hs := side_run cfg es v.relay.id ((hvi ▸ hfree : Free v.relay.id (run cfg es)).own hn)
  generalize run cfg es = w at *
  rw [(relay_all (hb.locals l hl)).2 hset.receiver, hd, ← (relay_all (hb.visitors v hv)).1 hset.sender,
    ← hs.sub.of v.relay (List.mem_map.2 ⟨v, hv, rfl⟩) rfl]
  have e1 : datas l.1.id (received l.2 w.cli.trace) = datas l.1.id (gots w.cli.trace) := by
    obtain ⟨es', he⟩ := hb.cli
    have hw := hset.working
    have hc := hset.channel
    rw [he] at ht ho hw hc ⊢
    exact Tunnel.client_data_all cfg.client [] es' l.1.id l.2 t1 rest ht h1 h2 ho hw hc.1 hc.2
  have e2 := server_outq hb.srv
  rw [hset.outgoing.1, List.append_nil] at e2
  rw [e1, seen_all_client hb hf hset.network hset.outgoing.2 hset.working, server_datas_eq hb.srv, e2, hvi]

/-- **C104** (to the visitor, nothing is lost): once nothing is under way, the bytes written to the visitor are all the
    bytes the local service sent. -/
theorem C104_down_all (cfg : Cfg) (es : List Event) (hn : Normal cfg (run cfg es)) (v)
    (hv : v ∈ (run cfg es).visitors) (hfree : Free v.relay.id (run cfg es)) (l) (hl : l ∈ (run cfg es).locals)
    (hli : l.1.id = v.relay.id) (k) (hk : v.handle = some k)
    (hset : Settled l.1 (run cfg es).cli (run cfg es).up (run cfg es).srv k v.relay) :
    outputs v.relay.trace = inputs l.1.trace := by
  have hb := base_run cfg es
  have hf := hn.fit
  have hg := guests_run cfg es
  have hown := hfree.own hn
  have hmeet := meets_run cfg es v.relay.id hown hf
  have hfar := far_run cfg es v.relay.id hown hf
  generalize run cfg es = w at *
  have hrecv := hg.recv v hv k hk
  obtain ⟨t1, rest, ht, h1, h2⟩ := (hmeet v hv rfl k hk).met
  have hd : (Relay.gots v.relay.trace).flatMap Relay.payload = (datas v.relay.id (received k w.srv.trace)).flatten := by
    rw [hrecv]
    refine payload_datas fun f hfm => ?_
    rw [← hrecv] at hfm
    obtain ⟨es', he⟩ := hb.srv
    have hreg : Tunnel.Obs.reg v.relay.id k ∈ w.srv.trace := by rw [ht]; simp
    rw [he] at hreg hfm
    have h1 := Tunnel.C12_server_own_id cfg.server es' k f hfm
    have h2 := ((Tunnel.server_inv cfg.server es').2.1.regs _ _ hreg).1
    rw [h1] at h2
    exact Option.some.inj h2
  rw [(relay_all (hb.visitors v hv)).2 hset.receiver, hd, ← (relay_all (hb.locals l hl)).1 hset.sender, hli,
    ← hfar.sub.of l.1 (List.mem_map.2 ⟨l, hl, rfl⟩) hli]
  have e1 : datas v.relay.id (received k w.srv.trace) = datas v.relay.id (gots w.srv.trace) := by
    obtain ⟨es', he⟩ := hb.srv
    have hw := hset.working
    have hc := hset.channel
    rw [he] at ht hw hc ⊢
    exact Tunnel.server_data_all cfg.server es' v.relay.id k t1 rest ht h1 h2 hw hc.1 hc.2
  have e2 := client_outq hb.cli
  rw [hset.outgoing.1, List.append_nil] at e2
  rw [e1, seen_all_server hb hf hset.network hset.outgoing.2 hset.working, client_datas_eq hb.cli, e2]

/-! ### Examples and counterexamples -/

/-- a client with one mapping -/
def web : MappingConfig := ⟨"web".toList, "tcp".toList, some ⟨.v4 2130706433, 80⟩, "d".toList, []⟩
def webCfg : Cfg := ⟨⟨none, none, []⟩, ⟨none, none, [web]⟩, 0⟩

/-- the client introduces itself; a visitor comes -/
def hello : List Event := [.cli (.wrote 1000), .srv (.read 1000), .accept, .visit 0 "tcp".toList]
/-- the stream is opened up to the local service -/
def opening : List Event := [.work, .srv (.wrote 1000), .cli (.read 1000), .start 2 0]
/-- a message of the visitor is brought to the local service -/
def bring : List Event := [.vis 0 .slot, .srv .recv, .srv (.wrote 1000), .cli (.read 1000)]
def hand : List Event := [.loc 0 .recv, .loc 0 (.wrote 10)]
/-- a message of the local service is brought to the visitor -/
def back : List Event := [.loc 0 .slot, .cli .recv, .cli (.wrote 1000), .srv (.read 1000), .vis 0 .recv,
  .vis 0 (.wrote 10)]

theorem web_normal (w : St) (h1 : w.otherS = []) (h2 : w.otherC = []) (h3 : w.used < 2 ^ 23) : Normal webCfg w := by
  refine ⟨by decide, ?_, by simp [h1, h2], h3⟩
  intro f hf
  have : f = .mapping 0 [web] := by simpa [Tunnel.introduction, webCfg] using hf
  subst this
  refine ⟨⟨by decide +kernel, by decide, ?_⟩, by unfold IdFits; decide⟩
  intro m hm
  simp at hm; subst hm
  refine ⟨by unfold Short; decide, by unfold Short; decide, by unfold Short; decide, by decide, ?_⟩
  intro x hx; simp [web] at hx

/-- the two directions: "hi" to the local service, "ok" back -/
def talk : List Event := hello ++ opening ++ [.vis 0 (.read [104, 105])] ++ bring ++ hand ++ [.loc 0 (.read [111, 107])] ++
  back

example : let w := run webCfg talk
    w.visitors.map (fun v => (v.relay.id, inputs v.relay.trace, outputs v.relay.trace)) =
      [(2, [104, 105], [111, 107])] ∧
    w.locals.map (fun l => (l.1.id, inputs l.1.trace, outputs l.1.trace)) = [(2, [111, 107], [104, 105])] ∧
    w.otherS = [] ∧ w.otherC = [] ∧ w.used = 1 ∧
    (∀ l ∈ w.locals, l.1.read = [] ∧ l.1.link = [] ∧ l.1.write = [] ∧ (w.cli.chan l.2).rx = true ∧
      (w.cli.chan l.2).q = []) ∧
    (∀ v ∈ w.visitors, v.relay.read = [] ∧ v.relay.link = [] ∧ v.relay.write = [] ∧ v.handle = some 0) ∧
    (w.srv.chan 0).rx = true ∧ (w.srv.chan 0).q = [] ∧ w.up = [] ∧ w.down = [] ∧
    w.srv.outq = [] ∧ w.cli.outq = [] ∧ w.srv.writeBuf = [] ∧ w.cli.writeBuf = [] ∧
    w.srv.phase = .running ∧ w.cli.phase = .running ∧ w.srv.pending = none ∧ w.cli.pending = none := by
  decide +kernel

/-- the requirements are met there -/
example : Normal webCfg (run webCfg talk) ∧ ∀ i, Free i (run webCfg talk) :=
  ⟨web_normal _ (by decide +kernel) (by decide +kernel) (by decide +kernel), by
    have h1 : (run webCfg talk).otherS = [] := by decide +kernel
    have h2 : (run webCfg talk).otherC = [] := by decide +kernel
    intro i f hf; rw [h1, h2] at hf; cases hf⟩

/-- **C104** fails when the visitor's first bytes overtake the open request (C92): they never reach the local service,
    which is given the rest as if nothing were missing. Here 1, 2 is sent and only 2 arrives. -/
theorem C104_overtaken_fails :
    let w := run webCfg (hello ++ [.vis 0 (.read [1])] ++ bring ++ opening ++ [.vis 0 (.read [2])] ++ bring ++ hand)
    Normal webCfg w ∧ w.visitors.map (fun v => (v.relay.id, inputs v.relay.trace)) = [(2, [1, 2])] ∧
    w.locals.map (fun l => (l.1.id, outputs l.1.trace)) = [(2, [2])] ∧
    w.srv.phase = .running ∧ w.cli.phase = .running :=
  ⟨web_normal _ (by decide +kernel) (by decide +kernel) (by decide +kernel), by decide +kernel⟩

/-- **C104** fails when the local service is slow (C14): the eleventh message arrives while ten wait, it is dropped,
    and the local service is given the messages before and after it. Here 0 .. 11 is sent, 10 is missing. -/
theorem C104_slow_service_fails :
    let w := run webCfg (hello ++ opening ++
      (List.range 11).flatMap (fun n => Event.vis 0 (.read [UInt8.ofNat n]) :: bring) ++ hand ++
      Event.vis 0 (.read [11]) :: bring ++ (List.range 10).flatMap (fun _ => hand))
    Normal webCfg w ∧
    w.visitors.map (fun v => (v.relay.id, inputs v.relay.trace)) = [(2, [0, 1, 2, 3, 4, 5, 6, 7, 8, 9, 10, 11])] ∧
    w.locals.map (fun l => (l.1.id, outputs l.1.trace)) = [(2, [0, 1, 2, 3, 4, 5, 6, 7, 8, 9, 11])] ∧
    w.srv.phase = .running ∧ w.cli.phase = .running :=
  ⟨web_normal _ (by decide +kernel) (by decide +kernel) (by decide +kernel), by decide +kernel⟩

/-! ## C105 -/

/-- the last mapping of a mode -/
def LastOfMode (ms : List MappingConfig) (mode : Text) (m : MappingConfig) : Prop :=
  ∃ pre post, ms = pre ++ m :: post ∧ m.mode = mode ∧ ∀ x ∈ post, x.mode ≠ mode

/-- no mapping can be mistaken for another: neither its name nor its domain is the name of another -/
def Unambiguous (ms : List MappingConfig) : Prop :=
  ∀ m ∈ ms, ∀ x ∈ ms, x.name = m.name ∨ x.domain = m.name → x = m

theorem pickName_snoc (ms : List MappingConfig) (m mode) :
    pickName (ms ++ [m]) mode = if m.mode == mode then some m.name else pickName ms mode := by
  simp [pickName]

theorem pickName_spec (ms : List MappingConfig) (mode name : Text) (h : pickName (ms.map bare) mode = some name) :
    ∃ m, LastOfMode ms mode m ∧ m.name = name := by
  induction ms using List.reverseRecOn with
  | nil => simp [pickName] at h
  | append_singleton ms m ih =>
    rw [List.map_append, List.map_singleton, pickName_snoc] at h
    split at h
    · rename_i hm
      refine ⟨m, ⟨ms, [], rfl, by simpa [bare] using hm, by simp⟩, ?_⟩
      simpa [bare] using h
    · rename_i hm
      obtain ⟨x, ⟨pre, post, e, h1, h2⟩, h3⟩ := ih h
      refine ⟨x, ⟨pre, post ++ [m], by rw [e]; simp, h1, ?_⟩, h3⟩
      intro y hy
      rcases List.mem_append.1 hy with hy | hy
      · exact h2 y hy
      · simp at hy; subst hy; simpa [bare] using hm

/-- **C105** (exactly): whatever the client does with a visitor's stream, it does as a mapping says: of the client's
    mappings take the last one of the mode of the listener to which the visitor came, and then the last one whose name
    or domain is the name of this one. -/
theorem C105_mapping_chosen (cfg : Cfg) (es : List Event) (hn : Normal cfg (run cfg es)) (hm : NoMaps (run cfg es))
    (i h : Nat) (how) (hfree : Free i (run cfg es)) (hop : .opened i h how ∈ (run cfg es).cli.trace) :
    ∃ v ∈ (run cfg es).visitors, v.relay.id = i ∧ ∃ wanted m, LastOfMode cfg.client.mappings v.mode wanted ∧
      Tunnel.LastMatch cfg.client.mappings wanted.name m ∧ Tunnel.outcome m i h = .opened i h how := by
  obtain ⟨v, hv, hvi, name, m, h1, h2, h3⟩ := opened_run (hfree.own hn) hn.fit hm hop
  obtain ⟨x, hx, rfl⟩ := pickName_spec _ _ _ h1
  exact ⟨v, hv, hvi, x, m, hx, ((Tunnel.findMapping_spec _ _).2 m).1 h2, h3⟩

/-- **C105**, partial: a visitor of a listener for some mode reaches the service of the client's last mapping of that
    mode, if the client's mappings cannot be mistaken for each other. Missing: that they cannot, see
    `C105_same_name_fails`. -/
theorem C105_mode_partial (cfg : Cfg) (es : List Event) (hn : Normal cfg (run cfg es)) (hm : NoMaps (run cfg es))
    (hu : Unambiguous cfg.client.mappings)
    (i h : Nat) (how) (hfree : Free i (run cfg es)) (hop : .opened i h how ∈ (run cfg es).cli.trace) :
    ∃ v ∈ (run cfg es).visitors, v.relay.id = i ∧ ∃ m, LastOfMode cfg.client.mappings v.mode m ∧
      Tunnel.outcome m i h = .opened i h how := by
  obtain ⟨v, hv, hvi, x, m, hx, hm, h3⟩ := C105_mapping_chosen cfg es hn hm i h how hfree hop
  refine ⟨v, hv, hvi, x, hx, ?_⟩
  have hxm : x ∈ cfg.client.mappings := by obtain ⟨pre, post, e, _⟩ := hx; rw [e]; simp
  have hmm : m ∈ cfg.client.mappings := by obtain ⟨pre, post, e, _⟩ := hm; rw [e]; simp
  obtain ⟨_, _, _, hd, _⟩ := hm
  rw [← hu x hxm m hmm hd.symm]; exact h3

example : NoMaps (run webCfg talk) ∧ Unambiguous webCfg.client.mappings ∧
    .opened 2 0 (.connect ⟨.v4 2130706433, 80⟩) ∈ (run webCfg talk).cli.trace := by
  refine ⟨?_, ?_, by decide +kernel⟩
  · have h2 : (run webCfg talk).otherC = [] := by decide +kernel
    intro f hf; rw [h2] at hf; cases hf
  · intro m hm x hx _
    simp [webCfg] at hm hx; rw [hm, hx]

/-- **C105** fails when mappings can be mistaken for each other, as all unnamed ones can: if a later mapping `m` has the name of the
    last mapping `x` of some mode (or has it as its domain), then every stream opened for a visitor of the listener for that mode goes
    to the service of `m`, whatever its mode. -/
theorem C105_same_name_fails (cfg : Cfg) (es : List Event) (hn : Normal cfg (run cfg es)) (hm : NoMaps (run cfg es))
    (mode : Text) (x m : MappingConfig) (pre mid post : List MappingConfig)
    (hms : cfg.client.mappings = pre ++ x :: mid ++ m :: post) (hx : x.mode = mode)
    (hlast : ∀ y ∈ mid ++ m :: post, y.mode ≠ mode) (hname : m.name = x.name ∨ m.domain = x.name)
    (hpost : ∀ y ∈ post, y.name ≠ x.name ∧ y.domain ≠ x.name) (i h : Nat) (how) (hfree : Free i (run cfg es))
    (hv : ∀ v ∈ (run cfg es).visitors, v.relay.id = i → v.mode = mode) (hop : .opened i h how ∈ (run cfg es).cli.trace) :
    Tunnel.outcome m i h = .opened i h how := by
  obtain ⟨v, hvm, hvi, y, m', hy, hm', h3⟩ := C105_mapping_chosen cfg es hn hm i h how hfree hop
  rw [hv v hvm hvi] at hy
  have hxl : LastOfMode cfg.client.mappings mode x :=
    ⟨pre, mid ++ m :: post, by rw [hms]; simp, hx, hlast⟩
  have hyx : y = x := by
    obtain ⟨a, b, e1, g1, g2⟩ := hy
    obtain ⟨a', b', e2, g1', g2'⟩ := hxl
    rw [e1] at e2
    rcases List.append_eq_append_iff.1 e2 with ⟨t, rfl, ht⟩ | ⟨t, rfl, ht⟩
    · cases t with
      | nil => injection ht
      | cons z t =>
        injection ht with h1 h2
        exact absurd g1' (g2 x (by rw [h2]; simp))
    · cases t with
      | nil => injection ht with h1 _; exact h1.symm
      | cons z t =>
        injection ht with h1 h2
        exact absurd g1 (g2' y (by rw [h2]; simp))
  rw [hyx] at hm'
  have hml : Tunnel.LastMatch cfg.client.mappings x.name m :=
    ⟨pre ++ x :: mid, post, by rw [hms], hname.symm, fun y hy => (hpost y hy).symm⟩
  have e1 := ((Tunnel.findMapping_spec cfg.client.mappings x.name).2 m').2 hm'
  rw [((Tunnel.findMapping_spec cfg.client.mappings x.name).2 m).2 hml] at e1
  injection e1 with e1
  rw [e1]
  exact h3

/-- a visitor of the listener for `tcp` is connected to the service of the mapping for `http` -/
example :
    let cfg : Cfg := ⟨⟨none, none, []⟩, ⟨none, none, [⟨[], "tcp".toList, some ⟨.v4 1, 22⟩, "a".toList, []⟩,
      ⟨[], "http".toList, some ⟨.v4 2, 80⟩, "b".toList, []⟩]⟩, 0⟩
    let w := run cfg (hello ++ opening)
    w.visitors.map (fun v => (v.relay.id, v.mode)) = [(2, "tcp".toList)] ∧
    .opened 2 0 (.connect ⟨.v4 2, 80⟩) ∈ w.cli.trace := by
  decide +kernel

end Wm.World
