import Verif.Proofs.WorldTally
import Verif.Props.Chain
/-!
Properties C104, C116, C127, C128: how bytes and notices get lost, in whatever way things go on. A message dropped on a full
channel and what is written before the open request of its stream are never made up for.
-/
namespace Wm.World
open Wm Wm.Prot
open scoped List
open Wm.Relay (inputs outputs)
open Wm.Tunnel (datas creates regCount gots received accepted submissions Omits closes)

/-- `got` are bytes of `sent` in their order, without one stretch of `sent` that consists of the bytes `d` -/
def LeavesOut (d got sent : Bytes) : Prop := ∃ before after, sent = before ++ d ++ after ∧ got <+ before ++ after

/-- bytes left out are missing -/
theorem LeavesOut.short {d got sent} (h : LeavesOut d got sent) : got.length + d.length ≤ sent.length := by
  obtain ⟨x, y, rfl, h⟩ := h
  have := h.length_le
  simp only [List.length_append] at this ⊢
  omega

theorem leavesOut {d a b} {got sent : Bytes} (h : Omits d a b) (h1 : got <+ a.flatten) (h2 : b.flatten <+: sent) :
    LeavesOut d got sent := by
  obtain ⟨x, y, e, h⟩ := h.flatten
  obtain ⟨z, rfl⟩ := h2
  exact ⟨x, y ++ z, by rw [e]; simp, h1.trans (h.trans (by simp))⟩

/-- what is written before the open request is looked at before the stream is registered -/
theorem early_seen {t : List Tunnel.Obs} {fs pre post : List Frame} {i k f} (hj : Just t) (hff : asReceived f = f)
    (hs : gots t <+: fs.map asReceived) (hreg : .reg i k ∈ t) (hfs : fs = pre ++ f :: post)
    (hpre : ∀ x, .create i x ∉ pre) : ∃ a b, t = a ++ .got f :: b ∧ regCount i a = 0 := by
  have hc : creates i (pre.map asReceived) = 0 := by
    rw [creates_asReceived]
    refine List.countP_eq_zero.2 fun f hf => ?_
    cases f <;> simp
    rintro rfl
    exact hpre _ hf
  have hin : ∀ a b h, t = a ++ .reg i h :: b → 1 ≤ creates i (gots a) := by
    intro a b h e
    obtain ⟨a', x, p, e1, _⟩ := hj.just a b i h e
    rw [e1, Tunnel.gots_append', Tunnel.creates_append, Tunnel.gots_cons, Tunnel.creates_append]
    have : creates i (gots [Tunnel.Obs.got (.create i x)]) = 1 := by simp [creates, gots]
    omega
  obtain ⟨a0, b0, h0⟩ := List.append_of_mem hreg
  have hct : 1 ≤ creates i (gots t) := by
    have := hin a0 b0 k h0
    rw [h0, Tunnel.gots_append', Tunnel.creates_append]
    omega
  obtain ⟨z, hz⟩ := hs
  rw [hfs, List.map_append, List.map_cons, hff] at hz
  have hz' : gots t ++ z = pre.map asReceived ++ f :: post.map asReceived := hz
  have hg : ∃ q, gots t = pre.map asReceived ++ f :: q := by
    rcases List.append_eq_append_iff.1 hz' with ⟨c, e1, e2⟩ | ⟨c, e1, e2⟩
    · rw [e1, Tunnel.creates_append] at hc
      omega
    · cases c with
      | nil =>
        rw [List.append_nil] at e1
        rw [e1] at hct
        omega
      | cons y c =>
        refine ⟨c, ?_⟩
        rw [e1, ← (List.cons.inj e2).1]
  obtain ⟨q, hq⟩ := hg
  obtain ⟨a, b, e, ha⟩ := Tunnel.gots_split hq
  refine ⟨a, b, e, ?_⟩
  apply Classical.byContradiction
  intro hne
  obtain ⟨o, ho, hoi⟩ := List.countP_pos_iff.1 (Nat.pos_of_ne_zero hne)
  cases o <;> simp at hoi
  rename_i j h
  obtain ⟨a1, a2, e1⟩ := List.append_of_mem ho
  have h1 := hin a1 (a2 ++ .got f :: b) h (by rw [e, e1, hoi]; simp)
  rw [e1, Tunnel.gots_append'] at ha
  rw [← ha, Tunnel.creates_append] at hc
  omega

theorem local_lost {cfg es} (hn : Normal cfg (run cfg es)) {l} (hl : l ∈ (run cfg es).locals)
    (hfree : Free l.1.id (run cfg es)) {d}
    (h : Omits d (datas l.1.id (received l.2 (run cfg es).cli.trace)) (datas l.1.id (gots (run cfg es).cli.trace))) :
    ∃ v ∈ (run cfg es).visitors, v.relay.id = l.1.id ∧ LeavesOut d (outputs l.1.trace) (inputs v.relay.trace) := by
  obtain ⟨⟨v, hv, hvi⟩, _, hd⟩ := local_stream hn hl hfree
  refine ⟨v, hv, hvi, ?_⟩
  have hb := base_run cfg es
  have h1 := (relay_io (hb.locals l hl)).2
  rw [hd] at h1
  have h2 := visitor_sends hn hv (hvi ▸ hfree)
  rw [hvi] at h2
  exact leavesOut h h1.sublist h2

/-- **C104** fails whenever a message of a visitor is dropped at the client because ten others wait for the local service
    (C14): whatever happens afterwards, the bytes of the message are left out of what is written to the service. -/
theorem C104_dropped_fails (cfg : Cfg) (es : List Event) (hn : Normal cfg (run cfg es)) (l) (hl : l ∈ (run cfg es).locals)
    (hfree : Free l.1.id (run cfg es)) (d) (hd : .overflow l.2 (.data l.1.id d) ∈ (run cfg es).cli.trace) :
    ∃ v ∈ (run cfg es).visitors, v.relay.id = l.1.id ∧ LeavesOut d (outputs l.1.trace) (inputs v.relay.trace) := by
  refine local_lost hn hl hfree ?_
  obtain ⟨es', he⟩ := (base_run cfg es).cli
  rw [he] at hd ⊢
  exact Tunnel.omits_overflow (Tunnel.client_inv cfg.client [] es').1.1 hd

/-- **C104** fails whenever the server writes bytes of a visitor before the open request of its stream (C92): whatever
    happens afterwards, these bytes are left out of what is written to the local service. -/
theorem C104_early_fails (cfg : Cfg) (es : List Event) (hn : Normal cfg (run cfg es)) (l) (hl : l ∈ (run cfg es).locals)
    (hfree : Free l.1.id (run cfg es)) (pre d post)
    (hp : accepted (run cfg es).srv.trace = pre ++ .data l.1.id d :: post) (hc : ∀ x, .create l.1.id x ∉ pre) :
    ∃ v ∈ (run cfg es).visitors, v.relay.id = l.1.id ∧ LeavesOut d (outputs l.1.trace) (inputs v.relay.trace) := by
  refine local_lost hn hl hfree ?_
  obtain ⟨a, b, e, hr⟩ := early_seen (just_run cfg es) rfl (seen_client (base_run cfg es) hn.fit)
    (local_stream hn hl hfree).2.1 hp hc
  obtain ⟨es', he⟩ := (base_run cfg es).cli
  rw [he] at e ⊢
  exact Tunnel.omits_early (Tunnel.client_inv cfg.client [] es').1.1 _ e hr

/-- there are such executions: a slow local service -/
example : let w := run webCfg (hello ++ opening ++
      (List.range 11).flatMap (fun n => Event.vis 0 (.read [UInt8.ofNat n]) :: bring) ++ hand)
    Normal webCfg w ∧ Free 2 w ∧ w.locals.map (fun l => (l.1.id, l.2)) = [(2, 0)] ∧
    .overflow 0 (.data 2 [10]) ∈ w.cli.trace := by
  refine ⟨web_normal _ ?_ ?_ ?_, web_free _ ?_ ?_ _, ?_, ?_⟩ <;> decide +kernel

/-- there are such executions: the first bytes overtake the open request -/
example : let w := run webCfg (hello ++ [.vis 0 (.read [1])] ++ bring ++ opening)
    Normal webCfg w ∧ Free 2 w ∧ w.locals.map (fun l => (l.1.id, l.2)) = [(2, 0)] ∧
    accepted w.srv.trace = [] ++ .data 2 [1] :: [.create 2 (some "web".toList)] := by
  refine ⟨web_normal _ ?_ ?_ ?_, web_free _ ?_ ?_ _, ?_, ?_⟩ <;> decide +kernel

theorem nodup_dones {i : Nat} : ∀ {rs : List Relay.St}, (rs.map (·.id)).Nodup → dones i rs ≤ 1 := by
  intro rs
  induction rs with
  | nil => intro _; exact Nat.zero_le _
  | cons r rs ih =>
    intro h
    rw [List.map_cons, List.nodup_cons] at h
    unfold dones
    rw [List.countP_cons]
    by_cases hr : r.id = i
    · have : rs.countP (fun r => decide (r.id = i ∧ r.phase = .done)) = 0 := by
        refine List.countP_eq_zero.2 fun x hx => ?_
        have : x.id ≠ i := fun e => h.1 (List.mem_map.2 ⟨x, hx, e.trans hr.symm⟩)
        simp [this]
      rw [this]
      split <;> omega
    · have := ih h.2
      unfold dones at this
      simp [hr]
      simpa using this

/-- at most one notice of the end of a stream reaches the client -/
theorem one_notice {cfg es} (hn : Normal cfg (run cfg es)) {l} (hl : l ∈ (run cfg es).locals)
    (hfree : Free l.1.id (run cfg es)) : closes l.1.id (gots (run cfg es).cli.trace) ≤ 1 := by
  have hb := base_run cfg es
  have hf := hn.fit
  have hown := hfree.own hn
  obtain ⟨⟨v, hv, hvi⟩, _⟩ := local_stream hn hl hfree
  have hg := guests_run cfg es
  have hid := visitor_id hg hn.used hv
  rw [hvi] at hid
  have ht := tally_run cfg es l.1.id hown
  have hno := (far_run cfg es l.1.id hown hf).noCreate
  have hnd := hg.idsNodup (by have := hn.used; omega)
  generalize run cfg es = w at *
  have hle := seen_server_creates hb hf l.1.id
  have h1 : closes l.1.id (gots w.cli.trace) ≤ closes l.1.id (accepted w.srv.trace) := by
    have := Tunnel.closes_sub (i := l.1.id) (seen_client hb hf).sublist
    rwa [closes_asReceived] at this
  have h2 := server_closes hb.srv hid
  have h3 : dones l.1.id (w.visitors.map (·.relay)) ≤ 1 := by
    refine nodup_dones ?_
    rw [List.map_map]
    exact (List.nodup_append.1 hnd).2.1
  unfold Tally at ht
  omega

theorem never_told {cfg es} (hn : Normal cfg (run cfg es)) {l} (hl : l ∈ (run cfg es).locals)
    (hfree : Free l.1.id (run cfg es))
    (h : closes l.1.id (received l.2 (run cfg es).cli.trace) + 1 ≤ closes l.1.id (gots (run cfg es).cli.trace)) (y) :
    .close l.1.id y ∉ Relay.gots l.1.trace := by
  intro hm
  rw [← (hosts_run cfg es).recv l hl] at hm
  have h1 := Tunnel.closes_mem hm
  have h2 := one_notice hn hl hfree
  omega

/-- **C116** fails whenever the notice that a visitor has gone is dropped at the client because ten messages wait for the
    local service (C14): whatever happens afterwards, the connection to the service is never told the end, as long as the
    tunnel lives. -/
theorem C116_dropped_fails (cfg : Cfg) (es : List Event) (hn : Normal cfg (run cfg es)) (l) (hl : l ∈ (run cfg es).locals)
    (hfree : Free l.1.id (run cfg es)) (hr : (run cfg es).cli.phase = .running)
    (x) (ho : .overflow l.2 (.close l.1.id x) ∈ (run cfg es).cli.trace) (y) :
    .close l.1.id y ∉ Relay.gots l.1.trace := by
  refine never_told hn hl hfree ?_ y
  obtain ⟨es', he⟩ := (base_run cfg es).cli
  rw [he] at ho hr ⊢
  exact Tunnel.fewer_overflow (Tunnel.client_inv cfg.client [] es').1.1 (Tunnel.client_whole cfg.client [] es' hr) ho

/-- **C116** fails whenever the server writes the notice that a visitor has gone before the open request of its stream
    (C92): whatever happens afterwards, the connection to the local service is never told the end, as long as the tunnel
    lives. -/
theorem C116_early_fails (cfg : Cfg) (es : List Event) (hn : Normal cfg (run cfg es)) (l) (hl : l ∈ (run cfg es).locals)
    (hfree : Free l.1.id (run cfg es)) (hr : (run cfg es).cli.phase = .running) (pre x post)
    (hp : accepted (run cfg es).srv.trace = pre ++ .close l.1.id x :: post) (hc : ∀ d, .create l.1.id d ∉ pre) (y) :
    .close l.1.id y ∉ Relay.gots l.1.trace := by
  refine never_told hn hl hfree ?_ y
  obtain ⟨a, b, e, h0⟩ := early_seen (just_run cfg es) rfl (seen_client (base_run cfg es) hn.fit)
    (local_stream hn hl hfree).2.1 hp hc
  obtain ⟨es', he⟩ := (base_run cfg es).cli
  rw [he] at e hr ⊢
  exact Tunnel.fewer_early (Tunnel.client_inv cfg.client [] es').1.1 (Tunnel.client_whole cfg.client [] es' hr) _ e h0

/-- there are such executions: a slow local service -/
example : let w := run webCfg (hello ++ opening ++
      (List.range 10).flatMap (fun n => Event.vis 0 (.read [UInt8.ofNat n]) :: bring) ++ visitorEnds)
    Normal webCfg w ∧ Free 2 w ∧ w.locals.map (fun l => (l.1.id, l.2)) = [(2, 0)] ∧ w.cli.phase = .running ∧
    .overflow 0 (.close 2 []) ∈ w.cli.trace := by
  refine ⟨web_normal _ ?_ ?_ ?_, web_free _ ?_ ?_ _, ?_, ?_, ?_⟩ <;> decide +kernel

/-- there are such executions: the notice overtakes the open request -/
example : let w := run webCfg (hello ++ visitorEnds ++ opening)
    Normal webCfg w ∧ Free 2 w ∧ w.locals.map (fun l => (l.1.id, l.2)) = [(2, 0)] ∧ w.cli.phase = .running ∧
    accepted w.srv.trace = [] ++ .close 2 [] :: [.create 2 (some "web".toList)] := by
  refine ⟨web_normal _ ?_ ?_ ?_, web_free _ ?_ ?_ _, ?_, ?_, ?_⟩ <;> decide +kernel

end Wm.World

namespace Wm.Chain
open Wm Wm.Prot
open scoped List
open Wm.Relay (inputs outputs)
open Wm.World (Cfg LeavesOut leavesOut early_seen relay_io Tally)
open Wm.Tunnel (datas gots received accepted closes)

/-- **C127** fails whenever a message of the proxy is dropped at the client because ten others wait for the user (C14):
    whatever happens afterwards, the bytes of the message are left out of what is written to the user. -/
theorem C127_dropped_fails (cfg : Cfg) (es : List Event) (hn : Normal (run cfg es)) (u) (hu : u ∈ (run cfg es).users)
    (hfree : Free u.relay.id (run cfg es)) (k) (hk : u.handle = some k)
    (d) (hd : .overflow k (.data u.relay.id d) ∈ (run cfg es).cli.trace) :
    ∃ t ∈ (run cfg es).tasks, t.io.id = u.relay.id ∧
      LeavesOut d (outputs u.relay.trace) (Virtual.offers t.io.trace) ∧
      (.writeWait ∉ t.io.trace → LeavesOut d (outputs u.relay.trace) (Virtual.accepts t.io.trace)) := by
  have hb := base_run cfg es
  have hio := (relay_io (hb.users u hu)).2
  rw [user_got hn hu hfree hk] at hio
  have h1 : Tunnel.Omits d (datas u.relay.id (received k (run cfg es).cli.trace))
      (datas u.relay.id (gots (run cfg es).cli.trace)) := by
    obtain ⟨es', he⟩ : ∃ x, (run cfg es).cli = Tunnel.clientRun cfg.client [] x := hb.ends.cli
    rw [he] at hd ⊢
    exact Tunnel.omits_overflow (Tunnel.client_inv cfg.client [] es').1.1 hd
  rcases task_sends hn hfree with ⟨t, ht, hti, h4⟩ | h4
  · refine ⟨t, ht, hti, ?_, fun hw => ?_⟩
    · have h5 := (virtual_sends (hb.tasks t ht)).1
      rw [hti] at h5
      exact leavesOut h1 hio.sublist ((World.flatten_prefix h4).trans h5)
    · have h5 := (virtual_sends (hb.tasks t ht)).2 hw
      rw [hti] at h5
      rw [← h5]
      exact leavesOut h1 hio.sublist (World.flatten_prefix h4)
  · obtain ⟨x, y, e, _⟩ := h1
    rw [h4] at e
    exact absurd e.symm (by simp)

/-- **C127** fails whenever the client writes bytes of a user before the open request of its stream (C92): whatever happens
    afterwards, these bytes are left out of what the proxy's task reads. -/
theorem C127_early_fails (cfg : Cfg) (es : List Event) (hn : Normal (run cfg es)) (t) (ht : t ∈ (run cfg es).tasks)
    (hfree : Free t.io.id (run cfg es)) (pre d post)
    (hp : accepted (run cfg es).cli.trace = pre ++ .data t.io.id d :: post) (hc : ∀ x, .create t.io.id x ∉ pre) :
    ∃ u ∈ (run cfg es).users, u.relay.id = t.io.id ∧ LeavesOut d (Virtual.returns t.io.trace) (inputs u.relay.trace) := by
  obtain ⟨⟨u, hu, hui⟩, hreg, hd⟩ := task_stream hn ht hfree
  refine ⟨u, hu, hui, ?_⟩
  have hb := base_run cfg es
  obtain ⟨vs, hv⟩ := hb.tasks t ht
  have h1 := Virtual.C22_reads_in_order t.io.id vs
  rw [← hv, hd] at h1
  have h2 := user_sends hn hu (hui ▸ hfree)
  rw [hui] at h2
  refine leavesOut ?_ h1.sublist h2
  obtain ⟨a, b, e, hr⟩ := early_seen (just_run cfg es) rfl (World.seen_server hb.ends hn.fit) hreg hp hc
  obtain ⟨es', he⟩ : ∃ x, (run cfg es).srv = Tunnel.serverRun cfg.server x := hb.ends.srv
  have e' : (run cfg es).srv.trace = a ++ .got (.data t.io.id d) :: b := e
  rw [he] at e' ⊢
  exact Tunnel.omits_early (Tunnel.server_inv cfg.server es').1.1.1 _ e' hr

theorem tally_move {cfg w w' i} (hb : Base cfg w) (hm : Move cfg w w') (ho' : Own i w')
    (h1 : Tally i w.cli (w.users.map (·.relay))) : Tally i w'.cli (w'.users.map (·.relay)) := by
  have hC := World.steps_client cfg.client
  cases hm with
  | stay => exact h1
  | accept ws _ => rw [List.map_append]; exact h1.add _
  | work n rest v hw hv hidle =>
    have hm := World.map_set_same (·.relay) (b := { v with handle := some w.cli.next }) hv rfl
    dsimp only at hm ⊢
    rw [hm]
    exact h1.quiet hC (by simp)
  | srv e => exact h1
  | cli e => exact h1.loop hC _ _
  | otherS e => exact h1
  | otherC e => exact h1.other hC _ e (fun f hf => ho'.client f (List.mem_append.2 (.inr hf)))
  | user n v e hv =>
    rw [List.map_set]
    exact h1.relay hC false v.handle e (by rw [List.getElem?_map, hv]; rfl) (hb.users v (List.mem_of_getElem? hv))
  | start id k _ => exact h1
  | task n t e _ => exact h1

theorem tally_run (cfg es i) (ho : Own i (run cfg es)) : Tally i (run cfg es).cli ((run cfg es).users.map (·.relay)) := by
  induction es using List.reverseRecOn with
  | nil =>
    have hf := Tunnel.Fresh.init cfg.client []
    have hs : Tunnel.submissions (Tunnel.clientInit cfg.client []).trace = [] := by
      refine List.filterMap_eq_nil_iff.2 fun o ho => ?_
      obtain ⟨f, rfl⟩ := hf.trace o ho; rfl
    have h2 : Tunnel.openCount i (Tunnel.clientInit cfg.client []).trace = 0 := by
      refine List.countP_eq_zero.2 fun o ho => ?_
      obtain ⟨f, rfl⟩ := hf.trace o ho; simp
    simp only [Tally, run, init, List.foldl_nil, h2, hs]
    exact Nat.zero_le _
  | append_singleton es e ih =>
    rw [run_snoc] at ho ⊢
    have hb := base_run cfg es
    have hm := step_move cfg (run cfg es) e
    exact tally_move hb hm ho (ih (ho.back hb hm))

theorem uniq_dones {i : Nat} : ∀ {rs : List Relay.St}, World.Uniq i rs → World.dones i rs ≤ 1 := by
  intro rs
  induction rs with
  | nil => intro _; exact Nat.zero_le _
  | cons r rs ih =>
    intro h
    have h' : World.Uniq i rs := by
      intro n m a b ha hb hi hj
      have := h (n + 1) (m + 1) a b (by simpa using ha) (by simpa using hb) hi hj
      omega
    unfold World.dones
    rw [List.countP_cons]
    by_cases hr : r.id = i
    · have : rs.countP (fun r => decide (r.id = i ∧ r.phase = .done)) = 0 := by
        refine List.countP_eq_zero.2 fun x hx => ?_
        have : x.id ≠ i := by
          intro e
          obtain ⟨m, hm⟩ := List.mem_iff_getElem?.1 hx
          have := h 0 (m + 1) r x (by simp) (by simpa using hm) hr e
          omega
        simp [this]
      rw [this]
      split <;> omega
    · have := ih h'
      unfold World.dones at this
      simp [hr]
      simpa using this

/-- **C128** fails whenever the client writes the notice that a user has gone before the open request of its stream (C92):
    whatever happens afterwards, the proxy's task is never told the end of the stream, as long as the tunnel lives. -/
theorem C128_early_fails (cfg : Cfg) (es : List Event) (hn : Normal (run cfg es)) (t) (ht : t ∈ (run cfg es).tasks)
    (hfree : Free t.io.id (run cfg es)) (hr : (run cfg es).srv.phase = .running) (pre x post)
    (hp : accepted (run cfg es).cli.trace = pre ++ .close t.io.id x :: post) (hc : ∀ d, .create t.io.id d ∉ pre) (y) :
    .close t.io.id y ∉ Virtual.arrivals t.io.trace := by
  intro hm
  have hb := base_run cfg es
  have hf := hn.fit
  have hown := hfree.own hn
  obtain ⟨⟨u, hu, hui⟩, hreg, _⟩ := task_stream hn ht hfree
  have hg := guests_run cfg es
  have hid := user_id hg hu
  rw [hui] at hid
  have htl := tally_run cfg es t.io.id hown
  have hno := (far_run cfg es t.io.id hown hf).noCreate
  have hdn := uniq_dones (uniq_users (i := t.io.id) hg hown.used)
  rw [← (hosts_run cfg es).recv t ht] at hm
  obtain ⟨a, b, e, h0⟩ := early_seen (just_run cfg es) rfl (World.seen_server hb.ends hf) hreg hp hc
  generalize run cfg es = w at *
  have hle : Tunnel.creates t.io.id (gots w.cli.trace) ≤ Tunnel.creates t.io.id (accepted w.srv.trace) :=
    World.seen_client_creates hb.ends hf t.io.id
  have h1 : closes t.io.id (gots w.srv.trace) ≤ closes t.io.id (accepted w.cli.trace) := by
    have hs : gots w.srv.trace <+: (accepted w.cli.trace).map asReceived := World.seen_server hb.ends hf
    have := Tunnel.closes_sub (i := t.io.id) hs.sublist
    rwa [World.closes_asReceived] at this
  have h2 : closes t.io.id (accepted w.cli.trace) ≤ closes t.io.id (Tunnel.submissions w.cli.trace) :=
    World.client_closes hb.ends.cli hid
  have h3 : closes t.io.id (received t.chan w.srv.trace) + 1 ≤ closes t.io.id (gots w.srv.trace) := by
    obtain ⟨es', he⟩ : ∃ x, w.srv = Tunnel.serverRun cfg.server x := hb.ends.srv
    have e' : w.srv.trace = a ++ .got (.close t.io.id x) :: b := e
    rw [he] at e' hr ⊢
    exact Tunnel.fewer_early (Tunnel.server_inv cfg.server es').1.1.1 (Tunnel.server_whole cfg.server es' hr) _ e' h0
  have h4 := Tunnel.closes_mem hm
  unfold Tally at htl
  omega

/-- there are such executions: the notice overtakes the open request -/
example : let w := run plain ([.accept] ++ userEnds ++ opening)
    Normal w ∧ Free 1 w ∧ w.tasks.map (fun t => t.io.id) = [1] ∧ w.srv.phase = .running ∧
    accepted w.cli.trace = [] ++ .close 1 [] :: [.create 1 none] := by
  refine ⟨normal_of ?_ ?_, free_of _ ?_, ?_, ?_, ?_⟩ <;> decide +kernel

/-- there are such executions: a slow user -/
example : let w := run plain ([.accept] ++ opening ++
      (List.range 11).flatMap (fun n => Event.task 0 (.write [UInt8.ofNat n]) :: back) ++ hand)
    Normal w ∧ Free 1 w ∧ w.users.map (fun u => (u.relay.id, u.handle)) = [(1, some 0)] ∧
    .overflow 0 (.data 1 [10]) ∈ w.cli.trace := by
  refine ⟨normal_of ?_ ?_, free_of _ ?_, ?_, ?_⟩ <;> decide +kernel

/-- there are such executions: the first bytes overtake the open request -/
example : let w := run plain ([.accept, .user 0 (.read [1])] ++ bring ++ opening)
    Normal w ∧ Free 1 w ∧ w.tasks.map (fun t => t.io.id) = [1] ∧
    accepted w.cli.trace = [] ++ .data 1 [1] :: [.create 1 none] := by
  refine ⟨normal_of ?_ ?_, free_of _ ?_, ?_, ?_⟩ <;> decide +kernel

end Wm.Chain
