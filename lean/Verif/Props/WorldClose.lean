import Verif.Proofs.WorldClose
/-!
Property C116: the end of a stream, end to end. When the connection on one side of the tunnel has ended, the connection
on the other side is ended too, and none is ended for another reason.
-/
namespace Wm.World
open Wm Wm.Prot
open scoped List
open Wm.Tunnel (datas creates regCount openCount gots received submissions accepted relayed)

/-! ### What is required -/

/-- Nothing is under way from the tunnel end `s`, which is at work, over the bytes `net` on the connection and the other
    end `t`, which is at work too, to a relay that reads the channel `k`. -/
structure Delivered (s : Tunnel.St) (net : Bytes) (t : Tunnel.St) (k : Nat) : Prop where
  sending : s.phase = .running
  outgoing : s.outq = [] ∧ s.writeBuf = []
  network : net = []
  working : t.phase = .running ∧ t.readyShutdown = false ∧ t.pending = none
  channel : (t.chan k).rx = true ∧ (t.chan k).q = []

/-- every message with the id `i` in the list is an open request or has one before it -/
def AnnouncedAll (i : Nat) (fs : List Frame) : Prop :=
  ∀ pre f post, fs = pre ++ f :: post → f.sockMap = i → (∃ d, f = .create i d) ∨ ∃ d, .create i d ∈ pre

/-! ### Proof -/

theorem seen_each_client {cfg w} (hb : Base cfg w) (hf : Fit w) (hd : w.down = []) (hw : w.srv.writeBuf = [])
    (hl : w.cli.phase = .running ∧ w.cli.readyShutdown = false ∧ w.cli.pending = none) :
    gots w.cli.trace = (accepted w.srv.trace).map asReceived := by
  have hdown := hb.down
  obtain ⟨es, e1⟩ := hb.cli
  obtain ⟨es', e2⟩ := hb.srv
  have hS : Tunnel.Stream (accepted w.srv.trace) [] := ⟨hf.server, by
    intro p hp hc
    rw [List.prefix_nil.1 hp] at hc
    simp [Complete, announced] at hc⟩
  have hwr : Tunnel.written w.srv.trace = (accepted w.srv.trace).flatMap wire ++ [] := by
    have := (Tunnel.server_inv cfg.server es').2.2.bytes
    rw [← e2, hw] at this
    rw [List.append_nil] at this ⊢
    exact this
  have ha : Tunnel.arrived w.cli.trace = (accepted w.srv.trace).flatMap wire ++ [] := by
    rw [← hwr, ← hdown, hd, List.append_nil]
  rw [e1] at ha hl ⊢
  exact (Tunnel.C14_client_looks_at_everything hS cfg.client [] es (ha ▸ List.prefix_refl _)).2 ha hl

theorem seen_each_server {cfg w} (hb : Base cfg w) (hf : Fit w) (hd : w.up = []) (hw : w.cli.writeBuf = [])
    (hl : w.srv.phase = .running ∧ w.srv.readyShutdown = false ∧ w.srv.pending = none) :
    gots w.srv.trace = (accepted w.cli.trace).map asReceived := by
  have hup := hb.up
  obtain ⟨es, e1⟩ := hb.srv
  obtain ⟨es', e2⟩ := hb.cli
  have hS : Tunnel.Stream (accepted w.cli.trace) [] := ⟨hf.client, by
    intro p hp hc
    rw [List.prefix_nil.1 hp] at hc
    simp [Complete, announced] at hc⟩
  have hwr : Tunnel.written w.cli.trace = (accepted w.cli.trace).flatMap wire ++ [] := by
    have := (Tunnel.client_inv cfg.client [] es').2.2.bytes
    rw [← e2, hw] at this
    rw [List.append_nil] at this ⊢
    exact this
  have ha : Tunnel.arrived w.srv.trace = (accepted w.cli.trace).flatMap wire ++ [] := by
    rw [← hwr, ← hup, hd, List.append_nil]
  rw [e1] at ha hl ⊢
  exact (Tunnel.C13_server_looks_at_everything hS cfg.server es (ha ▸ List.prefix_refl _)).2 ha hl

/-- a close submitted at the client reaches the visitor -/
theorem close_down {cfg es} (hn : Normal cfg (run cfg es)) {v} (hv : v ∈ (run cfg es).visitors)
    (hfree : Free v.relay.id (run cfg es)) {k} (hk : v.handle = some k)
    (hset : Delivered (run cfg es).cli (run cfg es).up (run cfg es).srv k) {t}
    (hc : .close v.relay.id t ∈ submissions (run cfg es).cli.trace) : .close v.relay.id t ∈ Relay.gots v.relay.trace := by
  have hb := base_run cfg es
  have hf := hn.fit
  have hg := guests_run cfg es
  have hown := hfree.own hn
  have hmeet := meets_run cfg es v.relay.id hown hf
  have hid := visitor_id hg hn.used hv
  generalize run cfg es = w at *
  obtain ⟨t1, rest, ht, _, h2, h3⟩ := hmeet v hv rfl k hk
  rw [← hg.recv v hv k hk]
  have hq := client_outq hb.cli
  rw [hset.outgoing.1, List.append_nil] at hq
  rw [← hq] at hc
  have hgot : .close v.relay.id t ∈ gots w.srv.trace := by
    rw [seen_each_server hb hf hset.network hset.outgoing.2 hset.working]
    exact List.mem_map.2 ⟨_, relayed_accepted hc, rfl⟩
  obtain ⟨es', he⟩ := hb.srv
  have hw := hset.working
  have hch := hset.channel
  rw [he] at ht hw hch hgot ⊢
  exact Tunnel.server_mem_all cfg.server es' (.close v.relay.id t) k t1 rest (.inr ⟨_, _, rfl⟩) ht
    (fun hm => h3 hid _ hm rfl) h2 hw hch.1 hch.2 hgot

/-- **C116** (from the local service to the visitor): once the connection to the local service of a visitor has ended,
    and nothing is under way from the client to the visitor, the visitor's connection is no longer served. -/
theorem C116_down (cfg : Cfg) (es : List Event) (hn : Normal cfg (run cfg es)) (v)
    (hv : v ∈ (run cfg es).visitors) (hfree : Free v.relay.id (run cfg es)) (l) (hl : l ∈ (run cfg es).locals)
    (hli : l.1.id = v.relay.id) (hend : l.1.phase = .done) (k) (hk : v.handle = some k)
    (hset : Delivered (run cfg es).cli (run cfg es).up (run cfg es).srv k) : v.relay.phase ≠ .running := by
  have hb := base_run cfg es
  have h1 := (passed_run cfg es).client.close (List.mem_map.2 ⟨l, hl, rfl⟩) (hb.locals l hl) hend hset.sending
  rw [hli] at h1
  exact relay_got_close (hb.visitors v hv) (close_down hn hv hfree hk hset h1)

/-- **C116** (nothing else ends a visitor): a visitor's connection is ended by the tunnel only if the connection to its
    local service has ended, or the client opened no connection for it at all, or the tunnel itself has ended. -/
theorem C116_down_only (cfg : Cfg) (es : List Event) (hn : Normal cfg (run cfg es)) (v)
    (hv : v ∈ (run cfg es).visitors) (hfree : Free v.relay.id (run cfg es)) (t)
    (hc : .close v.relay.id t ∈ Relay.gots v.relay.trace) :
    (∃ l ∈ (run cfg es).locals, l.1.id = v.relay.id ∧ l.1.phase = .done) ∨
    (∀ h how, .opened v.relay.id h how ∉ (run cfg es).cli.trace) ∨ (run cfg es).srv.phase ≠ .running := by
  by_cases hr : (run cfg es).srv.phase = .running
  case neg => exact .inr (.inr hr)
  have hb := base_run cfg es
  have hf := hn.fit
  have hg := guests_run cfg es
  have hown := hfree.own hn
  have hid := visitor_id hg hn.used hv
  have hcs := (causes_run cfg es v.relay.id hown).client
  have hone := (side_run cfg es v.relay.id hown).one
  generalize run cfg es = w at *
  have hle := seen_client_creates hb hf v.relay.id
  have hgot : .close v.relay.id t ∈ gots w.srv.trace := by
    cases hh : v.handle with
    | none => rw [hg.recvNone v hv hh] at hc; cases hc
    | some k =>
      rw [← hg.recv v hv k hh] at hc
      obtain ⟨es', he⟩ := hb.srv
      rw [he] at hc hr ⊢
      have h1 := (Tunnel.received_sub_due (Tunnel.server_inv cfg.server es').1.1.1 k).subset hc
      rcases Tunnel.mem_due h1 with ⟨p, q, hpq, _⟩ | ⟨p, q, _, hpq, _⟩
      · rw [hpq, Tunnel.gots_append', Tunnel.gots_cons]; simp [gots]
      · exact absurd (by rw [hpq]; simp) (Tunnel.server_whole cfg.server es' hr)
  have hacc : .close v.relay.id t ∈ accepted w.cli.trace := by
    have h1 := (seen_server hb hf).subset hgot
    obtain ⟨y, hy, hy2⟩ := List.mem_map.1 h1
    rw [← close_asReceived hy2]; exact hy
  rcases client_mine hb.cli _ hacc with h1 | h1 | ⟨j, d, h1⟩
  · rcases hcs t h1 with ⟨r, hr1, h2, h3⟩ | h2
    · obtain ⟨l, hl, rfl⟩ := List.mem_map.1 hr1
      exact .inl ⟨l, hl, h2, h3⟩
    · refine .inr (.inl fun h how hm => ?_)
      have : 1 ≤ openCount v.relay.id w.cli.trace := List.countP_pos_iff.2 ⟨_, hm, by simp⟩
      omega
  · exact absurd h1 hid
  · cases h1

/-- the registration of a local connection's stream: no message of the stream came before, and none replaces it -/
theorem local_met_all {cfg es} (hn : Normal cfg (run cfg es)) {l} (hl : l ∈ (run cfg es).locals)
    (hfree : Free l.1.id (run cfg es)) (ha : AnnouncedAll l.1.id (accepted (run cfg es).srv.trace)) :
    ∃ t1 rest, (run cfg es).cli.trace = t1 ++ .reg l.1.id l.2 :: rest ∧ regCount l.1.id rest = 0 ∧
      ∀ t, .close l.1.id t ∉ gots t1 := by
  obtain ⟨_, hreg, _⟩ := local_stream hn hl hfree
  have hb := base_run cfg es
  have hf := hn.fit
  have hs := side_run cfg es l.1.id (hfree.own hn)
  have hj := just_run cfg es
  have hseen := seen_client hb hf
  have hle := seen_client_creates hb hf l.1.id
  generalize run cfg es = w at *
  generalize l.1.id = i at *
  obtain ⟨a, b, hab⟩ := List.append_of_mem hreg
  obtain ⟨a', d, pre, e1, e2⟩ := hj.just a b i l.2 hab
  have hone := hs.one
  have hcr := hj.regs i
  refine ⟨a, b, hab, ?_, ?_⟩
  · rw [hab, Tunnel.regCount_append] at hcr
    have : regCount i (Tunnel.Obs.reg i l.2 :: b) = regCount i b + 1 := by simp [regCount]
    rw [← hab] at hcr
    omega
  · intro x hx
    rw [e1, Tunnel.gots_append', Tunnel.gots_cons, e2, List.append_nil, List.mem_append] at hx
    have hfm : .close i x ∈ gots a' := by
      rcases hx with hx | hx
      · exact hx
      · simp [gots] at hx
    obtain ⟨p, q, hpq⟩ := List.append_of_mem hfm
    have hg : gots w.cli.trace = p ++ .close i x :: (q ++ .create i d :: gots b) := by
      rw [hab, e1, Tunnel.gots_append', Tunnel.gots_append', Tunnel.gots_cons, e2, hpq, Tunnel.gots_cons (.reg _ _)]
      simp [gots]
    obtain ⟨z, hz⟩ := hseen
    rw [hg] at hz
    obtain ⟨A, R, hAR, hA, hR⟩ := List.map_eq_append_iff.1 (hz.symm.trans (List.append_assoc _ _ _))
    rw [List.cons_append] at hR
    obtain ⟨y, R', rfl, hy, hR'⟩ := List.map_eq_cons_iff.1 hR
    have hyd : y = .close i x := close_asReceived hy
    rw [hyd] at hAR
    rcases ha A _ R' hAR rfl with ⟨t, ht⟩ | ⟨t, ht⟩
    · cases ht
    · have c1 : 1 ≤ creates i A := List.countP_pos_iff.2 ⟨_, ht, by simp⟩
      have c2 : 1 ≤ creates i R' := by
        rw [← creates_asReceived, hR', List.append_assoc, Tunnel.creates_append]
        have : 1 ≤ creates i (Frame.create i d :: gots b ++ z) := List.countP_pos_iff.2 ⟨_, List.mem_cons_self, by simp⟩
        exact Nat.le_add_left_of_le this
      rw [hAR, Tunnel.creates_append] at hone
      have : creates i R' ≤ creates i (Frame.close i x :: R') := List.Sublist.countP_le (List.sublist_cons_self _ _)
      omega

/-- **C116**, partial (from the visitor to the local service): once a visitor's connection has ended, and nothing is under
    way from the server to the local service, the connection to the local service is no longer served, if the server
    wrote the stream's open request before everything else of the stream, and if the notice of the end was not discarded
    at the client because the stream's channel was full. Missing: that this is so, see `C116_overtaken_fails` and
    `C116_slow_service_fails`. -/
theorem C116_up_partial (cfg : Cfg) (es : List Event) (hn : Normal cfg (run cfg es)) (l)
    (hl : l ∈ (run cfg es).locals) (hfree : Free l.1.id (run cfg es)) (v) (hv : v ∈ (run cfg es).visitors)
    (hvi : v.relay.id = l.1.id) (hend : v.relay.phase = .done)
    (ha : AnnouncedAll l.1.id (accepted (run cfg es).srv.trace))
    (ho : .overflow l.2 (.close l.1.id []) ∉ (run cfg es).cli.trace)
    (hset : Delivered (run cfg es).srv (run cfg es).down (run cfg es).cli l.2) : l.1.phase ≠ .running := by
  obtain ⟨t1, rest, ht, h2, h3⟩ := local_met_all hn hl hfree ha
  have hb := base_run cfg es
  have hf := hn.fit
  have h1 := (passed_run cfg es).server.close (List.mem_map.2 ⟨v, hv, rfl⟩) (hb.visitors v hv) hend hset.sending
  have hh := hosts_run cfg es
  have hid := visitor_id (guests_run cfg es) hn.used hv
  rw [hvi] at h1 hid
  generalize run cfg es = w at *
  refine relay_got_close (hb.locals l hl) (i := l.1.id) (t := []) ?_
  rw [← hh.recv l hl]
  have hq := server_outq hb.srv
  rw [hset.outgoing.1, List.append_nil] at hq
  rw [← hq] at h1
  have hgot : .close l.1.id [] ∈ gots w.cli.trace := by
    rw [seen_each_client hb hf hset.network hset.outgoing.2 hset.working]
    exact List.mem_map.2 ⟨_, relayed_accepted h1, rfl⟩
  obtain ⟨es', he⟩ := hb.cli
  have hw := hset.working
  have hch := hset.channel
  rw [he] at ht hw hch hgot ho ⊢
  exact Tunnel.client_mem_all cfg.client [] es' (.close l.1.id []) l.2 t1 rest (fun _ => decide_eq_true hid) ht
    (h3 []) h2 ho hw hch.1 hch.2 hgot

/-- **C116** (nothing else ends a local connection): the tunnel ends the connection to a local service only if the
    connection of its visitor has ended, or the tunnel itself has ended. -/
theorem C116_up_only (cfg : Cfg) (es : List Event) (hn : Normal cfg (run cfg es)) (l)
    (hl : l ∈ (run cfg es).locals) (hfree : Free l.1.id (run cfg es)) (t)
    (hc : .close l.1.id t ∈ Relay.gots l.1.trace) :
    (∃ v ∈ (run cfg es).visitors, v.relay.id = l.1.id ∧ v.relay.phase = .done) ∨ (run cfg es).cli.phase ≠ .running := by
  by_cases hr : (run cfg es).cli.phase = .running
  case neg => exact .inr hr
  left
  have hb := base_run cfg es
  have hf := hn.fit
  have hown := hfree.own hn
  obtain ⟨⟨v, hv, hvi⟩, _⟩ := local_stream hn hl hfree
  have hid := visitor_id (guests_run cfg es) hn.used hv
  rw [hvi] at hid
  have hcs := (causes_run cfg es l.1.id hown).server
  have hno := (far_run cfg es l.1.id hown hf).noCreate
  have hh := hosts_run cfg es
  generalize run cfg es = w at *
  have hle := seen_server_creates hb hf l.1.id
  have hgot : .close l.1.id t ∈ gots w.cli.trace := by
    rw [← hh.recv l hl] at hc
    obtain ⟨es', he⟩ := hb.cli
    rw [he] at hc hr ⊢
    have h1 := (Tunnel.received_sub_due (Tunnel.client_inv cfg.client [] es').1.1 l.2).subset hc
    rcases Tunnel.mem_due h1 with ⟨p, q, hpq, _⟩ | ⟨p, q, _, hpq, _⟩
    · rw [hpq, Tunnel.gots_append', Tunnel.gots_cons]; simp [gots]
    · exact absurd (by rw [hpq]; simp) (Tunnel.client_whole cfg.client [] es' hr)
  have hacc : .close l.1.id t ∈ accepted w.srv.trace := by
    have h1 := (seen_client hb hf).subset hgot
    obtain ⟨y, hy, hy2⟩ := List.mem_map.1 h1
    rw [← close_asReceived hy2]; exact hy
  rcases server_mine hb.srv _ hacc with h1 | h1 | ⟨j, d, h1⟩
  · rcases hcs t h1 with ⟨r, hr1, h2, h3⟩ | h2
    · obtain ⟨v, hv, rfl⟩ := List.mem_map.1 hr1
      exact ⟨v, hv, h2, h3⟩
    · omega
  · exact absurd h1 hid
  · cases h1

/-! ### Examples and counterexamples -/

/-- the local service ends its connection; the notice is brought to the visitor -/
def serviceEnds : List Event := [.loc 0 .readEnd, .loc 0 .slot, .cli .recv, .cli (.wrote 1000), .srv (.read 1000),
  .vis 0 .recv]
/-- the visitor ends its connection; the notice is brought to the client -/
def visitorEnds : List Event := [.vis 0 .readEnd, .vis 0 .slot, .srv .recv, .srv (.wrote 1000), .cli (.read 1000)]

theorem web_free (w : St) (h1 : w.otherS = []) (h2 : w.otherC = []) (i) : Free i w := by
  intro f hf; rw [h1, h2] at hf; cases hf

/-- the local service ends its connection, and the visitor's is ended -/
example : let w := run webCfg (talk ++ serviceEnds)
    Normal webCfg w ∧ Free 2 w ∧ w.locals.map (fun l => (l.1.id, l.1.phase)) = [(2, .done)] ∧
    w.visitors.map (fun v => (v.relay.id, v.handle, v.relay.phase)) = [(2, some 0, .closing)] ∧
    Delivered w.cli w.up w.srv 0 ∧ w.visitors.map (fun v => Relay.gots v.relay.trace) = [[.data 2 [111, 107], .close 2 []]] := by
  refine ⟨web_normal _ ?_ ?_ ?_, web_free _ ?_ ?_ _, ?_, ?_, ⟨?_, ?_, ?_, ?_, ?_⟩, ?_⟩ <;> decide +kernel

/-- the visitor ends its connection, and the local service's is ended -/
example : let w := run webCfg (talk ++ visitorEnds ++ [.loc 0 .recv])
    Normal webCfg w ∧ Free 2 w ∧ w.visitors.map (fun v => (v.relay.id, v.relay.phase)) = [(2, .done)] ∧
    w.locals.map (fun l => (l.1.id, l.2, l.1.phase)) = [(2, 0, .closing)] ∧
    accepted w.srv.trace = [.create 2 (some "web".toList), .data 2 [104, 105], .close 2 []] ∧
    .overflow 0 (.close 2 []) ∉ w.cli.trace ∧
    Delivered w.srv w.down w.cli 0 ∧ w.locals.map (fun l => Relay.gots l.1.trace) = [[.data 2 [104, 105], .close 2 []]] := by
  refine ⟨web_normal _ ?_ ?_ ?_, web_free _ ?_ ?_ _, ?_, ?_, ?_, ?_, ⟨?_, ?_, ?_, ?_, ?_⟩, ?_⟩ <;> decide +kernel

/-- such a list of messages is as required -/
example : AnnouncedAll 2 [.create 2 (some "web".toList), .data 2 [104, 105], .close 2 []] := by
  intro pre f post h _
  match pre, h with
  | [], h => exact .inl ⟨_, (List.cons.inj h).1.symm⟩
  | x :: pre, h => exact .inr ⟨_, by rw [← (List.cons.inj h).1]; exact List.mem_cons_self⟩

/-- the client refuses the stream (no mapping of this name), and the visitor's connection is ended -/
example : let w := run webCfg (hello ++ [.otherC (.submit (.mapping 0 [⟨"gone".toList, "tcp".toList, none, [], []⟩])),
      .cli .recv, .cli (.wrote 1000), .srv (.read 1000), .accept, .visit 0 "tcp".toList,
      .work, .work, .srv (.wrote 1000), .cli (.read 1000), .cli .recv, .cli (.wrote 1000), .srv (.read 1000),
      .vis 1 .recv])
    w.visitors.map (fun v => (v.relay.id, v.relay.phase)) = [(2, .running), (4, .closing)] ∧
    w.visitors.map (fun v => Relay.gots v.relay.trace) = [[], [.close 4 []]] ∧ w.srv.phase = .running := by
  decide +kernel

/-- **C116** fails when the notice that the visitor has gone overtakes the open request (C92): the connection to the local
    service is opened after the visitor has left, both tunnel ends are at work, nothing is under way, and nobody ends it. -/
theorem C116_overtaken_fails :
    let w := run webCfg (hello ++ visitorEnds ++ opening)
    Normal webCfg w ∧ Free 2 w ∧ w.visitors.map (fun v => (v.relay.id, v.relay.phase)) = [(2, .done)] ∧
    w.locals.map (fun l => (l.1.id, l.2, l.1.phase)) = [(2, 0, .running)] ∧ Delivered w.srv w.down w.cli 0 := by
  refine ⟨web_normal _ ?_ ?_ ?_, web_free _ ?_ ?_ _, ?_, ?_, ⟨?_, ?_, ?_, ?_, ?_⟩⟩ <;> decide +kernel

/-- **C116** fails when the local service is slow (C14): the notice arrives while ten messages wait and is dropped. When
    the service has taken all of them, its connection stays open, though the visitor has gone. -/
theorem C116_slow_service_fails :
    let w := run webCfg (hello ++ opening ++
      (List.range 10).flatMap (fun n => Event.vis 0 (.read [UInt8.ofNat n]) :: bring) ++ visitorEnds ++
      (List.range 10).flatMap (fun _ => hand))
    Normal webCfg w ∧ Free 2 w ∧ w.visitors.map (fun v => (v.relay.id, v.relay.phase)) = [(2, .done)] ∧
    w.locals.map (fun l => (l.1.id, l.2, l.1.phase)) = [(2, 0, .running)] ∧ Delivered w.srv w.down w.cli 0 ∧
    accepted w.srv.trace = .create 2 (some "web".toList) :: (List.range 10).map (fun n => .data 2 [UInt8.ofNat n]) ++
      [.close 2 []] := by
  refine ⟨web_normal _ ?_ ?_ ?_, web_free _ ?_ ?_ _, ?_, ?_, ⟨?_, ?_, ?_, ?_, ?_⟩, ?_⟩ <;> decide +kernel

end Wm.World
