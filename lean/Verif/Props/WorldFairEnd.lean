import Verif.Props.WorldFairOpen
import Verif.Props.WorldEndUp
/-!
Properties C169 and C170 for endless schedules: when every part of the tunnel gets its turn again and again, the end of a
local service is brought to its visitor, and the end of a visitor to its local service.
-/
namespace Wm.World
open Wm Wm.Prot
open scoped List
open Wm.Tunnel (gots received submissions accepted relayed arrived puts creates)

/-! ### Proof -/

theorem _root_.Wm.Relay.step_ended {r : Relay.St} (h : r.phase ≠ .running) (e) : (Relay.step r e).phase ≠ .running := by
  unfold Relay.step
  cases hp : r.phase with
  | running => exact absurd hp h
  | done => simp [hp]
  | closing =>
    dsimp only
    split
    · split <;> simp [Relay.emit]
    · simp [hp]
    · simp [hp]

theorem relayStep_ended (T : Tunnel.St → Tunnel.Event → Tunnel.St) (dies : Bool) (s : Tunnel.St) {r : Relay.St}
    (h : Option Nat) (e : RelayEv) (hr : r.phase ≠ .running) : (relayStep T dies s r h e).2.phase ≠ .running := by
  unfold relayStep
  repeat' split
  all_goals first | exact hr | exact Relay.step_ended hr _ | exact Relay.step_ended (Relay.step_ended hr _) _

theorem visitor_ended {cfg : Cfg} {w : St} {n : Nat} {v : Visitor} (hv : w.visitors[n]? = some v)
    (hp : v.relay.phase ≠ .running) (e : Event) :
    ∃ v', (step cfg w e).visitors[n]? = some v' ∧ v'.relay.id = v.relay.id ∧ v'.relay.phase ≠ .running := by
  have same : ∃ v', w.visitors[n]? = some v' ∧ v'.relay.id = v.relay.id ∧ v'.relay.phase ≠ .running := ⟨v, hv, rfl, hp⟩
  have hlt := (List.getElem?_eq_some_iff.1 hv).1
  have more : ∀ x, ∃ v', (w.visitors ++ [x])[n]? = some v' ∧ v'.relay.id = v.relay.id ∧ v'.relay.phase ≠ .running :=
    fun x => ⟨v, by rw [List.getElem?_append_left hlt]; exact hv, rfl, hp⟩
  cases e with
  | visit j mode =>
    simp only [step]
    split
    · exact same
    · split
      · exact same
      · split
        · split
          · exact more _
          · exact same
        · exact more _
  | work =>
    simp only [step]
    split
    · exact same
    · rename_i j name rest hw
      split
      · exact same
      · rename_i x hx
        split
        · by_cases hj : j = n
          · subst hj
            rw [hv] at hx; cases hx
            exact ⟨_, List.getElem?_set_self hlt, rfl, hp⟩
          · exact ⟨v, by dsimp only; rw [List.getElem?_set_ne hj]; exact hv, rfl, hp⟩
        · exact same
  | vis j e =>
    simp only [step]
    split
    · exact same
    · rename_i x hx
      by_cases hj : j = n
      · subst hj
        rw [hv] at hx; cases hx
        exact ⟨_, List.getElem?_set_self hlt, relayStep_id .., relayStep_ended _ _ _ _ _ hp⟩
      · exact ⟨v, by dsimp only; rw [List.getElem?_set_ne hj]; exact hv, rfl, hp⟩
  | start id h =>
    simp only [step]
    split <;> exact same
  | loc j e =>
    simp only [step]
    split <;> exact same
  | _ => exact same

theorem local_stays {cfg : Cfg} {w : St} {m : Nat} {l : Relay.St × Nat} (hl : w.locals[m]? = some l) (e : Event) :
    ∃ l', (step cfg w e).locals[m]? = some l' ∧ l'.1.id = l.1.id ∧ l'.2 = l.2 ∧
      (l.1.phase ≠ .running → l'.1.phase ≠ .running) := by
  have same : ∃ l', w.locals[m]? = some l' ∧ l'.1.id = l.1.id ∧ l'.2 = l.2 ∧
      (l.1.phase ≠ .running → l'.1.phase ≠ .running) := ⟨l, hl, rfl, rfl, id⟩
  have hlt := (List.getElem?_eq_some_iff.1 hl).1
  cases e with
  | visit j mode =>
    simp only [step]
    repeat' split
    all_goals exact same
  | work =>
    simp only [step]
    repeat' split
    all_goals exact same
  | vis j e =>
    simp only [step]
    split <;> exact same
  | start id h =>
    simp only [step]
    split
    · exact ⟨l, by dsimp only; rw [List.getElem?_append_left hlt]; exact hl, rfl, rfl, fun h => h⟩
    · exact same
  | loc j e =>
    simp only [step]
    split
    · exact same
    · rename_i x hx
      by_cases hj : j = m
      · subst hj
        rw [hl] at hx; cases hx
        exact ⟨_, List.getElem?_set_self hlt, relayStep_id .., rfl, fun hp => relayStep_ended _ _ _ _ _ hp⟩
      · exact ⟨l, by dsimp only; rw [List.getElem?_set_ne hj]; exact hl, rfl, rfl, id⟩
  | _ => exact same

variable {cfg : Cfg} {n m k i : Nat} {W : Nat → St} {ε : Nat → Event}

/-- both ends of the tunnel work, and somebody has come -/
theorem lively_of (hreach : ∀ t, ∃ es, W t = run cfg es) (hnext : ∀ t, W (t + 1) = step cfg (W t) (ε t))
    (hn : ∀ t, Normal cfg (W t)) (hs : ∀ t, (W t).srv.phase = .running) (hc : ∀ t, (W t).cli.phase = .running)
    (hv : ∀ t, (W t).visitors ≠ []) : Lively cfg W ε := by
  have hbase : ∀ t, Base cfg (W t) := fun t => by obtain ⟨es, he⟩ := hreach t; rw [he]; exact base_run cfg es
  have hfit : ∀ t, Fit (W t) := fun t => by
    obtain ⟨es, he⟩ := hreach t
    have := hn t
    rw [he] at this ⊢
    exact this.fit
  have harr : ∀ t, arrived (W t).srv.trace ++ (W t).up <+: (accepted (W t).cli.trace).flatMap wire ++ [] := fun t => by
    obtain ⟨es, he⟩ := (hbase t).cli
    rw [List.append_nil, (hbase t).up, he]
    exact (Tunnel.C15_client_order cfg.client [] es).1
  have harrC : ∀ t, arrived (W t).cli.trace ++ (W t).down <+: (accepted (W t).srv.trace).flatMap wire ++ [] := fun t => by
    obtain ⟨es, he⟩ := (hbase t).srv
    rw [List.append_nil, (hbase t).down, he]
    exact (Tunnel.C15_server_order cfg.server es).1
  have hopen : ∀ t, (W t).srv.readyShutdown = false := fun t => by
    obtain ⟨es, he⟩ := hreach t
    have h0 := hv t
    rw [he] at h0 ⊢
    have h1 := (opens_run cfg es).login h0
    obtain ⟨es', he'⟩ := (base_run cfg es).srv
    rw [he'] at h1 ⊢
    exact Tunnel.loggedIn_open cfg.server es' h1
  refine ⟨hnext, hbase, hfit, hs, hc, hopen, fun t hp => ?_, fun t => ?_, harr, harrC⟩
  · obtain ⟨es, he⟩ := (hbase t).srv
    have h3 := (Tunnel.server_at (nilStream (hfit t).client) cfg.server es).2
    rw [← he] at h3
    exact h3 ((List.prefix_append _ _).trans (harr t)) ⟨hs t, hopen t, hp⟩
  · obtain ⟨es, he⟩ := (hbase t).cli
    have h1 := Tunnel.client_never_waits cfg.client [] es
    have h2 := Tunnel.client_not_ready cfg.client [] es
    rw [← he] at h1 h2
    refine ⟨h1, h2, ?_⟩
    have h3 := (Tunnel.client_at (nilStream (hfit t).server) cfg.client [] es).2
    rw [← he] at h3
    exact h3 ((List.prefix_append _ _).trans (harrC t)) ⟨hc t, h2, h1⟩

/-- a task whose connection has ended hands over the notice when there is room -/
theorem slot_ends (T : Tunnel.St → Tunnel.Event → Tunnel.St) (dies : Bool) (s : Tunnel.St) {r : Relay.St} (h : Option Nat)
    (hs : s.phase = .running) (hr : r.phase ≠ .running) (ha : r.alive = true) (ho : s.outq.length < Tunnel.outCap) :
    (relayStep T dies s r h .slot).2.phase = .done := by
  cases hp : r.phase with
  | running => exact absurd hp hr
  | done =>
    have hoff : offer r = none := by unfold offer; rw [if_pos ha, hp]
    unfold relayStep
    dsimp only
    rw [if_pos hs, hoff]
    exact hp
  | closing =>
    have hoff : offer r = some (.close r.id []) := by unfold offer; rw [if_pos ha, hp]
    unfold relayStep
    dsimp only
    rw [if_pos hs, hoff]
    dsimp only
    rw [if_pos ho]
    unfold Relay.step
    rw [hp]
    dsimp only
    rw [if_pos ha]
    rfl

/-! ### Statement -/

/-- **C169** (endless schedules): once the connection to the local service of a visitor has ended, the visitor's connection
    is no longer served at some later time, if the tunnel works on and every part on the way gets its turn again and
    again - whatever all other visitors, services and tasks do, and however often the server's loop has to wait. -/
theorem C169_fair (cfg : Cfg) (σ : Nat → Event) (t0 n m i : Nat) (hn : ∀ t, t0 ≤ t → Normal cfg (after cfg σ t))
    (hfree : ∀ t, t0 ≤ t → Free i (after cfg σ t)) (hs : ∀ t, t0 ≤ t → (after cfg σ t).srv.phase = .running)
    (hc : ∀ t, t0 ≤ t → (after cfg σ t).cli.phase = .running) (hf : FairDown cfg σ n m)
    (v) (hv : (after cfg σ t0).visitors[n]? = some v) (hvi : v.relay.id = i)
    (l) (hl : (after cfg σ t0).locals[m]? = some l) (hli : l.1.id = i) (hend : l.1.phase ≠ .running) :
    ∃ t, t0 ≤ t ∧ ∃ v', (after cfg σ t).visitors[n]? = some v' ∧ v'.relay.id = i ∧ v'.relay.phase ≠ .running := by
  apply Classical.byContradiction
  intro hno
  obtain ⟨k, hk⟩ := Option.ne_none_iff_exists'.1 (announced_visitor (hn t0 (Nat.le_refl _)) (List.mem_of_getElem? hv)
    (by rw [hvi]; exact hfree t0 (Nat.le_refl _)) (List.mem_of_getElem? hl) (hli.trans hvi.symm)).2
  have hvis : ∀ d, ∃ v, (after cfg σ (t0 + d)).visitors[n]? = some v ∧ v.relay.id = i ∧ v.handle = some k ∧
      v.relay.phase = .running := by
    intro d
    have : ∃ v, (after cfg σ (t0 + d)).visitors[n]? = some v ∧ v.relay.id = i ∧ v.handle = some k := by
      induction d with
      | zero => exact ⟨v, hv, hvi, hk⟩
      | succ d ih =>
        obtain ⟨x, h1, h2, h3⟩ := ih
        obtain ⟨y, y1, _, y3⟩ := visitor_next (guests_run cfg _) h1 (σ (t0 + d))
        obtain ⟨z, z1, z2, _⟩ := visitor_stays (cfg := cfg) h1 (σ (t0 + d))
        rw [← Nat.add_assoc, after_succ]
        unfold after at z1 ⊢
        rw [z1] at y1; cases y1
        exact ⟨_, z1, z2.trans h2, y3 k h3⟩
    obtain ⟨x, h1, h2, h3⟩ := this
    refine ⟨x, h1, h2, h3, Classical.byContradiction fun hp => hno ⟨t0 + d, Nat.le_add_right _ _, x, h1, h2, hp⟩⟩
  have hloc : ∀ d, ∃ l, (after cfg σ (t0 + d)).locals[m]? = some l ∧ l.1.id = i ∧ l.1.phase ≠ .running := by
    intro d
    induction d with
    | zero => exact ⟨l, hl, hli, hend⟩
    | succ d ih =>
      obtain ⟨x, h1, h2, h3⟩ := ih
      obtain ⟨y, y1, y2, _, y4⟩ := local_stays (cfg := cfg) h1 (σ (t0 + d))
      exact ⟨y, by rw [← Nat.add_assoc, after_succ]; exact y1, y2.trans h2, y4 h3⟩
  have h : ∀ t, Ending cfg n m k i (after cfg σ (t0 + t)) := fun t => ⟨⟨_, rfl⟩, hn _ (Nat.le_add_right _ _),
    hfree _ (Nat.le_add_right _ _), hvis t, hloc t, hs _ (Nat.le_add_right _ _), hc _ (Nat.le_add_right _ _)⟩
  have hL : Lively cfg (fun t => after cfg σ (t0 + t)) (fun t => σ (t0 + t)) :=
    lively_of (fun t => ⟨_, rfl⟩) (fun t => after_succ cfg σ (t0 + t)) (fun t => (h t).normal) (fun t => (h t).srv)
      (fun t => (h t).cli) (fun t => by
        obtain ⟨x, h1, _⟩ := (h t).vis
        exact List.ne_nil_of_mem (List.mem_of_getElem? h1))
  have hroom := hf.handOver ((hL.room (hf.clientTakes.shift t0)).back (P := fun t => (after cfg σ t).cli.outq.length < Tunnel.outCap))
  have hidle := hL.unblocked (fun t hh f hp => by
    obtain ⟨t', h1, h2⟩ := hf.makesRoom (t0 + t) hh f hp
    exact ⟨t' - t0, by omega, by rw [Nat.add_sub_cancel' (by omega)]; exact h2⟩)
  have hread := hf.serverReads (hidle.back (P := fun t => (after cfg σ t).srv.pending = none))
  -- the notice is handed over
  have a1 : ∃ d, .close i [] ∈ submissions (after cfg σ (t0 + d)).cli.trace := by
    obtain ⟨d, -, e1, e2⟩ := hroom.shift t0 0
    obtain ⟨x, x1, x2, x3⟩ := hloc d
    have hpass := (passed_run cfg ((List.range (t0 + d)).map σ)).client
    have halive : x.1.alive = true := by
      cases ha : x.1.alive with
      | true => rfl
      | false => exact absurd (h d).cli (hpass.alive x.1 (List.mem_map.2 ⟨x, List.mem_of_getElem? x1, rfl⟩) ha)
    have hst := slot_ends (Tunnel.clientStep cfg.client) false (after cfg σ (t0 + d)).cli (some x.2) (h d).cli x3 halive e2
    refine ⟨d + 1, ?_⟩
    have hget : ∃ y, (after cfg σ (t0 + (d + 1))).locals[m]? = some y ∧ y.1.id = i ∧ y.1.phase = .done := by
      rw [← Nat.add_assoc, after_succ, e1]
      simp only [step, x1]
      exact ⟨_, List.getElem?_set_self (List.getElem?_eq_some_iff.1 x1).1, (relayStep_id ..).trans x2, hst⟩
    obtain ⟨y, y1, y2, y3⟩ := hget
    have := (passed_run cfg ((List.range (t0 + (d + 1))).map σ)).client.close
      (List.mem_map.2 ⟨y, List.mem_of_getElem? y1, rfl⟩) ((h (d + 1)).base.locals y (List.mem_of_getElem? y1)) y3
      (h (d + 1)).cli
    rw [y2] at this
    exact this
  obtain ⟨d1, a1⟩ := a1
  obtain ⟨d2, e2, a2⟩ := hL.taken (hf.clientTakes.shift t0) d1
  obtain ⟨d3, e3, a3⟩ := hL.sent (hf.clientWrites.shift t0) d2
  obtain ⟨d4, e4, a4⟩ := hL.read (hread.shift t0) d3
  obtain ⟨d5, e5, a5⟩ := hidle d4
  have hw := a3.trans (a4.trans (chain_prefix (B := fun t => arrived (after cfg σ (t0 + t)).srv.trace)
    (fun t => Tunnel.arrived_mono (hL.srvTrace t)) e5))
  -- it is put into the visitor's channel
  have a6 : .close i [] ∈ puts k (after cfg σ (t0 + d5)).srv.trace := by
    have hr := h d5
    have hacc : accepted (after cfg σ (t0 + d2)).cli.trace <+: accepted (after cfg σ (t0 + d5)).cli.trace :=
      chain_prefix (B := fun t => accepted (after cfg σ (t0 + t)).cli.trace)
        (fun t => Tunnel.accepted_mono (hL.cliTrace t)) (by omega)
    obtain ⟨es, he⟩ := hr.base.srv
    have hat := Tunnel.server_at (nilStream hr.fit.client) cfg.server es
    rw [← he] at hat
    have hlive : Tunnel.Live (after cfg σ (t0 + d5)).srv := ⟨hr.srv, hr.srvOpen, a5⟩
    have hs := hat.seen hlive hr.fit.client ((List.prefix_append _ _).trans hr.arrives) hacc hw
    have hgot : .close i [] ∈ gots (after cfg σ (t0 + d5)).srv.trace :=
      hs.subset (List.mem_map.2 ⟨_, relayed_accepted (a2.subset a1), rfl⟩)
    obtain ⟨x, x1, x2, x3, _⟩ := hr.vis
    have hid := visitor_id (guests_run cfg _) hr.normal.used (List.mem_of_getElem? x1)
    rw [x2] at hid
    obtain ⟨t1, rest, ht, _, h2, h3⟩ := meets_run cfg ((List.range (t0 + d5)).map σ) i (hr.free.own hr.normal) hr.fit x
      (List.mem_of_getElem? x1) x2 k x3
    have hrx := hr.rx
    change (after cfg σ (t0 + d5)).srv.trace = _ at ht
    rw [he] at ht hlive hrx hgot ⊢
    exact Tunnel.server_mem_kept cfg.server es (.close i []) k t1 rest (.inr ⟨_, _, rfl⟩) ht
      (fun hm => h3 hid _ hm rfl) h2 hlive hrx hgot
  obtain ⟨d7, e7, a7⟩ := hL.got (fun t => (h t).rx)
    (fun t => by obtain ⟨x, x1, _, x3, x4⟩ := (h t).vis; exact ⟨x, x1, x3, x4⟩) (hf.visitorTakes.shift t0) d5
  obtain ⟨x, x1, x2, x3, x4⟩ := (h d7).vis
  have hrecv := (guests_run cfg ((List.range (t0 + d7)).map σ)).recv x (List.mem_of_getElem? x1) k x3
  exact relay_got_close ((h d7).base.visitors x (List.mem_of_getElem? x1)) (hrecv ▸ a7.subset a6) x4

/-- **C170** (endless schedules), partial: once the connection of a visitor has ended, the connection to its local service is
    no longer served at some later time, if the tunnel works on and every part on the way gets its turn again and again -
    or, at some time, the client drops the notice of the end because the stream's channel is full
    (`C116_slow_service_fails`). Excluded are streams of which something was sent before their open request
    (`C116_overtaken_fails`). -/
theorem C170_fair_partial (cfg : Cfg) (σ : Nat → Event) (t0 n m i : Nat) (hn : ∀ t, t0 ≤ t → Normal cfg (after cfg σ t))
    (hfree : ∀ t, t0 ≤ t → Free i (after cfg σ t)) (hs : ∀ t, t0 ≤ t → (after cfg σ t).srv.phase = .running)
    (hc : ∀ t, t0 ≤ t → (after cfg σ t).cli.phase = .running) (hf : FairUp cfg σ n m)
    (v) (hv : (after cfg σ t0).visitors[n]? = some v) (hvi : v.relay.id = i) (hend : v.relay.phase ≠ .running)
    (l) (hl : (after cfg σ t0).locals[m]? = some l) (hli : l.1.id = i)
    (ha : AnnouncedAll i (accepted (after cfg σ t0).srv.trace)) :
    ∃ t, t0 ≤ t ∧ ∃ l', (after cfg σ t).locals[m]? = some l' ∧ l'.1.id = i ∧
      (l'.1.phase ≠ .running ∨ .overflow l'.2 (.close i []) ∈ (after cfg σ t).cli.trace) := by
  apply Classical.byContradiction
  intro hno
  have hloc0 : ∀ d, ∃ x, (after cfg σ (t0 + d)).locals[m]? = some x ∧ x.1.id = i ∧ x.2 = l.2 := by
    intro d
    induction d with
    | zero => exact ⟨l, hl, hli, rfl⟩
    | succ d ih =>
      obtain ⟨x, h1, h2, h3⟩ := ih
      obtain ⟨y, y1, y2, y3, _⟩ := local_stays (cfg := cfg) h1 (σ (t0 + d))
      exact ⟨y, by rw [← Nat.add_assoc, after_succ]; exact y1, y2.trans h2, y3.trans h3⟩
  have hloc : ∀ d, ∃ x, (after cfg σ (t0 + d)).locals[m]? = some x ∧ x.1.id = i ∧ x.2 = l.2 ∧ x.1.phase = .running ∧
      .overflow l.2 (.close i []) ∉ (after cfg σ (t0 + d)).cli.trace := by
    intro d
    obtain ⟨x, x1, x2, x3⟩ := hloc0 d
    refine ⟨x, x1, x2, x3, Classical.byContradiction fun hp => ?_, fun hp => ?_⟩
    · exact hno ⟨t0 + d, Nat.le_add_right _ _, x, x1, x2, .inl hp⟩
    · exact hno ⟨t0 + d, Nat.le_add_right _ _, x, x1, x2, .inr (by rw [x3]; exact hp)⟩
  have hvis : ∀ d, ∃ x, (after cfg σ (t0 + d)).visitors[n]? = some x ∧ x.relay.id = i ∧ x.relay.phase ≠ .running := by
    intro d
    induction d with
    | zero => exact ⟨v, hv, hvi, hend⟩
    | succ d ih =>
      obtain ⟨x, h1, h2, h3⟩ := ih
      obtain ⟨y, y1, y2, y3⟩ := visitor_ended (cfg := cfg) h1 h3 (σ (t0 + d))
      exact ⟨y, by rw [← Nat.add_assoc, after_succ]; exact y1, y2.trans h2, y3⟩
  have hs' : ∀ d, (after cfg σ (t0 + d)).srv.phase = .running := fun d => hs _ (Nat.le_add_right _ _)
  have hc' : ∀ d, (after cfg σ (t0 + d)).cli.phase = .running := fun d => hc _ (Nat.le_add_right _ _)
  have hn' : ∀ d, Normal cfg (after cfg σ (t0 + d)) := fun d => hn _ (Nat.le_add_right _ _)
  have hfree' : ∀ d, Free i (after cfg σ (t0 + d)) := fun d => hfree _ (Nat.le_add_right _ _)
  have hL : Lively cfg (fun t => after cfg σ (t0 + t)) (fun t => σ (t0 + t)) :=
    lively_of (fun t => ⟨_, rfl⟩) (fun t => after_succ cfg σ (t0 + t)) hn' hs' hc' (fun t => by
      obtain ⟨x, h1, _⟩ := hvis t
      exact List.ne_nil_of_mem (List.mem_of_getElem? h1))
  have hidle := (hL.unblocked (fun t hh f hp => by
    obtain ⟨t', h1, h2⟩ := hf.makesRoom (t0 + t) hh f hp
    exact ⟨t' - t0, by omega, by rw [Nat.add_sub_cancel' (by omega)]; exact h2⟩)).back
      (P := fun t => (after cfg σ t).srv.pending = none)
  have htakes := hf.serverTakes hidle
  have hroom := hf.handOver ((hL.roomS (htakes.shift t0)).back (P := fun t => (after cfg σ t).srv.outq.length < Tunnel.outCap))
  -- the notice is handed over
  have a1 : ∃ d, .close i [] ∈ submissions (after cfg σ (t0 + d)).srv.trace := by
    obtain ⟨d, -, e1, e2⟩ := hroom.shift t0 0
    obtain ⟨x, x1, x2, x3⟩ := hvis d
    have hpass := (passed_run cfg ((List.range (t0 + d)).map σ)).server
    have halive : x.relay.alive = true := by
      cases ha : x.relay.alive with
      | true => rfl
      | false => exact absurd (hs' d) (hpass.alive x.relay (List.mem_map.2 ⟨x, List.mem_of_getElem? x1, rfl⟩) ha)
    have hst := slot_ends (Tunnel.serverStep cfg.server) true (after cfg σ (t0 + d)).srv x.handle (hs' d) x3 halive e2
    refine ⟨d + 1, ?_⟩
    have hget : ∃ y, (after cfg σ (t0 + (d + 1))).visitors[n]? = some y ∧ y.relay.id = i ∧ y.relay.phase = .done := by
      rw [← Nat.add_assoc, after_succ, e1]
      simp only [step, x1]
      exact ⟨_, List.getElem?_set_self (List.getElem?_eq_some_iff.1 x1).1, (relayStep_id ..).trans x2, hst⟩
    obtain ⟨y, y1, y2, y3⟩ := hget
    have := (passed_run cfg ((List.range (t0 + (d + 1))).map σ)).server.close
      (List.mem_map.2 ⟨y, List.mem_of_getElem? y1, rfl⟩) ((hL.base (d + 1)).visitors y (List.mem_of_getElem? y1)) y3
      (hs' (d + 1))
    rw [y2] at this
    exact this
  obtain ⟨d1, a1⟩ := a1
  obtain ⟨d2, e2, a2⟩ := hL.takenS (htakes.shift t0) d1
  obtain ⟨d3, e3, a3⟩ := hL.sentS ((hf.serverWrites hidle).shift t0) d2
  obtain ⟨d4, e4, a4⟩ := hL.readC (hf.clientReads.shift t0) d3
  have hrx : ∀ d, ((after cfg σ (t0 + d)).cli.chan l.2).rx = true := by
    intro d
    obtain ⟨x, x1, x2, x3, x4, _⟩ := hloc d
    have hh := hosts_run cfg ((List.range (t0 + d)).map σ)
    have hlm := List.mem_of_getElem? x1
    rw [← x3]
    refine serving_run cfg _ _ (hh.conn x hlm) fun z hz he => ?_
    obtain ⟨j, hj⟩ := List.getElem?_of_mem hz
    have : j = m := by
      have h1 : ((after cfg σ (t0 + d)).locals.map (·.2))[j]? = some x.2 := by
        unfold after; rw [List.getElem?_map, hj]; simpa using he
      have h2 : ((after cfg σ (t0 + d)).locals.map (·.2))[m]? = some x.2 := by rw [List.getElem?_map, x1]; rfl
      exact (List.getElem?_inj (List.getElem?_eq_some_iff.1 h1).1 hh.nodup).1 (h1.trans h2.symm)
    subst this
    unfold after at x1
    rw [x1] at hj; cases hj
    exact x4
  -- it is put into the channel of the local connection
  have a6 : .close i [] ∈ puts l.2 (after cfg σ (t0 + d4)).cli.trace := by
    have hacc : accepted (after cfg σ (t0 + d2)).srv.trace <+: accepted (after cfg σ (t0 + d4)).srv.trace :=
      chain_prefix (B := fun t => accepted (after cfg σ (t0 + t)).srv.trace)
        (fun t => Tunnel.accepted_mono (hL.srvTrace t)) (by omega)
    obtain ⟨es, he⟩ := (hL.base d4).cli
    have hat := Tunnel.client_at (nilStream (hL.fit d4).server) cfg.client [] es
    rw [← he] at hat
    have hi := hL.cliIdle d4
    have hlive : Tunnel.Live (after cfg σ (t0 + d4)).cli := ⟨hc' d4, hi.2.1, hi.1⟩
    have hs := hat.seen hlive (hL.fit d4).server ((List.prefix_append _ _).trans (hL.arrivesC d4)) hacc (a3.trans a4)
    have hgot : .close i [] ∈ gots (after cfg σ (t0 + d4)).cli.trace :=
      hs.subset (List.mem_map.2 ⟨_, relayed_accepted (a2.subset a1), rfl⟩)
    obtain ⟨x, x1, x2, _⟩ := hvis d4
    have hid := visitor_id (guests_run cfg _) (hn' d4).used (List.mem_of_getElem? x1)
    rw [x2] at hid
    have hcreate : ∃ x, .create i x ∈ accepted (after cfg σ t0).srv.trace := by
      have hone := (announced_visitor (hn t0 (Nat.le_refl _)) (List.mem_of_getElem? hv)
        (by rw [hvi]; exact hfree t0 (Nat.le_refl _)) (List.mem_of_getElem? hl) (hli.trans hvi.symm)).1
      rw [hvi] at hone
      obtain ⟨f, hf, hp⟩ := List.countP_pos_iff.1 (show 0 < creates i (accepted (after cfg σ t0).srv.trace) by
        unfold after; omega)
      cases f with
      | create j x =>
        have : j = i := by simpa using hp
        exact ⟨x, this ▸ hf⟩
      | _ => cases hp
    have ha4 := announcedAll_more ha hcreate (chain_prefix (B := fun t => accepted (after cfg σ (t0 + t)).srv.trace)
      (fun t => Tunnel.accepted_mono (hL.srvTrace t)) (Nat.zero_le d4))
    obtain ⟨y, y1, y2, y3, _, ho⟩ := hloc d4
    obtain ⟨t1, rest, ht, h2, h3⟩ := local_met_all (hn' d4) (List.mem_of_getElem? y1) (by rw [y2]; exact hfree' d4)
      (by rw [y2]; exact ha4)
    rw [y2, y3] at ht
    rw [y2] at h2 h3
    have hrx4 := hrx d4
    change (after cfg σ (t0 + d4)).cli.trace = _ at ht
    rw [he] at ht hlive hrx4 hgot ho ⊢
    exact Tunnel.client_mem_kept cfg.client [] es (.close i []) l.2 t1 rest (fun _ => decide_eq_true hid) ht
      (h3 []) h2 ho hlive hrx4 hgot
  obtain ⟨d7, e7, a7⟩ := hL.gotC hrx (fun t => by obtain ⟨x, x1, _, x3, x4, _⟩ := hloc t; exact ⟨x, x1, x3, x4⟩)
    (hf.serviceTakes.shift t0) d4
  obtain ⟨x, x1, x2, x3, x4, _⟩ := hloc d7
  have hrecv := (hosts_run cfg ((List.range (t0 + d7)).map σ)).recv x (List.mem_of_getElem? x1)
  rw [x3] at hrecv
  exact relay_got_close ((hL.base d7).locals x (List.mem_of_getElem? x1)) (hrecv ▸ a7.subset a6) x4

/-! ### Schedules that meet the requirements -/

/-- first the steps `pre`, then those of `turn`, over and over -/
def cycle (pre turn : List Event) (t : Nat) : Event :=
  if t < pre.length then pre.getD t .accept else turn.getD ((t - pre.length) % turn.length) .accept

theorem cycle_turn (pre turn : List Event) (t j : Nat) (hj : j < turn.length) :
    cycle pre turn (pre.length + turn.length + turn.length * t + j) = turn.getD j .accept := by
  unfold cycle
  rw [if_neg (by omega)]
  congr 1
  have : pre.length + turn.length + turn.length * t + j - pre.length = j + turn.length * (t + 1) := by
    rw [Nat.mul_add]; omega
  rw [this, Nat.add_mul_mod_self_left, Nat.mod_eq_of_lt hj]

/-- the schedule changes nothing any more, if one round does not -/
theorem cycle_settled {cfg : Cfg} {pre turn : List Event} (ht : turn ≠ []) {N} (hN : N = pre.length + turn.length)
    (h : ∀ e ∈ turn, step cfg (after cfg (cycle pre turn) N) e = after cfg (cycle pre turn) N) (d : Nat) :
    after cfg (cycle pre turn) (N + d) = after cfg (cycle pre turn) N := by
  have hpos := List.length_pos_iff.2 ht
  induction d with
  | zero => rfl
  | succ d ih =>
    rw [← Nat.add_assoc, after_succ, ih]
    refine h _ ?_
    have h := cycle_turn pre turn (d / turn.length) (d % turn.length) (Nat.mod_lt _ hpos)
    rw [← hN, Nat.add_assoc, Nat.div_add_mod] at h
    rw [h, List.getD_eq_getElem?_getD, List.getElem?_eq_getElem (Nat.mod_lt _ hpos)]
    exact List.getElem_mem _

theorem cycle_all {cfg : Cfg} {pre turn : List Event} {N} (hs : ∀ d, after cfg (cycle pre turn) (N + d) = after cfg (cycle pre turn) N)
    {P : St → Prop} {a : Nat} (h : ∀ t < N + 1, a ≤ t → P (after cfg (cycle pre turn) t)) (ha : a ≤ N) (t : Nat)
    (ht : a ≤ t) : P (after cfg (cycle pre turn) t) := by
  rcases Nat.lt_or_ge t (N + 1) with h1 | h1
  · exact h t h1 ht
  · obtain ⟨d, rfl⟩ : ∃ d, t = N + d := ⟨t - N, by omega⟩
    rw [hs]
    exact h N (by omega) ha

theorem cycle_often {cfg : Cfg} {pre turn : List Event} {N} (hN : N = pre.length + turn.length)
    (hs : ∀ d, after cfg (cycle pre turn) (N + d) = after cfg (cycle pre turn) N) {Q : St → Event → Prop} (j : Nat)
    (hj : j < turn.length) (h : Q (after cfg (cycle pre turn) N) (turn.getD j .accept)) :
    Often fun t => Q (after cfg (cycle pre turn) t) (cycle pre turn t) := by
  intro t
  refine ⟨N + turn.length * t + j, ?_, ?_⟩
  · have : t ≤ turn.length * t := Nat.le_mul_of_pos_left _ (by omega)
    omega
  · show Q (after cfg (cycle pre turn) (N + turn.length * t + j)) (cycle pre turn (N + turn.length * t + j))
    rw [hN, cycle_turn pre turn t j hj, ← hN, Nat.add_assoc, hs]
    exact h

/-- a visitor is connected to its service, which ends its connection -/
def hangsUp : List Event := hello ++ opening ++ [.loc 0 .readEnd]
/-- a visitor is connected to its service, and ends its connection -/
def leaves : List Event := hello ++ opening ++ [.vis 0 .readEnd]

theorem hangsUp_still {e} (he : e ∈ back) :
    step webCfg (after webCfg (cycle hangsUp back) 15) e = after webCfg (cycle hangsUp back) 15 := by
  have c : (after webCfg (cycle hangsUp back) 15).cli.outq = [] ∧ (after webCfg (cycle hangsUp back) 15).cli.writeBuf = [] ∧
      (after webCfg (cycle hangsUp back) 15).cli.phase = .running ∧ (after webCfg (cycle hangsUp back) 15).up = [] := by
    decide +kernel
  have hv : (after webCfg (cycle hangsUp back) 15).visitors.map (fun v => v.relay.phase) = [.closing] := by decide +kernel
  have hl : (after webCfg (cycle hangsUp back) 15).locals.map (fun l => l.1.phase) = [.done] := by decide +kernel
  generalize after webCfg (cycle hangsUp back) 15 = w at *
  obtain ⟨c1, c2, c3, c4⟩ := c
  have hv' : ∃ v, w.visitors[0]? = some v ∧ v.relay.phase = .closing := by
    cases h : w.visitors with
    | nil => rw [h] at hv; simp at hv
    | cons v vs => rw [h] at hv; simp at hv; exact ⟨v, rfl, hv.1⟩
  have hl' : ∃ l, w.locals[0]? = some l ∧ l.1.phase = .done := by
    cases h : w.locals with
    | nil => rw [h] at hl; simp at hl
    | cons v vs => rw [h] at hl; simp at hl; exact ⟨v, rfl, hl.1⟩
  obtain ⟨v, v1, v2⟩ := hv'
  obtain ⟨l, l1, l2⟩ := hl'
  simp only [back, List.mem_cons, List.not_mem_nil, or_false] at he
  rcases he with rfl | rfl | rfl | rfl | rfl | rfl
  · have ho : offer l.1 = none := by unfold offer; simp [l2]
    simp only [step, l1, relayStep, c3, if_true, ho]
    rw [set_same l1]
  · simp only [step, loopStep, Tunnel.clientStep, Tunnel.step, c1, ite_self, List.append_nil]
  · simp only [step, loopStep, Tunnel.clientStep, Tunnel.step, c2, if_true, ite_self, List.take_nil, List.append_nil]
  · simp [step, loopStep, c4]
    rw [← c4]
  · simp only [step, v1, relayStep, v2]
    rw [if_neg (by decide), set_same v1]
  · have : Relay.step v.relay (.wrote 10) = v.relay := by unfold Relay.step; rw [v2]
    simp only [step, v1, relayStep, this]
    rw [set_same v1]

theorem leaves_still {e} (he : e ∈ forth) :
    step webCfg (after webCfg (cycle leaves forth) 15) e = after webCfg (cycle leaves forth) 15 := by
  have c : (after webCfg (cycle leaves forth) 15).srv.outq = [] ∧ (after webCfg (cycle leaves forth) 15).srv.writeBuf = [] ∧
      (after webCfg (cycle leaves forth) 15).srv.phase = .running ∧ (after webCfg (cycle leaves forth) 15).down = [] := by
    decide +kernel
  have hv : (after webCfg (cycle leaves forth) 15).visitors.map (fun v => v.relay.phase) = [.done] := by decide +kernel
  have hl : (after webCfg (cycle leaves forth) 15).locals.map (fun l => l.1.phase) = [.closing] := by decide +kernel
  generalize after webCfg (cycle leaves forth) 15 = w at *
  obtain ⟨c1, c2, c3, c4⟩ := c
  have hv' : ∃ v, w.visitors[0]? = some v ∧ v.relay.phase = .done := by
    cases h : w.visitors with
    | nil => rw [h] at hv; simp at hv
    | cons v vs => rw [h] at hv; simp at hv; exact ⟨v, rfl, hv.1⟩
  have hl' : ∃ l, w.locals[0]? = some l ∧ l.1.phase = .closing := by
    cases h : w.locals with
    | nil => rw [h] at hl; simp at hl
    | cons v vs => rw [h] at hl; simp at hl; exact ⟨v, rfl, hl.1⟩
  obtain ⟨v, v1, v2⟩ := hv'
  obtain ⟨l, l1, l2⟩ := hl'
  simp only [forth, List.mem_cons, List.not_mem_nil, or_false] at he
  rcases he with rfl | rfl | rfl | rfl | rfl | rfl
  · have ho : offer v.relay = none := by unfold offer; simp [v2]
    simp only [step, v1, relayStep, c3, if_true, ho]
    rw [set_same v1]
  · simp only [step, loopStep, Tunnel.serverStep, Tunnel.step, c1, ite_self, List.append_nil]
  · simp only [step, loopStep, Tunnel.serverStep, Tunnel.step, c2, if_true, ite_self, List.take_nil, List.append_nil]
  · simp [step, loopStep, c4]
    rw [← c4]
  · simp only [step, l1, relayStep, l2]
    rw [if_neg (by decide), set_same l1]
  · have : Relay.step l.1 (.wrote 10) = l.1 := by unfold Relay.step; rw [l2]
    simp only [step, l1, relayStep, this]
    rw [set_same l1]

/-- The hypotheses of `C169_fair` are met: after nine steps the service has ended its connection, and the visitor is still
    served. -/
example : (∀ t, 9 ≤ t → Normal webCfg (after webCfg (cycle hangsUp back) t) ∧ Free 2 (after webCfg (cycle hangsUp back) t) ∧
      (after webCfg (cycle hangsUp back) t).srv.phase = .running ∧ (after webCfg (cycle hangsUp back) t).cli.phase = .running) ∧
    FairDown webCfg (cycle hangsUp back) 0 0 ∧
    (after webCfg (cycle hangsUp back) 9).visitors.map (fun v => (v.relay.id, v.relay.phase)) = [(2, .running)] ∧
    (after webCfg (cycle hangsUp back) 9).locals.map (fun l => (l.1.id, l.1.phase)) = [(2, .closing)] := by
  have hN : 15 = hangsUp.length + back.length := by decide
  have hs := cycle_settled (cfg := webCfg) (by decide) hN (fun _ => hangsUp_still)
  have hf : ∀ t, 9 ≤ t → (after webCfg (cycle hangsUp back) t).otherS = [] ∧ (after webCfg (cycle hangsUp back) t).otherC = [] ∧
      (after webCfg (cycle hangsUp back) t).used < 2 ^ 23 ∧ (after webCfg (cycle hangsUp back) t).srv.phase = .running ∧
      (after webCfg (cycle hangsUp back) t).cli.phase = .running :=
    cycle_all hs (P := fun w => w.otherS = [] ∧ w.otherC = [] ∧ w.used < 2 ^ 23 ∧ w.srv.phase = .running ∧
      w.cli.phase = .running) (by decide +kernel) (by decide)
  have hp : ∀ t, 0 ≤ t → (after webCfg (cycle hangsUp back) t).srv.pending = none :=
    cycle_all hs (P := fun w => w.srv.pending = none) (by decide +kernel) (by decide)
  refine ⟨fun t ht => ?_, ⟨fun _ => ?_, ?_, ?_, fun _ => ?_, fun t h f hh => ?_, ?_, ?_⟩, by decide +kernel, by decide +kernel⟩
  · obtain ⟨f1, f2, f3, f4, f5⟩ := hf t ht
    exact ⟨web_normal _ f1 f2 f3, web_free _ f1 f2 _, f4, f5⟩
  · exact cycle_often hN hs (Q := fun w e => e = .loc 0 .slot ∧ w.cli.outq.length < Tunnel.outCap) 0 (by decide)
      (by decide +kernel)
  · exact cycle_often hN hs (Q := fun _ e => e = .cli .recv) 1 (by decide) rfl
  · exact cycle_often hN hs (Q := fun _ e => ∃ j, 0 < j ∧ e = .cli (.wrote j)) 2 (by decide) ⟨1000, by decide, rfl⟩
  · exact cycle_often hN hs (Q := fun w e => (∃ j, 0 < j ∧ e = .srv (.read j)) ∧ w.srv.pending = none) 3 (by decide)
      ⟨⟨1000, by decide, rfl⟩, hp _ (by decide)⟩
  · rw [hp t (Nat.zero_le _)] at hh; cases hh
  · exact cycle_often hN hs (Q := fun _ e => e = .vis 0 .recv) 4 (by decide) rfl
  · exact cycle_often hN hs (Q := fun _ e => ∃ j, 0 < j ∧ e = .vis 0 (.wrote j)) 5 (by decide) ⟨10, by decide, rfl⟩

/-- The hypotheses of `C170_fair_partial` are met: after nine steps the visitor has ended its connection, and that to the
    service is still served; no notice is ever dropped. -/
example : (∀ t, 9 ≤ t → Normal webCfg (after webCfg (cycle leaves forth) t) ∧ Free 2 (after webCfg (cycle leaves forth) t) ∧
      (after webCfg (cycle leaves forth) t).srv.phase = .running ∧ (after webCfg (cycle leaves forth) t).cli.phase = .running) ∧
    FairUp webCfg (cycle leaves forth) 0 0 ∧
    (after webCfg (cycle leaves forth) 9).visitors.map (fun v => (v.relay.id, v.relay.phase)) = [(2, .closing)] ∧
    (after webCfg (cycle leaves forth) 9).locals.map (fun l => (l.1.id, l.1.phase)) = [(2, .running)] ∧
    AnnouncedAll 2 (accepted (after webCfg (cycle leaves forth) 9).srv.trace) ∧
    ∀ t, 9 ≤ t → ((after webCfg (cycle leaves forth) t).cli.trace.any fun o =>
      match o with | .overflow _ _ => true | _ => false) = false := by
  have hN : 15 = leaves.length + forth.length := by decide
  have hs := cycle_settled (cfg := webCfg) (by decide) hN (fun _ => leaves_still)
  have hf : ∀ t, 9 ≤ t → (after webCfg (cycle leaves forth) t).otherS = [] ∧ (after webCfg (cycle leaves forth) t).otherC = [] ∧
      (after webCfg (cycle leaves forth) t).used < 2 ^ 23 ∧ (after webCfg (cycle leaves forth) t).srv.phase = .running ∧
      (after webCfg (cycle leaves forth) t).cli.phase = .running :=
    cycle_all hs (P := fun w => w.otherS = [] ∧ w.otherC = [] ∧ w.used < 2 ^ 23 ∧ w.srv.phase = .running ∧
      w.cli.phase = .running) (by decide +kernel) (by decide)
  have hp : ∀ t, 0 ≤ t → (after webCfg (cycle leaves forth) t).srv.pending = none :=
    cycle_all hs (P := fun w => w.srv.pending = none) (by decide +kernel) (by decide)
  refine ⟨fun t ht => ?_, ⟨fun _ => ?_, fun _ => ?_, fun _ => ?_, fun t h f hh => ?_, ?_, ?_, ?_⟩, by decide +kernel,
    by decide +kernel, ?_,
    cycle_all hs (P := fun w => (w.cli.trace.any fun o => match o with | .overflow _ _ => true | _ => false) = false)
      (by decide +kernel) (by decide)⟩
  · obtain ⟨f1, f2, f3, f4, f5⟩ := hf t ht
    exact ⟨web_normal _ f1 f2 f3, web_free _ f1 f2 _, f4, f5⟩
  · exact cycle_often hN hs (Q := fun w e => e = .vis 0 .slot ∧ w.srv.outq.length < Tunnel.outCap) 0 (by decide)
      (by decide +kernel)
  · exact cycle_often hN hs (Q := fun w e => e = .srv .recv ∧ w.srv.pending = none) 1 (by decide) ⟨rfl, hp _ (by decide)⟩
  · exact cycle_often hN hs (Q := fun w e => (∃ j, 0 < j ∧ e = .srv (.wrote j)) ∧ w.srv.pending = none) 2 (by decide)
      ⟨⟨1000, by decide, rfl⟩, hp _ (by decide)⟩
  · rw [hp t (Nat.zero_le _)] at hh; cases hh
  · exact cycle_often hN hs (Q := fun _ e => ∃ j, 0 < j ∧ e = .cli (.read j)) 3 (by decide) ⟨1000, by decide, rfl⟩
  · exact cycle_often hN hs (Q := fun _ e => e = .loc 0 .recv) 4 (by decide) rfl
  · exact cycle_often hN hs (Q := fun _ e => ∃ j, 0 < j ∧ e = .loc 0 (.wrote j)) 5 (by decide) ⟨10, by decide, rfl⟩
  · have h : (accepted (after webCfg (cycle leaves forth) 9).srv.trace).map (fun f => decide (f.sockMap = 2)) = [true] ∧
        (accepted (after webCfg (cycle leaves forth) 9).srv.trace).all
          (fun f => match f with | .create 2 _ => true | _ => false) = true := by decide +kernel
    intro a f b hab hf
    left
    have := List.all_eq_true.1 h.2 f (by rw [hab]; simp)
    split at this
    · exact ⟨_, rfl⟩
    · cases this

end Wm.World
