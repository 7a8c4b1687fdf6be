import Verif.Proofs.WorldFlow
import Verif.Proofs.TunnelDue
/-! The end-to-end composition: the client's side, and what the ends see of each other. -/
namespace Wm.World
open Wm Wm.Prot
open scoped List
open Wm.Tunnel (datas creates regCount openCount gots received submissions accepted relayed written arrived InnerL heads heads_received)

variable {T : Tunnel.St → Tunnel.Event → Tunnel.St}

/-! ### the client's relays -/

theorem connects_append (a b) : connects (a ++ b) = connects a ++ connects b := by simp [connects]

theorem heads_connects (s : Tunnel.St) (e) : connects (heads s e) = [] ∧ ∀ i, openCount i (heads s e) = 0 := by
  cases e <;> simp only [heads]
  case submit f => split <;> simp [connects, openCount]
  case take j =>
    split
    · simp [connects, openCount]
    · split <;> simp [connects, openCount]
  case dropRx h => split <;> simp [connects, openCount]
  case work id d =>
    split
    · cases Tunnel.lookup id s.map <;> simp [connects, openCount]
    · simp [connects, openCount]
  case recv =>
    split
    · split <;> simp [connects, openCount]
    · simp [connects, openCount]
  case readEnd => split <;> simp [connects, openCount]
  case read => split <;> simp [connects, openCount]
  case wrote n =>
    split
    · split <;> simp [connects, openCount]
    · simp [connects, openCount]
  case writeErr => simp [connects, openCount]

theorem heads_gots (s : Tunnel.St) (e) : gots (heads s e) = [] := by
  cases e <;> simp only [heads]
  case submit f => split <;> rfl
  case take j =>
    split
    · rfl
    · split <;> rfl
  case dropRx h => split <;> rfl
  case work id d =>
    split
    · cases Tunnel.lookup id s.map <;> rfl
    · rfl
  case recv =>
    split
    · split <;> rfl
    · rfl
  case readEnd => split <;> rfl
  case read => split <;> rfl
  case wrote n =>
    split
    · split <;> rfl
    · rfl
  case writeErr => rfl

/-- new streams of a step have new channels -/
theorem Steps.hconnects (hT : Steps T) (s e) : ∃ l, connects (T s e).trace = connects s.trace ++ l ∧
    ∀ p ∈ l, s.next ≤ p.2 := by
  obtain ⟨u, e1, e2, _, e3⟩ := hT s e
  refine ⟨connects u, by rw [e1, connects_append, connects_append, (heads_connects s e).1, List.append_nil], ?_⟩
  rintro ⟨i, h⟩ hp
  simp only [connects, List.mem_filterMap] at hp
  obtain ⟨o, ho, ho2⟩ := hp
  cases o <;> try cases ho2
  rename_i how
  cases how <;> cases ho2
  exact e3 i h (e2.openReg _ _ _ ho)

theorem Steps.hopens (hT : Steps T) (i s e) (h : openCount i s.trace ≤ creates i (gots s.trace)) :
    openCount i (T s e).trace ≤ creates i (gots (T s e).trace) := by
  obtain ⟨u, e1, e2, _, e3⟩ := hT s e
  have := e2.opens i
  rw [e1, Tunnel.openCount_append, Tunnel.openCount_append, (heads_connects s e).2, Tunnel.gots_append', Tunnel.gots_append',
    heads_gots, List.append_nil, Tunnel.creates_append]
  omega

theorem client_fresh {cfg s} (h : ∃ es, s = Tunnel.clientRun cfg [] es) {k} (hk : s.next ≤ k) :
    received k s.trace = [] ∧ (s.chan k).rx = false := by
  obtain ⟨es, rfl⟩ := h
  have := (Tunnel.client_inv cfg [] es).1.1.fresh k hk
  exact ⟨(Tunnel.attempts_fresh this.2).2.2, this.1⟩

theorem fresh_received (hT : Steps T) {s k} (h : received k s.trace = [] ∧ (s.chan k).rx = false) (e) :
    received k (T s e).trace = [] := by
  rw [hT.hreceived, h.1, List.nil_append]
  by_cases he : e = .take k
  · subst he
    simp only [heads, h.2]
    split <;> rfl
  · exact heads_received he

theorem One.fresh (hT : Steps T) {s s' k} (ho : One T s s') (h : received k s.trace = [] ∧ (s.chan k).rx = false) :
    received k s'.trace = [] := by
  rcases ho with rfl | ⟨e, rfl⟩
  · exact h.1
  · exact fresh_received hT h e

theorem One.connects (hT : Steps T) {s s'} (ho : One T s s') : ∃ l, connects s'.trace = connects s.trace ++ l ∧
    ∀ p ∈ l, s.next ≤ p.2 := by
  rcases ho with rfl | ⟨e, rfl⟩
  · exact ⟨[], by simp, by simp⟩
  · exact hT.hconnects s e

structure Hosts (w : St) : Prop where
  conn : ∀ l ∈ w.locals, (l.1.id, l.2) ∈ connects w.cli.trace
  nodup : (w.locals.map (·.2)).Nodup
  recv : ∀ l ∈ w.locals, received l.2 w.cli.trace = Relay.gots l.1.trace
  waiting : ∀ p ∈ connects w.cli.trace, p.2 ∉ w.locals.map (·.2) → received p.2 w.cli.trace = []
  opens : ∀ i, openCount i w.cli.trace ≤ creates i (gots w.cli.trace)

theorem hosts_init (cfg) : Hosts (init cfg) := by
  have hf := Tunnel.Fresh.init cfg.client []
  have hc : connects (Tunnel.clientInit cfg.client []).trace = [] := by
    refine List.filterMap_eq_nil_iff.2 fun o ho => ?_
    obtain ⟨f, rfl⟩ := hf.trace o ho; rfl
  refine ⟨by simp [init], by simp [init], by simp [init], ?_, fun i => ?_⟩
  · simp only [init, hc]; simp
  · have : openCount i (Tunnel.clientInit cfg.client []).trace = 0 := by
      refine List.countP_eq_zero.2 fun o ho => ?_
      obtain ⟨f, rfl⟩ := hf.trace o ho; simp
    simp only [init, this]; omega

/-- a step of the client's end that takes nothing from the channels of streams connected to local services -/
theorem Hosts.quiet {cfg w} (hb : Base cfg w) (h : Hosts w) (w' : St) (hl : w'.locals = w.locals)
    (ho : One (Tunnel.clientStep cfg.client) w.cli w'.cli)
    (hr : ∀ k ∈ (connects w.cli.trace).map (·.2), received k w'.cli.trace = received k w.cli.trace) : Hosts w' := by
  have hC := steps_client cfg.client
  obtain ⟨l, e1, e2⟩ := ho.connects hC
  refine ⟨?_, by rw [hl]; exact h.nodup, ?_, ?_, fun i => ?_⟩
  · rw [hl, e1]; intro x hx; exact List.mem_append.2 (.inl (h.conn x hx))
  · rw [hl]; intro x hx
    rw [hr x.2 (List.mem_map.2 ⟨_, h.conn x hx, rfl⟩)]; exact h.recv x hx
  · rw [hl, e1]
    intro p hp hn
    rcases List.mem_append.1 hp with hp | hp
    · rw [hr p.2 (List.mem_map.2 ⟨_, hp, rfl⟩)]; exact h.waiting p hp hn
    · exact ho.fresh hC (client_fresh hb.cli (e2 p hp))
  · rcases ho with e | ⟨e, he⟩
    · rw [e]; exact h.opens i
    · rw [he]; exact hC.hopens i _ _ (h.opens i)

theorem hosts_step (cfg w e) (hb : Base cfg w) (h : Hosts w) : Hosts (step cfg w e) := by
  have hC := steps_client cfg.client
  have keep : ∀ w' : St, w'.locals = w.locals → w'.cli = w.cli → Hosts w' := by
    intro w' h1 h2
    exact ⟨by rw [h1, h2]; exact h.conn, by rw [h1]; exact h.nodup, by rw [h1, h2]; exact h.recv,
      by rw [h1, h2]; exact h.waiting, by rw [h2]; exact h.opens⟩
  cases e <;> simp only [step]
  case accept => exact keep _ rfl rfl
  case visit n mode =>
    split
    · exact h
    · split
      · exact keep _ rfl rfl
      · split
        · split
          · exact keep _ rfl rfl
          · exact h
        · exact keep _ rfl rfl
  case work =>
    split
    · exact h
    · split
      · exact h
      · split
        · exact keep _ rfl rfl
        · exact h
  case srv e => exact keep _ rfl rfl
  case cli e => exact h.quiet hb _ rfl (loopStep_one _ _ _) (fun k _ => loopStep_received hC _ _ _ k)
  case otherS e => exact keep _ rfl rfl
  case otherC e => exact h.quiet hb _ rfl (otherStep_one _ _ _) (fun k hk => otherStep_received hC _ _ _ hk)
  case vis n e =>
    split
    · exact h
    · exact keep _ rfl rfl
  case start id k =>
    split
    · rename_i hc
      refine ⟨?_, ?_, ?_, ?_, h.opens⟩
      · intro l hl
        rcases List.mem_append.1 hl with hl | hl
        · exact h.conn l hl
        · simp at hl; subst hl; exact hc.1
      · rw [List.map_append]
        refine List.nodup_append.2 ⟨h.nodup, by simp, ?_⟩
        intro a ha b hb e
        simp at hb; subst hb; subst e; exact hc.2 ha
      · intro l hl
        rcases List.mem_append.1 hl with hl | hl
        · exact h.recv l hl
        · simp at hl; subst hl; exact h.waiting (id, k) hc.1 hc.2
      · intro p hp hn
        exact h.waiting p hp (fun hm => hn (by rw [List.map_append]; exact List.mem_append.2 (.inl hm)))
    · exact h
  case loc n e =>
    split
    · exact h
    · rename_i l hl
      have hr := hb.locals l (List.mem_of_getElem? hl)
      have ho := relayStep_one (T := Tunnel.clientStep cfg.client) false w.cli l.1 (some l.2) e hr
      obtain ⟨cs, e1, e2⟩ := ho.connects hC
      have hid := (relayStep_cases (Tunnel.clientStep cfg.client) false w.cli l.1 (some l.2) e hr).1.1
      have hm := map_set_same (·.2) (b := ((relayStep (Tunnel.clientStep cfg.client) false w.cli l.1 (some l.2) e).2, l.2))
        hl rfl
      refine ⟨?_, ?_, ?_, ?_, fun i => ?_⟩
      · intro x hx
        dsimp only at hx ⊢
        rw [e1]
        refine List.mem_append.2 (.inl ?_)
        rcases List.mem_or_eq_of_mem_set hx with hx | rfl
        · exact h.conn x hx
        · dsimp only; rw [hid]; exact h.conn l (List.mem_of_getElem? hl)
      · dsimp only at hm ⊢; rw [hm]; exact h.nodup
      · intro x hx
        dsimp only at hx ⊢
        obtain ⟨m, hx'⟩ := List.mem_iff_getElem?.1 hx
        rw [List.getElem?_set] at hx'
        split at hx'
        · split at hx'
          · cases hx'
            exact relayStep_own hC false w.cli l.1 l.2 e hr (h.recv l (List.mem_of_getElem? hl))
          · cases hx'
        · rename_i hnm
          have hx2 := List.mem_of_getElem? hx'
          rw [relayStep_received hC _ _ _ _ _ hr]
          · exact h.recv x hx2
          · intro heq
            simp only [Option.some.injEq] at heq
            have g1 : (w.locals.map (·.2))[n]? = some l.2 := by rw [List.getElem?_map, hl]; rfl
            have g2 : (w.locals.map (·.2))[m]? = some x.2 := by rw [List.getElem?_map, hx']; rfl
            obtain ⟨l1, f1⟩ := List.getElem?_eq_some_iff.1 g1
            obtain ⟨l2, f2⟩ := List.getElem?_eq_some_iff.1 g2
            exact hnm ((h.nodup.getElem_inj_iff).1 (by rw [f1, f2, heq]))
      · intro p hp hn
        dsimp only at hm hp hn ⊢
        rw [hm] at hn
        rw [e1] at hp
        rcases List.mem_append.1 hp with hp | hp
        · rw [relayStep_received hC _ _ _ _ _ hr]
          · exact h.waiting p hp hn
          · intro heq
            simp only [Option.some.injEq] at heq
            exact hn (List.mem_map.2 ⟨l, List.mem_of_getElem? hl, heq⟩)
        · exact ho.fresh hC (client_fresh hb.cli (e2 p hp))
      · dsimp only
        rcases ho with e | ⟨e, he⟩
        · rw [e]; exact h.opens i
        · rw [he]; exact hC.hopens i _ _ (h.opens i)

theorem hosts_run (cfg es) : Hosts (run cfg es) := by
  induction es using List.reverseRecOn with
  | nil => exact hosts_init cfg
  | append_singleton es e ih => rw [run_snoc]; exact hosts_step cfg _ e (base_run cfg es) ih

/-! ### what the ends see of each other -/

/-- every message put on the connection can be represented in the format (C01, C02) -/
structure Fit (w : St) : Prop where
  server : ∀ f ∈ accepted w.srv.trace, Fits f
  client : ∀ f ∈ accepted w.cli.trace, Fits f

theorem One.accepted (hT : Steps T) {s s'} (ho : One T s s') : accepted s.trace <+: accepted s'.trace := by
  rcases ho with rfl | ⟨e, rfl⟩
  · exact List.prefix_refl _
  · obtain ⟨u, e1, _⟩ := hT s e
    rw [e1, List.append_assoc, Tunnel.accepted_append]; exact List.prefix_append _ _

theorem Fit.back {cfg w e} (hb : Base cfg w) (h : Fit (step cfg w e)) : Fit w := by
  obtain ⟨h1, h2, _⟩ := step_one cfg w e hb
  exact ⟨fun f hf => h.server f ((h1.accepted (steps_server _)).subset hf),
    fun f hf => h.client f ((h2.accepted (steps_client _)).subset hf)⟩

theorem datas_asReceived (i) (fs : List Frame) : datas i (fs.map asReceived) = datas i fs := by
  induction fs with
  | nil => rfl
  | cons f fs ih =>
    have e1 : datas i ((f :: fs).map asReceived) = datas i [asReceived f] ++ datas i (fs.map asReceived) := by
      rw [← Tunnel.datas_append]; rfl
    have e2 : datas i (f :: fs) = datas i [f] ++ datas i fs := by rw [← Tunnel.datas_append]; rfl
    rw [e1, e2, ih]
    congr 1
    cases f <;> try rfl
    rename_i s d
    cases d with
    | none => rfl
    | some t => cases t <;> rfl

theorem creates_asReceived (i) (fs : List Frame) : creates i (fs.map asReceived) = creates i fs := by
  induction fs with
  | nil => rfl
  | cons f fs ih =>
    have e1 : creates i ((f :: fs).map asReceived) = creates i [asReceived f] + creates i (fs.map asReceived) := by
      rw [← Tunnel.creates_append]; rfl
    have e2 : creates i (f :: fs) = creates i [f] + creates i fs := by rw [← Tunnel.creates_append]; rfl
    rw [e1, e2, ih]
    congr 1
    cases f <;> try rfl
    rename_i s d
    cases d with
    | none => rfl
    | some t => cases t <;> rfl

theorem seen_client {cfg w} (hb : Base cfg w) (hf : Fit w) :
    gots w.cli.trace <+: (accepted w.srv.trace).map asReceived := by
  obtain ⟨es, e1⟩ := hb.cli
  obtain ⟨es', e2⟩ := hb.srv
  have hS : Tunnel.Stream (accepted w.srv.trace) [] := ⟨hf.server, by
    intro p hp hc
    rw [List.prefix_nil.1 hp] at hc
    simp [Complete, announced] at hc⟩
  have ha : arrived w.cli.trace <+: (accepted w.srv.trace).flatMap wire ++ [] := by
    rw [List.append_nil]
    refine List.IsPrefix.trans ⟨w.down, hb.down⟩ ?_
    rw [e2]; exact (Tunnel.C15_server_order cfg.server es').1
  rw [e1] at ha ⊢
  exact (Tunnel.C14_client_looks_at_everything hS cfg.client [] es ha).1

theorem seen_server {cfg w} (hb : Base cfg w) (hf : Fit w) :
    gots w.srv.trace <+: (accepted w.cli.trace).map asReceived := by
  obtain ⟨es, e1⟩ := hb.srv
  obtain ⟨es', e2⟩ := hb.cli
  have hS : Tunnel.Stream (accepted w.cli.trace) [] := ⟨hf.client, by
    intro p hp hc
    rw [List.prefix_nil.1 hp] at hc
    simp [Complete, announced] at hc⟩
  have ha : arrived w.srv.trace <+: (accepted w.cli.trace).flatMap wire ++ [] := by
    rw [List.append_nil]
    refine List.IsPrefix.trans ⟨w.up, hb.up⟩ ?_
    rw [e2]; exact (Tunnel.C15_client_order cfg.client [] es').1
  rw [e1] at ha ⊢
  exact (Tunnel.C13_server_looks_at_everything hS cfg.server es ha).1

theorem datas_prefix {i a b} (h : a <+: b) : datas i a <+: datas i b := by
  obtain ⟨z, rfl⟩ := h; rw [Tunnel.datas_append]; exact List.prefix_append _ _

theorem creates_le {i a b} (h : a <+: b) : creates i a ≤ creates i b := by
  obtain ⟨z, rfl⟩ := h; rw [Tunnel.creates_append]; omega

theorem seen_client_creates {cfg w} (hb : Base cfg w) (hf : Fit w) (i) :
    creates i (gots w.cli.trace) ≤ creates i (accepted w.srv.trace) := by
  have := creates_le (i := i) (seen_client hb hf); rwa [creates_asReceived] at this

theorem seen_server_creates {cfg w} (hb : Base cfg w) (hf : Fit w) (i) :
    creates i (gots w.srv.trace) ≤ creates i (accepted w.cli.trace) := by
  have := creates_le (i := i) (seen_server hb hf); rwa [creates_asReceived] at this

theorem seen_client_datas {cfg w} (hb : Base cfg w) (hf : Fit w) (i) :
    datas i (gots w.cli.trace) <+: datas i (accepted w.srv.trace) := by
  have := datas_prefix (i := i) (seen_client hb hf); rwa [datas_asReceived] at this

theorem seen_server_datas {cfg w} (hb : Base cfg w) (hf : Fit w) (i) :
    datas i (gots w.srv.trace) <+: datas i (accepted w.cli.trace) := by
  have := datas_prefix (i := i) (seen_server hb hf); rwa [datas_asReceived] at this

end Wm.World
