import Verif.Model.World
import Verif.Proofs.TunnelExt
import Verif.Props.Tunnel
import Verif.Props.Relay
import Verif.Props.Ids
import Mathlib.Data.List.Perm.Basic
/-! The end-to-end composition: what each step adds, and the invariants of every reachable state. -/
namespace Wm.World
open Wm Wm.Prot
open Wm.Tunnel (datas creates regCount openCount gots received submissions accepted relayed written arrived InnerL heads heads_received)

/-! ### the relay at its tunnel end -/

theorem Relay.step_id (r : Relay.St) (e : Relay.Event) : (Relay.step r e).id = r.id := by
  have ht : (Relay.top r).id = r.id := by unfold Relay.top; split <;> rfl
  unfold Relay.step
  cases hp : r.phase with
  | running =>
    dsimp only
    rw [← ht]
    cases e <;> simp only [Relay.branch]
    case read bs => split <;> rfl
    case wrote n => split <;> rfl
    case writeErr => split <;> rfl
    case recv f =>
      cases f with
      | none => rfl
      | some f => cases f <;> rfl
    case slot =>
      split
      · rfl
      · split <;> rfl
  | closing =>
    cases e <;> dsimp only
    split <;> rfl
  | done => rfl

/-- nothing was received or handed over -/
def Still (r r' : Relay.St) : Prop :=
  Relay.sends r'.trace = Relay.sends r.trace ∧ Relay.gots r'.trace = Relay.gots r.trace

theorem Still.refl (r) : Still r r := ⟨rfl, rfl⟩
theorem Still.trans {a b c} (h1 : Still a b) (h2 : Still b c) : Still a c :=
  ⟨h2.1.trans h1.1, h2.2.trans h1.2⟩

theorem top_trace (r : Relay.St) : (Relay.top r).trace = r.trace := by unfold Relay.top; split <;> rfl
theorem top_alive (r : Relay.St) : (Relay.top r).alive = r.alive := by unfold Relay.top; split <;> rfl

theorem still_step (r : Relay.St) (e : Relay.Event)
    (he : (∀ f, e ≠ .recv (some f)) ∧ (e = .slot → r.alive = false ∨ r.phase = .done)) : Still r (Relay.step r e) := by
  unfold Still Relay.step
  have ht := top_trace r
  have ha := top_alive r
  cases hp : r.phase with
  | running =>
    dsimp only
    cases e <;> simp only [Relay.branch]
    case read bs => split <;> simp [Relay.emit, Relay.sends, Relay.gots, ht]
    case readEnd => simp [ht]
    case wrote n => split <;> simp [Relay.emit, Relay.sends, Relay.gots, ht]
    case writeErr => split <;> simp [ht]
    case recv f =>
      cases f with
      | none => simp [ht]
      | some f => exact absurd rfl (he.1 f)
    case slot =>
      have : r.alive = false := (he.2 rfl).resolve_right (by simp [hp])
      split
      · simp [ht]
      · simp [ha, this, ht]
    case gone => simp [ht]
  | closing =>
    cases e <;> dsimp only
    case slot =>
      have : r.alive = false := (he.2 rfl).resolve_right (by simp [hp])
      simp [this]
    all_goals exact ⟨rfl, rfl⟩
  | done => exact ⟨rfl, rfl⟩

theorem recv_step {r : Relay.St} (hr : r.phase = .running) (f : Frame) :
    Relay.sends (Relay.step r (.recv (some f))).trace = Relay.sends r.trace ∧
    Relay.gots (Relay.step r (.recv (some f))).trace = Relay.gots r.trace ++ [f] := by
  have ht := top_trace r
  simp only [Relay.step, hr, Relay.branch]
  cases f <;> simp [Relay.emit, Relay.sends, Relay.gots, ht]

theorem slot_step {r : Relay.St} {f : Frame} (h : offer r = some f) :
    Relay.sends (Relay.step r .slot).trace = Relay.sends r.trace ++ [f] ∧
    Relay.gots (Relay.step r .slot).trace = Relay.gots r.trace := by
  have ht := top_trace r
  have ha := top_alive r
  unfold offer at h
  split at h
  · rename_i hal
    cases hp : r.phase with
    | running =>
      simp only [hp] at h
      simp only [Relay.step, hp, Relay.branch]
      cases hl : (Relay.top r).link with
      | nil => rw [hl] at h; simp at h
      | cons g l =>
        rw [hl] at h; simp at h; subst h
        simp [ha, hal, Relay.emit, Relay.sends, Relay.gots, ht]
    | closing =>
      simp only [hp, Option.some.injEq] at h; subst h
      simp [Relay.step, hp, hal, Relay.emit, Relay.sends, Relay.gots]
    | done => simp [hp] at h
  · cases h

/-- every reachable relay -/
def IsRun (r : Relay.St) : Prop := ∃ es, r = Relay.run r.id es

theorem IsRun.init (id) : IsRun (Relay.init id) := ⟨[], rfl⟩

theorem IsRun.step {r} (h : IsRun r) (e : Relay.Event) : IsRun (Relay.step r e) := by
  obtain ⟨es, he⟩ := h
  refine ⟨es ++ [e], ?_⟩
  rw [Relay.step_id, Relay.run_snoc, ← he]

/-- the four ways a relay's step can go -/
theorem relayStep_out (T : Tunnel.St → Tunnel.Event → Tunnel.St) (dies : Bool) (s : Tunnel.St) (r : Relay.St)
    (h : Option Nat) (e : RelayEv) (s' : Tunnel.St) (r' : Relay.St) (he : relayStep T dies s r h e = (s', r'))
    (hr : IsRun r) :
    (r'.id = r.id ∧ IsRun r') ∧
    ((s' = s ∧ Still r r') ∨
     (∃ k f q, h = some k ∧ (s.chan k).q = f :: q ∧ (s.chan k).rx = true ∧ s' = T s (.take k) ∧
        Relay.sends r'.trace = Relay.sends r.trace ∧ Relay.gots r'.trace = Relay.gots r.trace ++ [f]) ∨
     (∃ f, s.phase = .running ∧ s.outq.length < Tunnel.outCap ∧ s' = T s (.submit f) ∧
        Relay.sends r'.trace = Relay.sends r.trace ++ [f] ∧ Relay.gots r'.trace = Relay.gots r.trace) ∨
     (∃ k, h = some k ∧ s' = T s (.dropRx k) ∧ r' = r)) := by
  have keep : ∀ ev : Relay.Event, (Relay.step r ev).id = r.id ∧ IsRun (Relay.step r ev) :=
    fun ev => ⟨Relay.step_id r ev, hr.step ev⟩
  have quiet : ∀ ev : Relay.Event, (∀ f, ev ≠ .recv (some f)) → ev ≠ .slot → Still r (Relay.step r ev) :=
    fun ev h1 h2 => still_step r ev ⟨h1, fun h => absurd h h2⟩
  cases e <;> simp only [relayStep] at he
  case read bs =>
    split at he <;> cases he
    · exact ⟨keep _, .inl ⟨rfl, quiet _ (by simp) (by simp)⟩⟩
    · exact ⟨⟨rfl, hr⟩, .inl ⟨rfl, Still.refl _⟩⟩
  case readEnd => cases he; exact ⟨keep _, .inl ⟨rfl, quiet _ (by simp) (by simp)⟩⟩
  case wrote n => cases he; exact ⟨keep _, .inl ⟨rfl, quiet _ (by simp) (by simp)⟩⟩
  case writeErr => cases he; exact ⟨keep _, .inl ⟨rfl, quiet _ (by simp) (by simp)⟩⟩
  case recv =>
    split at he
    · rename_i hrun
      cases h with
      | none =>
        dsimp only at he
        split at he <;> cases he
        · exact ⟨⟨rfl, hr⟩, .inl ⟨rfl, Still.refl _⟩⟩
        · exact ⟨keep _, .inl ⟨rfl, quiet _ (by simp) (by simp)⟩⟩
      | some k =>
        dsimp only at he
        cases hq : (s.chan k).q with
        | nil =>
          rw [hq] at he
          dsimp only at he
          split at he <;> cases he
          · exact ⟨⟨rfl, hr⟩, .inl ⟨rfl, Still.refl _⟩⟩
          · exact ⟨keep _, .inl ⟨rfl, quiet _ (by simp) (by simp)⟩⟩
        | cons f q =>
          rw [hq] at he
          dsimp only at he
          split at he <;> cases he
          · rename_i hrx
            exact ⟨keep _, .inr (.inl ⟨k, f, q, rfl, hq, hrx, rfl, recv_step hrun f⟩)⟩
          · exact ⟨⟨rfl, hr⟩, .inl ⟨rfl, Still.refl _⟩⟩
    · cases he; exact ⟨⟨rfl, hr⟩, .inl ⟨rfl, Still.refl _⟩⟩
  case slot =>
    split at he
    · rename_i hrun
      cases ho : offer r with
      | none => rw [ho] at he; cases he; exact ⟨⟨rfl, hr⟩, .inl ⟨rfl, Still.refl _⟩⟩
      | some f =>
        rw [ho] at he
        dsimp only at he
        split at he <;> cases he
        · rename_i hc
          exact ⟨keep _, .inr (.inr (.inl ⟨f, hrun, hc, rfl, slot_step ho⟩))⟩
        · exact ⟨⟨rfl, hr⟩, .inl ⟨rfl, Still.refl _⟩⟩
    · split at he <;> cases he
      · refine ⟨⟨by rw [Relay.step_id, Relay.step_id], (hr.step _).step _⟩, .inl ⟨rfl, ?_⟩⟩
        refine (quiet .gone (by simp) (by simp)).trans (still_step _ _ ⟨by simp, fun _ => ?_⟩)
        unfold Relay.step
        cases hp : r.phase <;> simp [Relay.branch, hp]
      · exact ⟨⟨rfl, hr⟩, .inl ⟨rfl, Still.refl _⟩⟩
  case drop =>
    cases h with
    | none => cases he; exact ⟨⟨rfl, hr⟩, .inl ⟨rfl, Still.refl _⟩⟩
    | some k =>
      dsimp only at he
      split at he <;> cases he
      · exact ⟨⟨rfl, hr⟩, .inl ⟨rfl, Still.refl _⟩⟩
      · exact ⟨⟨rfl, hr⟩, .inr (.inr (.inr ⟨k, rfl, rfl, rfl⟩))⟩

theorem relayStep_cases (T : Tunnel.St → Tunnel.Event → Tunnel.St) (dies : Bool) (s : Tunnel.St) (r : Relay.St)
    (h : Option Nat) (e : RelayEv) (hr : IsRun r) :
    ((relayStep T dies s r h e).2.id = r.id ∧ IsRun (relayStep T dies s r h e).2) ∧
    (((relayStep T dies s r h e).1 = s ∧ Still r (relayStep T dies s r h e).2) ∨
     (∃ k f q, h = some k ∧ (s.chan k).q = f :: q ∧ (s.chan k).rx = true ∧
        (relayStep T dies s r h e).1 = T s (.take k) ∧
        Relay.sends (relayStep T dies s r h e).2.trace = Relay.sends r.trace ∧
        Relay.gots (relayStep T dies s r h e).2.trace = Relay.gots r.trace ++ [f]) ∨
     (∃ f, s.phase = .running ∧ s.outq.length < Tunnel.outCap ∧ (relayStep T dies s r h e).1 = T s (.submit f) ∧
        Relay.sends (relayStep T dies s r h e).2.trace = Relay.sends r.trace ++ [f] ∧
        Relay.gots (relayStep T dies s r h e).2.trace = Relay.gots r.trace) ∨
     (∃ k, h = some k ∧ (relayStep T dies s r h e).1 = T s (.dropRx k) ∧ (relayStep T dies s r h e).2 = r)) :=
  relayStep_out T dies s r h e _ _ rfl hr

/-! ### the tunnel ends -/

/-- every step adds its own happening and what the decode loop does -/
def Steps (T : Tunnel.St → Tunnel.Event → Tunnel.St) : Prop :=
  ∀ s e, ∃ u, (T s e).trace = s.trace ++ heads s e ++ u ∧ InnerL u ∧ s.next ≤ (T s e).next ∧
    (∀ i h, .reg i h ∈ u → s.next ≤ h)

theorem steps_server (cfg) : Steps (Tunnel.serverStep cfg) := Tunnel.serverStep_heads cfg
theorem steps_client (cfg) : Steps (Tunnel.clientStep cfg) := Tunnel.clientStep_heads cfg

variable {T : Tunnel.St → Tunnel.Event → Tunnel.St}

theorem Steps.hreceived (hT : Steps T) (s e k) :
    received k (T s e).trace = received k s.trace ++ received k (heads s e) := by
  obtain ⟨u, e1, e2, _⟩ := hT s e
  rw [e1, Tunnel.received_append, Tunnel.received_append, e2.received, List.append_nil]

theorem Steps.hwritten (hT : Steps T) (s e) :
    written (T s e).trace = written s.trace ++ written (heads s e) := by
  obtain ⟨u, e1, e2, _⟩ := hT s e
  rw [e1, Tunnel.written_append, Tunnel.written_append, e2.written, List.append_nil]

theorem Steps.harrived (hT : Steps T) (s e) :
    arrived (T s e).trace = arrived s.trace ++ arrived (heads s e) := by
  obtain ⟨u, e1, e2, _⟩ := hT s e
  rw [e1, Tunnel.arrived_append', Tunnel.arrived_append', e2.arrived, List.append_nil]

/-- events of other tasks and of the loop that neither read nor write -/
def NoIO : Tunnel.Event → Prop
  | .read _ | .wrote _ => False
  | _ => True

theorem heads_noIO {s : Tunnel.St} {e} (h : NoIO e) : written (heads s e) = [] ∧ arrived (heads s e) = [] := by
  cases e <;> simp only [heads] <;> try exact h.elim
  case submit f => split <;> exact ⟨rfl, rfl⟩
  case take h => split <;> [exact ⟨rfl, rfl⟩; (split <;> exact ⟨rfl, rfl⟩)]
  case dropRx h => split <;> exact ⟨rfl, rfl⟩
  case work id d =>
    split
    · cases Tunnel.lookup id s.map <;> exact ⟨rfl, rfl⟩
    · exact ⟨rfl, rfl⟩
  case recv =>
    split
    · split <;> exact ⟨rfl, rfl⟩
    · exact ⟨rfl, rfl⟩
  case readEnd => split <;> exact ⟨rfl, rfl⟩
  all_goals exact ⟨rfl, rfl⟩

/-- nothing is read from the connection or written to it -/
def SameIO (s s' : Tunnel.St) : Prop := written s'.trace = written s.trace ∧ arrived s'.trace = arrived s.trace

theorem SameIO.refl (s) : SameIO s s := ⟨rfl, rfl⟩
theorem Steps.noIO (hT : Steps T) (s) {e} (h : NoIO e) : SameIO s (T s e) := by
  have := heads_noIO (s := s) h
  exact ⟨by rw [hT.hwritten, this.1, List.append_nil], by rw [hT.harrived, this.2, List.append_nil]⟩

theorem loopStep_io (hT : Steps T) (s inb e) :
    written (loopStep T s inb e).1.trace = written s.trace ++ (loopStep T s inb e).2.2 ∧
    arrived (loopStep T s inb e).1.trace ++ (loopStep T s inb e).2.1 = arrived s.trace ++ inb := by
  cases e <;> simp only [loopStep]
  case wrote n =>
    rw [hT.hwritten, hT.harrived]
    simp only [heads]
    split
    · split
      · rename_i h; simp [h, written, arrived]
      · simp [written, arrived]
    · simp [written, arrived]
  case read n =>
    split
    · rename_i h
      rw [hT.hwritten, hT.harrived]
      simp only [heads, h.1, h.2.1, and_self, if_true]
      simp [written, arrived]
    · simp
  case recv => have := hT.noIO s (e := .recv) trivial; exact ⟨by rw [this.1, List.append_nil], by rw [this.2]⟩
  case readEnd => have := hT.noIO s (e := .readEnd) trivial; exact ⟨by rw [this.1, List.append_nil], by rw [this.2]⟩
  case writeErr => have := hT.noIO s (e := .writeErr) trivial; exact ⟨by rw [this.1, List.append_nil], by rw [this.2]⟩

theorem otherStep_io (hT : Steps T) (s mine e) : SameIO s (otherStep T s mine e) := by
  cases e <;> simp only [otherStep]
  · exact hT.noIO s trivial
  · split
    · exact SameIO.refl _
    · exact hT.noIO s trivial
  · split
    · exact SameIO.refl _
    · exact hT.noIO s trivial

theorem relayStep_io (hT : Steps T) (dies s r h e) (hr : IsRun r) : SameIO s (relayStep T dies s r h e).1 := by
  rcases (relayStep_cases T dies s r h e hr).2 with ⟨e1, _⟩ | ⟨k, f, q, _, _, _, e1, _⟩ | ⟨f, _, _, e1, _⟩ |
    ⟨k, _, e1, _⟩
  · rw [e1]; exact SameIO.refl _
  all_goals rw [e1]; exact hT.noIO s trivial

/-- one step of the tunnel end, or none -/
def One (T : Tunnel.St → Tunnel.Event → Tunnel.St) (s s' : Tunnel.St) : Prop := s' = s ∨ ∃ e, s' = T s e

theorem loopStep_one (s inb e) : One T s (loopStep T s inb e).1 := by
  cases e <;> simp only [loopStep]
  case read n =>
    split
    · exact .inr ⟨_, rfl⟩
    · exact .inl rfl
  all_goals exact .inr ⟨_, rfl⟩

theorem otherStep_one (s mine e) : One T s (otherStep T s mine e) := by
  cases e <;> simp only [otherStep]
  · exact .inr ⟨_, rfl⟩
  · split
    · exact .inl rfl
    · exact .inr ⟨_, rfl⟩
  · split
    · exact .inl rfl
    · exact .inr ⟨_, rfl⟩

theorem relayStep_one (dies s r h e) (hr : IsRun r) : One T s (relayStep T dies s r h e).1 := by
  rcases (relayStep_cases T dies s r h e hr).2 with ⟨e1, _⟩ | ⟨k, f, q, _, _, _, e1, _⟩ | ⟨f, _, _, e1, _⟩ |
    ⟨k, _, e1, _⟩
  · exact .inl e1
  all_goals exact .inr ⟨_, e1⟩

/-! ### reachable states: the parts -/

structure Base (cfg : Cfg) (w : St) : Prop where
  srv : ∃ es, w.srv = Tunnel.serverRun cfg.server es
  cli : ∃ es, w.cli = Tunnel.clientRun cfg.client [] es
  down : arrived w.cli.trace ++ w.down = written w.srv.trace
  up : arrived w.srv.trace ++ w.up = written w.cli.trace
  visitors : ∀ v ∈ w.visitors, IsRun v.relay
  locals : ∀ l ∈ w.locals, IsRun l.1

theorem run_one_server {cfg s s'} (h : ∃ es, s = Tunnel.serverRun cfg es) (ho : One (Tunnel.serverStep cfg) s s') :
    ∃ es, s' = Tunnel.serverRun cfg es := by
  obtain ⟨es, rfl⟩ := h
  rcases ho with rfl | ⟨e, rfl⟩
  · exact ⟨es, rfl⟩
  · exact ⟨es ++ [e], by simp [Tunnel.serverRun]⟩

theorem run_one_client {cfg s s'} (h : ∃ es, s = Tunnel.clientRun cfg [] es) (ho : One (Tunnel.clientStep cfg) s s') :
    ∃ es, s' = Tunnel.clientRun cfg [] es := by
  obtain ⟨es, rfl⟩ := h
  rcases ho with rfl | ⟨e, rfl⟩
  · exact ⟨es, rfl⟩
  · exact ⟨es ++ [e], by simp [Tunnel.clientRun]⟩

theorem clientInit_io (cfg) : written (Tunnel.clientInit cfg []).trace = [] ∧
    arrived (Tunnel.clientInit cfg []).trace = [] := by
  have h0 : written (Tunnel.clientBlank []).trace = [] ∧ arrived (Tunnel.clientBlank []).trace = [] := ⟨rfl, rfl⟩
  have hi : ∀ f s, written s.trace = [] ∧ arrived s.trace = [] →
      written (Tunnel.introduce f s).trace = [] ∧ arrived (Tunnel.introduce f s).trace = [] := by
    intro f s h
    unfold Tunnel.introduce
    split
    · split
      · simp [Tunnel.enqueue, Tunnel.emit, Tunnel.written_snoc, Tunnel.arrived_snoc, h]
      · exact h
      · exact h
    · exact h
  unfold Tunnel.clientInit
  dsimp only
  split <;> split <;> (try apply hi) <;> (try apply hi) <;> exact h0

theorem base_init (cfg) : Base cfg (init cfg) where
  srv := ⟨[], rfl⟩
  cli := ⟨[], rfl⟩
  down := by simp [init, clientInit_io, Tunnel.serverInit, written]
  up := by simp [init, clientInit_io, Tunnel.serverInit, arrived]
  visitors := by simp [init]
  locals := by simp [init]

theorem base_step (cfg w e) (h : Base cfg w) : Base cfg (step cfg w e) := by
  have hS := steps_server cfg.server
  have hC := steps_client cfg.client
  cases e <;> simp only [step]
  case accept => exact ⟨h.srv, h.cli, h.down, h.up, h.visitors, h.locals⟩
  case visit n mode =>
    have hv : ∀ id, ∀ v ∈ w.visitors ++ [⟨Relay.init id, none, mode⟩], IsRun v.relay := by
      intro id v hv
      rcases List.mem_append.1 hv with hv | hv
      · exact h.visitors v hv
      · simp at hv; subst hv; exact IsRun.init id
    split
    · exact h
    · split
      · exact ⟨h.srv, h.cli, h.down, h.up, h.visitors, h.locals⟩
      · split
        · split
          · exact ⟨h.srv, h.cli, h.down, h.up, hv _, h.locals⟩
          · exact h
        · exact ⟨h.srv, h.cli, h.down, h.up, hv _, h.locals⟩
  case work =>
    split
    · exact h
    · split
      · exact h
      · rename_i n name rest hw _ v hv
        split
        · have hio := hS.noIO w.srv (e := .work v.relay.id (some name)) trivial
          refine ⟨run_one_server h.srv (.inr ⟨.work v.relay.id (some name), rfl⟩), h.cli, by rw [hio.1]; exact h.down,
            by rw [hio.2]; exact h.up,
            fun x hx => ?_, h.locals⟩
          rcases List.mem_or_eq_of_mem_set hx with hx | rfl
          · exact h.visitors x hx
          · exact h.visitors v (List.mem_of_getElem? hv)
        · exact h
  case srv e =>
    have hio := loopStep_io hS w.srv w.up e
    refine ⟨run_one_server h.srv (loopStep_one _ _ _), h.cli, ?_, ?_, h.visitors, h.locals⟩
    · rw [hio.1, ← h.down]; simp
    · rw [hio.2]; exact h.up
  case cli e =>
    have hio := loopStep_io hC w.cli w.down e
    refine ⟨h.srv, run_one_client h.cli (loopStep_one _ _ _), ?_, ?_, h.visitors, h.locals⟩
    · rw [hio.2]; exact h.down
    · rw [hio.1, ← h.up]; simp
  case otherS e =>
    have hio := otherStep_io hS w.srv (w.visitors.filterMap (·.handle)) e
    exact ⟨run_one_server h.srv (otherStep_one _ _ _), h.cli, by rw [hio.1]; exact h.down, by rw [hio.2]; exact h.up,
      h.visitors, h.locals⟩
  case otherC e =>
    have hio := otherStep_io hC w.cli ((connects w.cli.trace).map (·.2)) e
    exact ⟨h.srv, run_one_client h.cli (otherStep_one _ _ _), by rw [hio.2]; exact h.down, by rw [hio.1]; exact h.up,
      h.visitors, h.locals⟩
  case vis n e =>
    split
    · exact h
    · rename_i v hv
      have hr := h.visitors v (List.mem_of_getElem? hv)
      have hio := relayStep_io hS true w.srv v.relay v.handle e hr
      refine ⟨run_one_server h.srv (relayStep_one _ _ _ _ _ hr), h.cli, by rw [hio.1]; exact h.down,
        by rw [hio.2]; exact h.up, fun x hx => ?_, h.locals⟩
      rcases List.mem_or_eq_of_mem_set hx with hx | rfl
      · exact h.visitors x hx
      · exact (relayStep_cases _ _ _ _ _ _ hr).1.2
  case start id k =>
    split
    · refine ⟨h.srv, h.cli, h.down, h.up, h.visitors, fun l hl => ?_⟩
      rcases List.mem_append.1 hl with hl | hl
      · exact h.locals l hl
      · simp at hl; subst hl; exact IsRun.init id
    · exact h
  case loc n e =>
    split
    · exact h
    · rename_i l hl
      have hr := h.locals l (List.mem_of_getElem? hl)
      have hio := relayStep_io hC false w.cli l.1 (some l.2) e hr
      refine ⟨h.srv, run_one_client h.cli (relayStep_one _ _ _ _ _ hr), by rw [hio.2]; exact h.down,
        by rw [hio.1]; exact h.up, h.visitors, fun x hx => ?_⟩
      rcases List.mem_or_eq_of_mem_set hx with hx | rfl
      · exact h.locals x hx
      · exact (relayStep_cases _ _ _ _ _ _ hr).1.2

theorem run_snoc (cfg es e) : run cfg (es ++ [e]) = step cfg (run cfg es) e := by simp [run]

theorem base_run (cfg es) : Base cfg (run cfg es) := by
  induction es using List.reverseRecOn with
  | nil => exact base_init cfg
  | append_singleton es e ih => rw [run_snoc]; exact base_step cfg _ e ih

/-! ### visitors: ids, channels, and what they receive -/

theorem heads_take {s : Tunnel.St} {k f q} (hq : (s.chan k).q = f :: q) (hr : (s.chan k).rx = true) :
    received k (heads s (.take k)) = [f] := by
  simp [heads, hq, hr, received]

theorem Steps.hreceived_same (hT : Steps T) {s e k} (h : e ≠ .take k) : received k (T s e).trace = received k s.trace := by
  rw [hT.hreceived, heads_received h, List.append_nil]

theorem Steps.next (hT : Steps T) (s e) : s.next ≤ (T s e).next := by
  obtain ⟨u, _, _, h, _⟩ := hT s e; exact h

theorem One.next (hT : Steps T) {s s'} (h : One T s s') : s.next ≤ s'.next := by
  rcases h with rfl | ⟨e, rfl⟩
  · exact Nat.le_refl _
  · exact hT.next s e

theorem loopStep_received (hT : Steps T) (s inb e k) : received k (loopStep T s inb e).1.trace = received k s.trace := by
  cases e <;> simp only [loopStep]
  case read n =>
    split
    · exact hT.hreceived_same (by simp)
    · rfl
  all_goals exact hT.hreceived_same (by simp)

theorem otherStep_received (hT : Steps T) (s mine e) {k} (hk : k ∈ mine) :
    received k (otherStep T s mine e).trace = received k s.trace := by
  cases e <;> simp only [otherStep]
  · exact hT.hreceived_same (by simp)
  · rename_i j
    split
    · rfl
    · exact hT.hreceived_same (by simp; rintro rfl; contradiction)
  · split
    · rfl
    · exact hT.hreceived_same (by simp)

theorem relayStep_received (hT : Steps T) (dies s r h e) (hr : IsRun r) {k : Nat} (hk : h ≠ some k) :
    received k (relayStep T dies s r h e).1.trace = received k s.trace := by
  rcases (relayStep_cases T dies s r h e hr).2 with ⟨e1, _⟩ | ⟨j, f, q, e0, _, _, e1, _⟩ | ⟨f, _, _, e1, _⟩ |
    ⟨j, _, e1, _⟩
  · rw [e1]
  · rw [e1]; exact hT.hreceived_same (by rintro ⟨⟩; exact hk e0)
  · rw [e1]; exact hT.hreceived_same (by simp)
  · rw [e1]; exact hT.hreceived_same (by simp)

theorem relayStep_own (hT : Steps T) (dies s r k e) (hr : IsRun r)
    (h : received k s.trace = Relay.gots r.trace) :
    received k (relayStep T dies s r (some k) e).1.trace = Relay.gots (relayStep T dies s r (some k) e).2.trace := by
  rcases (relayStep_cases T dies s r (some k) e hr).2 with ⟨e1, e2⟩ | ⟨j, f, q, e0, hq, hrx, e1, _, e2⟩ |
    ⟨f, _, _, e1, _, e2⟩ | ⟨j, e0, e1, e2⟩
  · rw [e1, e2.2, h]
  · cases e0
    rw [e1, e2, hT.hreceived, heads_take hq hrx, h]
  · rw [e1, e2, hT.hreceived_same (by simp), h]
  · rw [e1, e2, hT.hreceived_same (by simp), h]

theorem server_fresh {cfg s} (h : ∃ es, s = Tunnel.serverRun cfg es) {k} (hk : s.next ≤ k) : received k s.trace = [] := by
  obtain ⟨es, rfl⟩ := h
  exact (Tunnel.attempts_fresh ((Tunnel.server_inv cfg es).1.1.1.fresh k hk).2).2.2

structure Guests (cfg : Cfg) (w : St) : Prop where
  works : ∀ p ∈ w.works, ∃ v, w.visitors[p.1]? = some v ∧ v.handle = none
  worksNodup : (w.works.map (·.1)).Nodup
  handle : ∀ v ∈ w.visitors, ∀ h, v.handle = some h → h < w.srv.next
  inj : ∀ (n m : Nat) (v v' : Visitor) (h : Nat), w.visitors[n]? = some v → w.visitors[m]? = some v' →
    v.handle = some h → v'.handle = some h → n = m
  ids : ∀ i ∈ w.idle ++ w.visitors.map (·.relay.id), ∃ k < w.used, i = (Tunnel.serverIds cfg.serverId).nth k
  idsNodup : w.used ≤ 2 ^ 31 → (w.idle ++ w.visitors.map (·.relay.id)).Nodup
  recv : ∀ v ∈ w.visitors, ∀ h, v.handle = some h → received h w.srv.trace = Relay.gots v.relay.trace
  recvNone : ∀ v ∈ w.visitors, v.handle = none → Relay.gots v.relay.trace = []

theorem map_set_same {α β : Type} (g : α → β) {l : List α} {n : Nat} {a b : α} (h : l[n]? = some a) (e : g b = g a) :
    (l.set n b).map g = l.map g := by
  apply List.ext_getElem?
  intro m
  rw [List.getElem?_map, List.getElem?_map, List.getElem?_set]
  split
  · rename_i hm; subst hm
    split
    · rw [h]; simp [e]
    · rename_i hl; rw [List.getElem?_eq_none (by omega)] 
  · rfl

theorem guests_init (cfg) : Guests cfg (init cfg) := by
  constructor <;> simp [init]

/-- a step of the tunnel end that takes nothing from the visitors' channels -/
theorem Guests.srv {cfg w} (h : Guests cfg w) (w' : St) (hw : w'.works = w.works) (hv : w'.visitors = w.visitors)
    (hi : w'.idle = w.idle) (hu : w'.used = w.used) (hn : w.srv.next ≤ w'.srv.next)
    (hr : ∀ v ∈ w.visitors, ∀ h, v.handle = some h → received h w'.srv.trace = received h w.srv.trace) :
    Guests cfg w' := by
  obtain ⟨h1, h2, h3, h4, h5, h6, h7, h8⟩ := h
  refine ⟨by rw [hw, hv]; exact h1, by rw [hw]; exact h2, ?_, by rw [hv]; exact h4, by rw [hi, hv, hu]; exact h5,
    by rw [hi, hv, hu]; exact h6, ?_, by rw [hv]; exact h8⟩
  · rw [hv]; intro v hv k hk; have := h3 v hv k hk; omega
  · rw [hv]; intro v hv k hk; rw [hr v hv k hk]; exact h7 v hv k hk

theorem idle_perm {l : List Nat} {n i : Nat} (h : l[n]? = some i) : List.Perm l (i :: l.eraseIdx n) := by
  obtain ⟨hn, rfl⟩ := List.getElem?_eq_some_iff.1 h
  exact (List.getElem_cons_eraseIdx_perm hn).symm

theorem guests_step (cfg w e) (hb : Base cfg w) (h : Guests cfg w) : Guests cfg (step cfg w e) := by
  have hS := steps_server cfg.server
  obtain ⟨h1, h2, h3, h4, h5, h6, h7, h8⟩ := id h
  cases e <;> simp only [step]
  case accept =>
    refine ⟨h1, h2, h3, h4, ?_, ?_, h7, h8⟩
    · intro i hi
      simp only [List.mem_append, List.mem_singleton] at hi
      rcases hi with (hi | rfl) | hi
      · obtain ⟨k, hk, e⟩ := h5 i (List.mem_append.2 (.inl hi)); exact ⟨k, by simp only; omega, e⟩
      · exact ⟨w.used, by simp, rfl⟩
      · obtain ⟨k, hk, e⟩ := h5 i (List.mem_append.2 (.inr hi)); exact ⟨k, by simp only; omega, e⟩
    · intro hu
      simp only at hu
      have hnd := h6 (by omega)
      have hp : List.Perm (w.idle ++ [(Tunnel.serverIds cfg.serverId).nth w.used] ++ w.visitors.map (·.relay.id))
          ((Tunnel.serverIds cfg.serverId).nth w.used :: (w.idle ++ w.visitors.map (·.relay.id))) := by
        rw [List.append_assoc]; exact List.perm_middle
      refine hp.nodup_iff.2 (List.nodup_cons.2 ⟨fun hm => ?_, hnd⟩)
      obtain ⟨k, hk, e⟩ := h5 _ hm
      exact (Tunnel.C05_distinct cfg.serverId w.used k (by omega) (by omega) (by omega)).1 e
  case visit n mode =>
    cases hn : w.idle[n]? with
    | none => exact h
    | some i =>
      dsimp only
      have hp : List.Perm (w.idle ++ w.visitors.map (·.relay.id))
          (w.idle.eraseIdx n ++ (w.visitors ++ [(⟨Relay.init i, none, mode⟩ : Visitor)]).map (·.relay.id)) := by
        refine ((idle_perm hn).append_right _).trans ?_
        simp only [List.map_append, List.map_cons, List.map_nil, List.cons_append]
        refine List.perm_middle.symm.trans (List.Perm.append_left _ ?_)
        exact (List.perm_append_singleton _ _).symm
      have hk : ∀ i ∈ w.idle.eraseIdx n ++ w.visitors.map (·.relay.id),
          i ∈ w.idle ++ w.visitors.map (·.relay.id) := by
        intro j hj
        rcases List.mem_append.1 hj with hj | hj
        · exact List.mem_append.2 (.inl (List.mem_of_mem_eraseIdx hj))
        · exact List.mem_append.2 (.inr hj)
      have hnew : ∀ (m : Nat) (v : Visitor), (w.visitors ++ [(⟨Relay.init i, none, mode⟩ : Visitor)])[m]? = some v →
          w.visitors[m]? = some v ∨ v.handle = none := by
        intro m v hm
        rw [List.getElem?_append] at hm
        split at hm
        · exact .inl hm
        · right
          have := List.mem_of_getElem? hm
          simp at this; subst this; rfl
      have hadd : ∀ works', (∀ p ∈ works', ∃ v, (w.visitors ++ [(⟨Relay.init i, none, mode⟩ : Visitor)])[p.1]? = some v ∧
          v.handle = none) → (works'.map (·.1)).Nodup →
          Guests cfg { w with
            idle := w.idle.eraseIdx n
            works := works'
            visitors := w.visitors ++ [⟨Relay.init i, none, mode⟩] } := by
        intro works' hw1 hw2
        refine ⟨hw1, hw2, ?_, ?_, ?_, ?_, ?_, ?_⟩
        · intro v hv k hk
          rcases List.mem_append.1 hv with hv | hv
          · exact h3 v hv k hk
          · simp at hv; subst hv; cases hk
        · intro a b v v' k ha hb hv hv'
          rcases hnew a v ha with ha | ha
          · rcases hnew b v' hb with hb | hb
            · exact h4 a b v v' k ha hb hv hv'
            · rw [hb] at hv'; cases hv'
          · rw [ha] at hv; cases hv
        · intro j hj; exact h5 j (hp.mem_iff.2 hj)
        · intro hu; exact hp.nodup_iff.1 (h6 hu)
        · intro v hv k hk
          rcases List.mem_append.1 hv with hv | hv
          · exact h7 v hv k hk
          · simp at hv; subst hv; cases hk
        · intro v hv hk
          rcases List.mem_append.1 hv with hv | hv
          · exact h8 v hv hk
          · simp at hv; subst hv; rfl
      have hkeep : ∀ p ∈ w.works, ∃ v, (w.visitors ++ [(⟨Relay.init i, none, mode⟩ : Visitor)])[p.1]? = some v ∧
          v.handle = none := by
        intro p hp
        obtain ⟨v, hv, hh⟩ := h1 p hp
        obtain ⟨hlt, _⟩ := List.getElem?_eq_some_iff.1 hv
        exact ⟨v, by rw [List.getElem?_append_left hlt]; exact hv, hh⟩
      split
      · refine ⟨h1, h2, h3, h4, fun j hj => h5 j (hk j hj), fun hu => ?_, h7, h8⟩
        have hsub : List.Sublist (w.idle.eraseIdx n ++ w.visitors.map (·.relay.id))
            (w.idle ++ w.visitors.map (·.relay.id)) := (List.eraseIdx_sublist _ _).append_right _
        exact (h6 hu).sublist hsub
      · split
        · split
          · refine hadd _ ?_ ?_
            · intro p hp
              rcases List.mem_append.1 hp with hp | hp
              · exact hkeep p hp
              · simp at hp; subst hp; exact ⟨⟨Relay.init i, none, mode⟩, by simp, rfl⟩
            · rw [List.map_append]
              refine List.nodup_append.2 ⟨h2, by simp, ?_⟩
              intro a ha b hb
              obtain ⟨p, hp, rfl⟩ := List.mem_map.1 ha
              obtain ⟨v, hv, _⟩ := h1 p hp
              obtain ⟨hlt, _⟩ := List.getElem?_eq_some_iff.1 hv
              simp at hb; subst hb; omega
          · exact h
        · exact hadd _ hkeep h2
  case work =>
    split
    · exact h
    · rename_i n name rest hw
      split
      · exact h
      · rename_i v hv
        split
        · have hnone : v.handle = none := by
            obtain ⟨v', e1, e2⟩ := h1 (n, name) (by rw [hw]; simp)
            rw [hv] at e1; cases e1; exact e2
          have hn2 : n ∉ rest.map (·.1) ∧ (rest.map (·.1)).Nodup := by
            rw [hw] at h2; simpa using h2
          have hfresh := server_fresh hb.srv (Nat.le_refl w.srv.next)
          have hrc : ∀ k, received k (Tunnel.serverStep cfg.server w.srv (.work v.relay.id (some name))).trace =
              received k w.srv.trace := fun k => hS.hreceived_same (by simp)
          have hnext : w.srv.next < (Tunnel.serverStep cfg.server w.srv (.work v.relay.id (some name))).next :=
            Tunnel.work_nextId cfg.server _ _ _ (by assumption)
          refine ⟨?_, hn2.2, ?_, ?_, ?_, ?_, ?_, ?_⟩
          · intro p hp
            obtain ⟨x, e1, e2⟩ := h1 p (by rw [hw]; simp [hp])
            have hne : n ≠ p.1 := fun x => hn2.1 (x ▸ List.mem_map.2 ⟨p, hp, rfl⟩)
            exact ⟨x, by rw [List.getElem?_set_ne hne]; exact e1, e2⟩
          · intro x hx k hk
            rcases List.mem_or_eq_of_mem_set hx with hx | rfl
            · have := h3 x hx k hk; simp only; omega
            · simp only [Option.some.injEq] at hk; subst hk; exact hnext
          · intro a b x y k ha hb' hx hy
            rw [List.getElem?_set] at ha hb'
            have hlow : ∀ (m : Nat) (z : Visitor), w.visitors[m]? = some z → z.handle = some w.srv.next → False := by
              intro m z hz hz'; have := h3 z (List.mem_of_getElem? hz) _ hz'; omega
            split at ha <;> split at hb'
            · omega
            · split at ha
              · cases ha; simp only [Option.some.injEq] at hx; subst hx; exact (hlow b y hb' hy).elim
              · cases ha
            · split at hb'
              · cases hb'; simp only [Option.some.injEq] at hy; subst hy; exact (hlow a x ha hx).elim
              · cases hb'
            · exact h4 a b x y k ha hb' hx hy
          · have hm := map_set_same (·.relay.id) (b := { v with handle := some w.srv.next }) hv rfl
            dsimp only at hm ⊢; rw [hm]; exact h5
          · have hm := map_set_same (·.relay.id) (b := { v with handle := some w.srv.next }) hv rfl
            dsimp only at hm ⊢; rw [hm]; exact h6
          · intro x hx k hk
            rw [hrc]
            rcases List.mem_or_eq_of_mem_set hx with hx | rfl
            · exact h7 x hx k hk
            · simp only [Option.some.injEq] at hk; subst hk
              rw [hfresh, h8 v (List.mem_of_getElem? hv) hnone]
          · intro x hx hk
            rcases List.mem_or_eq_of_mem_set hx with hx | rfl
            · exact h8 x hx hk
            · cases hk
        · exact h
  case srv e =>
    exact h.srv _ rfl rfl rfl rfl ((loopStep_one _ _ _).next hS) (fun _ _ k _ => loopStep_received hS _ _ _ k)
  case cli e => exact h.srv _ rfl rfl rfl rfl (Nat.le_refl _) (fun _ _ _ _ => rfl)
  case otherS e =>
    refine h.srv _ rfl rfl rfl rfl ((otherStep_one _ _ _).next hS) (fun v hv k hk => otherStep_received hS _ _ _ ?_)
    exact List.mem_filterMap.2 ⟨v, hv, hk⟩
  case otherC e => exact h.srv _ rfl rfl rfl rfl (Nat.le_refl _) (fun _ _ _ _ => rfl)
  case vis n e =>
    split
    · exact h
    · rename_i v hv
      have hvm := List.mem_of_getElem? hv
      have hr := hb.visitors v hvm
      have hc := relayStep_cases (Tunnel.serverStep cfg.server) true w.srv v.relay v.handle e hr
      have hnext := (relayStep_one (T := Tunnel.serverStep cfg.server) true w.srv v.relay v.handle e hr).next hS
      refine ⟨?_, h2, ?_, ?_, ?_, ?_, ?_, ?_⟩
      · intro p hp
        obtain ⟨x, e1, e2⟩ := h1 p hp
        by_cases hne : n = p.1
        · subst hne
          rw [hv] at e1; cases e1
          obtain ⟨hlt, _⟩ := List.getElem?_eq_some_iff.1 hv
          refine ⟨_, List.getElem?_set_self hlt, e2⟩
        · exact ⟨x, by rw [List.getElem?_set_ne hne]; exact e1, e2⟩
      · intro x hx k hk
        rcases List.mem_or_eq_of_mem_set hx with hx | rfl
        · have := h3 x hx k hk; simp only; omega
        · have := h3 v hvm k hk; simp only; omega
      · intro a b x y k ha hb' hx hy
        have hold : ∀ (m : Nat) (z : Visitor), (w.visitors.set n { v with
              relay := (relayStep (Tunnel.serverStep cfg.server) true w.srv v.relay v.handle e).2 })[m]? = some z →
            ∃ z', w.visitors[m]? = some z' ∧ z'.handle = z.handle := by
          intro m z hz
          rw [List.getElem?_set] at hz
          split at hz
          · rename_i hm; subst hm
            split at hz
            · cases hz; exact ⟨v, hv, rfl⟩
            · cases hz
          · exact ⟨z, hz, rfl⟩
        obtain ⟨x', ea, ex⟩ := hold a x ha
        obtain ⟨y', eb, ey⟩ := hold b y hb'
        exact h4 a b x' y' k ea eb (ex.trans hx) (ey.trans hy)
      · rw [map_set_same _ hv hc.1.1]; exact h5
      · rw [map_set_same _ hv hc.1.1]; exact h6
      · intro x hx k hk
        obtain ⟨m, hm⟩ := List.mem_iff_getElem?.1 hx
        rw [List.getElem?_set] at hm
        split at hm
        · split at hm
          · cases hm
            simp only at hk
            rw [hk]
            exact relayStep_own hS true w.srv v.relay k e hr (h7 v hvm k hk)
          · cases hm
        · rename_i hne
          rw [relayStep_received hS true w.srv v.relay v.handle e hr]
          · exact h7 x (List.mem_of_getElem? hm) k hk
          · intro hvk
            exact hne (h4 n m v x k hv hm hvk hk)
      · intro x hx hk
        rcases List.mem_or_eq_of_mem_set hx with hx | rfl
        · exact h8 x hx hk
        · simp only at hk ⊢
          rcases hc.2 with ⟨_, e2⟩ | ⟨j, f, q, e0, _⟩ | ⟨f, _, _, _, _, e2⟩ | ⟨j, e0, _⟩
          · rw [e2.2]; exact h8 v hvm hk
          · rw [hk] at e0; cases e0
          · rw [e2]; exact h8 v hvm hk
          · rw [hk] at e0; cases e0
  case start id k =>
    split
    · exact h.srv _ rfl rfl rfl rfl (Nat.le_refl _) (fun _ _ _ _ => rfl)
    · exact h
  case loc n e =>
    split
    · exact h
    · exact h.srv _ rfl rfl rfl rfl (Nat.le_refl _) (fun _ _ _ _ => rfl)

theorem guests_run (cfg es) : Guests cfg (run cfg es) := by
  induction es using List.reverseRecOn with
  | nil => exact guests_init cfg
  | append_singleton es e ih => rw [run_snoc]; exact guests_step cfg _ e (base_run cfg es) ih

end Wm.World
