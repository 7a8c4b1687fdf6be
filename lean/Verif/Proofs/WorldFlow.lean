import Verif.Proofs.World
import Mathlib.Data.List.Nodup
/-! The end-to-end composition: what is submitted, announced and opened under one id. -/
namespace Wm.World
open Wm Wm.Prot
open Wm.Tunnel (datas creates regCount openCount gots received submissions accepted relayed written arrived InnerL heads)

variable {T : Tunnel.St → Tunnel.Event → Tunnel.St}

/-! ### submissions -/

theorem Steps.hdatas (hT : Steps T) (i s e) : datas i (submissions (T s e).trace) =
    datas i (submissions s.trace) ++ datas i (submissions (heads s e)) := by
  obtain ⟨u, e1, e2, _⟩ := hT s e
  have : datas i (submissions u) = [] := Tunnel.datas_closes (fun f hf => by
    obtain ⟨j, rfl⟩ := e2.submissions f hf; exact ⟨j, [], rfl⟩)
  rw [e1, Tunnel.submissions_append, Tunnel.submissions_append, Tunnel.datas_append, Tunnel.datas_append, this,
    List.append_nil]

theorem Steps.hsub_mem (hT : Steps T) {s e f} (h : f ∈ submissions (T s e).trace) :
    f ∈ submissions s.trace ∨ f ∈ submissions (heads s e) ∨ ∃ j, f = .close j [] := by
  obtain ⟨u, e1, e2, _⟩ := hT s e
  rw [e1, Tunnel.submissions_append, Tunnel.submissions_append, List.mem_append, List.mem_append] at h
  rcases h with (h | h) | h
  · exact .inl h
  · exact .inr (.inl h)
  · exact .inr (.inr (e2.submissions f h))

theorem heads_sub {s : Tunnel.St} {e : Tunnel.Event} (h : ∀ f, e ≠ .submit f) : submissions (heads s e) = [] := by
  cases e <;> simp only [heads]
  case submit f => exact absurd rfl (h f)
  case take j =>
    split
    · rfl
    · split <;> rfl
  case dropRx h => split <;> rfl
  case work id d =>
    split
    · cases Tunnel.lookup id s.map <;> rfl
    · rfl
  case recv =>
    split
    · split <;> rfl
    · rfl
  case readEnd => split <;> rfl
  case read => split <;> rfl
  case wrote n =>
    split
    · split <;> rfl
    · rfl
  case writeErr => rfl

theorem heads_submit {s : Tunnel.St} (f : Frame) : submissions (heads s (.submit f)) = [f] ∨
    submissions (heads s (.submit f)) = [] := by
  simp only [heads]; split
  · exact .inl rfl
  · exact .inr rfl

theorem heads_submit_now {s : Tunnel.St} (f : Frame) (h1 : s.phase = .running) (h2 : s.outq.length < Tunnel.outCap) :
    submissions (heads s (.submit f)) = [f] := by
  simp only [heads, h1, h2, and_self, if_true]; rfl

/-- What has been submitted at an end: by its relays `rs`, by others, or as a refusal; and the data with id `i` is
    that of the relay with this id. -/
structure Sub (i : Nat) (s : Tunnel.St) (rs : List Relay.St) (other : List Frame) : Prop where
  mem : ∀ f ∈ submissions s.trace, (∃ j, f = .close j []) ∨ f ∈ other ∨ ∃ r ∈ rs, f ∈ Relay.sends r.trace
  of : ∀ r ∈ rs, r.id = i → datas i (submissions s.trace) = datas i (Relay.sends r.trace)

/-- a step of the end that is no submission -/
theorem Sub.quiet (hT : Steps T) {i s rs o} (h : Sub i s rs o) {e} (he : ∀ f, e ≠ .submit f) : Sub i (T s e) rs o := by
  refine ⟨fun f hf => ?_, fun r hr hi => ?_⟩
  · rcases hT.hsub_mem hf with h1 | h1 | h1
    · exact h.mem f h1
    · rw [heads_sub he] at h1; cases h1
    · exact .inl h1
  · rw [hT.hdatas, heads_sub he, Tunnel.datas_nil, List.append_nil]; exact h.of r hr hi

theorem datas_ne {i : Nat} {fs : List Frame} (h : ∀ f ∈ fs, f.sockMap ≠ i) : datas i fs = [] := by
  refine List.filterMap_eq_nil_iff.2 fun f hf => ?_
  have := h f hf
  cases f <;> simp_all [Frame.sockMap]

theorem Sub.loop (hT : Steps T) {i s rs o} (h : Sub i s rs o) (inb e) : Sub i (loopStep T s inb e).1 rs o := by
  cases e <;> simp only [loopStep]
  case read n =>
    split
    · exact h.quiet hT (by simp)
    · exact h
  all_goals exact h.quiet hT (by simp)

theorem Sub.other (hT : Steps T) {i s rs o} (h : Sub i s rs o) (mine e) (hi : ∀ f ∈ submitted e, f.sockMap ≠ i) :
    Sub i (otherStep T s mine e) rs (o ++ submitted e) := by
  have hq : ∀ {s'}, Sub i s' rs o → Sub i s' rs (o ++ []) := by intro s' h; rwa [List.append_nil]
  cases e <;> simp only [otherStep]
  case submit f =>
    refine ⟨fun g hg => ?_, fun r hr hri => ?_⟩
    · rcases hT.hsub_mem hg with h1 | h1 | h1
      · rcases h.mem g h1 with h2 | h2 | h2
        · exact .inl h2
        · exact .inr (.inl (List.mem_append.2 (.inl h2)))
        · exact .inr (.inr h2)
      · right; left
        rcases heads_submit (s := s) f with h2 | h2
        · rw [h2] at h1; exact List.mem_append.2 (.inr h1)
        · rw [h2] at h1; cases h1
      · exact .inl h1
    · rw [hT.hdatas]
      have : datas i (submissions (heads s (.submit f))) = [] := by
        refine datas_ne fun g hg => ?_
        rcases heads_submit (s := s) f with h2 | h2
        · rw [h2] at hg; exact hi g hg
        · rw [h2] at hg; cases hg
      rw [this, List.append_nil]; exact h.of r hr hri
  case take k =>
    apply hq
    split
    · exact h
    · exact h.quiet hT (by simp)
  case dropRx k =>
    apply hq
    split
    · exact h
    · exact h.quiet hT (by simp)

/-- at most one relay has id `i` -/
def Uniq (i : Nat) (rs : List Relay.St) : Prop :=
  ∀ (n m : Nat) (r r' : Relay.St), rs[n]? = some r → rs[m]? = some r' → r.id = i → r'.id = i → n = m

theorem sends_id {r : Relay.St} (h : IsRun r) : ∀ f ∈ Relay.sends r.trace, f.sockMap = r.id := by
  obtain ⟨es, he⟩ := h
  have := (Relay.C19_bytes_preserved r.id es).2.2
  rwa [← he] at this

theorem sends_kind {r : Relay.St} (h : IsRun r) : ∀ f ∈ Relay.sends r.trace, (∃ d, f = .data r.id d) ∨ f = .close r.id [] := by
  obtain ⟨es, he⟩ := h
  have hi := Relay.run_inv r.id es
  rw [← he] at hi
  intro f hf
  by_cases hp : r.phase = .done
  · obtain ⟨ds, h1, h2 | ⟨h2, _⟩⟩ := hi.done hp
    · rw [h2, List.mem_append, List.mem_singleton] at hf
      rcases hf with hf | hf
      · exact .inl (h1 f hf)
      · exact .inr hf
    · rw [h2] at hf; exact .inl (h1 f hf)
  · exact .inl (hi.sends hp f hf)

theorem Sub.relay (hT : Steps T) {i s rs o} (h : Sub i s rs o) (dies hd e) {n : Nat} {r : Relay.St} (hn : rs[n]? = some r)
    (hr : IsRun r) (hu : Uniq i rs) :
    Sub i (relayStep T dies s r hd e).1 (rs.set n (relayStep T dies s r hd e).2) o := by
  obtain ⟨⟨hid, hrun⟩, hc⟩ := relayStep_cases T dies s r hd e hr
  have hlt : n < rs.length := (List.getElem?_eq_some_iff.1 hn).1
  have hsame : ∀ {s'} (r' : Relay.St), Sub i s' rs o → r'.id = r.id → Relay.sends r'.trace = Relay.sends r.trace →
      Sub i s' (rs.set n r') o := by
    intro s' r' h hid hs
    refine ⟨fun f hf => ?_, fun x hx hxi => ?_⟩
    · rcases h.mem f hf with h1 | h1 | ⟨x, hx, h1⟩
      · exact .inl h1
      · exact .inr (.inl h1)
      · right; right
        obtain ⟨m, hm⟩ := List.mem_iff_getElem?.1 hx
        by_cases hnm : n = m
        · subst hnm
          rw [hn] at hm; cases hm
          exact ⟨r', List.mem_iff_getElem?.2 ⟨n, List.getElem?_set_self hlt⟩, by rw [hs]; exact h1⟩
        · exact ⟨x, List.mem_iff_getElem?.2 ⟨m, by rw [List.getElem?_set_ne hnm]; exact hm⟩, h1⟩
    · rcases List.mem_or_eq_of_mem_set hx with hx | rfl
      · exact h.of x hx hxi
      · rw [hs]; exact h.of r (List.mem_of_getElem? hn) (hid ▸ hxi)
  rcases hc with ⟨e1, e2⟩ | ⟨k, f, q, e0, _, _, e1, e2, _⟩ | ⟨f, hph, hcap, e1, e2, _⟩ | ⟨k, e0, e1, e2⟩
  · rw [e1]; exact hsame _ h hid e2.1
  · rw [e1]; exact hsame _ (h.quiet hT (by simp)) hid e2
  · rw [e1]
    have hf : f ∈ Relay.sends (relayStep T dies s r hd e).2.trace := by rw [e2]; simp
    have hfi := sends_id hrun f hf
    rw [hid] at hfi
    refine ⟨fun g hg => ?_, fun x hx hxi => ?_⟩
    · rcases hT.hsub_mem hg with h1 | h1 | h1
      · rcases h.mem g h1 with h2 | h2 | ⟨x, hx, h2⟩
        · exact .inl h2
        · exact .inr (.inl h2)
        · right; right
          obtain ⟨m, hm⟩ := List.mem_iff_getElem?.1 hx
          by_cases hnm : n = m
          · subst hnm
            rw [hn] at hm; cases hm
            exact ⟨_, List.mem_iff_getElem?.2 ⟨n, List.getElem?_set_self hlt⟩, by rw [e2]; simp [h2]⟩
          · exact ⟨x, List.mem_iff_getElem?.2 ⟨m, by rw [List.getElem?_set_ne hnm]; exact hm⟩, h2⟩
      · right; right
        rw [heads_submit_now f hph hcap, List.mem_singleton] at h1
        subst h1
        exact ⟨_, List.mem_iff_getElem?.2 ⟨n, List.getElem?_set_self hlt⟩, hf⟩
      · exact .inl h1
    · rw [hT.hdatas, heads_submit_now f hph hcap]
      obtain ⟨m, hm⟩ := List.mem_iff_getElem?.1 hx
      rw [List.getElem?_set] at hm
      split at hm
      · cases hm
        rw [e2, Tunnel.datas_append, h.of r (List.mem_of_getElem? hn) (hid ▸ hxi)]
      · rename_i hnm
        have : f.sockMap ≠ i := fun hfx => hnm (hu n m r x hn hm (hfi ▸ hfx) hxi)
        rw [datas_ne (fs := [f]) (by simpa using this), List.append_nil]
        exact h.of x (List.mem_of_getElem? hm) hxi
  · rw [e1, e2]; exact hsame _ (h.quiet hT (by simp)) rfl rfl

/-- without a relay for `i` there is no data with that id -/
theorem Sub.none {i s rs o} (h : Sub i s rs o) (ho : ∀ f ∈ o, f.sockMap ≠ i) (hr : ∀ r ∈ rs, IsRun r)
    (hn : ∀ r ∈ rs, r.id ≠ i) : datas i (submissions s.trace) = [] := by
  refine List.filterMap_eq_nil_iff.2 fun f hf => ?_
  rcases h.mem f hf with ⟨j, rfl⟩ | h1 | ⟨r, hx, h1⟩
  · rfl
  · have := ho f h1
    cases f <;> simp_all [Frame.sockMap]
  · have h2 := sends_id (hr r hx) f h1
    have h3 := hn r hx
    rw [← h2] at h3
    cases f <;> simp_all [Frame.sockMap]

theorem Sub.add {i s rs o} (h : Sub i s rs o) (j : Nat) (ho : ∀ f ∈ o, f.sockMap ≠ i) (hr : ∀ r ∈ rs, IsRun r)
    (hn : j = i → ∀ r ∈ rs, r.id ≠ i) : Sub i s (rs ++ [Relay.init j]) o := by
  refine ⟨fun f hf => ?_, fun r hx hi => ?_⟩
  · rcases h.mem f hf with h1 | h1 | ⟨r, hx, h1⟩
    · exact .inl h1
    · exact .inr (.inl h1)
    · exact .inr (.inr ⟨r, List.mem_append.2 (.inl hx), h1⟩)
  · rcases List.mem_append.1 hx with hx | hx
    · exact h.of r hx hi
    · simp at hx; subst hx
      rw [h.none ho hr (hn hi)]; rfl

/-! ### accepted messages -/

theorem Steps.hcreates (hT : Steps T) (i s e) : creates i (accepted (T s e).trace) =
    creates i (accepted s.trace) + creates i (accepted (heads s e)) := by
  obtain ⟨u, e1, e2, _⟩ := hT s e
  have : creates i (accepted u) = 0 := Tunnel.creates_closes (fun f hf => by
    rw [e2.accepted f hf]; exact ⟨0, _, rfl⟩)
  rw [e1, Tunnel.accepted_append, Tunnel.accepted_append, Tunnel.creates_append, Tunnel.creates_append, this]
  omega

/-- events after which the end itself asks for no stream -/
theorem heads_creates {i : Nat} {s : Tunnel.St} {e : Tunnel.Event} (hw : ∀ j d, e ≠ .work j d)
    (hq : ∀ f ∈ s.outq, creates i [f] = 0) : creates i (accepted (heads s e)) = 0 := by
  cases e <;> simp only [heads]
  case work j d => exact absurd rfl (hw j d)
  case submit f => split <;> rfl
  case take j =>
    split
    · rfl
    · split <;> rfl
  case dropRx h => split <;> rfl
  case recv =>
    split
    · split
      · rfl
      · rename_i f q hf
        exact hq f (by rw [hf]; simp)
    · rfl
  case readEnd => split <;> rfl
  case read => split <;> rfl
  case wrote n =>
    split
    · split <;> rfl
    · rfl
  case writeErr => rfl

theorem creates_ne {i : Nat} {f : Frame} (h : f.sockMap ≠ i) : creates i [f] = 0 := by
  cases f <;> simp_all [Frame.sockMap, creates]

/-- no open request for `i` waits to be sent -/
theorem Sub.outq {i s rs o} (h : Sub i s rs o) (ho : ∀ f ∈ o, f.sockMap ≠ i) (hr : ∀ r ∈ rs, IsRun r)
    (hb : relayed s.trace ++ s.outq = submissions s.trace) : ∀ f ∈ s.outq, creates i [f] = 0 := by
  intro f hf
  rcases h.mem f (by rw [← hb]; simp [hf]) with ⟨j, rfl⟩ | h1 | ⟨r, hx, h1⟩
  · rfl
  · exact creates_ne (ho f h1)
  · rcases sends_kind (hr r hx) f h1 with ⟨d, rfl⟩ | rfl <;> rfl

theorem server_outq {cfg s} (h : ∃ es, s = Tunnel.serverRun cfg es) : relayed s.trace ++ s.outq = submissions s.trace := by
  obtain ⟨es, rfl⟩ := h
  exact (Tunnel.server_inv cfg es).2.2.relay

theorem client_outq {cfg s} (h : ∃ es, s = Tunnel.clientRun cfg [] es) : relayed s.trace ++ s.outq = submissions s.trace := by
  obtain ⟨es, rfl⟩ := h
  exact (Tunnel.client_inv cfg [] es).2.2.relay

/-! ### the server's side of one id -/

/-- Nobody else uses the id, and ids have not begun to repeat. -/
structure Own (i : Nat) (w : St) : Prop where
  server : ∀ f ∈ w.otherS, f.sockMap ≠ i
  client : ∀ f ∈ w.otherC, f.sockMap ≠ i
  used : w.used ≤ 2 ^ 31

theorem uniq_visitors {cfg w i} (h : Guests cfg w) (hu : w.used ≤ 2 ^ 31) : Uniq i (w.visitors.map (·.relay)) := by
  intro n m r r' hn hm hr hr'
  have hnd := (List.nodup_append.1 (h.idsNodup hu)).2.1
  rw [List.getElem?_map] at hn hm
  cases hvn : w.visitors[n]? with
  | none => rw [hvn] at hn; cases hn
  | some v =>
    cases hvm : w.visitors[m]? with
    | none => rw [hvm] at hm; cases hm
    | some v' =>
      rw [hvn] at hn; rw [hvm] at hm
      simp only [Option.map_some, Option.some.injEq] at hn hm
      subst hn; subst hm
      have h1 : (w.visitors.map (·.relay.id))[n]? = some v.relay.id := by rw [List.getElem?_map, hvn]; rfl
      have h2 : (w.visitors.map (·.relay.id))[m]? = some v'.relay.id := by rw [List.getElem?_map, hvm]; rfl
      obtain ⟨l1, e1⟩ := List.getElem?_eq_some_iff.1 h1
      obtain ⟨l2, e2⟩ := List.getElem?_eq_some_iff.1 h2
      exact (hnd.getElem_inj_iff).1 (by rw [e1, e2, hr, hr'])

structure Side (cfg : Cfg) (i : Nat) (w : St) : Prop where
  sub : Sub i w.srv (w.visitors.map (·.relay)) w.otherS
  zero : (∀ v ∈ w.visitors, v.relay.id = i → v.handle = none) → creates i (accepted w.srv.trace) = 0
  one : creates i (accepted w.srv.trace) ≤ 1

/-- what one step can do to the two ends -/
theorem step_one (cfg w e) (hb : Base cfg w) :
    One (Tunnel.serverStep cfg.server) w.srv (step cfg w e).srv ∧
    One (Tunnel.clientStep cfg.client) w.cli (step cfg w e).cli ∧
    w.otherS <+: (step cfg w e).otherS ∧ w.otherC <+: (step cfg w e).otherC ∧ w.used ≤ (step cfg w e).used := by
  have same : One (Tunnel.serverStep cfg.server) w.srv w.srv ∧ One (Tunnel.clientStep cfg.client) w.cli w.cli ∧
      w.otherS <+: w.otherS ∧ w.otherC <+: w.otherC ∧ w.used ≤ w.used :=
    ⟨.inl rfl, .inl rfl, List.prefix_refl _, List.prefix_refl _, Nat.le_refl _⟩
  cases e <;> simp only [step]
  case accept => exact ⟨.inl rfl, .inl rfl, List.prefix_refl _, List.prefix_refl _, by simp⟩
  case visit n mode =>
    split
    · exact same
    · split
      · exact same
      · split
        · split <;> exact same
        · exact same
  case work =>
    split
    · exact same
    · rename_i n name rest hw
      split
      · exact same
      · rename_i v hv
        split
        · exact ⟨.inr ⟨.work v.relay.id (some name), rfl⟩, .inl rfl, List.prefix_refl _, List.prefix_refl _, Nat.le_refl _⟩
        · exact same
  case srv e => exact ⟨loopStep_one _ _ _, same.2⟩
  case cli e => exact ⟨same.1, loopStep_one _ _ _, same.2.2⟩
  case otherS e => exact ⟨otherStep_one _ _ _, .inl rfl, List.prefix_append _ _, same.2.2.2⟩
  case otherC e => exact ⟨same.1, otherStep_one _ _ _, same.2.2.1, List.prefix_append _ _, Nat.le_refl _⟩
  case vis n e =>
    split
    · exact same
    · rename_i v hv
      exact ⟨relayStep_one _ _ _ _ _ (hb.visitors v (List.mem_of_getElem? hv)), same.2⟩
  case start id k => split <;> exact same
  case loc n e =>
    split
    · exact same
    · rename_i l hl
      exact ⟨same.1, relayStep_one _ _ _ _ _ (hb.locals l (List.mem_of_getElem? hl)), same.2.2⟩

theorem Own.back {cfg w e i} (hb : Base cfg w) (h : Own i (step cfg w e)) : Own i w := by
  obtain ⟨_, _, h1, h2, h3⟩ := step_one cfg w e hb
  exact ⟨fun f hf => h.server f (h1.subset hf), fun f hf => h.client f (h2.subset hf), by have := h.used; omega⟩

theorem side_init (cfg i) : Side cfg i (init cfg) := by
  refine ⟨⟨?_, ?_⟩, ?_, ?_⟩ <;> simp [init, Tunnel.serverInit, submissions, accepted]

/-- a step of the server's end that is no new stream, without change of the visitors' channels -/
theorem Side.more {cfg i w} (h : Side cfg i w) (w' : St) (hs : Sub i w'.srv (w'.visitors.map (·.relay)) w'.otherS)
    (hc : creates i (accepted w'.srv.trace) = creates i (accepted w.srv.trace))
    (hv : (∀ v ∈ w'.visitors, v.relay.id = i → v.handle = none) → ∀ v ∈ w.visitors, v.relay.id = i → v.handle = none) :
    Side cfg i w' := ⟨hs, fun hn => by rw [hc]; exact h.zero (hv hn), by rw [hc]; exact h.one⟩

theorem creates_quiet (hT : Steps T) {i s e} (hw : ∀ j d, e ≠ .work j d) (hq : ∀ f ∈ s.outq, creates i [f] = 0) :
    creates i (accepted (T s e).trace) = creates i (accepted s.trace) := by
  rw [hT.hcreates, heads_creates hw hq, Nat.add_zero]

theorem creates_loop (hT : Steps T) {i s} (inb e) (hq : ∀ f ∈ s.outq, creates i [f] = 0) :
    creates i (accepted (loopStep T s inb e).1.trace) = creates i (accepted s.trace) := by
  cases e <;> simp only [loopStep]
  case read n =>
    split
    · exact creates_quiet hT (by simp) hq
    · rfl
  all_goals exact creates_quiet hT (by simp) hq

theorem creates_other (hT : Steps T) {i s} (mine e) (hq : ∀ f ∈ s.outq, creates i [f] = 0) :
    creates i (accepted (otherStep T s mine e).trace) = creates i (accepted s.trace) := by
  cases e <;> simp only [otherStep]
  · exact creates_quiet hT (by simp) hq
  · split
    · rfl
    · exact creates_quiet hT (by simp) hq
  · split
    · rfl
    · exact creates_quiet hT (by simp) hq

theorem creates_relay (hT : Steps T) {i s} (dies r h e) (hr : IsRun r) (hq : ∀ f ∈ s.outq, creates i [f] = 0) :
    creates i (accepted (relayStep T dies s r h e).1.trace) = creates i (accepted s.trace) := by
  rcases (relayStep_cases T dies s r h e hr).2 with ⟨e1, _⟩ | ⟨j, f, q, e0, _, _, e1, _⟩ | ⟨f, _, _, e1, _⟩ |
    ⟨j, _, e1, _⟩
  · rw [e1]
  all_goals rw [e1]; exact creates_quiet hT (by simp) hq

theorem side_step (cfg w e i) (hb : Base cfg w) (hg : Guests cfg w) (hg' : Guests cfg (step cfg w e))
    (ho' : Own i (step cfg w e)) (h : Side cfg i w) : Side cfg i (step cfg w e) := by
  have hS := steps_server cfg.server
  have ho := ho'.back hb
  have hrs : ∀ r ∈ w.visitors.map (·.relay), IsRun r := by
    intro r hr; obtain ⟨v, hv, rfl⟩ := List.mem_map.1 hr; exact hb.visitors v hv
  have hq := h.sub.outq ho.server hrs (server_outq hb.srv)
  have hun := uniq_visitors (i := i) hg ho.used
  cases e <;> simp only [step] at hg' ho' ⊢
  case accept => exact h.more _ h.sub rfl (fun hn => hn)
  case visit n mode =>
    cases hn : w.idle[n]? with
    | none => exact h
    | some j =>
      have hadd : j = i → ∀ r ∈ w.visitors.map (·.relay), r.id ≠ i := by
        rintro rfl r hr hri
        obtain ⟨v, hv, rfl⟩ := List.mem_map.1 hr
        have hnd := List.nodup_append.1 (hg.idsNodup ho.used)
        exact hnd.2.2 j (List.mem_of_getElem? hn) j (List.mem_map.2 ⟨v, hv, hri⟩) rfl
      have hsub : Sub i w.srv ((w.visitors ++ [(⟨Relay.init j, none, mode⟩ : Visitor)]).map (·.relay)) w.otherS := by
        rw [List.map_append]; exact h.sub.add j ho.server hrs hadd
      have hh : (∀ v ∈ w.visitors ++ [(⟨Relay.init j, none, mode⟩ : Visitor)], v.relay.id = i → v.handle = none) →
          ∀ v ∈ w.visitors, v.relay.id = i → v.handle = none :=
        fun hn v hv => hn v (List.mem_append.2 (.inl hv))
      dsimp only
      split
      · exact h.more _ h.sub rfl (fun hn => hn)
      · split
        · split
          · exact h.more _ hsub rfl hh
          · exact h
        · exact h.more _ hsub rfl hh
  case work =>
    split
    · exact h
    · rename_i n name rest hw
      split
      · exact h
      · rename_i v hv
        split
        · rename_i hidle
          have hsub := h.sub.quiet hS (e := .work v.relay.id (some name)) (by simp)
          have hm := map_set_same (·.relay) (b := { v with handle := some w.srv.next }) hv rfl
          have hcr : creates i (accepted (heads w.srv (.work v.relay.id (some name)))) =
              if v.relay.id = i then 1 else 0 := by
            simp only [heads, if_pos hidle]
            by_cases hvi : v.relay.id = i
            · cases Tunnel.lookup v.relay.id w.srv.map <;> simp [accepted, creates, hvi]
            · cases Tunnel.lookup v.relay.id w.srv.map <;> simp [accepted, creates, hvi]
          have hnone : v.handle = none := by
            obtain ⟨v', e1, e2⟩ := hg.works (n, name) (by rw [hw]; simp)
            rw [hv] at e1; cases e1; exact e2
          have hlt : n < w.visitors.length := (List.getElem?_eq_some_iff.1 hv).1
          refine ⟨?_, fun hn => ?_, ?_⟩
          · dsimp only at hm ⊢; rw [hm]; exact hsub
          · dsimp only at hn ⊢
            rw [hS.hcreates, hcr]
            by_cases hvi : v.relay.id = i
            · have := hn { v with handle := some w.srv.next } (List.mem_iff_getElem?.2 ⟨n, List.getElem?_set_self hlt⟩) hvi
              cases this
            · rw [if_neg hvi, Nat.add_zero]
              refine h.zero fun x hx hxi => ?_
              obtain ⟨m, hm⟩ := List.mem_iff_getElem?.1 hx
              by_cases hnm : n = m
              · subst hnm; rw [hv] at hm; cases hm; exact hnone
              · exact hn x (List.mem_iff_getElem?.2 ⟨m, by rw [List.getElem?_set_ne hnm]; exact hm⟩) hxi
          · dsimp only
            rw [hS.hcreates, hcr]
            by_cases hvi : v.relay.id = i
            · have hz : creates i (accepted w.srv.trace) = 0 := by
                refine h.zero fun x hx hxi => ?_
                obtain ⟨m, hm⟩ := List.mem_iff_getElem?.1 hx
                have : n = m := hun n m v.relay x.relay (by rw [List.getElem?_map, hv]; rfl)
                  (by rw [List.getElem?_map, hm]; rfl) hvi hxi
                subst this; rw [hv] at hm; cases hm; exact hnone
              rw [if_pos hvi, hz]; omega
            · rw [if_neg hvi]; exact h.one
        · exact h
  case srv e => exact h.more _ (h.sub.loop hS _ _) (creates_loop hS _ _ hq) (fun hn => hn)
  case cli e => exact h.more _ h.sub rfl (fun hn => hn)
  case otherS e =>
    refine h.more _ (h.sub.other hS _ e fun f hf => ?_) (creates_other hS _ _ hq) (fun hn => hn)
    exact ho'.server f (List.mem_append.2 (.inr hf))
  case otherC e => exact h.more _ h.sub rfl (fun hn => hn)
  case vis n e =>
    split
    · exact h
    · rename_i v hv
      have hr := hb.visitors v (List.mem_of_getElem? hv)
      have hlt : n < w.visitors.length := (List.getElem?_eq_some_iff.1 hv).1
      refine h.more _ ?_ (creates_relay hS _ _ _ _ hr hq) (fun hn x hx hxi => ?_)
      · rw [List.map_set]
        exact h.sub.relay hS true v.handle e (by rw [List.getElem?_map, hv]; rfl) hr hun
      · obtain ⟨m, hm⟩ := List.mem_iff_getElem?.1 hx
        by_cases hnm : n = m
        · subst hnm; rw [hv] at hm; cases hm
          have hid := (relayStep_cases (Tunnel.serverStep cfg.server) true w.srv v.relay v.handle e hr).1.1
          exact hn { v with relay := (relayStep (Tunnel.serverStep cfg.server) true w.srv v.relay v.handle e).2 }
            (List.mem_iff_getElem?.2 ⟨n, List.getElem?_set_self hlt⟩) (hid.trans hxi)
        · exact hn x (List.mem_iff_getElem?.2 ⟨m, by rw [List.getElem?_set_ne hnm]; exact hm⟩) hxi
  case start id k =>
    split
    · exact h.more _ h.sub rfl (fun hn => hn)
    · exact h
  case loc n e =>
    split
    · exact h
    · exact h.more _ h.sub rfl (fun hn => hn)

theorem side_run (cfg es i) (ho : Own i (run cfg es)) : Side cfg i (run cfg es) := by
  induction es using List.reverseRecOn with
  | nil => exact side_init cfg i
  | append_singleton es e ih =>
    have hg' := guests_run cfg (es ++ [e])
    rw [run_snoc] at ho hg' ⊢
    exact side_step cfg _ e i (base_run cfg es) (guests_run cfg es) hg' ho (ih (ho.back (base_run cfg es)))

end Wm.World
