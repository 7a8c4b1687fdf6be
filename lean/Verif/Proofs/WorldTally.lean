import Verif.Proofs.TunnelLoss
import Verif.Proofs.WorldClose
/-! How often the end of a connection is announced: a visitor's relay announces it once. -/
namespace Wm.Tunnel
open Wm Wm.Prot
open scoped List

/-- how many notices of an end for `i` are among the messages -/
def closes (i : Nat) (fs : List Frame) : Nat := fs.countP fun | .close j _ => j == i | _ => false

theorem closes_append (i a b) : closes i (a ++ b) = closes i a + closes i b := by simp [closes]
theorem closes_sub {i : Nat} {a b : List Frame} (h : a <+ b) : closes i a ≤ closes i b := h.countP_le

theorem closes_mem {i t} {fs : List Frame} (h : .close i t ∈ fs) : 1 ≤ closes i fs :=
  List.countP_pos_iff.2 ⟨_, h, by simp⟩

theorem closes_due (acc : List Obs → Frame → Bool) (h i : Nat) : ∀ (t past : List Obs), .connLost ∉ t →
    closes i (dueFrom acc h past t) ≤ closes i (gots t) := by
  intro t
  induction t with
  | nil => intro past _; exact Nat.le_refl _
  | cons o t ih =>
    intro past hn
    rw [gots_cons, dueFrom, closes_append, closes_append]
    refine Nat.add_le_add ?_ (ih _ (fun hm => hn (List.mem_cons_of_mem _ hm)))
    cases o <;> simp only [dueNow]
    case got f =>
      split
      · exact Nat.le_refl _
      · exact Nat.zero_le _
    case connLost => exact absurd List.mem_cons_self hn
    all_goals exact Nat.zero_le _

/-- a notice dropped on a full channel -/
theorem fewer_overflow {acc debt s} (h : DInv acc debt s) (hn : .connLost ∉ s.trace) {i k x}
    (ho : .overflow k (.close i x) ∈ s.trace) : closes i (received k s.trace) + 1 ≤ closes i (gots s.trace) := by
  have h1 : closes i (puts k s.trace) + 1 ≤ closes i (attempts k s.trace) := by
    obtain ⟨a, b, e⟩ := List.append_of_mem ho
    rw [e, attempts_append, puts_append, closes_append, closes_append]
    have e1 : attempts k (.overflow k (.close i x) :: b) = [.close i x] ++ attempts k b := by simp [attempts]
    have e2 : puts k (.overflow k (.close i x) :: b) = puts k b := by simp [puts]
    rw [e1, e2, closes_append]
    have h1 := closes_sub (i := i) (puts_sub_attempts k a)
    have h2 := closes_sub (i := i) (puts_sub_attempts k b)
    have h3 : closes i [Frame.close i x] = 1 := by simp [closes]
    omega
  have h2 : closes i (attempts k s.trace) ≤ closes i (due acc k s.trace) := by
    rw [← h.flow k]; exact closes_sub (List.sublist_append_left _ _)
  have h3 := closes_due acc k i s.trace [] hn
  have h4 := closes_sub (i := i) (received_sub_puts h k)
  unfold due at h2
  omega

/-- a notice looked at before a stream was registered under its id -/
theorem fewer_early {acc debt s} (h : DInv acc debt s) (hn : .connLost ∉ s.trace) {i x a b} (k : Nat)
    (e : s.trace = a ++ .got (.close i x) :: b) (hr : regCount i a = 0) :
    closes i (received k s.trace) + 1 ≤ closes i (gots s.trace) := by
  have h1 := closes_sub (i := i) (received_sub_due h k)
  rw [e] at hn
  have h2 := closes_due acc k i a [] (fun hm => hn (List.mem_append.2 (.inl hm)))
  have h3 := closes_due acc k i b (a ++ [.got (.close i x)]) (fun hm => hn (List.mem_append.2 (.inr (List.mem_cons_of_mem _ hm))))
  have h4 : dueNow acc k a (.got (.close i x)) = [] := by simp [dueNow, Frame.sockMap, owner_none hr]
  rw [e] at h1 ⊢
  rw [due_append, closes_append, dueFrom, h4, List.nil_append] at h1
  have h5 : gots [Obs.got (.close i x)] = [.close i x] := rfl
  have h6 : closes i [Frame.close i x] = 1 := by simp [closes]
  rw [gots_append', closes_append, gots_cons, closes_append, h5, h6]
  unfold due at h1
  omega

end Wm.Tunnel

namespace Wm.World
open Wm Wm.Prot
open scoped List
open Wm.Tunnel (creates regCount openCount gots received submissions accepted relayed heads closes closes_append closes_mem)

variable {T : Tunnel.St → Tunnel.Event → Tunnel.St}

/-- how many relays with this id are done -/
def dones (i : Nat) (rs : List Relay.St) : Nat := rs.countP fun r => decide (r.id = i ∧ r.phase = .done)

/-- a close is submitted once by each relay that is done, and once for each stream asked for that is not opened -/
def Tally (i : Nat) (s : Tunnel.St) (rs : List Relay.St) : Prop :=
  closes i (submissions s.trace) + openCount i s.trace ≤ dones i rs + creates i (gots s.trace)

theorem closes_self {u : List Tunnel.Obs} (h : Tunnel.InnerL u) (i) : closes i (submissions u) = Tunnel.selfCloses i u := by
  have hp := h.plain
  clear h
  induction u with
  | nil => rfl
  | cons o u ih =>
    have e1 : submissions (o :: u) = submissions [o] ++ submissions u := by rw [← Tunnel.submissions_append]; rfl
    have e2 : Tunnel.selfCloses i (o :: u) = Tunnel.selfCloses i [o] + Tunnel.selfCloses i u := by
      rw [← Tunnel.selfCloses_append]; rfl
    rw [e1, e2, closes_append, ih fun o ho => hp o (List.mem_cons_of_mem _ ho)]
    congr 1
    have := hp o List.mem_cons_self
    cases o <;> try rfl
    obtain ⟨j, rfl⟩ := this
    simp [submissions, closes, Tunnel.selfCloses, List.countP_cons]

/-- any step: a close submitted for this id counts -/
theorem Tally.any (hT : Steps T) {i s rs} (h : Tally i s rs) (e) :
    closes i (submissions (T s e).trace) + openCount i (T s e).trace ≤
      dones i rs + closes i (submissions (heads s e)) + creates i (gots (T s e).trace) := by
  unfold Tally at h
  obtain ⟨u, e1, e2, _⟩ := hT s e
  have ha := e2.answers i
  have hh := (heads_connects s e).2 i
  rw [e1, Tunnel.submissions_append, Tunnel.submissions_append, closes_append, closes_append, closes_self e2,
    Tunnel.openCount_append, Tunnel.openCount_append, hh, Tunnel.gots_append', Tunnel.gots_append', heads_gots,
    List.append_nil, Tunnel.creates_append]
  omega

theorem Tally.quiet (hT : Steps T) {i s rs} (h : Tally i s rs) {e} (he : ∀ t, e ≠ .submit (.close i t)) :
    Tally i (T s e) rs := by
  have h1 := h.any hT e
  have h2 : closes i (submissions (heads s e)) = 0 := by
    refine List.countP_eq_zero.2 fun f hm => ?_
    by_cases hs : ∃ g, e = .submit g
    · obtain ⟨g, rfl⟩ := hs
      rcases heads_submit (s := s) g with h1 | h1
      · rw [h1, List.mem_singleton] at hm
        subst hm
        cases f <;> simp
        rintro rfl
        exact he _ rfl
      · rw [h1] at hm; cases hm
    · rw [heads_sub fun g hg => hs ⟨g, hg⟩] at hm; cases hm
  unfold Tally
  omega

theorem dones_set {i : Nat} {rs : List Relay.St} {n r r'} (hn : rs[n]? = some r) (hid : r'.id = r.id)
    (hd : r.phase = .done → r'.phase = .done) : dones i rs ≤ dones i (rs.set n r') := by
  obtain ⟨hlt, hg⟩ := List.getElem?_eq_some_iff.1 hn
  unfold dones
  rw [List.countP_set hlt, hg]
  by_cases h1 : r.id = i ∧ r.phase = .done
  · have h2 : r'.id = i ∧ r'.phase = .done := ⟨hid.trans h1.1, hd h1.2⟩
    simp [h1, h2]
    omega
  · simp [h1]

theorem dones_set_new {i : Nat} {rs : List Relay.St} {n r r'} (hn : rs[n]? = some r) (h0 : r.phase ≠ .done)
    (hid : r'.id = i) (hd : r'.phase = .done) : dones i (rs.set n r') = dones i rs + 1 := by
  obtain ⟨hlt, hg⟩ := List.getElem?_eq_some_iff.1 hn
  unfold dones
  rw [List.countP_set hlt, hg]
  simp [h0, hid, hd]

theorem Tally.set {i s} {rs : List Relay.St} (h : Tally i s rs) {n r r'} (hn : rs[n]? = some r) (hid : r'.id = r.id)
    (hd : r.phase = .done → r'.phase = .done) : Tally i s (rs.set n r') := by
  have := dones_set (i := i) hn hid hd
  unfold Tally at *
  omega

theorem relayStep_over (dies s hd e) {r : Relay.St} (h : r.phase = .done) : (relayStep T dies s r hd e).2 = r := by
  cases e <;> simp only [relayStep, relay_done_step h]
  case read bs => split <;> rfl
  case recv => simp [h]
  case slot =>
    split
    · split
      · split <;> rfl
      · rfl
    · split <;> rfl
  case drop =>
    cases hd with
    | none => rfl
    | some k => dsimp only; split <;> rfl

theorem Tally.relay (hT : Steps T) {i s} {rs : List Relay.St} (h : Tally i s rs) (dies hd e) {n : Nat} {r : Relay.St}
    (hn : rs[n]? = some r) (hr : IsRun r) :
    Tally i (relayStep T dies s r hd e).1 (rs.set n (relayStep T dies s r hd e).2) := by
  obtain ⟨⟨hid, hrun⟩, hc⟩ := relayStep_cases T dies s r hd e hr
  have hdone := relayStep_done (T := T) dies s hd e (r := r)
  rcases hc with ⟨e1, _⟩ | ⟨k, f, q, _, _, _, e1, _⟩ | ⟨f, hph, hcap, e1, e2, _⟩ | ⟨k, _, e1, _⟩
  · rw [e1]; exact h.set hn hid hdone
  · rw [e1]; exact (h.quiet hT (by simp)).set hn hid hdone
  · by_cases hf : ∃ t, f = .close i t
    · obtain ⟨t, rfl⟩ := hf
      have hm : .close i t ∈ Relay.sends (relayStep T dies s r hd e).2.trace := by rw [e2]; simp
      have h0 : r.phase ≠ .done := by
        intro hdn
        rw [relayStep_over dies s hd e hdn] at e2
        simpa using congrArg List.length e2
      have h1 := dones_set_new (i := i) hn h0 (sends_id hrun _ hm).symm (relay_close_done hrun hm)
      have h2 := h.any hT (.submit (.close i t))
      have h3 : closes i (submissions (heads s (.submit (.close i t)))) ≤ 1 := by
        rcases heads_submit (s := s) (.close i t) with h3 | h3 <;> rw [h3] <;> simp [closes]
      unfold Tally
      rw [e1, h1]
      omega
    · rw [e1]
      refine (h.quiet hT ?_).set hn hid hdone
      rintro t ht
      cases ht
      exact hf ⟨t, rfl⟩
  · rw [e1]; exact (h.quiet hT (by simp)).set hn hid hdone

theorem Tally.loop (hT : Steps T) {i s rs} (h : Tally i s rs) (inb e) : Tally i (loopStep T s inb e).1 rs := by
  cases e <;> simp only [loopStep]
  case read n =>
    split
    · exact h.quiet hT (by simp)
    · exact h
  all_goals exact h.quiet hT (by simp)

theorem Tally.other (hT : Steps T) {i s rs} (h : Tally i s rs) (mine e) (hi : ∀ f ∈ submitted e, f.sockMap ≠ i) :
    Tally i (otherStep T s mine e) rs := by
  cases e <;> simp only [otherStep]
  · refine h.quiet hT ?_
    rintro t ht
    cases ht
    exact hi (.close i t) (by simp [submitted]) rfl
  · split
    · exact h
    · exact h.quiet hT (by simp)
  · split
    · exact h
    · exact h.quiet hT (by simp)

theorem Tally.add {i s rs} (h : Tally i s rs) (j) : Tally i s (rs ++ [Relay.init j]) := by
  have : dones i rs ≤ dones i (rs ++ [Relay.init j]) := (List.sublist_append_left _ _).countP_le
  unfold Tally at *
  omega

theorem tally_step (cfg w e i) (hb : Base cfg w) (ho' : Own i (step cfg w e))
    (h1 : Tally i w.srv (w.visitors.map (·.relay))) :
    Tally i (step cfg w e).srv ((step cfg w e).visitors.map (·.relay)) := by
  have hS := steps_server cfg.server
  cases e <;> simp only [step] at ho' ⊢
  case accept => exact h1
  case visit n mode =>
    have hadd : ∀ j, Tally i w.srv ((w.visitors ++ [(⟨Relay.init j, none, mode⟩ : Visitor)]).map (·.relay)) := by
      intro j; rw [List.map_append]; exact h1.add j
    split
    · exact h1
    · split
      · exact h1
      · split
        · split
          · exact hadd _
          · exact h1
        · exact hadd _
  case work =>
    split
    · exact h1
    · rename_i n name rest hw
      split
      · exact h1
      · rename_i v hv
        split
        · have hm := map_set_same (·.relay) (b := { v with handle := some w.srv.next }) hv rfl
          dsimp only at hm ⊢
          rw [hm]
          exact h1.quiet hS (by simp)
        · exact h1
  case srv e => exact h1.loop hS _ _
  case cli e => exact h1
  case otherS e => exact h1.other hS _ e (fun f hf => ho'.server f (List.mem_append.2 (.inr hf)))
  case otherC e => exact h1
  case vis n e =>
    split
    · exact h1
    · rename_i v hv
      rw [List.map_set]
      exact h1.relay hS true v.handle e (by rw [List.getElem?_map, hv]; rfl) (hb.visitors v (List.mem_of_getElem? hv))
  case start id k =>
    split
    · exact h1
    · exact h1
  case loc n e =>
    split
    · exact h1
    · exact h1

theorem tally_run (cfg es i) (ho : Own i (run cfg es)) :
    Tally i (run cfg es).srv ((run cfg es).visitors.map (·.relay)) := by
  induction es using List.reverseRecOn with
  | nil => simp [run, init, Tunnel.serverInit, Tally, submissions, openCount, closes]
  | append_singleton es e ih =>
    rw [run_snoc] at ho ⊢
    have hb := base_run cfg es
    exact tally_step cfg _ e i hb ho (ih (ho.back hb))

theorem heads_closes (i s) (e : Tunnel.Event) : closes i (accepted (heads s e)) ≤ closes i (relayed (heads s e)) := by
  cases e <;> simp only [heads]
  case work j d =>
    split
    · cases Tunnel.lookup j s.map <;> simp [accepted, relayed, closes]
    · exact Nat.le_refl _
  case submit f => split <;> exact Nat.le_refl _
  case take j => split <;> (try split) <;> exact Nat.le_refl _
  case dropRx h => split <;> exact Nat.le_refl _
  case recv => split <;> (try split) <;> exact Nat.le_refl _
  case read bs => split <;> exact Nat.le_refl _
  case readEnd => split <;> exact Nat.le_refl _
  case wrote n => split <;> (try split) <;> exact Nat.le_refl _
  case writeErr => exact Nat.le_refl _

/-- notices an end sends come from those who submit them -/
theorem Steps.closes (hT : Steps T) {i s} (hi : i ≠ 0) (e)
    (h : closes i (accepted s.trace) ≤ closes i (relayed s.trace)) :
    closes i (accepted (T s e).trace) ≤ closes i (relayed (T s e).trace) := by
  obtain ⟨u, e1, e2, _⟩ := hT s e
  rw [e1, Tunnel.accepted_append, Tunnel.accepted_append, Tunnel.relayed_append, Tunnel.relayed_append,
    closes_append, closes_append, closes_append, closes_append]
  have h1 : Tunnel.closes i (accepted u) = 0 := by
    refine List.countP_eq_zero.2 fun f hf => ?_
    rw [e2.accepted f hf]
    simp
    exact fun h => hi h.symm
  have h2 : Tunnel.closes i (accepted (heads s e)) ≤ Tunnel.closes i (relayed (heads s e)) := heads_closes i s e
  omega

theorem server_closes {cfg s} (h : ∃ es, s = Tunnel.serverRun cfg es) {i} (hi : i ≠ 0) :
    closes i (accepted s.trace) ≤ closes i (submissions s.trace) := by
  have hq := server_outq h
  have h1 : closes i (accepted s.trace) ≤ closes i (relayed s.trace) := by
    obtain ⟨es, rfl⟩ := h
    clear hq
    induction es using List.reverseRecOn with
    | nil => exact Nat.le_refl _
    | append_singleton es e ih =>
      simp only [Tunnel.serverRun, List.foldl_append, List.foldl_cons, List.foldl_nil] at ih ⊢
      exact (steps_server cfg).closes hi e ih
  rw [← hq, closes_append]
  omega

theorem client_closes {cfg s} (h : ∃ es, s = Tunnel.clientRun cfg [] es) {i} (hi : i ≠ 0) :
    closes i (accepted s.trace) ≤ closes i (submissions s.trace) := by
  have hq := client_outq h
  have h1 : closes i (accepted s.trace) ≤ closes i (relayed s.trace) := by
    obtain ⟨es, rfl⟩ := h
    clear hq
    induction es using List.reverseRecOn with
    | nil =>
      refine Nat.le_trans (Nat.le_of_eq (List.countP_eq_zero.2 fun f hf => ?_)) (Nat.zero_le _)
      have := clientInit_zero cfg f hf
      cases f <;> simp
      simp only [Frame.sockMap] at this
      omega
    | append_singleton es e ih =>
      simp only [Tunnel.clientRun, List.foldl_append, List.foldl_cons, List.foldl_nil] at ih ⊢
      exact (steps_client cfg).closes hi e ih
  rw [← hq, closes_append]
  omega

theorem closes_asReceived (i) (fs : List Frame) : closes i (fs.map asReceived) = closes i fs := by
  induction fs with
  | nil => rfl
  | cons f fs ih =>
    rw [List.map_cons, ← List.singleton_append, closes_append, ih, ← List.singleton_append (l := fs), closes_append]
    congr 1
    cases f with
    | create j x =>
      cases x with
      | none => rfl
      | some t => cases t <;> rfl
    | _ => rfl

end Wm.World
