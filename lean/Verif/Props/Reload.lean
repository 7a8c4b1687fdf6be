import Verif.Model.Reload
import Verif.Props.Control
/-! Connections of visitors while the configuration is replaced (C150). -/
namespace Wm.Control
open Wm

variable {α : Type}

/-! ### services that have ended stay so -/

theorem phaseOf_upd (s : St α) (k j : Nat) (f : Svc α → Svc α) (v : Svc α) (hv : s.svcs[j]? = some v) :
    phaseOf (upd s k f) j = some (if k = j then f v else v).phase := by
  show ((s.svcs.modify k f)[j]?).map _ = _
  rw [mod_ex f hv]; rfl

theorem Ended.upd {s : St α} {j : Nat} (h : phaseOf s j = some .ended) (k : Nat) (f : Svc α → Svc α)
    (hf : ∀ v, v.phase = .ended → (f v).phase = .ended) : phaseOf (Control.upd s k f) j = some .ended := by
  obtain ⟨v, hv, hp⟩ := phaseOf_some h
  rw [phaseOf_upd s k j f v hv]
  split
  · rw [hf v hp]
  · rw [hp]

theorem Ended.upd_other {s : St α} {j k : Nat} (h : phaseOf s j = some .ended) (f : Svc α → Svc α) (hne : phaseOf s k ≠ some .ended) :
    phaseOf (Control.upd s k f) j = some .ended := by
  obtain ⟨v, hv, hp⟩ := phaseOf_some h
  rw [phaseOf_upd s k j f v hv, if_neg, hp]
  rintro rfl
  exact hne h

theorem Ended.start {s : St α} {j : Nat} (h : phaseOf s j = some .ended) (cfg : α) : phaseOf (start s cfg) j = some .ended := by
  obtain ⟨v, hv, hp⟩ := phaseOf_some h
  show ((s.svcs ++ [_])[j]?).map _ = _
  rw [snoc_old hv]
  simp [hp]

theorem Ended.tell {s : St α} {j : Nat} (h : phaseOf s j = some .ended) (p : Option Nat) : phaseOf (tell s p) j = some .ended := by
  cases p with
  | none => exact h
  | some p =>
    simp only [Control.tell]
    split
    · exact h
    · exact Ended.upd h _ _ (fun v hv => hv)

theorem Ended.step {s : St α} {j : Nat} (h : phaseOf s j = some .ended) (e : Ev α) : phaseOf (Control.step s e) j = some .ended := by
  unfold Control.step
  split
  · exact h
  · cases e with
    | reload p =>
      dsimp only
      split
      · cases p with
        | none => exact h
        | some c => exact Ended.start h c
      · exact h
    | stop =>
      dsimp only
      split
      · unfold stop
        split
        · exact h
        · split
          · exact h
          · exact Ended.upd h _ _ (fun v hv => hv)
      · exact h
    | now => dsimp only; split <;> exact h
    | ready k =>
      dsimp only [ready]
      split
      · rename_i h1; exact Ended.upd_other h _ (by rw [h1]; simp)
      · exact h
    | fail k =>
      dsimp only [fail]
      split
      · rename_i h1; exact Ended.upd_other (k := k) h _ (by rw [h1]; simp)
      · exact h
    | begin_ k =>
      dsimp only [begin_]
      split
      · exact h
      · rename_i v hv
        split
        · rename_i hb
          by_cases hkj : k = j
          · subst hkj
            obtain ⟨w, hw, hp⟩ := phaseOf_some h
            rw [hv] at hw; cases hw
            rw [hb.1] at hp; cases hp
          · obtain ⟨w, hw, hp⟩ := phaseOf_some (Ended.tell h v.prev)
            rw [phaseOf_upd _ k j _ w hw, if_neg hkj, hp]
        · exact h
    | close k =>
      dsimp only [close]
      split
      · exact h
      · split
        · exact Ended.upd h k _ (fun _ _ => rfl)
        · exact h
    | crash k =>
      dsimp only [crash]
      split
      · exact Ended.upd h k _ (fun _ _ => rfl)
      · exact h
    | panic k =>
      dsimp only [panic]
      split
      · exact Ended.upd h k _ (fun _ _ => rfl)
      · exact h
    | abort k => dsimp only [abort]; split <;> exact h
    | collect => dsimp only [collect]; split <;> exact h

theorem shut_step {s : St α} {k : Nat} (h : shut s k = true) (e : Ev α) : shut (step s e) k = true := by
  by_cases hx : s.exited = true
  · rw [step_exited hx]; exact h
  · have : phaseOf s k = some .ended := by simpa [shut, hx] using h
    simp [shut, Ended.step this e]

theorem moveStep_ctl (s : Conns α) (m : Move α) : (moveStep s m).ctl = s.ctl ∨ ∃ e, m = .ctl e ∧ (moveStep s m).ctl = step s.ctl e := by
  cases m with
  | ctl e => exact .inr ⟨e, rfl, rfl⟩
  | arrive c k => left; simp only [moveStep]; split <;> rfl
  | take k =>
    left; simp only [moveStep]
    split
    · split <;> rfl
    · rfl
  | done c => left; rfl

theorem shut_move {s : Conns α} {k : Nat} (h : shut s.ctl k = true) (m : Move α) : shut (moveStep s m).ctl k = true := by
  rcases moveStep_ctl s m with h1 | ⟨e, -, h1⟩
  · rw [h1]; exact h
  · rw [h1]; exact shut_step h e

theorem shut_moves (ms : List (Move α)) : ∀ {s : Conns α} {k : Nat}, shut s.ctl k = true → shut (moves s ms).ctl k = true := by
  induction ms with
  | nil => intro s k h; exact h
  | cons m ms ih => intro s k h; exact ih (shut_move h m)

theorem exited_move {s : Conns α} (h : s.ctl.exited = true) (m : Move α) : (moveStep s m).ctl.exited = true := by
  rcases moveStep_ctl s m with h1 | ⟨e, -, h1⟩
  · rw [h1]; exact h
  · rw [h1, step_exited h]; exact h

theorem exited_moves (ms : List (Move α)) : ∀ {s : Conns α}, s.ctl.exited = true → (moves s ms).ctl.exited = true := by
  induction ms with
  | nil => intro s h; exact h
  | cons m ms ih => intro s h; exact ih (exited_move h m)

theorem svcs_grow (s : St α) (e : Ev α) : s.svcs.length ≤ (step s e).svcs.length := by
  unfold step
  split
  · exact Nat.le_refl _
  · cases e with
    | reload p =>
      dsimp only
      split
      · cases p <;> simp [reload, start]
      · exact Nat.le_refl _
    | stop =>
      dsimp only
      split
      · unfold stop; split
        · exact Nat.le_refl _
        · split <;> simp [upd]
      · exact Nat.le_refl _
    | now => dsimp only; split <;> simp [now]
    | ready k => dsimp only [ready]; split <;> simp [upd]
    | fail k => dsimp only [fail]; split <;> simp [upd]
    | begin_ k =>
      dsimp only [begin_]
      split
      · exact Nat.le_refl _
      · rename_i v _
        split
        · have : (tell s v.prev).svcs.length = s.svcs.length := (ended_tell s v.prev).2.1
          simp [upd, this]
        · exact Nat.le_refl _
    | close k =>
      dsimp only [close]
      split
      · exact Nat.le_refl _
      · split <;> simp [upd]
    | crash k => dsimp only [crash]; split <;> simp [upd]
    | panic k => dsimp only [panic]; split <;> simp [upd]
    | abort k => dsimp only [abort]; split <;> simp
    | collect => dsimp only [collect]; split <;> simp

/-! ### where a connection is -/

/-- connection `c` is at service `k`, being served, or lost -/
def Somewhere (s : Conns α) (c k : Nat) : Prop := c ∈ s.waiting k ∨ c ∈ s.served ∨ c ∈ s.lost

/-- only existing services have connections -/
def Known (s : Conns α) : Prop := ∀ k, s.ctl.svcs.length ≤ k → s.waiting k = []

theorem Known.move {s : Conns α} (h : Known s) (m : Move α) : Known (moveStep s m) := by
  cases m with
  | ctl e =>
    intro k hk
    show (if shut (step s.ctl e) k then [] else s.waiting k) = []
    have := svcs_grow s.ctl e
    have hk' : (step s.ctl e).svcs.length ≤ k := hk
    split
    · rfl
    · exact h k (by omega)
  | arrive c k =>
    simp only [moveStep]
    split
    · rename_i hc
      intro j hj
      have hj' : s.ctl.svcs.length ≤ j := hj
      show (if j = k then _ else s.waiting j) = []
      rw [if_neg (by omega)]
      exact h j hj
    · exact h
  | take k =>
    simp only [moveStep]
    split
    · split
      · exact h
      · rename_i c cs hw
        intro j hj
        show (if j = k then cs else s.waiting j) = []
        split
        · rename_i hjk
          subst hjk
          rw [h j hj] at hw; cases hw
        · exact h j hj
    · exact h
  | done c => exact h

theorem Known.moves (ms : List (Move α)) : ∀ {s : Conns α}, Known s → Known (moves s ms) := by
  induction ms with
  | nil => intro s h; exact h
  | cons m ms ih => intro s h; exact ih (h.move m)

theorem sweep_waiting {s : Conns α} (hk : Known s) {c : St α} (hl : s.ctl.svcs.length ≤ c.svcs.length) {x k : Nat}
    (h : x ∈ s.waiting k) : x ∈ (sweep s c).waiting k ∨ x ∈ (sweep s c).lost ∧ shut c k = true := by
  by_cases hs : shut c k = true
  · right
    refine ⟨?_, hs⟩
    have hlt : k < c.svcs.length := by
      by_contra hn
      rw [hk k (by omega)] at h; cases h
    simp only [sweep, List.mem_append, List.mem_flatMap, List.mem_filter, List.mem_range]
    exact .inl (.inr ⟨k, ⟨hlt, hs⟩, h⟩)
  · left
    show x ∈ if shut c k then [] else s.waiting k
    rw [if_neg hs]; exact h

theorem lost_move {s : Conns α} {c : Nat} (h : c ∈ s.lost) (m : Move α) : c ∈ (moveStep s m).lost := by
  cases m with
  | ctl e => simp [moveStep, sweep, h]
  | arrive d k => simp only [moveStep]; split <;> exact h
  | take k =>
    simp only [moveStep]
    split
    · split <;> exact h
    · exact h
  | done d => exact h

theorem served_move {s : Conns α} {c : Nat} (h : c ∈ s.served) (m : Move α) (hm : m ≠ .done c) :
    c ∈ (moveStep s m).served ∨ c ∈ (moveStep s m).lost ∧ (moveStep s m).ctl.exited = true := by
  cases m with
  | ctl e =>
    by_cases hx : (step s.ctl e).exited = true
    · exact .inr ⟨by simp [moveStep, sweep, hx, h], hx⟩
    · exact .inl (by simp [moveStep, sweep, hx, h])
  | arrive d k => left; simp only [moveStep]; split <;> exact h
  | take k =>
    left; simp only [moveStep]
    split
    · split
      · exact h
      · exact List.mem_append_left _ h
    · exact h
  | done d =>
    left
    have : c ≠ d := fun e => hm (by rw [e])
    exact (List.mem_erase_of_ne this).2 h

theorem waiting_move {s : Conns α} (hk : Known s) {c k : Nat} (h : c ∈ s.waiting k) (m : Move α) :
    c ∈ (moveStep s m).waiting k ∨ c ∈ (moveStep s m).served ∨ c ∈ (moveStep s m).lost ∧ shut (moveStep s m).ctl k = true := by
  cases m with
  | ctl e =>
    rcases sweep_waiting hk (svcs_grow s.ctl e) h with h1 | h1
    · exact .inl h1
    · exact .inr (.inr h1)
  | arrive d j =>
    left; simp only [moveStep]
    split
    · show c ∈ if k = j then _ else _
      split
      · rename_i hkj; subst hkj; exact List.mem_append_left _ h
      · exact h
    · exact h
  | take j =>
    simp only [moveStep]
    split
    · split
      · exact .inl h
      · rename_i d ds hw
        by_cases hkj : k = j
        · subst hkj
          rw [hw] at h
          rcases List.mem_cons.1 h with rfl | h
          · exact .inr (.inl (List.mem_append_right _ (List.mem_singleton.2 rfl)))
          · exact .inl (by simp [h])
        · exact .inl (by simp [hkj, h])
    · exact .inl h
  | done d => exact .inl h

theorem somewhere_moves (ms : List (Move α)) : ∀ {s : Conns α} {c k : Nat}, Known s → Somewhere s c k → .done c ∉ ms →
    Somewhere (moves s ms) c k := by
  induction ms with
  | nil => intro s c k _ h _; exact h
  | cons m ms ih =>
    intro s c k hk h hd
    refine ih (hk.move m) ?_ (fun hm => hd (List.mem_cons_of_mem _ hm))
    have hm : m ≠ .done c := fun e => hd (e ▸ List.mem_cons_self)
    rcases h with h | h | h
    · rcases waiting_move hk h m with h | h | h
      · exact .inl h
      · exact .inr (.inl h)
      · exact .inr (.inr h.1)
    · rcases served_move h m hm with h | h
      · exact .inr (.inl h)
      · exact .inr (.inr h.1)
    · exact .inr (.inr (lost_move h m))

theorem fresh_known (cfg : α) (b : Bool) : Known (fresh cfg b) := fun _ _ => rfl

theorem moves_append (s : Conns α) (a b : List (Move α)) : moves s (a ++ b) = moves (moves s a) b := by
  simp [moves, List.foldl_append]

/-! ## C150 -/

/-- **C150** (being served), partial: the task of a connection that a service has taken goes on to its own end, whatever happens to
    the services — replaced, stopped or failed —, as long as the process lives. Missing: the process may end, see
    `C150_exit_fails`. -/
theorem C150_served_partial (cfg : α) (b : Bool) (ms more : List (Move α)) (c : Nat) (h : c ∈ (moves (fresh cfg b) ms).served)
    (hd : .done c ∉ more) (hx : (moves (fresh cfg b) (ms ++ more)).ctl.exited = false) :
    c ∈ (moves (fresh cfg b) (ms ++ more)).served := by
  rw [moves_append] at hx ⊢
  generalize moves (fresh cfg b) ms = s at h hx
  induction more generalizing s with
  | nil => exact h
  | cons m more ih =>
    refine ih (fun hm => hd (List.mem_cons_of_mem _ hm)) (moveStep s m) ?_ hx
    rcases served_move h m (fun e => hd (e ▸ List.mem_cons_self)) with h1 | ⟨-, h1⟩
    · exact h1
    · have := exited_moves more h1
      rw [show moves s (m :: more) = moves (moveStep s m) more from rfl, this] at hx
      cases hx

/-- **C150** (waiting), partial: a connection given to a service that has not ended is waiting there or has been served, as long as
    the process lives; and none that has arrived vanishes: it is waiting, being served, or lost. Missing: those of services that end, see
    `C150_reload_fails`. -/
theorem C150_waiting_partial (cfg : α) (b : Bool) (ms more : List (Move α)) (c k : Nat)
    (hk : k < (moves (fresh cfg b) ms).ctl.svcs.length) (ho : shut (moves (fresh cfg b) ms).ctl k = false) (hd : .done c ∉ more) :
    let t := moves (fresh cfg b) (ms ++ .arrive c k :: more)
    (c ∈ t.waiting k ∨ c ∈ t.served ∨ c ∈ t.lost) ∧
    (t.ctl.exited = false → phaseOf t.ctl k ≠ some .ended → c ∈ t.waiting k ∨ c ∈ t.served) := by
  intro t
  have ht : t = moves (moveStep (moves (fresh cfg b) ms) (.arrive c k)) more := by
    simp [t, moves, List.foldl_append]
  have hK := (Known.moves ms (fresh_known cfg b)).move (.arrive c k)
  have hw : c ∈ (moveStep (moves (fresh cfg b) ms) (.arrive c k)).waiting k := by
    simp only [moveStep]; rw [if_pos ⟨hk, ho⟩]; simp
  rw [ht]
  refine ⟨somewhere_moves more hK (.inl hw) hd, ?_⟩
  clear ht t
  generalize moveStep (moves (fresh cfg b) ms) (.arrive c k) = s at hw hK
  have hw' : c ∈ s.waiting k ∨ c ∈ s.served := .inl hw
  clear hw hk ho
  induction more generalizing s with
  | nil => intro _ _; exact hw'
  | cons m more ih =>
    intro hx hp
    refine ih (fun hm => hd (List.mem_cons_of_mem _ hm)) (moveStep s m) (hK.move m) ?_ hx hp
    have hopen : shut (moveStep s m).ctl k = false := by
      by_contra hn
      have := shut_moves more (by simpa using hn : shut (moveStep s m).ctl k = true)
      have hx' : (moves (moveStep s m) more).ctl.exited = false := hx
      have hp' : phaseOf (moves (moveStep s m) more).ctl k ≠ some .ended := hp
      simp [shut, hx', hp'] at this
    rcases hw' with h | h
    · rcases waiting_move hK h m with h | h | ⟨-, h⟩
      · exact .inl h
      · exact .inr h
      · rw [hopen] at h; cases h
    · rcases served_move h m (fun e => hd (e ▸ List.mem_cons_self)) with h | ⟨-, h⟩
      · exact .inr h
      · simp [shut, h] at hopen

/-- **C150** (in turn): a running service takes the connections that wait in the order in which they came. -/
theorem C150_in_turn (s : Conns α) (k c : Nat) (pre post : List Nat) (hr : phaseOf s.ctl k = some .running)
    (hx : s.ctl.exited = false) (hw : s.waiting k = pre ++ c :: post) :
    (moves s (List.replicate (pre.length + 1) (.take k))).served = s.served ++ pre ++ [c] ∧
    (moves s (List.replicate (pre.length + 1) (.take k))).waiting k = post := by
  induction pre generalizing s with
  | nil =>
    have : moves s (List.replicate 1 (.take k)) = moveStep s (.take k) := rfl
    rw [List.length_nil, Nat.zero_add, this]
    simp only [moveStep]
    rw [if_pos ⟨hr, hx⟩, hw]
    simp
  | cons d pre ih =>
    have h1 : moveStep s (.take k) =
        { s with waiting := fun j => if j = k then pre ++ c :: post else s.waiting j, served := s.served ++ [d] } := by
      simp only [moveStep]
      rw [if_pos ⟨hr, hx⟩, hw]
      rfl
    have h2 := ih (moveStep s (.take k)) (by rw [h1]; exact hr) (by rw [h1]; exact hx) (by rw [h1]; simp)
    have h3 : moves s (List.replicate ((d :: pre).length + 1) (.take k)) =
        moves (moveStep s (.take k)) (List.replicate (pre.length + 1) (.take k)) := rfl
    rw [h3, h2.1, h2.2, h1]
    simp

theorem arrivals (cs : List Nat) (k : Nat) : ∀ s : Conns α, k < s.ctl.svcs.length → shut s.ctl k = false →
    (moves s (cs.map (.arrive · k))).ctl = s.ctl ∧ (moves s (cs.map (.arrive · k))).waiting k = s.waiting k ++ cs := by
  induction cs with
  | nil => intro s _ _; exact ⟨rfl, by simp [moves]⟩
  | cons c cs ih =>
    intro s hk ho
    have h1 : moveStep s (.arrive c k) = { s with waiting := fun j => if j = k then s.waiting k ++ [c] else s.waiting j } := by
      simp only [moveStep]; rw [if_pos ⟨hk, ho⟩]
    have h2 := ih (moveStep s (.arrive c k)) (by rw [h1]; exact hk) (by rw [h1]; exact ho)
    rw [show moves s ((c :: cs).map (.arrive · k)) = moves (moveStep s (.arrive c k)) (cs.map (.arrive · k)) from rfl, h2.1, h2.2, h1]
    simp

/-- the states of the services in the course of a reload -/
theorem reload_runs (s : St α) (k : Nat) (v : Svc α) (hx : s.exited = false) (hl : s.listening = true)
    (hc : s.current = some k) (hv : s.svcs[k]? = some v) (hr : v.phase = .running) (hi : v.inbox = false) (cfg : α) :
    let t := run s [.reload (some cfg), .ready s.svcs.length, .begin_ s.svcs.length]
    t.exited = false ∧ t.svcs[k]? = some { v with inbox := true } ∧
    t.svcs[s.svcs.length]? = some ⟨cfg, .running, none, false⟩ := by
  have hlt := lt_of_some hv
  have e1 : step s (.reload (some cfg)) = reload s (some cfg) := by
    unfold step; rw [if_neg (by simp [hx])]; simp [hl]
  have g1 : (reload s (some cfg)).svcs = s.svcs ++ [⟨cfg, .starting, some k, false⟩] := by simp [reload, start, hc]
  have x1 : (reload s (some cfg)).exited = false := by simp [reload, start, hx]
  generalize reload s (some cfg) = r1 at e1 g1 x1
  have e2 : step r1 (.ready s.svcs.length) = upd r1 s.svcs.length (fun v => { v with phase := .bound }) := by
    unfold step; rw [if_neg (by simp [x1])]
    simp only [ready]
    rw [if_pos (by simp [phaseOf, g1])]
  have hk2 : (upd r1 s.svcs.length (fun v => { v with phase := .bound })).svcs[k]? = some v := by
    show (r1.svcs.modify _ _)[k]? = _
    rw [g1, mod_ex _ (snoc_old hv), if_neg (by omega)]
  have hn2 : (upd r1 s.svcs.length (fun v => { v with phase := .bound })).svcs[s.svcs.length]? = some ⟨cfg, .bound, some k, false⟩ := by
    show (r1.svcs.modify _ _)[s.svcs.length]? = _
    rw [g1, mod_ex (o := ⟨cfg, .starting, some k, false⟩) _ (by simp), if_pos rfl]
  have x2 : (upd r1 s.svcs.length (fun v => { v with phase := .bound })).exited = false := x1
  generalize upd r1 s.svcs.length (fun v => { v with phase := .bound }) = r2 at e2 hk2 hn2 x2
  have e3 : step r2 (.begin_ s.svcs.length) =
      upd (upd r2 k (fun v => { v with inbox := true })) s.svcs.length (fun v => { v with phase := .running, prev := none }) := by
    unfold step; rw [if_neg (by simp [x2])]
    show begin_ r2 s.svcs.length = _
    unfold begin_
    rw [hn2]
    show (if Phase.bound = .bound ∧ room r2 (some k) = true then upd (tell r2 (some k)) _ _ else r2) = _
    rw [if_pos ⟨rfl, by simp [room, hk2, hi]⟩]
    simp only [tell]
    rw [if_neg (by simp [phaseOf, hk2, hr])]
  intro t
  have ht : t = upd (upd r2 k (fun v => { v with inbox := true })) s.svcs.length (fun v => { v with phase := .running, prev := none }) := by
    simp only [t, run, List.foldl_cons, List.foldl_nil]
    rw [e1, e2, e3]
  rw [ht]
  refine ⟨x2, ?_, ?_⟩
  · show ((r2.svcs.modify _ _).modify _ _)[k]? = _
    rw [mod_ex _ (mod_ex _ hk2), if_neg (by omega), if_pos rfl]
  · show ((r2.svcs.modify _ _).modify _ _)[s.svcs.length]? = _
    rw [mod_ex _ (mod_ex _ hn2), if_pos rfl, if_neg (by omega)]

theorem moves_ctl (es : List (Ev α)) : ∀ s : Conns α, (moves s (es.map .ctl)).ctl = run s.ctl es := by
  induction es with
  | nil => intro s; rfl
  | cons e es ih => intro s; exact ih (moveStep s (.ctl e))

/-- **C150** fails in every reload: the connections that the operating system gives to the old service, which goes on listening
    beside the new one until it has been told, and that it has not taken by then are lost — although the new service is listening on the
    same address all the time. -/
theorem C150_reload_fails (s : Conns α) (k : Nat) (v : Svc α) (hx : s.ctl.exited = false) (hl : s.ctl.listening = true)
    (hc : s.ctl.current = some k) (hv : s.ctl.svcs[k]? = some v) (hr : v.phase = .running) (hi : v.inbox = false) (cfg : α)
    (cs : List Nat) :
    let t := moves s ([.ctl (.reload (some cfg)), .ctl (.ready s.ctl.svcs.length), .ctl (.begin_ s.ctl.svcs.length)] ++
      cs.map (.arrive · k) ++ [.ctl (.close k)])
    (∀ c ∈ cs, c ∈ t.lost) ∧ t.ctl.exited = false ∧ phaseOf t.ctl s.ctl.svcs.length = some .running := by
  intro t
  have hlt := lt_of_some hv
  obtain ⟨x3, k3, n3⟩ := reload_runs s.ctl k v hx hl hc hv hr hi cfg
  have e3 := moves_ctl [.reload (some cfg), .ready s.ctl.svcs.length, .begin_ s.ctl.svcs.length] s
  rw [← e3] at x3 k3 n3
  have ht : t = moveStep (moves (moves s ([.reload (some cfg), .ready s.ctl.svcs.length, .begin_ s.ctl.svcs.length].map .ctl))
      (cs.map (.arrive · k))) (.ctl (.close k)) := by
    simp only [t, moves, List.foldl_append]; rfl
  generalize moves s ([.reload (some cfg), .ready s.ctl.svcs.length, .begin_ s.ctl.svcs.length].map .ctl) = r at ht x3 k3 n3
  have hopen : shut r.ctl k = false := by simp [shut, x3, phaseOf, k3, hr]
  obtain ⟨a1, a2⟩ := arrivals cs k r (lt_of_some k3) hopen
  generalize moves r (cs.map (.arrive · k)) = q at ht a1 a2
  have hstep : step q.ctl (.close k) =
      { upd r.ctl k (fun v => { v with phase := .ended }) with notices := r.ctl.notices + 1 } := by
    rw [a1]
    unfold step; rw [if_neg (by simp [x3])]
    simp only [close, k3]
    rw [if_pos ⟨hr, .inl (by simp)⟩]
  have hph : phaseOf (step q.ctl (.close k)) k = some .ended := by
    rw [hstep]
    show phaseOf (upd r.ctl k _) k = _
    rw [phaseOf_upd _ _ _ _ _ k3, if_pos rfl]
  refine ⟨?_, ?_, ?_⟩
  · intro c hcs
    rw [ht]
    simp only [moveStep, sweep, List.mem_append, List.mem_flatMap, List.mem_filter, List.mem_range]
    refine .inl (.inr ⟨k, ⟨?_, by simp [shut, hph]⟩, by rw [a2]; exact List.mem_append_right _ hcs⟩)
    have := svcs_grow q.ctl (.close k)
    have := lt_of_some k3
    rw [a1] at *
    omega
  · rw [ht]
    show (step q.ctl (.close k)).exited = false
    rw [hstep]; exact x3
  · rw [ht]
    show phaseOf (step q.ctl (.close k)) _ = _
    rw [hstep]
    show phaseOf (upd r.ctl k _) _ = _
    rw [phaseOf_upd _ _ _ _ _ n3, if_neg (by omega)]

/-- **C150** fails in a reload whose start fails after it has opened a listener (because another address is taken, say): the
    connections given to it are lost, although the old service is listening on the same address. -/
theorem C150_failed_start_fails (s : Conns α) (k : Nat) (v : Svc α) (hx : s.ctl.exited = false) (hl : s.ctl.listening = true)
    (hv : s.ctl.svcs[k]? = some v) (hr : v.phase = .running) (cfg : α) (cs : List Nat) :
    let t := moves s ([.ctl (.reload (some cfg))] ++ cs.map (.arrive · s.ctl.svcs.length) ++ [.ctl (.fail s.ctl.svcs.length)])
    (∀ c ∈ cs, c ∈ t.lost) ∧ t.ctl.exited = false ∧ phaseOf t.ctl k = some .running := by
  intro t
  have hlt := lt_of_some hv
  have e1 : step s.ctl (.reload (some cfg)) = reload s.ctl (some cfg) := by
    unfold step; rw [if_neg (by simp [hx])]; simp [hl]
  have g1 : (moveStep s (.ctl (.reload (some cfg)))).ctl.svcs = s.ctl.svcs ++ [⟨cfg, .starting, s.ctl.current, false⟩] := by
    show (step s.ctl _).svcs = _
    rw [e1]; simp [reload, start]
  have x1 : (moveStep s (.ctl (.reload (some cfg)))).ctl.exited = false := by
    show (step s.ctl _).exited = _
    rw [e1]; simp [reload, start, hx]
  have ht : t = moveStep (moves (moveStep s (.ctl (.reload (some cfg)))) (cs.map (.arrive · s.ctl.svcs.length)))
      (.ctl (.fail s.ctl.svcs.length)) := by
    simp only [t, moves, List.foldl_append]; rfl
  generalize moveStep s (.ctl (.reload (some cfg))) = r at ht g1 x1
  have n1 : r.ctl.svcs[s.ctl.svcs.length]? = some ⟨cfg, .starting, s.ctl.current, false⟩ := by rw [g1]; simp
  have k1 : r.ctl.svcs[k]? = some v := by rw [g1]; exact snoc_old hv
  have hopen : shut r.ctl s.ctl.svcs.length = false := by simp [shut, x1, phaseOf, n1]
  obtain ⟨a1, a2⟩ := arrivals cs _ r (lt_of_some n1) hopen
  generalize moves r (cs.map (.arrive · s.ctl.svcs.length)) = q at ht a1 a2
  have hstep : step q.ctl (.fail s.ctl.svcs.length) =
      { upd r.ctl s.ctl.svcs.length (fun v => { v with phase := .ended, prev := none }) with notices := r.ctl.notices + 1 } := by
    rw [a1]
    unfold step; rw [if_neg (by simp [x1])]
    simp only [fail]
    rw [if_pos (by simp [phaseOf, n1])]
  have hph : phaseOf (step q.ctl (.fail s.ctl.svcs.length)) s.ctl.svcs.length = some .ended := by
    rw [hstep]
    show phaseOf (upd r.ctl _ _) _ = _
    rw [phaseOf_upd _ _ _ _ _ n1, if_pos rfl]
  refine ⟨?_, ?_, ?_⟩
  · intro c hcs
    rw [ht]
    simp only [moveStep, sweep, List.mem_append, List.mem_flatMap, List.mem_filter, List.mem_range]
    refine .inl (.inr ⟨s.ctl.svcs.length, ⟨?_, by simp [shut, hph]⟩, by rw [a2]; exact List.mem_append_right _ hcs⟩)
    have := svcs_grow q.ctl (.fail s.ctl.svcs.length)
    have := lt_of_some n1
    rw [a1] at *
    omega
  · rw [ht]
    show (step q.ctl (.fail s.ctl.svcs.length)).exited = false
    rw [hstep]; exact x1
  · rw [ht]
    show phaseOf (step q.ctl (.fail s.ctl.svcs.length)) _ = _
    rw [hstep]
    show phaseOf (upd r.ctl _ _) _ = _
    rw [phaseOf_upd _ _ _ _ _ k1, if_neg (by omega), hr]

/-- **C150** fails for what is being served when a reload fails to start while the old service is the only other one: the old one
    ends too (C56), then the process, and all connections with it. -/
theorem C150_exit_fails (s : Conns α) (k : Nat) (v : Svc α) (hx : s.ctl.exited = false) (hl : s.ctl.listening = true)
    (hc : s.ctl.current = some k) (hv : s.ctl.svcs[k]? = some v) (hr : v.phase = .running)
    (hp : ∀ w ∈ s.ctl.svcs, w.prev ≠ some k) (h1 : s.ctl.count = 1) (hn : s.ctl.notices = 0) (cfg : α) :
    let t := moves s ([.reload (some cfg), .fail s.ctl.svcs.length, .close k, .collect, .collect].map .ctl)
    t.ctl.exited = true ∧ (∀ c ∈ s.served, c ∈ t.lost) ∧ t.served = [] := by
  intro t
  have hlt := lt_of_some hv
  -- the services
  have e1 : step s.ctl (.reload (some cfg)) = reload s.ctl (some cfg) := by
    unfold step; rw [if_neg (by simp [hx])]; simp [hl]
  have g1 : (reload s.ctl (some cfg)).svcs = s.ctl.svcs ++ [⟨cfg, .starting, some k, false⟩] ∧
      (reload s.ctl (some cfg)).exited = false ∧ (reload s.ctl (some cfg)).count = 2 ∧ (reload s.ctl (some cfg)).notices = 0 ∧
      (reload s.ctl (some cfg)).listening = true ∧ (reload s.ctl (some cfg)).current = some s.ctl.svcs.length := by
    simp [reload, start, hc, hx, h1, hn, hl]
  generalize reload s.ctl (some cfg) = r1 at e1 g1
  obtain ⟨g1, x1, c1, n1, l1, u1⟩ := g1
  have e2 : step r1 (.fail s.ctl.svcs.length) =
      { upd r1 s.ctl.svcs.length (fun v => { v with phase := .ended, prev := none }) with notices := 1 } := by
    unfold step; rw [if_neg (by simp [x1])]
    simp only [fail]
    rw [if_pos (by simp [phaseOf, g1]), n1]
  have h2 : ∃ r2, step r1 (.fail s.ctl.svcs.length) = r2 ∧ r2.svcs[k]? = some v ∧ held r2 k = false ∧ r2.exited = false ∧ r2.count = 2 ∧
      r2.notices = 1 ∧ r2.listening = true := by
    refine ⟨_, e2, ?_, ?_, x1, c1, rfl, l1⟩
    · show (r1.svcs.modify _ _)[k]? = _
      rw [g1, mod_ex _ (snoc_old hv), if_neg (by omega)]
    · simp only [held, upd, u1, Bool.or_eq_false_iff, beq_eq_false_iff_ne, List.any_eq_false, beq_iff_eq]
      refine ⟨by simp; omega, ?_⟩
      intro w hw
      rw [g1] at hw
      obtain ⟨j, hj⟩ := List.getElem?_of_mem hw
      obtain ⟨o, h3, h4⟩ := mod_some hj
      rcases snoc_some h3 with h3 | ⟨h3, h5⟩
      · rw [if_neg (by have := lt_of_some h3; omega)] at h4
        subst h4
        exact hp _ (List.mem_of_getElem? h3)
      · rw [if_pos h3.symm] at h4
        subst h4; simp
  obtain ⟨r2, e2, k2, d2, x2, c2, n2, l2⟩ := h2
  have e3 : step r2 (.close k) = { upd r2 k (fun v => { v with phase := .ended }) with notices := 2 } := by
    unfold step; rw [if_neg (by simp [x2])]
    show close r2 k = _
    unfold close
    rw [k2]
    show (if v.phase = .running ∧ _ then _ else r2) = _
    rw [if_pos ⟨hr, .inr d2⟩, n2]
  have hrun : run s.ctl [.reload (some cfg), .fail s.ctl.svcs.length, .close k] =
      { upd r2 k (fun v => { v with phase := .ended }) with notices := 2 } := by
    simp only [run, List.foldl_cons, List.foldl_nil]
    rw [e1, e2, e3]
  have hexit : t.ctl.exited = true := by
    rw [moves_ctl]
    have : run s.ctl [.reload (some cfg), .fail s.ctl.svcs.length, .close k, .collect, .collect] =
        run (run s.ctl [.reload (some cfg), .fail s.ctl.svcs.length, .close k]) (List.replicate 2 .collect) := rfl
    rw [this, hrun]
    exact collects 2 _ l2 x2 rfl c2 (by omega)
  have hall : ∀ (es : List (Ev α)) (q : Conns α) c, c ∈ q.served → c ∈ (moves q (es.map .ctl)).served ∨ c ∈ (moves q (es.map .ctl)).lost := by
    intro es
    induction es with
    | nil => intro q c h; exact .inl h
    | cons e es ih =>
      intro q c h
      rcases served_move h (.ctl e) (by simp) with h | ⟨h, -⟩
      · exact ih _ c h
      · right
        have : ∀ (es : List (Ev α)) (q : Conns α), c ∈ q.lost → c ∈ (moves q (es.map .ctl)).lost := by
          intro es
          induction es with
          | nil => intro q h; exact h
          | cons e es ih => intro q h; exact ih _ (lost_move h (.ctl e))
        exact this es _ h
  have hnone : t.served = [] := by
    have ht : t = moveStep (moves s ([.reload (some cfg), .fail s.ctl.svcs.length, .close k, .collect].map .ctl)) (.ctl .collect) := rfl
    have hx' := hexit
    rw [ht] at hx' ⊢
    have hx2 : (step (moves s ([.reload (some cfg), .fail s.ctl.svcs.length, .close k, .collect].map .ctl)).ctl .collect).exited = true := hx'
    simp only [moveStep, sweep]
    rw [if_pos hx2]
  refine ⟨hexit, fun c hc => ?_, hnone⟩
  rcases hall _ s c hc with h | h
  · rw [show (moves s _).served = t.served from rfl, hnone] at h; cases h
  · exact h

/-! ### examples -/

/-- connection 7 is served across a reload, 8 is lost with the old service, 9 gets to the new one -/
example : let t := moves (fresh (0 : Nat) true) <|
      [.ctl (.ready 0), .ctl (.begin_ 0), .arrive 7 0, .take 0, .ctl (.reload (some 1)), .ctl (.ready 1), .ctl (.begin_ 1),
       .arrive 8 0, .arrive 9 1, .ctl (.close 0), .take 1];
    t.served = [7, 9] ∧ t.lost = [8] ∧ t.ctl.exited = false := by decide

/-- a reload whose start fails: all is lost, and the process ends -/
example : let t := moves (fresh (0 : Nat) true) <|
      [.ctl (.ready 0), .ctl (.begin_ 0), .arrive 7 0, .take 0, .ctl (.reload (some 1)), .arrive 8 1, .ctl (.fail 1),
       .ctl (.close 0), .ctl .collect, .ctl .collect];
    t.served = [] ∧ t.lost = [8, 7] ∧ t.ctl.exited = true := by decide

end Wm.Control
