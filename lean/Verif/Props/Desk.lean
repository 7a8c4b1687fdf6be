import Verif.Model.Desk
import Verif.Props.ControlMore
/-! Answers to control requests (C151); later configurations when an earlier start hangs (C152). -/
namespace Wm.Control
open Wm

variable {α : Type}

/-! ### a service that hangs in its start -/

/-- service `k` is starting, and has been told to close -/
def Hung (s : St α) (k : Nat) : Prop := ∃ v, s.svcs[k]? = some v ∧ v.phase = .starting ∧ v.inbox = true

/-- the start of service `k` neither succeeds nor fails by this event -/
def Hangs (k : Nat) (e : Ev α) : Prop := e ≠ .ready k ∧ e ≠ .fail k ∧ e ≠ .panic k

theorem Hung.upd {s : St α} {k : Nat} (h : Hung s k) (i : Nat) (f : Svc α → Svc α)
    (hf : i = k → ∀ v, v.phase = .starting → v.inbox = true → (f v).phase = .starting ∧ (f v).inbox = true) : Hung (Control.upd s i f) k := by
  obtain ⟨v, hv, h1, h2⟩ := h
  refine ⟨_, mod_ex f hv, ?_⟩
  split
  · rename_i hik; exact hf hik v h1 h2
  · exact ⟨h1, h2⟩

theorem Hung.phase {s : St α} {k : Nat} (h : Hung s k) : phaseOf s k = some .starting := by
  obtain ⟨v, hv, h1, -⟩ := h
  simp [phaseOf, hv, h1]

theorem Hung.room {s : St α} {k : Nat} (h : Hung s k) : room s (some k) = false := by
  obtain ⟨v, hv, h1, h2⟩ := h
  simp [Control.room, phaseOf, hv, h1, h2]

theorem Hung.tell {s : St α} {k : Nat} (h : Hung s k) (p : Option Nat) : Hung (Control.tell s p) k := by
  cases p with
  | none => exact h
  | some p =>
    simp only [Control.tell]
    split
    · exact h
    · exact h.upd _ _ (fun _ v h1 _ => ⟨h1, rfl⟩)

theorem Hung.start {s : St α} {k : Nat} (h : Hung s k) (cfg : α) : Hung (Control.start s cfg) k := by
  obtain ⟨v, hv, h1, h2⟩ := h
  exact ⟨v, snoc_old hv, h1, h2⟩

theorem Hung.step {s : St α} {k : Nat} (h : Hung s k) (e : Ev α) (he : Hangs k e) : Hung (Control.step s e) k := by
  have hph := h.phase
  unfold Control.step
  split
  · exact h
  · cases e with
    | reload p =>
      dsimp only
      split
      · cases p with
        | none => exact h
        | some c => exact h.start c
      · exact h
    | stop =>
      dsimp only
      split
      · unfold stop
        split
        · exact h
        · split
          · exact h
          · exact h.upd _ _ (fun _ v h1 _ => ⟨h1, rfl⟩)
      · exact h
    | now => dsimp only; split <;> exact h
    | ready i =>
      dsimp only [ready]
      split
      · exact h.upd _ _ (fun hik => absurd (by rw [hik]) he.1)
      · exact h
    | fail i =>
      dsimp only [fail]
      split
      · exact Hung.upd h i _ (fun hik => absurd (by rw [hik]) he.2.1)
      · exact h
    | begin_ i =>
      dsimp only [begin_]
      split
      · exact h
      · rename_i v hv
        split
        · rename_i hb
          refine (h.tell v.prev).upd _ _ (fun hik => ?_)
          subst hik
          simp [phaseOf, hv, hb.1] at hph
        · exact h
    | close i =>
      dsimp only [close]
      split
      · exact h
      · rename_i v hv
        split
        · rename_i hb
          refine Hung.upd h i _ (fun hik => ?_)
          subst hik
          simp [phaseOf, hv, hb.1] at hph
        · exact h
    | crash i =>
      dsimp only [crash]
      split
      · rename_i hb
        refine Hung.upd h i _ (fun hik => ?_)
        subst hik
        rw [hb] at hph; simp at hph
      · exact h
    | panic i =>
      dsimp only [panic]
      split
      · exact Hung.upd h i _ (fun hik => absurd (by rw [hik]) he.2.2)
      · exact h
    | abort i => dsimp only [abort]; split <;> exact h
    | collect => dsimp only [collect]; split <;> exact h

theorem current_step (s : St α) (e : Ev α) (he : isSvc e = true) : (step s e).current = s.current := by
  unfold step
  split
  · rfl
  · cases e with
    | reload p => cases he
    | stop => cases he
    | now => cases he
    | collect => cases he
    | ready i => dsimp only [ready]; split <;> rfl
    | fail i => dsimp only [fail]; split <;> rfl
    | begin_ i =>
      dsimp only [begin_]
      split
      · rfl
      · split
        · rename_i v _ _
          show (tell s v.prev).current = _
          unfold tell
          split
          · rfl
          · split <;> rfl
        · rfl
    | close i =>
      dsimp only [close]
      split
      · rfl
      · split <;> rfl
    | crash i => dsimp only [crash]; split <;> rfl
    | panic i => dsimp only [panic]; split <;> rfl
    | abort i => dsimp only [abort]; split <;> rfl

/-! ## C151 -/

/-- the requests are of other kinds than `/stop` -/
def NoStop (l : List (Nat × Wish α)) : Prop := ∀ x ∈ l, x.2 ≠ .stop

theorem exited_reload (s : St α) (p : Option α) : (step s (.reload p)).exited = s.exited := by
  unfold step
  split
  · rfl
  · dsimp only
    split
    · cases p <;> rfl
    · rfl

theorem exited_now (s : St α) : (step s .now).exited = s.exited := by
  unfold step
  split
  · rfl
  · dsimp only; split <;> rfl

theorem exited_stop (s : St α) : (step s .stop).exited = s.exited := by
  unfold step
  split
  · rfl
  · dsimp only
    split
    · unfold stop
      split
      · rfl
      · split <;> rfl
    · rfl

/-- **C151** (requests other than `/stop`), partial: if no `/stop` is waiting, the requests are answered in the order of their
    arrival, one at each turn, whatever the services do. Missing: while a `/stop` waits, see `C151_stop_twice_fails`. -/
theorem C151_in_turn_partial (s : Desk α) (hx : s.ctl.exited = false) (hs : s.stuck = none) (hn : NoStop s.line) :
    (deskRun s (List.replicate s.line.length .serve)).answers = s.answers ++ s.line.map (·.1) ∧
    (deskRun s (List.replicate s.line.length .serve)).line = [] ∧
    (deskRun s (List.replicate s.line.length .serve)).ctl.exited = false := by
  obtain ⟨c, line, st, ans⟩ := s
  dsimp only at *
  subst hs
  induction line generalizing c ans with
  | nil => exact ⟨by simp [deskRun], rfl, hx⟩
  | cons a rest ih =>
    obtain ⟨id, w⟩ := a
    have hw : w ≠ .stop := hn (id, w) List.mem_cons_self
    have hrest : NoStop rest := fun x hx => hn x (List.mem_cons_of_mem _ hx)
    have key : ∃ c', deskStep ⟨c, (id, w) :: rest, none, ans⟩ .serve = ⟨c', rest, none, ans ++ [id]⟩ ∧ c'.exited = false := by
      simp only [deskStep]
      rw [if_neg (by simp [hx])]
      cases w with
      | reload p => exact ⟨_, rfl, by rw [exited_reload]; exact hx⟩
      | stop => exact absurd rfl hw
      | now => exact ⟨_, rfl, by rw [exited_now]; exact hx⟩
      | other => exact ⟨_, rfl, hx⟩
    obtain ⟨c', h1, h2⟩ := key
    obtain ⟨h3, h4, h5⟩ := ih c' (ans ++ [id]) h2 hrest
    have : deskRun ⟨c, (id, w) :: rest, none, ans⟩ (List.replicate ((id, w) :: rest).length .serve) =
        deskRun ⟨c', rest, none, ans ++ [id]⟩ (List.replicate rest.length .serve) := by
      rw [List.length_cons, List.replicate_succ]
      show deskRun (deskStep _ _) _ = _
      rw [h1]
    rw [this, h3, h4, h5]
    simp

/-- the channel of the current service is empty or closed: no message was sent to it, or it has ended -/
def Reachable (s : St α) : Prop := ∀ k v, s.current = some k → s.svcs[k]? = some v → v.inbox = false ∨ v.phase = .ended

theorem Reachable.room {s : St α} (h : Reachable s) : room s s.current = true := by
  cases hc : s.current with
  | none => rfl
  | some k =>
    simp only [Control.room, phaseOf]
    cases hv : s.svcs[k]? with
    | none => simp
    | some v => rcases h k v hc hv with h | h <;> simp [h]

/-- **C151** (`/stop`), partial: a `/stop` is answered at its turn if no message waits at the current service, and if one waits, as
    soon as the current service has ended. -/
theorem C151_stop_partial (s : Desk α) (hx : s.ctl.exited = false) (hr : Reachable s.ctl) :
    (∀ id rest, s.stuck = none → s.line = (id, .stop) :: rest → (deskStep s .serve).answers = s.answers ++ [id]) ∧
    (∀ id, s.stuck = some id → (deskStep s .unblock).answers = s.answers ++ [id] ∧ (deskStep s .unblock).stuck = none) := by
  refine ⟨?_, ?_⟩
  · intro id rest h1 h2
    simp only [deskStep]
    rw [if_neg (by simp [hx]), h1, h2]
    simp only
    rw [if_pos hr.room]
  · intro id h1
    simp only [deskStep]
    rw [if_neg (by simp [hx]), h1]
    simp only
    rw [if_pos hr.room]
    exact ⟨rfl, rfl⟩

/-- nobody is answered any more -/
structure Blocked (s : Desk α) (k id : Nat) (a : List Nat) : Prop where
  stuck : s.stuck = some id
  current : s.ctl.current = some k
  hung : Hung s.ctl k
  answers : s.answers = a

theorem Blocked.step {s : Desk α} {k id : Nat} {a : List Nat} (h : Blocked s k id a) (t : Turn α) (ht : ∀ e, t = .svc e → Hangs k e) :
    Blocked (deskStep s t) k id a := by
  unfold deskStep
  split
  · exact h
  · cases t with
    | ask i w => dsimp only; split <;> exact ⟨h.stuck, h.current, h.hung, h.answers⟩
    | serve => dsimp only; rw [h.stuck]; exact h
    | unblock =>
      dsimp only
      rw [h.stuck]
      dsimp only
      rw [if_neg (by rw [h.current, h.hung.room]; simp)]
      exact h
    | svc e =>
      dsimp only
      split
      · rename_i hs
        exact ⟨h.stuck, by rw [← h.current]; exact current_step _ _ hs, h.hung.step e (ht e rfl), h.answers⟩
      · exact h
    | collect =>
      dsimp only
      rw [if_neg (by rw [h.stuck]; simp)]
      exact h

theorem Blocked.run (ts : List (Turn α)) : ∀ {s : Desk α} {k id : Nat} {a : List Nat}, Blocked s k id a →
    (∀ e, .svc e ∈ ts → Hangs k e) → Blocked (deskRun s ts) k id a := by
  induction ts with
  | nil => intro s k id a h _; exact h
  | cons t ts ih =>
    intro s k id a h ht
    exact ih (h.step t (fun e he => ht e (he ▸ List.mem_cons_self))) (fun e he => ht e (List.mem_cons_of_mem _ he))

/-- **C151** (`/stop` during a start), partial: a `/stop` that waits for the current service is answered when the start fails, when its
    task panics, and when it succeeds, after the service has taken the first message. -/
theorem C151_unblocked_partial (s : Desk α) (id k : Nat) (v : Svc α) (hx : s.ctl.exited = false) (hs : s.stuck = some id)
    (hc : s.ctl.current = some k) (hv : s.ctl.svcs[k]? = some v) (hp : v.phase = .starting) (hi : v.inbox = true)
    (hq : v.prev = none) :
    (deskRun s [.svc (.fail k), .unblock]).answers = s.answers ++ [id] ∧
    (deskRun s [.svc (.panic k), .unblock]).answers = s.answers ++ [id] ∧
    (deskRun s [.svc (.ready k), .svc (.begin_ k), .svc (.close k), .unblock]).answers = s.answers ++ [id] := by
  have hk : k < s.ctl.svcs.length := (List.getElem?_eq_some_iff.1 hv).1
  have hg : s.ctl.svcs[k] = v := (List.getElem?_eq_some_iff.1 hv).2
  refine ⟨?_, ?_, ?_⟩ <;>
    simp [deskRun, deskStep, isSvc, step, hx, hs, fail, Control.panic, ready, begin_, close, phaseOf, upd, hc, hv, hp, hi, hq, room,
      tell, hk, hg]

/-- **C151** fails: if the current service is still starting (its connection to the server of the tunnel hangs, say), then after
    two requests to stop no request is answered any more, as long as the start neither succeeds nor fails. -/
theorem C151_stop_twice_fails (s : Desk α) (k i j : Nat) (v : Svc α) (hx : s.ctl.exited = false) (hl : s.ctl.listening = true)
    (hs : s.stuck = none) (hline : s.line = []) (hc : s.ctl.current = some k) (hv : s.ctl.svcs[k]? = some v)
    (hp : v.phase = .starting) (hi : v.inbox = false) (more : List (Turn α)) (hm : ∀ e, .svc e ∈ more → Hangs k e) :
    (deskRun s ([.ask i .stop, .ask j .stop, .serve, .serve] ++ more)).answers = s.answers ++ [i] := by
  obtain ⟨c, line, st, ans⟩ := s
  dsimp only at *
  subst hs hline
  have e0 : deskRun (⟨c, [], none, ans⟩ : Desk α) [.ask i .stop, .ask j .stop] = ⟨c, [(i, .stop), (j, .stop)], none, ans⟩ := by
    simp [deskRun, deskStep, hx, hl]
  have hroom : room c c.current = true := by
    rw [hc]; simp [room, hv, hi]
  have hstop : step c .stop = upd c k (fun v => { v with inbox := true }) := by
    unfold step
    rw [if_neg (by simp [hx])]
    dsimp only
    rw [if_pos hl]
    unfold stop
    rw [hc]
    dsimp only
    rw [if_neg (by simp [phaseOf, hv, hp])]
  have e1 : deskStep (⟨c, [(i, .stop), (j, .stop)], none, ans⟩ : Desk α) .serve =
      ⟨upd c k (fun v => { v with inbox := true }), [(j, .stop)], none, ans ++ [i]⟩ := by
    simp only [deskStep]
    rw [if_neg (by simp [hx]), if_pos hroom, hstop]
  have hung : Hung (upd c k (fun v => { v with inbox := true })) k := ⟨_, mod_ex _ hv, by simp [hp], by simp⟩
  have e2 : deskStep (⟨upd c k (fun v => { v with inbox := true }), [(j, .stop)], none, ans ++ [i]⟩ : Desk α) .serve =
      ⟨upd c k (fun v => { v with inbox := true }), [], some j, ans ++ [i]⟩ := by
    simp only [deskStep]
    rw [if_neg (by simp [upd, hx]), if_neg]
    rw [show (upd c k (fun v => { v with inbox := true })).current = some k from hc, hung.room]
    simp
  have hrun : deskRun (⟨c, [], none, ans⟩ : Desk α) ([.ask i .stop, .ask j .stop, .serve, .serve] ++ more) =
      deskRun ⟨upd c k (fun v => { v with inbox := true }), [], some j, ans ++ [i]⟩ more := by
    rw [← e2, ← e1, ← e0]
    simp [deskRun, List.foldl_append]
  rw [hrun]
  exact (Blocked.run more (⟨rfl, hc, hung, rfl⟩ : Blocked _ k j (ans ++ [i])) hm).answers

/-! ## C152 -/

/-- **C152**, partial: a service whose listeners are open begins to serve at once, unless the service before it has been told to close
    and has not ended. Missing: that case, see `C152_hanging_fails`. -/
theorem C152_begins_partial (s : St α) (k : Nat) (v : Svc α) (hx : s.exited = false) (hv : s.svcs[k]? = some v)
    (hb : v.phase = .bound) (hp : ∀ p w, v.prev = some p → s.svcs[p]? = some w → w.inbox = false ∨ w.phase = .ended) :
    phaseOf (step s (.begin_ k)) k = some .running := by
  have hroom : room s v.prev = true := by
    cases h : v.prev with
    | none => rfl
    | some p =>
      simp only [room, phaseOf]
      cases hw : s.svcs[p]? with
      | none => simp
      | some w => rcases hp p w h hw with h | h <;> simp [h]
  unfold step
  rw [if_neg (by simp [hx])]
  dsimp only [begin_]
  rw [hv]
  dsimp only
  rw [if_pos ⟨hb, hroom⟩]
  have : ∃ w, (tell s v.prev).svcs[k]? = some w := by
    unfold tell
    split
    · exact ⟨v, hv⟩
    · split
      · exact ⟨v, hv⟩
      · exact ⟨_, mod_ex _ hv⟩
  obtain ⟨w, hw⟩ := this
  show ((List.modify _ _ _)[k]?).map _ = _
  rw [mod_ex _ hw, if_pos rfl]; rfl

/-- service `n` comes after the hanging service `k`, and does not serve -/
def Behind (s : St α) (k n : Nat) : Prop :=
  ∃ v, s.svcs[n]? = some v ∧ (v.phase = .ended ∨ (v.phase = .starting ∨ v.phase = .bound) ∧ v.prev = some k)

theorem Behind.upd {s : St α} {k n : Nat} (h : Behind s k n) (i : Nat) (f : Svc α → Svc α)
    (hf : i = n → ∀ v, (v.phase = .ended ∨ (v.phase = .starting ∨ v.phase = .bound) ∧ v.prev = some k) → s.svcs[n]? = some v →
      ((f v).phase = .ended ∨ ((f v).phase = .starting ∨ (f v).phase = .bound) ∧ (f v).prev = some k)) : Behind (Control.upd s i f) k n := by
  obtain ⟨v, hv, h1⟩ := h
  refine ⟨_, mod_ex f hv, ?_⟩
  split
  · rename_i hin; exact hf hin v h1 hv
  · exact h1

theorem Behind.tell {s : St α} {k n : Nat} (h : Behind s k n) (p : Option Nat) : Behind (Control.tell s p) k n := by
  cases p with
  | none => exact h
  | some p =>
    simp only [Control.tell]
    split
    · exact h
    · exact h.upd _ _ (fun _ v h1 _ => h1)

theorem Behind.step {s : St α} {k n : Nat} (h : Behind s k n) (hh : Hung s k) (e : Ev α) : Behind (Control.step s e) k n := by
  unfold Control.step
  split
  · exact h
  · cases e with
    | reload p =>
      dsimp only
      split
      · cases p with
        | none => exact h
        | some c =>
          obtain ⟨v, hv, h1⟩ := h
          exact ⟨v, snoc_old hv, h1⟩
      · exact h
    | stop =>
      dsimp only
      split
      · unfold stop
        split
        · exact h
        · split
          · exact h
          · exact h.upd _ _ (fun _ v h1 _ => h1)
      · exact h
    | now => dsimp only; split <;> exact h
    | ready i =>
      dsimp only [ready]
      split
      · rename_i hi
        refine h.upd _ _ (fun hin v h1 hv => ?_)
        subst hin
        rcases h1 with h1 | h1
        · simp [phaseOf, hv, h1] at hi
        · exact .inr ⟨.inr rfl, h1.2⟩
      · exact h
    | fail i =>
      dsimp only [fail]
      split
      · exact Behind.upd h i _ (fun _ _ _ _ => .inl rfl)
      · exact h
    | begin_ i =>
      dsimp only [begin_]
      split
      · exact h
      · rename_i w hw
        split
        · rename_i hb
          refine (h.tell w.prev).upd _ _ (fun hin v h1 hv => ?_)
          exfalso
          subst hin
          obtain ⟨u, hu, h2⟩ := h
          rw [hw] at hu
          cases hu
          rcases h2 with h2 | h2
          · rw [hb.1] at h2; cases h2
          · have := hb.2
            rw [h2.2, hh.room] at this
            cases this
        · exact h
    | close i =>
      dsimp only [close]
      split
      · exact h
      · split
        · exact Behind.upd h i _ (fun _ _ _ _ => .inl rfl)
        · exact h
    | crash i =>
      dsimp only [crash]
      split
      · exact Behind.upd h i _ (fun _ _ _ _ => .inl rfl)
      · exact h
    | panic i =>
      dsimp only [panic]
      split
      · exact Behind.upd h i _ (fun _ _ _ _ => .inl rfl)
      · exact h
    | abort i => dsimp only [abort]; split <;> exact h
    | collect => dsimp only [collect]; split <;> exact h

theorem behind_run (evs : List (Ev α)) : ∀ {s : St α} {k n : Nat}, Behind s k n → Hung s k → (∀ e ∈ evs, Hangs k e) →
    Behind (run s evs) k n := by
  induction evs with
  | nil => intro s k n h _ _; exact h
  | cons e evs ih =>
    intro s k n h hh he
    exact ih (h.step hh e) (hh.step e (he e List.mem_cons_self)) (fun e' h' => he e' (List.mem_cons_of_mem _ h'))

/-- **C152** fails: let the current service hang in its start, and let it be asked to stop. Then a reload does not help: its service opens
    its listeners, but serves nobody as long as the start before it neither succeeds nor fails. -/
theorem C152_hanging_fails (s : St α) (k : Nat) (v : Svc α) (hx : s.exited = false) (hl : s.listening = true)
    (hc : s.current = some k) (hv : s.svcs[k]? = some v) (hp : v.phase = .starting) (cfg : α) (more : List (Ev α))
    (hm : ∀ e ∈ more, Hangs k e) :
    phaseOf (run s [.stop, .reload (some cfg), .ready s.svcs.length]) s.svcs.length = some .bound ∧
    phaseOf (run s ([.stop, .reload (some cfg), .ready s.svcs.length] ++ more)) s.svcs.length ≠ some .running := by
  have hlt := lt_of_some hv
  have e1 : step s .stop = upd s k (fun v => { v with inbox := true }) := by
    unfold step
    rw [if_neg (by simp [hx])]
    dsimp only
    rw [if_pos hl]
    unfold stop
    rw [hc]
    dsimp only
    rw [if_neg (by simp [phaseOf, hv, hp])]
  have hung : Hung (upd s k (fun v => { v with inbox := true })) k := ⟨_, mod_ex _ hv, by simp [hp], by simp⟩
  have x1 : (upd s k (fun v => { v with inbox := true })).exited = false := hx
  have l1 : (upd s k (fun v => { v with inbox := true })).listening = true := hl
  have c1 : (upd s k (fun v => { v with inbox := true })).current = some k := hc
  have n1 : (upd s k (fun v => { v with inbox := true })).svcs.length = s.svcs.length := by simp [upd]
  generalize upd s k (fun v => { v with inbox := true }) = r at e1 hung x1 l1 c1 n1
  have e2 : step r (.reload (some cfg)) = reload r (some cfg) := by
    unfold step; rw [if_neg (by simp [x1])]; simp [l1]
  have hung2 := hung.step (.reload (some cfg)) ⟨by simp, by simp, by simp⟩
  have b2 : (reload r (some cfg)).svcs[s.svcs.length]? = some ⟨cfg, .starting, some k, false⟩ := by
    simp [reload, start, c1, ← n1]
  have x2 : (reload r (some cfg)).exited = false := by simp [reload, start, x1]
  rw [e2] at hung2
  have hb : Behind (reload r (some cfg)) k s.svcs.length := ⟨_, b2, .inr ⟨.inl rfl, rfl⟩⟩
  have h3 : ∀ more, run s ([.stop, .reload (some cfg), .ready s.svcs.length] ++ more) =
      run (reload r (some cfg)) (.ready s.svcs.length :: more) := by
    intro more
    show run (step (step s _) _) _ = _
    rw [e1, e2]; rfl
  refine ⟨?_, ?_⟩
  · have := h3 []
    rw [List.append_nil] at this
    rw [this]
    simp only [run, List.foldl_cons, List.foldl_nil]
    unfold step
    rw [if_neg (by simp [x2])]
    dsimp only [ready]
    rw [if_pos (by simp [phaseOf, b2])]
    show ((List.modify _ _ _)[_]?).map _ = _
    rw [mod_ex _ b2, if_pos rfl]; rfl
  · rw [h3]
    obtain ⟨w, hw, h4⟩ := behind_run (.ready s.svcs.length :: more) hb hung2 (by
      intro e he
      rcases List.mem_cons.1 he with rfl | he
      · exact ⟨fun h => by injection h with h; omega, by simp, by simp⟩
      · exact hm e he)
    rw [phaseOf, hw]
    rcases h4 with h4 | ⟨h4 | h4, -⟩ <;> simp [h4]

/-! ### examples -/

/-- two requests to stop during a start, then one for the configuration: the first is answered -/
example : (deskRun (desk (0 : Nat) true) [.ask 1 .stop, .ask 2 .stop, .serve, .serve, .ask 3 .now, .serve, .unblock, .collect]).answers = [1] := by
  decide

/-- when the start has gone well after all, they are answered -/
example : (deskRun (desk (0 : Nat) true) [.ask 1 .stop, .ask 2 .stop, .serve, .serve, .ask 3 .now, .svc (.ready 0), .svc (.begin_ 0),
    .svc (.close 0), .unblock, .serve]).answers = [1, 2, 3] := by
  decide

/-- a reload after a request to stop that came during a start -/
example : (run (init (0 : Nat) true) [.stop, .reload (some 1), .ready 1, .begin_ 1]).svcs.map (·.phase) = [.starting, .bound] := by decide

end Wm.Control
