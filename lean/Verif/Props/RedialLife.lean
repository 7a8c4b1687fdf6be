import Verif.Props.Redial
import Verif.Props.Life
/-! Messages over several connections (C95), for every history of the task that connects again and again. -/
namespace Wm.Redial
open Wm Wm.Prot

/-- the connection is over without a crash -/
def Past (s : Tunnel.St) : Prop := s.phase = .ended ∨ ∃ e, s.phase = .failed e

/-- the connections `l`, the last of which is where the task is now -/
def Now (l : List (Tunnel.St × List Frame)) : Place → Prop
  | .serving s | .gone s => ∃ before, l = before ++ [(s, [])]
  | .sleeping _ q | .dialing q => ∃ before s b, l = before ++ [(s, b)] ∧ Past s ∧ q = s.outq ++ b

theorem life_end (cfg : Tunnel.Cfg) (q : List Frame) (c : List Tunnel.Event × List Frame) :
    Tunnel.life cfg q [c] =
      [(Tunnel.clientRun cfg q c.1, c.2.take (Tunnel.outCap - (Tunnel.clientRun cfg q c.1).outq.length))] := by
  obtain ⟨es, b⟩ := c
  unfold Tunnel.life
  dsimp only
  split <;> simp [Tunnel.life]

/-- what a further connection after `cs` begins with and what was before it -/
def Goes (cfg : Tunnel.Cfg) (cs : List (List Tunnel.Event × List Frame)) (q0 q : List Frame) (pre : List (Tunnel.St × List Frame)) :
    Prop :=
  ∀ c, Tunnel.life cfg q0 (cs ++ [c]) =
    pre ++ [(Tunnel.clientRun cfg q c.1, c.2.take (Tunnel.outCap - (Tunnel.clientRun cfg q c.1).outq.length))]

theorem Goes.next {cfg cs q0 q pre} (h : Goes cfg cs q0 q pre) (c : List Tunnel.Event × List Frame)
    (hp : Past (Tunnel.clientRun cfg q c.1)) :
    Goes cfg (cs ++ [c]) q0 ((Tunnel.clientRun cfg q c.1).outq ++ c.2.take (Tunnel.outCap - (Tunnel.clientRun cfg q c.1).outq.length))
      (pre ++ [(Tunnel.clientRun cfg q c.1, c.2.take (Tunnel.outCap - (Tunnel.clientRun cfg q c.1).outq.length))]) := by
  intro d
  induction cs generalizing q0 pre with
  | nil =>
    have h0 := h c
    rw [List.nil_append, life_end] at h0
    cases pre with
    | cons x xs =>
      have := congrArg List.length h0
      simp at this
    | nil =>
      simp only [List.nil_append, List.cons.injEq, and_true, Prod.mk.injEq] at h0
      obtain ⟨ces, cb⟩ := c
      simp only [List.nil_append, List.cons_append]
      unfold Tunnel.life
      dsimp only at h0 hp ⊢
      rw [h0.1]
      rcases hp with hp | ⟨e, hp⟩ <;> simp only [hp, life_end]
  | cons x cs ih =>
    obtain ⟨xes, xb⟩ := x
    have h1 := h c
    simp only [List.cons_append] at h1 ⊢
    unfold Tunnel.life at h1 ⊢
    dsimp only at h1 ⊢
    cases pre with
    | nil =>
      simp only [List.nil_append, List.cons.injEq] at h1
      have h2 := h1.2
      have h3 : ∀ q, Tunnel.life cfg q (cs ++ [c]) ≠ [] := by
        intro q hn
        cases cs with
        | nil => rw [List.nil_append, life_end] at hn; cases hn
        | cons y ys => obtain ⟨yes, yb⟩ := y; rw [List.cons_append] at hn; unfold Tunnel.life at hn; cases hn
      have hx : Tunnel.clientRun cfg q0 xes = Tunnel.clientRun cfg q c.1 := by
        have := h1.1
        simp only [Prod.mk.injEq] at this
        exact this.1
      rw [hx] at h2
      rcases hp with hp | ⟨e, hp⟩ <;> · simp only [hp] at h2; exact absurd h2 (h3 _)
    | cons y ys =>
      have hg : ∀ c', Tunnel.life cfg q0 ((xes, xb) :: (cs ++ [c'])) = y :: (ys ++ _) := fun c' => by
        have := h c'
        simpa using this
      cases hph : (Tunnel.clientRun cfg q0 xes).phase with
      | ended =>
        rw [hph] at h1
        dsimp only at h1 ⊢
        simp only [List.cons_append, List.cons.injEq] at h1 ⊢
        refine ⟨h1.1, ih fun c' => ?_⟩
        have := hg c'
        unfold Tunnel.life at this
        simp only [hph, List.cons.injEq] at this
        exact this.2
      | failed e =>
        rw [hph] at h1
        dsimp only at h1 ⊢
        simp only [List.cons_append, List.cons.injEq] at h1 ⊢
        refine ⟨h1.1, ih fun c' => ?_⟩
        have := hg c'
        unfold Tunnel.life at this
        simp only [hph, List.cons.injEq] at this
        exact this.2
      | running => rw [hph] at h1; simp at h1
      | stuck => rw [hph] at h1; simp at h1
      | panicked => rw [hph] at h1; simp at h1

theorem conserved {cfg : Tunnel.Cfg} {q : List Frame} {pre : List (Tunnel.St × List Frame)} {evs : List Tunnel.Event}
    (h : Tunnel.lifeSent pre ++ q = Tunnel.lifeSubmitted pre) (b : List Frame) :
    Tunnel.lifeSent (pre ++ [(Tunnel.clientRun cfg q evs, b)]) ++ ((Tunnel.clientRun cfg q evs).outq ++ b) =
      Tunnel.lifeSubmitted (pre ++ [(Tunnel.clientRun cfg q evs, b)]) := by
  have hB := (Tunnel.client_inv cfg q evs).2.2.relay
  unfold Tunnel.lifeSent Tunnel.lifeSubmitted at *
  simp only [List.flatMap_append, List.flatMap_cons, List.flatMap_nil, List.append_nil]
  rw [← h]
  simp only [List.append_assoc]
  rw [← List.append_assoc _ _ b, ← List.append_assoc q, hB]

/-- the connections so far, and where the task is -/
structure Fits' (cfg : Tunnel.Cfg) (s : St) (cs : List (List Tunnel.Event × List Frame)) (evs : List Tunnel.Event) (b q : List Frame)
    (pre : List (Tunnel.St × List Frame)) : Prop where
  goes : Goes cfg cs [] q pre
  all : Tunnel.lifeSent pre ++ q = Tunnel.lifeSubmitted pre
  many : s.trace.count .connected = pre.length + 1
  here : match s.at_ with
    | .serving t | .gone t => t = Tunnel.clientRun cfg q evs ∧ b = []
    | .sleeping _ m | .dialing m => Past (Tunnel.clientRun cfg q evs) ∧ m = (Tunnel.clientRun cfg q evs).outq ++ b ∧
        b.length ≤ Tunnel.outCap - (Tunnel.clientRun cfg q evs).outq.length

theorem settle_fits {cfg : Tunnel.Cfg} {p : Place} {tr cs evs q pre} (h : Goes cfg cs [] q pre) (hm : tr.count .connected = pre.length + 1)
    (hc : Tunnel.lifeSent pre ++ q = Tunnel.lifeSubmitted pre) :
    Fits' cfg (settle ⟨p, tr⟩ (Tunnel.clientRun cfg q evs)) cs evs [] q pre := by
  cases hph : (Tunnel.clientRun cfg q evs).phase with
  | running => exact ⟨h, hc, by simp only [settle, hph]; exact hm, by simp [settle, hph]⟩
  | stuck => exact ⟨h, hc, by simp only [settle, hph]; exact hm, by simp [settle, hph]⟩
  | panicked => exact ⟨h, hc, by simp only [settle, hph]; exact hm, by simp [settle, hph]⟩
  | ended => exact ⟨h, hc, by simp only [settle, hph]; simp [hm], by simp [settle, hph, Past]⟩
  | failed e => exact ⟨h, hc, by simp only [settle, hph]; simp [hm], by simp [settle, hph, Past]⟩

theorem fits_step {cfg : Tunnel.Cfg} {s : St} {cs evs b q pre} (h : Fits' cfg s cs evs b q pre) (e : Event) :
    ∃ cs evs b q pre, Fits' cfg (step cfg s e) cs evs b q pre := by
  obtain ⟨at_, tr⟩ := s
  have same : ∃ cs evs b q pre, Fits' cfg ⟨at_, tr⟩ cs evs b q pre := ⟨_, _, _, _, _, h⟩
  obtain ⟨hg, hc, hm, hh⟩ := h
  dsimp only at hm hh
  cases at_ with
  | serving t =>
    obtain ⟨rfl, rfl⟩ := hh
    cases e with
    | tun e =>
      refine ⟨cs, evs ++ [e], [], q, pre, ?_⟩
      have : Tunnel.clientStep cfg (Tunnel.clientRun cfg q evs) e = Tunnel.clientRun cfg q (evs ++ [e]) := by
        unfold Tunnel.clientRun; rw [List.foldl_append]; rfl
      simp only [step]
      rw [this]
      exact settle_fits hg hm hc
    | tick => exact ⟨cs, evs, [], q, pre, hg, hc, by simp [step, hm], by simp [step]⟩
    | answered ok => exact same
    | submit f => exact same
  | gone t =>
    cases e with
    | tick => exact ⟨cs, evs, b, q, pre, hg, hc, by simp [step, hm], by simpa [step] using hh⟩
    | tun e => exact same
    | answered ok => exact same
    | submit f => exact same
  | sleeping n m =>
    obtain ⟨hp, rfl, hb⟩ := hh
    cases e with
    | tun e => exact same
    | answered ok => exact same
    | tick =>
      simp only [step]
      split
      · exact ⟨cs, evs, b, q, pre, hg, hc, by simp [hm], hp, rfl, hb⟩
      · exact ⟨cs, evs, b, q, pre, hg, hc, by simp [hm], hp, rfl, hb⟩
    | submit f =>
      simp only [step]
      split
      · rename_i hl
        exact ⟨cs, evs, b ++ [f], q, pre, hg, hc, hm, hp, by simp, by simp at hl ⊢; omega⟩
      · exact same
  | dialing m =>
    obtain ⟨hp, rfl, hb⟩ := hh
    cases e with
    | tun e => exact same
    | tick => exact ⟨cs, evs, b, q, pre, hg, hc, by simp [step, hm], hp, rfl, hb⟩
    | submit f =>
      simp only [step]
      split
      · rename_i hl
        exact ⟨cs, evs, b ++ [f], q, pre, hg, hc, hm, hp, by simp, by simp at hl ⊢; omega⟩
      · exact same
    | answered ok =>
      cases ok with
      | false => exact ⟨cs, evs, b, q, pre, hg, hc, by simp [step, hm], hp, rfl, hb⟩
      | true =>
        have hg' := hg.next (evs, b) hp
        dsimp only at hg'
        rw [List.take_of_length_le hb] at hg'
        refine ⟨cs ++ [(evs, b)], [], [], (Tunnel.clientRun cfg q evs).outq ++ b, pre ++ [(Tunnel.clientRun cfg q evs, b)], ?_⟩
        simp only [step, if_true]
        exact settle_fits (evs := []) hg' (by simp [hm]) (conserved hc b)

theorem fits_run (cfg : Tunnel.Cfg) (es : List Event) : ∃ cs evs b q pre, Fits' cfg (run cfg es) cs evs b q pre := by
  induction es using List.reverseRecOn with
  | nil =>
    refine ⟨[], [], [], [], [], ?_⟩
    exact settle_fits (evs := []) (fun c => by rw [List.nil_append, life_end]; rfl) rfl rfl
  | append_singleton es e ih =>
    obtain ⟨cs, evs, b, q, pre, h⟩ := ih
    rw [run, List.foldl_append, List.foldl_cons, List.foldl_nil, ← run]
    exact fits_step h e

/-- the messages that wait to be accepted for sending -/
def waiting : Place → List Frame
  | .serving s | .gone s => s.outq
  | .sleeping _ q | .dialing q => q

/-- **C95** (every history), partial: however long a client lives and however often it connects, its connections are such as C95 speaks
    of, as many as were made, the last of them the present one, or the one just lost. What all of them accepted for sending, followed
    by what still waits, is what was submitted during and between them, in this order: whatever happens, no message is lost between
    two connections, and none is sent twice. A message submitted while there is no connection waits with the others if those are fewer
    than 100. Missing: as for `Tunnel.C95_in_order_at_most_once_partial`. -/
theorem C95_history_partial (cfg : Tunnel.Cfg) (es : List Event) :
    ∃ cs, let l := Tunnel.life cfg [] cs
      l.length = (run cfg es).trace.count .connected ∧ Now l (run cfg es).at_ ∧
      Tunnel.lifeSent l ++ waiting (run cfg es).at_ = Tunnel.lifeSubmitted l ∧
      ((∀ s, (run cfg es).at_ ≠ .serving s ∧ (run cfg es).at_ ≠ .gone s) → ∀ f,
        waiting (run cfg (es ++ [.submit f])).at_ =
          if (waiting (run cfg es).at_).length < 100 then waiting (run cfg es).at_ ++ [f] else waiting (run cfg es).at_) := by
  obtain ⟨cs, evs, b, q, pre, hg, hc, hm, hh⟩ := fits_run cfg es
  refine ⟨cs ++ [(evs, b)], ?_⟩
  intro l
  have hl : l = _ := hg (evs, b)
  have hk := conserved (cfg := cfg) (evs := evs) hc b
  dsimp only at hl
  have hsub : ∀ f, run cfg (es ++ [.submit f]) = step cfg (run cfg es) (.submit f) := fun f => by
    rw [run, List.foldl_append, List.foldl_cons, List.foldl_nil, ← run]
  simp only [hsub]
  generalize run cfg es = s at *
  obtain ⟨at_, tr⟩ := s
  cases at_ with
  | serving t =>
    obtain ⟨rfl, rfl⟩ := hh
    rw [List.take_nil] at hl
    rw [hl]
    exact ⟨by simp [hm], ⟨pre, rfl⟩, by simpa [waiting] using hk, fun h => absurd rfl (by first | exact (h _).1 | exact (h _).2)⟩
  | gone t =>
    obtain ⟨rfl, rfl⟩ := hh
    rw [List.take_nil] at hl
    rw [hl]
    exact ⟨by simp [hm], ⟨pre, rfl⟩, by simpa [waiting] using hk, fun h => absurd rfl (by first | exact (h _).1 | exact (h _).2)⟩
  | sleeping n m =>
    obtain ⟨hp, rfl, hb⟩ := hh
    rw [List.take_of_length_le hb] at hl
    rw [hl]
    exact ⟨by simp [hm], ⟨pre, _, b, rfl, hp, rfl⟩, hk, fun _ f => by
      simp only [step, waiting, Tunnel.outCap]
      by_cases h : ((Tunnel.clientRun cfg q evs).outq ++ b).length < 100 <;> simp only [h, if_true, if_false]⟩
  | dialing m =>
    obtain ⟨hp, rfl, hb⟩ := hh
    rw [List.take_of_length_le hb] at hl
    rw [hl]
    exact ⟨by simp [hm], ⟨pre, _, b, rfl, hp, rfl⟩, hk, fun _ f => by
      simp only [step, waiting, Tunnel.outCap]
      by_cases h : ((Tunnel.clientRun cfg q evs).outq ++ b).length < 100 <;> simp only [h, if_true, if_false]⟩

/-- a message that waited when the connection was lost, and one submitted while there was none, wait for the next connection -/
example : (match (run one [.tun (.submit (.data 3 [1])), .tun .readEnd, .submit (.close 3 [])]).at_ with
    | .sleeping _ q => q == [.data 3 [1], .close 3 []]
    | _ => false) = true := by decide +kernel

end Wm.Redial
