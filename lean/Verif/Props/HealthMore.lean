import Verif.Model.Active
import Verif.Props.Health
/-! C102: how often the active check asks a server. -/
namespace Wm.Health
open Wm

variable {A : Type} [DecidableEq A]

/-- One question "may this address be checked now", with its answer. -/
structure Question where
  time : Nat
  interval : Nat
  yes : Bool
deriving DecidableEq, Repr

/-- The last question answered with yes. -/
def lastYes (qs : List Question) : Option Question := (qs.filter (·.yes)).getLast?

/-- Every question is answered with yes exactly when there was no yes before, or the last one is more than the asked
    interval ago. -/
def Paced (qs : List Question) : Prop :=
  ∀ p q s, qs = p ++ q :: s → (q.yes = true ↔ ∀ y, lastYes p = some y → q.time - y.time > q.interval)

/-- the questions about one address in a history, with the answers the program gives -/
def questions (x : A) : Check A → List (Op A) → List Question
  | _, [] => []
  | h, .request a t i :: r =>
    if a = x then ⟨t, i, (h.canRequest a i t).2⟩ :: questions x (h.canRequest a i t).1 r
    else questions x (h.canRequest a i t).1 r
  | h, .outcome a t ok :: r => questions x (h.step (.outcome a t ok)) r

theorem lastYes_append (p : List Question) (q : Question) :
    lastYes (p ++ [q]) = if q.yes then some q else lastYes p := by
  unfold lastYes
  rw [List.filter_append]
  by_cases h : q.yes <;> simp [h]

theorem Paced.snoc {p : List Question} {q : Question} (h : Paced p)
    (hq : q.yes = true ↔ ∀ y, lastYes p = some y → q.time - y.time > q.interval) : Paced (p ++ [q]) := by
  intro p' q' s' he
  rcases List.eq_nil_or_concat s' with rfl | ⟨s'', z, rfl⟩
  · have := List.append_inj' he (by simp)
    obtain ⟨rfl, h2⟩ := this
    simp only [List.cons.injEq, and_true] at h2
    subst h2
    exact hq
  · apply h p' q' s''
    have : p ++ [q] = (p' ++ q' :: s'') ++ [z] := by rw [he]; simp
    exact (List.append_inj' this (by simp)).1

/-- what the record of the address knows after the questions `qs` -/
def Knows (h : Check A) (x : A) (qs : List Question) : Prop :=
  ((h.map x).bind (·.lastRequest)) = (lastYes qs).map (·.time)

theorem fresh_lastRequest (r : Record) (now : Nat) : (r.fresh now).lastRequest = r.lastRequest := by
  unfold Record.fresh; split <;> rfl

theorem Knows.outcome {h : Check A} {x : A} {qs : List Question} (hk : Knows h x qs) (a : A) (t : Nat) (ok : Bool) :
    Knows (h.step (.outcome a t ok)) x qs := by
  unfold Knows at *
  rw [← hk]
  cases ok <;> simp only [Check.step]
  · unfold Check.fall
    by_cases hx : x = a
    · subst hx
      cases hm : h.map x <;> simp [Check.put, Record.new, fresh_lastRequest]
    · cases hm : h.map a <;> simp [Check.put, hx]
  · unfold Check.rise
    by_cases hx : x = a
    · subst hx
      cases hm : h.map x <;> simp [Check.put, Record.new, fresh_lastRequest]
    · cases hm : h.map a <;> simp [Check.put, hx]

theorem Knows.other {h : Check A} {x : A} {qs : List Question} (hk : Knows h x qs) (a : A) (t i : Nat) (hx : x ≠ a) :
    Knows (h.canRequest a i t).1 x qs := by
  unfold Knows at *
  rw [← hk]
  unfold Check.canRequest
  cases hm : h.map a with
  | none => simp [Check.put, hx]
  | some r => simp only; split <;> (try split) <;> simp [Check.put, hx]

theorem Knows.ask {h : Check A} {x : A} {qs : List Question} (hk : Knows h x qs) (t i : Nat) :
    ((h.canRequest x i t).2 = true ↔ ∀ y, lastYes qs = some y → t - y.time > i) ∧
    Knows (h.canRequest x i t).1 x (qs ++ [⟨t, i, (h.canRequest x i t).2⟩]) := by
  unfold Knows at *
  rw [lastYes_append]
  unfold Check.canRequest
  cases hm : h.map x with
  | none =>
    rw [hm] at hk
    cases hl : lastYes qs with
    | some y => rw [hl] at hk; simp at hk
    | none => simp [Check.put]
  | some r =>
    rw [hm] at hk
    simp only [Option.bind_some] at hk
    simp only
    rw [hk]
    cases hl : lastYes qs with
    | none => simp [Check.put]
    | some y =>
      simp only [Option.map_some]
      by_cases hc : t - y.time > i
      · simp [hc, Check.put]
      · simp [hc, hm, hk, hl]

theorem questions_paced (x : A) (ops : List (Op A)) : ∀ (h : Check A) (qs : List Question), Knows h x qs → Paced qs →
    Paced (qs ++ questions x h ops) := by
  induction ops with
  | nil => intro h qs _ hp; simpa [questions] using hp
  | cons o r ih =>
    intro h qs hk hp
    cases o with
    | outcome a t ok => exact ih _ _ (hk.outcome a t ok) hp
    | request a t i =>
      unfold questions
      by_cases hx : a = x
      · subst hx
        rw [if_pos rfl]
        have := hk.ask t i
        have hp' : Paced (qs ++ [⟨t, i, (h.canRequest a i t).2⟩]) := hp.snoc (by simpa using this.1)
        have := ih _ _ this.2 hp'
        simpa using this
      · rw [if_neg hx]
        exact ih _ _ (hk.other a t i (Ne.symm hx)) hp

/-- **C102** (the question) For every history of outcomes and questions of any addresses: the active check may ask an address
    exactly when it never did, or when the last time it did is more than the interval ago. -/
theorem C102_may_check (T n m : Nat) (ops : List (Op A)) (x : A) : Paced (questions x (Check.new T n m) ops) := by
  have := questions_paced x ops (Check.new T n m) [] rfl (by intro p q s h; simp at h)
  simpa using this

/-- asked at 5 (yes), at 6 (too early), a failure in between, asked at 9 (yes), at 12 with a longer interval (too early) -/
example : questions 1 (Check.new 60 3 2) ([.request 1 5 2, .request 1 6 2, .outcome 1 6 false, .request 2 7 2, .request 1 9 2,
    .request 1 12 4] : List (Op Nat)) = [⟨5, 2, true⟩, ⟨6, 2, false⟩, ⟨9, 2, true⟩, ⟨12, 4, false⟩] := by decide +kernel

/-- the turns of the loop at the given times for one entry: time, interval and whether a check is started -/
def starts (o : One A) : List Nat → List Question
  | [] => []
  | t :: r => ⟨t, o.interval, (o.tick t).2⟩ :: starts (o.tick t).1 r

theorem tick_interval (o : One A) (t : Nat) : (o.tick t).1.interval = o.interval := by
  unfold One.tick; split <;> rfl

theorem starts_paced (ts : List Nat) : ∀ (o : One A) (qs : List Question),
    (∀ y, lastYes qs = some y → o.last = y.time ∧ ∀ t ∈ ts, y.time ≤ t) →
    (lastYes qs = none → ∀ t ∈ ts, (t : Int) - o.last > o.interval) →
    ts.Pairwise (· ≤ ·) → Paced qs → Paced (qs ++ starts o ts) := by
  induction ts with
  | nil => intro o qs _ _ _ hp; simpa [starts] using hp
  | cons t r ih =>
    intro o qs h1 h2 hs hp
    rw [List.pairwise_cons] at hs
    have hq : ((o.tick t).2 = true ↔ ∀ y, lastYes qs = some y → t - y.time > o.interval) := by
      unfold One.tick
      cases hl : lastYes qs with
      | none => simp [h2 hl t (by simp)]
      | some y =>
        obtain ⟨ho, hy⟩ := h1 y hl
        have := hy t (by simp)
        rw [ho]
        simp only [Option.some.injEq, forall_eq']
        split <;> simp <;> omega
    have hp' : Paced (qs ++ [⟨t, o.interval, (o.tick t).2⟩]) := hp.snoc (by simpa using hq)
    have h := ih (o.tick t).1 (qs ++ [⟨t, o.interval, (o.tick t).2⟩]) ?_ ?_ hs.2 hp'
    · simpa [starts] using h
    · intro y hy
      rw [lastYes_append] at hy
      by_cases hc : (t : Int) - o.last > o.interval
      · simp only [One.tick, if_pos hc] at hy ⊢
        simp only [if_true, Option.some.injEq] at hy
        subst hy
        exact ⟨rfl, fun t' ht' => hs.1 t' ht'⟩
      · simp only [One.tick, if_neg hc] at hy ⊢
        simp only [Bool.false_eq_true, if_false] at hy
        exact ⟨(h1 y hy).1, fun t' ht' => (h1 y hy).2 t' (by simp [ht'])⟩
    · intro hn
      rw [lastYes_append] at hn
      by_cases hc : (t : Int) - o.last > o.interval
      · simp [One.tick, hc] at hn
      · simp only [One.tick, if_neg hc] at hn ⊢
        simp only [Bool.false_eq_true, if_false] at hn
        intro t' ht'
        exact h2 hn t' (by simp [ht'])

/-- **C102** (the loop) For every entry put on the list at some time and every later sequence of turns of the loop: a check is
    started at the first turn, and then at a turn exactly when the last start is more than the interval ago. -/
theorem C102_loop (a : A) (http : Bool) (i now : Nat) (ts : List Nat) (hts : ts.Pairwise (· ≤ ·)) (hnow : ∀ t ∈ ts, now < t) :
    Paced (starts (One.new a http i now) ts) := by
  have := starts_paced ts (One.new a http i now) [] (by intro y hy; simp [lastYes] at hy)
    (by intro _ t ht; have := hnow t ht; simp only [One.new]; omega) hts (by intro p q s h; simp at h)
  simpa using this

example : (starts (One.new 7 true 3 10 : One Nat) [11, 12, 14, 15, 16, 20]).map (·.yes) = [true, false, false, true, false, true] := by
  decide +kernel

/-- **C102** (the whole list) A turn keeps the list as it is but for the times, in the same order, and starts a check of exactly
    those entries whose own pacing says so; a list that was received replaces the old one at once. -/
theorem C102_turn (l : List (One A)) (recv : Option (List (One A))) (now : Nat) :
    (turn l recv now).1.map (fun o => (o.addr, o.http, o.interval)) = (recv.getD l).map (fun o => (o.addr, o.http, o.interval)) ∧
    (turn l recv now).2.map (fun o => (o.addr, o.http, o.interval)) =
      ((recv.getD l).filter fun o => decide ((now : Int) - o.last > o.interval)).map (fun o => (o.addr, o.http, o.interval)) := by
  have h1 : ∀ o : One A, ((o.tick now).1.addr, (o.tick now).1.http, (o.tick now).1.interval) = (o.addr, o.http, o.interval) := by
    intro o; unfold One.tick; split <;> rfl
  constructor
  · simp only [turn, List.map_map]
    apply List.map_congr_left
    intro o _
    exact h1 o
  · simp only [turn]
    generalize recv.getD l = l
    induction l with
    | nil => rfl
    | cons o r ih =>
      rw [List.filterMap_cons, List.filter_cons]
      by_cases hc : (now : Int) - o.last > o.interval
      · simp only [One.tick, if_pos hc, decide_eq_true hc, if_true, List.map_cons]
        rw [← ih]; rfl
      · have : (o.tick now).2 = false := by simp [One.tick, hc]
        simp only [this, Bool.false_eq_true, if_false, hc, decide_false]
        exact ih

/-- **C103** What an active check records. If the address may not be asked yet, nothing changes. Otherwise exactly one outcome
    is recorded for this address and none for another: a success if a response came, unless the method is http and the
    status is a server error (500 to 599); a failure if there was no response in time. -/
theorem C103_recorded (h : Check A) (o : One A) (now done : Nat) (r : Reply) :
    ((h.canRequest o.addr o.interval now).2 = false → doCheck h o now done r = (h, false)) ∧
    ((h.canRequest o.addr o.interval now).2 = true → ∃ ok, doCheck h o now done r =
        (h.run [.request o.addr now o.interval, .outcome o.addr done ok], true) ∧
      (ok = true ↔ ∃ c, r = .status c ∧ (o.http = true → c < 500 ∨ 600 ≤ c))) := by
  constructor
  · intro hc
    have : (h.canRequest o.addr o.interval now).1 = h := by
      revert hc
      unfold Check.canRequest
      cases hm : h.map o.addr with
      | none => simp
      | some r => simp only; split <;> (try split) <;> simp_all
    simp [doCheck, hc, this]
  · intro hc
    refine ⟨r.good o.http, ?_, ?_⟩
    · cases hg : r.good o.http <;> simp [doCheck, hc, hg, Check.run, Check.step]
    · cases r with
      | status c =>
        cases ho : o.http
        · simp [Reply.good]
        · simp only [Reply.good, if_true, Reply.status.injEq, exists_eq_left', forall_const]
          by_cases hcc : 500 ≤ c ∧ c < 600
          · simp [hcc]
          · simp only [hcc, decide_false, Bool.not_false, true_iff]; omega
      | broken => simp [Reply.good]
      | late => simp [Reply.good]

/-- three server errors, each a second after the other, take a server out -/
example : let o : One Nat := .new 5 true (sec 1) 0
    let h0 : Check Nat := Check.global
    let h1 := (doCheck h0 o (sec 1) (sec 1) (.status 502)).1
    let h2 := (doCheck h1 o (sec 3) (sec 3) (.status 500)).1
    let h3 := (doCheck h2 o (sec 5) (sec 5) .late).1
    h2.isDown 5 (sec 5) = false ∧ h3.isDown 5 (sec 6) = true ∧ (doCheck h2 o (sec 3) (sec 5) .late).2 = false := by
  decide +kernel

end Wm.Health
