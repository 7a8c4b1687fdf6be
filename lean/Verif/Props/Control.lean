import Verif.Model.Control
import Mathlib.Tactic.ByContra
/-!
Properties C56, C89, C90: reload, stop and the end of the process (src/control/server.rs, src/wmcore.rs).
-/
namespace Wm.Control
open Wm

variable {α : Type}

/-! ### Basic facts -/

theorem getElem?_mod (l : List (Svc α)) (k i : Nat) (f : Svc α → Svc α) :
    (l.modify k f)[i]? = (l[i]?).map (fun v => if k = i then f v else v) := by
  rw [List.getElem?_modify]; rfl

theorem mod_some {l : List (Svc α)} {k i : Nat} {f : Svc α → Svc α} {v : Svc α} (h : (l.modify k f)[i]? = some v) :
    ∃ o, l[i]? = some o ∧ v = if k = i then f o else o := by
  rw [getElem?_mod, Option.map_eq_some_iff] at h
  obtain ⟨o, h1, h2⟩ := h
  exact ⟨o, h1, h2.symm⟩

theorem mod_ex {l : List (Svc α)} {k i : Nat} (f : Svc α → Svc α) {o : Svc α} (h : l[i]? = some o) :
    (l.modify k f)[i]? = some (if k = i then f o else o) := by
  rw [getElem?_mod, h]; rfl

theorem phaseOf_some {s : St α} {k : Nat} {p : Phase} (h : phaseOf s k = some p) : ∃ v, s.svcs[k]? = some v ∧ v.phase = p := by
  rw [phaseOf, Option.map_eq_some_iff] at h; exact h

theorem lt_of_some {l : List (Svc α)} {k : Nat} {v : Svc α} (h : l[k]? = some v) : k < l.length := by
  by_contra hh
  rw [List.getElem?_eq_none (by omega)] at h; cases h

theorem snoc_some {l : List (Svc α)} {x v : Svc α} {k : Nat} (h : (l ++ [x])[k]? = some v) :
    l[k]? = some v ∨ (k = l.length ∧ v = x) := by
  rw [List.getElem?_append] at h
  split at h
  · exact Or.inl h
  · rw [List.getElem?_singleton] at h
    split at h
    · injection h with h; exact Or.inr ⟨by omega, h.symm⟩
    · cases h

theorem snoc_old {l : List (Svc α)} {x v : Svc α} {k : Nat} (h : l[k]? = some v) : (l ++ [x])[k]? = some v := by
  rw [List.getElem?_append, if_pos (lt_of_some h)]; exact h

def isEnded (v : Svc α) : Bool := v.phase == .ended

/-- the number of ended services -/
def endedCount (s : St α) : Nat := s.svcs.countP isEnded

theorem countP_modify (p : Svc α → Bool) (l : List (Svc α)) : ∀ (k : Nat) (f : Svc α → Svc α) (v : Svc α), l[k]? = some v →
    (l.modify k f).countP p + (if p v then 1 else 0) = l.countP p + (if p (f v) then 1 else 0) := by
  induction l with
  | nil => intro k f v h; cases h
  | cons a l ih =>
    intro k f v h
    cases k with
    | zero =>
      simp only [List.getElem?_cons_zero, Option.some.injEq] at h
      subst h
      simp only [List.modify_zero_cons, List.countP_cons]
      omega
    | succ k =>
      rw [List.getElem?_cons_succ] at h
      have := ih k f v h
      simp only [List.modify_succ_cons, List.countP_cons]
      omega

/-- ending a service that had not ended counts one more -/
theorem ended_more {s : St α} {k : Nat} {v : Svc α} (f : Svc α → Svc α) (hk : s.svcs[k]? = some v) (h1 : v.phase ≠ .ended)
    (h2 : (f v).phase = .ended) : endedCount (upd s k f) = endedCount s + 1 := by
  have := countP_modify isEnded s.svcs k f v hk
  rw [show isEnded v = false by simp [isEnded, h1], show isEnded (f v) = true by simp [isEnded, h2]] at this
  simpa [endedCount, upd] using this

/-- other changes count the same -/
theorem ended_same {s : St α} {k : Nat} (f : Svc α → Svc α) (h : ∀ v, s.svcs[k]? = some v → isEnded (f v) = isEnded v) :
    endedCount (upd s k f) = endedCount s := by
  cases hk : s.svcs[k]? with
  | none =>
    have : s.svcs.modify k f = s.svcs := by
      apply List.ext_getElem?
      intro i
      rw [getElem?_mod]
      by_cases hi : k = i
      · subst hi; rw [hk]; rfl
      · cases s.svcs[i]? <;> simp [hi]
    simp [endedCount, upd, this]
  | some v =>
    have := countP_modify isEnded s.svcs k f v hk
    rw [h v hk] at this
    simp only [endedCount, upd]; omega

theorem ended_tell (s : St α) (p : Option Nat) : endedCount (tell s p) = endedCount s ∧ (tell s p).svcs.length = s.svcs.length ∧
    (tell s p).count = s.count ∧ (tell s p).notices = s.notices ∧ (tell s p).exited = s.exited ∧
    (tell s p).listening = s.listening ∧ (tell s p).current = s.current ∧ (tell s p).option = s.option ∧
    (tell s p).nowReplies = s.nowReplies ∧ (tell s p).reloadReplies = s.reloadReplies := by
  unfold tell
  split
  · exact ⟨rfl, rfl, rfl, rfl, rfl, rfl, rfl, rfl, rfl, rfl⟩
  · split
    · exact ⟨rfl, rfl, rfl, rfl, rfl, rfl, rfl, rfl, rfl, rfl⟩
    · exact ⟨ended_same _ (fun v _ => rfl), by simp [upd], rfl, rfl, rfl, rfl, rfl, rfl, rfl, rfl⟩

/-! ### The count of services -/

/-- `gone s d`: of the ended services all but `d` were, or will be, counted; the process has not ended. -/
structure Gone (s : St α) (d : Nat) : Prop where
  live : s.exited = false
  pos : 1 ≤ s.count
  sum : (s.notices : Int) + s.svcs.length - s.count + d = endedCount s

def isPanic : Ev α → Bool
  | .panic _ => true
  | _ => false

def isAbort : Ev α → Bool
  | .abort _ => true
  | _ => false

theorem begin_counts (s : St α) (k : Nat) : endedCount (begin_ s k) = endedCount s ∧
    (begin_ s k).svcs.length = s.svcs.length ∧ (begin_ s k).count = s.count ∧ (begin_ s k).notices = s.notices ∧
    (begin_ s k).exited = s.exited := by
  unfold begin_
  split
  · exact ⟨rfl, rfl, rfl, rfl, rfl⟩
  · rename_i v hv
    split
    · rename_i hp
      obtain ⟨h1, h2, h3, h4, h5, -⟩ := ended_tell s v.prev
      refine ⟨?_, by simp [upd, h2], h3, h4, h5⟩
      rw [← h1]
      refine ended_same _ (fun w hw => ?_)
      have hw' : w.phase = .bound := by
        revert hw
        unfold tell
        split
        · intro hw; rw [hv] at hw; injection hw with hw; subst hw; exact hp.1
        · split
          · intro hw; rw [hv] at hw; injection hw with hw; subst hw; exact hp.1
          · intro hw
            obtain ⟨o, h6, h7⟩ := mod_some hw
            rw [hv] at h6; injection h6 with h6; subst h6
            subst h7
            split <;> exact hp.1
      simp [isEnded, hw']
    · exact ⟨rfl, rfl, rfl, rfl, rfl⟩

theorem Gone.start {s : St α} {d : Nat} (h : Gone s d) (cfg : α) : Gone (start s cfg) d := by
  refine ⟨h.live, by have := h.pos; simp only [Control.start]; omega, ?_⟩
  have := h.sum
  simp only [Control.start, endedCount, List.length_append, List.length_singleton, List.countP_append, List.countP_singleton]
  rw [show isEnded (⟨cfg, .starting, s.current, false⟩ : Svc α) = false from rfl]
  simp only [endedCount] at this
  simp only [Bool.false_eq_true, if_false]
  omega

theorem Gone.ends {s : St α} {d k : Nat} {v : Svc α} (h : Gone s d) (f : Svc α → Svc α) (hk : s.svcs[k]? = some v)
    (h1 : v.phase ≠ .ended) (h2 : (f v).phase = .ended) : Gone { upd s k f with notices := s.notices + 1 } d := by
  refine ⟨h.live, h.pos, ?_⟩
  have h3 := ended_more f hk h1 h2
  have h4 := h.sum
  show ((s.notices + 1 : Nat) : Int) + (s.svcs.modify k f).length - s.count + d = endedCount (upd s k f)
  rw [h3, List.length_modify]
  omega

/-- one step keeps the sum, ends the process with all services gone, or is a panic -/
theorem Gone.step {s : St α} {d : Nat} (h : Gone s d) (e : Ev α) :
    Gone (step s e) d ∨ (isPanic e = true ∧ Gone (step s e) (d + 1)) ∨
      ((step s e).exited = true ∧ d = 0 ∧ endedCount (step s e) = (step s e).svcs.length) ∨
      (isAbort e = true ∧ (step s e).exited = true) := by
  unfold Control.step
  rw [if_neg (by simp [h.live])]
  cases e with
  | reload p =>
    left
    simp only
    split
    · cases p with
      | none => exact ⟨h.live, h.pos, h.sum⟩
      | some cfg => exact ⟨(h.start cfg).live, (h.start cfg).pos, (h.start cfg).sum⟩
    · exact h
  | stop =>
    left
    simp only
    split
    · unfold stop
      split
      · exact h
      · split
        · exact h
        · rename_i k _ _
          refine ⟨h.live, h.pos, ?_⟩
          rw [ended_same (fun v => { v with inbox := true }) (fun v _ => rfl)]
          have := h.sum
          show (s.notices : Int) + (s.svcs.modify k _).length - s.count + d = _
          rw [List.length_modify]; exact this
    · exact h
  | now => left; simp only; split; exact ⟨h.live, h.pos, h.sum⟩; exact h
  | ready k =>
    left
    simp only [ready]
    split
    · rename_i hp
      obtain ⟨v, hv, hv2⟩ := phaseOf_some hp
      refine ⟨h.live, h.pos, ?_⟩
      rw [ended_same _ (fun w hw => by
        rw [hv] at hw; injection hw with hw; subst hw
        simp [isEnded, hv2])]
      have := h.sum
      show (s.notices : Int) + (s.svcs.modify k _).length - s.count + d = _
      rw [List.length_modify]; exact this
    · exact h
  | fail k =>
    left
    simp only [fail]
    split
    · rename_i hp
      obtain ⟨v, hv, hv2⟩ := phaseOf_some hp
      exact h.ends _ hv (by rw [hv2]; decide) rfl
    · exact h
  | begin_ k =>
    left
    simp only
    obtain ⟨h1, h2, h3, h4, h5⟩ := begin_counts s k
    exact ⟨h5.trans h.live, by rw [h3]; exact h.pos, by rw [h1, h2, h3, h4]; exact h.sum⟩
  | close k =>
    left
    simp only [close]
    split
    · exact h
    · rename_i v hv
      split
      · rename_i hc
        exact h.ends _ hv (by rw [hc.1]; decide) rfl
      · exact h
  | crash k =>
    left
    simp only [crash]
    split
    · rename_i hp
      obtain ⟨v, hv, hv2⟩ := phaseOf_some hp
      exact h.ends _ hv (by rw [hv2]; decide) rfl
    · exact h
  | panic k =>
    simp only [panic]
    split
    · rename_i hp
      right; left
      have : ∃ v, s.svcs[k]? = some v ∧ v.phase ≠ .ended := by
        rcases hp with hp | hp | hp <;> obtain ⟨v, hv, hv2⟩ := phaseOf_some hp <;> exact ⟨v, hv, by rw [hv2]; decide⟩
      obtain ⟨v, hv, hv2⟩ := this
      refine ⟨rfl, h.live, h.pos, ?_⟩
      rw [ended_more _ hv hv2 rfl]
      have := h.sum
      show (s.notices : Int) + (s.svcs.modify k _).length - s.count + ((d + 1 : Nat) : Int) = ((endedCount s + 1 : Nat) : Int)
      rw [List.length_modify]; omega
    · exact Or.inl h
  | abort k =>
    simp only [abort]
    split
    · exact Or.inr (Or.inr (Or.inr ⟨rfl, rfl⟩))
    · exact Or.inl h
  | collect =>
    simp only [collect]
    split
    · rename_i hc
      have hs := h.sum
      have hle : endedCount s ≤ s.svcs.length := List.countP_le_length
      by_cases he : s.count - 1 ≤ 0
      · right; right; left
        refine ⟨by simp [he], ?_, ?_⟩
        · omega
        · show endedCount s = s.svcs.length
          omega
      · left
        refine ⟨by simp [he], by show 1 ≤ s.count - 1; omega, ?_⟩
        show ((s.notices - 1 : Nat) : Int) + s.svcs.length - (s.count - 1) + d = endedCount s
        omega
    · exact Or.inl h

theorem step_exited {s : St α} (h : s.exited = true) (e : Ev α) : step s e = s := by
  unfold step; rw [if_pos h]

theorem run_exited (evs : List (Ev α)) : ∀ {s : St α}, s.exited = true → run s evs = s := by
  induction evs with
  | nil => exact fun _ => rfl
  | cons e es ih =>
    intro s h
    show run (step s e) es = s
    rw [step_exited h]; exact ih h

theorem Gone.init (cfg : α) (b : Bool) : Gone (init cfg b) 0 := ⟨rfl, by simp [Control.init, Control.start], by simp [Control.init, Control.start, endedCount, isEnded]⟩

theorem run_gone (evs : List (Ev α)) : ∀ {s : St α} {d : Nat}, Gone s d →
    (∃ d', d ≤ d' ∧ Gone (run s evs) d' ∧ ((∀ e ∈ evs, isPanic e = false) → d' = d)) ∨
      (d = 0 ∧ (run s evs).exited = true ∧ endedCount (run s evs) = (run s evs).svcs.length) ∨
      ((∃ e ∈ evs, isAbort e = true) ∧ (run s evs).exited = true) := by
  induction evs with
  | nil => intro s d h; exact Or.inl ⟨d, Nat.le_refl _, h, fun _ => rfl⟩
  | cons e es ih =>
    intro s d h
    show (∃ d', d ≤ d' ∧ Gone (run (Control.step s e) es) d' ∧ _) ∨ (d = 0 ∧ (run (Control.step s e) es).exited = true ∧ _) ∨
      (_ ∧ (run (Control.step s e) es).exited = true)
    rcases h.step e with h1 | ⟨h0, h1⟩ | ⟨h1, h2, h3⟩ | ⟨h0, h1⟩
    · rcases ih h1 with ⟨d', h2, h3, h4⟩ | h2 | ⟨⟨x, hx, hx2⟩, h2⟩
      · exact Or.inl ⟨d', h2, h3, fun hp => h4 (fun e' he' => hp e' (List.mem_cons_of_mem _ he'))⟩
      · exact Or.inr (Or.inl h2)
      · exact Or.inr (Or.inr ⟨⟨x, List.mem_cons_of_mem _ hx, hx2⟩, h2⟩)
    · rcases ih h1 with ⟨d', h2, h3, -⟩ | h2 | ⟨⟨x, hx, hx2⟩, h2⟩
      · refine Or.inl ⟨d', by omega, h3, fun hp => ?_⟩
        rw [hp e List.mem_cons_self] at h0; cases h0
      · omega
      · exact Or.inr (Or.inr ⟨⟨x, List.mem_cons_of_mem _ hx, hx2⟩, h2⟩)
    · refine Or.inr (Or.inl ⟨h2, ?_⟩)
      show (run (Control.step s e) es).exited = true ∧ endedCount (run (Control.step s e) es) = (run (Control.step s e) es).svcs.length
      rw [run_exited es h1]
      exact ⟨h1, h3⟩
    · refine Or.inr (Or.inr ⟨⟨e, List.mem_cons_self, h0⟩, ?_⟩)
      rw [run_exited es h1]; exact h1

/-- **C56**, partial: the process ends only when every service has ended, unless a service finds that the server of its tunnel
    cannot be reached. (In that case it is false, see `C56_abort_fails`.) -/
theorem C56_exit_partial (cfg : α) (b : Bool) (evs : List (Ev α)) (ha : ∀ e ∈ evs, isAbort e = false)
    (h : (run (init cfg b) evs).exited = true) : ∀ v ∈ (run (init cfg b) evs).svcs, v.phase = .ended := by
  rcases run_gone evs (Gone.init cfg b) with ⟨d', -, h2, -⟩ | ⟨-, -, h3⟩ | ⟨⟨e, he, he2⟩, -⟩
  · rw [h2.live] at h; cases h
  · intro v hv
    have := (List.countP_eq_length.1 h3) v hv
    simpa [isEnded] using this
  · rw [ha e he] at he2; cases he2

/-- **C56** fails when a reload brings a configuration with a tunnel to a server that cannot be reached: in every state with
    running services the process ends, and these with it. -/
theorem C56_abort_fails (s : St α) (hx : s.exited = false) (hl : s.listening = true) (cfg : α) :
    (run s [.reload (some cfg), .abort s.svcs.length]).exited = true ∧
    ∀ (k : Nat) (v : Svc α), s.svcs[k]? = some v → v.phase = .running →
      phaseOf (run s [.reload (some cfg), .abort s.svcs.length]) k = some .running := by
  have h1 : step s (.reload (some cfg)) = reload s (some cfg) := by
    unfold step; rw [if_neg (by simp [hx])]; simp only [hl, if_true]
  have hst : phaseOf (reload s (some cfg)) s.svcs.length = some .starting := by
    simp [phaseOf, reload, start]
  have h2 : run s [.reload (some cfg), .abort s.svcs.length] = { reload s (some cfg) with exited := true } := by
    show step (step s (.reload (some cfg))) (.abort s.svcs.length) = _
    rw [h1]
    have : (reload s (some cfg)).exited = false := hx
    unfold step
    rw [if_neg (by simp [this])]
    simp only [abort, hst, if_true]
  rw [h2]
  refine ⟨rfl, ?_⟩
  intro k v hv hr
  have : (reload s (some cfg)).svcs[k]? = some v := snoc_old hv
  show ((reload s (some cfg)).svcs[k]?).map _ = _
  rw [this]; simp [hr]

example : let s := run (init (0 : Nat) true) [.ready 0, .begin_ 0]
    s.exited = false ∧ s.listening = true ∧ s.svcs[0]? = some ⟨0, .running, none, false⟩ := by decide

example : (run (init (0 : Nat) true) [.ready 0, .begin_ 0, .reload (some 1), .ready 1, .begin_ 1, .close 0, .stop, .collect, .close 1,
    .collect]).exited = true := by decide

/-! ### Reload without failures -/

/-- the listeners of the service are open -/
def Up (v : Svc α) : Prop := v.phase = .bound ∨ v.phase = .running

/-- what happens in operation without stop, failing start, error, panic or exit -/
def Smooth : Ev α → Prop
  | .stop => False
  | .fail _ => False
  | .crash _ => False
  | .panic _ => False
  | .abort _ => False
  | _ => True

def early (v : Svc α) : Prop := v.phase = .starting ∨ v.phase = .bound

structure Chain (s : St α) : Prop where
  cur : ∃ n, s.svcs.length = n + 1 ∧ s.current = some n
  prev : ∀ (i : Nat) (w : Svc α), s.svcs[i + 1]? = some w → early w → w.prev = some i
  link : ∀ (i p : Nat) (w : Svc α), s.svcs[i]? = some w → w.prev = some p → p + 1 = i
  last : ∀ (i : Nat) (v : Svc α), s.svcs[i]? = some v → i + 1 = s.svcs.length → v.phase ≠ .ended ∧ v.inbox = false
  mid : ∀ (i : Nat) (v w : Svc α), s.svcs[i]? = some v → s.svcs[i + 1]? = some w → early w → v.phase ≠ .ended ∧ v.inbox = false

theorem Chain.init (cfg : α) (b : Bool) : Chain (init cfg b) := by
  refine ⟨⟨0, rfl, rfl⟩, ?_, ?_, ?_, ?_⟩
  · intro i w h; cases h
  · intro i p w h hp
    rcases snoc_some (l := []) h with h | ⟨-, h⟩
    · cases h
    · subst h; cases hp
  · intro i v h _
    rcases snoc_some (l := []) h with h | ⟨-, h⟩
    · cases h
    · subst h; exact ⟨by simp, rfl⟩
  · intro i v w _ h; cases h

theorem Chain.step {s : St α} (h : Chain s) (e : Ev α) (he : Smooth e) : Chain (step s e) := by
  unfold Control.step
  split
  · exact h
  · cases e with
    | stop => exact absurd he id
    | fail k => exact absurd he id
    | crash k => exact absurd he id
    | panic k => exact absurd he id
    | abort k => exact absurd he id
    | now => simp only; split; exact ⟨h.cur, h.prev, h.link, h.last, h.mid⟩; exact h
    | collect => simp only [collect]; split; exact ⟨h.cur, h.prev, h.link, h.last, h.mid⟩; exact h
    | reload p =>
      simp only
      split
      · cases p with
        | none => exact ⟨h.cur, h.prev, h.link, h.last, h.mid⟩
        | some cfg =>
          obtain ⟨n, hn, hcur⟩ := h.cur
          simp only [reload, Control.start]
          refine ⟨⟨n + 1, by simp [hn], by simp [hn]⟩, ?_, ?_, ?_, ?_⟩
          · intro i w hw hearly
            rcases snoc_some hw with hw | ⟨hi, hw⟩
            · exact h.prev i w hw hearly
            · subst hw
              show s.current = some i
              rw [hcur]; congr 1; omega
          · intro i p w hw hp
            rcases snoc_some hw with hw | ⟨hi, hw⟩
            · exact h.link i p w hw hp
            · subst hw
              replace hp : s.current = some p := hp
              rw [hcur] at hp; injection hp with hp; omega
          · intro i v hv hi
            rcases snoc_some hv with hv | ⟨-, hv⟩
            · have := lt_of_some hv
              simp only [List.length_append, List.length_singleton] at hi
              omega
            · subst hv; exact ⟨by simp, rfl⟩
          · intro i v w hv hw hearly
            have hv' : s.svcs[i]? = some v := by
              rcases snoc_some hv with hv | ⟨hi, -⟩
              · exact hv
              · rcases snoc_some hw with hw | ⟨hi', -⟩
                · have := lt_of_some hw; omega
                · omega
            rcases snoc_some hw with hw | ⟨hi, hw⟩
            · exact h.mid i v w hv' hw hearly
            · exact h.last i v hv' (by omega)
      · exact h
    | ready k =>
      simp only [ready]
      split
      · rename_i hp
        obtain ⟨x, hx, hx2⟩ := phaseOf_some hp
        have key : ∀ (i : Nat) (v : Svc α), (s.svcs.modify k (fun v => { v with phase := .bound }))[i]? = some v →
            ∃ o, s.svcs[i]? = some o ∧ v.prev = o.prev ∧ v.inbox = o.inbox ∧ (early v → early o) ∧ (o.phase ≠ .ended → v.phase ≠ .ended) := by
          intro i v hv
          obtain ⟨o, h1, h2⟩ := mod_some hv
          refine ⟨o, h1, ?_⟩
          subst h2
          split
          · rename_i hk; subst hk
            rw [hx] at h1; injection h1 with h1; subst h1
            exact ⟨rfl, rfl, fun _ => Or.inl hx2, fun _ => by simp⟩
          · exact ⟨rfl, rfl, id, id⟩
        refine ⟨by simpa [upd] using h.cur, ?_, ?_, ?_, ?_⟩
        · intro i w hw hearly
          obtain ⟨o, h1, h2, -, h3, -⟩ := key _ w hw
          rw [h2]; exact h.prev i o h1 (h3 hearly)
        · intro i p w hw hp
          obtain ⟨o, h1, h2, -⟩ := key _ w hw
          rw [h2] at hp; exact h.link i p o h1 hp
        · intro i v hv hi
          obtain ⟨o, h1, -, h2, -, h3⟩ := key _ v hv
          obtain ⟨h4, h5⟩ := h.last i o h1 (by simpa [upd] using hi)
          exact ⟨h3 h4, h2.trans h5⟩
        · intro i v w hv hw hearly
          obtain ⟨o, h1, -, h2, -, h3⟩ := key _ v hv
          obtain ⟨o', h1', -, -, h3', -⟩ := key _ w hw
          obtain ⟨h4, h5⟩ := h.mid i o o' h1 h1' (h3' hearly)
          exact ⟨h3 h4, h2.trans h5⟩
      · exact h
    | begin_ k =>
      simp only [begin_]
      split
      · exact h
      · rename_i x hx
        split
        · rename_i hb
          -- every service of the new state comes from an old one
          have key : ∀ (i : Nat) (v : Svc α), (upd (tell s x.prev) k (fun v => { v with phase := .running, prev := none })).svcs[i]? = some v →
              ∃ o, s.svcs[i]? = some o ∧ (i ≠ k → v.prev = o.prev ∧ v.phase = o.phase) ∧ (i = k → v.phase = .running) ∧
                (x.prev ≠ some i → v.inbox = o.inbox) := by
            intro i v hv
            obtain ⟨o1, h1, h2⟩ := mod_some hv
            have : ∃ o, s.svcs[i]? = some o ∧ o1.prev = o.prev ∧ o1.phase = o.phase ∧ (x.prev ≠ some i → o1.inbox = o.inbox) := by
              revert h1
              unfold tell
              split
              · exact fun h1 => ⟨o1, h1, rfl, rfl, fun _ => rfl⟩
              · rename_i p hp
                split
                · exact fun h1 => ⟨o1, h1, rfl, rfl, fun _ => rfl⟩
                · intro h1
                  obtain ⟨o, h3, h4⟩ := mod_some h1
                  refine ⟨o, h3, ?_⟩
                  subst h4
                  split
                  · rename_i hpi
                    exact ⟨rfl, rfl, fun hne => absurd (by rw [← hpi]; exact hp) hne⟩
                  · exact ⟨rfl, rfl, fun _ => rfl⟩
            obtain ⟨o, h3, h4, h5, h6⟩ := this
            refine ⟨o, h3, ?_, ?_, ?_⟩
            · intro hik; rw [if_neg (fun e => hik e.symm)] at h2; subst h2; exact ⟨h4, h5⟩
            · intro hik; rw [if_pos hik.symm] at h2; subst h2; rfl
            · intro hne
              by_cases hik : k = i
              · rw [if_pos hik] at h2; subst h2; exact h6 hne
              · rw [if_neg hik] at h2; subst h2; exact h6 hne
          have hlen : (upd (tell s x.prev) k (fun v => { v with phase := .running, prev := none })).svcs.length = s.svcs.length := by
            simp only [upd, List.length_modify]; exact (ended_tell s x.prev).2.1
          have hne : ∀ i, i + 1 ≠ k → x.prev ≠ some i := fun i hik hi => hik (h.link k i x hx hi)
          refine ⟨?_, ?_, ?_, ?_, ?_⟩
          · obtain ⟨n, h1, h2⟩ := h.cur
            exact ⟨n, hlen.trans h1, ((ended_tell s x.prev).2.2.2.2.2.2.1).trans h2⟩
          · intro i w hw hearly
            obtain ⟨o, h1, h2, h3, -⟩ := key _ w hw
            have hik : i + 1 ≠ k := by
              intro hik
              rcases hearly with he | he <;> rw [h3 hik] at he <;> cases he
            obtain ⟨h4, h5⟩ := h2 hik
            rw [h4]
            exact h.prev i o h1 (by unfold early at hearly ⊢; rwa [h5] at hearly)
          · intro i p w hw hp
            obtain ⟨o, h1, h2, -⟩ := key _ w hw
            by_cases hik : i = k
            · subst hik
              obtain ⟨o1, -, h4⟩ := mod_some hw
              rw [if_pos rfl] at h4; subst h4; cases hp
            · rw [(h2 hik).1] at hp; exact h.link i p o h1 hp
          · intro i v hv hi
            obtain ⟨o, h1, h2, h3, h4⟩ := key _ v hv
            rw [hlen] at hi
            have hik : i + 1 ≠ k := by
              have := lt_of_some hx; omega
            obtain ⟨h5, h6⟩ := h.last i o h1 hi
            refine ⟨?_, (h4 (hne i hik)).trans h6⟩
            by_cases hk : i = k
            · rw [h3 hk]; decide
            · rw [(h2 hk).2]; exact h5
          · intro i v w hv hw hearly
            obtain ⟨o, h1, h2, h3, h4⟩ := key _ v hv
            obtain ⟨o', h1', h2', h3', -⟩ := key _ w hw
            have hik : i + 1 ≠ k := by
              intro hik
              rcases hearly with he | he <;> rw [h3' hik] at he <;> cases he
            obtain ⟨h5, h6⟩ := h.mid i o o' h1 h1' (by unfold early at hearly ⊢; rwa [(h2' hik).2] at hearly)
            refine ⟨?_, (h4 (hne i hik)).trans h6⟩
            by_cases hk : i = k
            · rw [h3 hk]; decide
            · rw [(h2 hk).2]; exact h5
        · exact h
    | close k =>
      simp only [close]
      split
      · exact h
      · rename_i x hx
        split
        · rename_i hc
          obtain ⟨hrun, hcond⟩ := hc
          -- no constraint is on `k`
          have hfree : ∀ i, i = k → (i + 1 = s.svcs.length ∨ ∃ w, s.svcs[i + 1]? = some w ∧ early w) → False := by
            intro i hik hh
            subst hik
            rcases hcond with hin | hheld
            · rcases hh with hh | ⟨w, hw, hearly⟩
              · rw [(h.last i x hx hh).2] at hin; cases hin
              · rw [(h.mid i x w hx hw hearly).2] at hin; cases hin
            · simp only [held, Bool.or_eq_false_iff] at hheld
              rcases hh with hh | ⟨w, hw, hearly⟩
              · obtain ⟨n, h1, h2⟩ := h.cur
                have hni : n = i := by omega
                rw [h2, hni] at hheld
                simp at hheld
              · have hp := h.prev i w hw hearly
                have hmem := List.mem_of_getElem? hw
                have := List.any_eq_false.1 hheld.2 w hmem
                simp [hp] at this
          have key : ∀ (i : Nat) (v : Svc α), (s.svcs.modify k (fun v => { v with phase := .ended }))[i]? = some v →
              ∃ o, s.svcs[i]? = some o ∧ v.prev = o.prev ∧ v.inbox = o.inbox ∧ (early v → early o) ∧ (i ≠ k → v.phase = o.phase) := by
            intro i v hv
            obtain ⟨o, h1, h2⟩ := mod_some hv
            refine ⟨o, h1, ?_⟩
            subst h2
            split
            · rename_i hk
              refine ⟨rfl, rfl, ?_, fun hne => absurd hk.symm hne⟩
              rintro (he | he) <;> cases he
            · exact ⟨rfl, rfl, id, fun _ => rfl⟩
          refine ⟨by simpa [upd] using h.cur, ?_, ?_, ?_, ?_⟩
          · intro i w hw hearly
            obtain ⟨o, h1, h2, -, h3, -⟩ := key _ w hw
            rw [h2]; exact h.prev i o h1 (h3 hearly)
          · intro i p w hw hp
            obtain ⟨o, h1, h2, -⟩ := key _ w hw
            rw [h2] at hp; exact h.link i p o h1 hp
          · intro i v hv hi
            obtain ⟨o, h1, -, h2, -, h3⟩ := key _ v hv
            have hi' : i + 1 = s.svcs.length := by simpa [upd] using hi
            obtain ⟨h4, h5⟩ := h.last i o h1 hi'
            have hik : i ≠ k := fun hik => hfree i hik (Or.inl hi')
            exact ⟨by rw [h3 hik]; exact h4, h2.trans h5⟩
          · intro i v w hv hw hearly
            obtain ⟨o, h1, -, h2, -, h3⟩ := key _ v hv
            obtain ⟨o', h1', -, -, h3', -⟩ := key _ w hw
            obtain ⟨h4, h5⟩ := h.mid i o o' h1 h1' (h3' hearly)
            have hik : i ≠ k := fun hik => hfree i hik (Or.inr ⟨o', h1', h3' hearly⟩)
            exact ⟨by rw [h3 hik]; exact h4, h2.trans h5⟩
        · exact h

/-- some service has got past its start -/
def Begun (s : St α) : Prop := ∃ (k : Nat) (v : Svc α), s.svcs[k]? = some v ∧ v.phase ≠ .starting

theorem Chain.up {s : St α} (h : Chain s) (hb : Begun s) : ∃ v ∈ s.svcs, Up v := by
  -- going down from the last service
  have down : ∀ m k (v : Svc α), k + m + 1 = s.svcs.length → s.svcs[k]? = some v → v.phase ≠ .starting → ∃ v ∈ s.svcs, Up v := by
    intro m
    induction m with
    | zero =>
      intro k v hk hv hs
      have := h.last k v hv (by omega)
      refine ⟨v, List.mem_of_getElem? hv, ?_⟩
      cases hp : v.phase with
      | starting => exact absurd hp hs
      | bound => exact Or.inl hp
      | running => exact Or.inr hp
      | ended => exact absurd hp this.1
    | succ m ih =>
      intro k v hk hv hs
      have hlt : k + 1 < s.svcs.length := by omega
      have hw : s.svcs[k + 1]? = some s.svcs[k + 1] := List.getElem?_eq_getElem hlt
      by_cases hws : s.svcs[k + 1].phase = .starting
      · have := h.mid k v _ hv hw (Or.inl hws)
        refine ⟨v, List.mem_of_getElem? hv, ?_⟩
        cases hp : v.phase with
        | starting => exact absurd hp hs
        | bound => exact Or.inl hp
        | running => exact Or.inr hp
        | ended => exact absurd hp this.1
      · exact ih (k + 1) _ (by omega) hw hws
  obtain ⟨k, v, hv, hs⟩ := hb
  have := lt_of_some hv
  exact down (s.svcs.length - k - 1) k v (by omega) hv hs

theorem Begun.upd {s : St α} (h : Begun s) (k : Nat) (f : Svc α → Svc α) (hf : ∀ v, v.phase ≠ .starting → (f v).phase ≠ .starting) :
    Begun (upd s k f) := by
  obtain ⟨i, v, hv, hs⟩ := h
  refine ⟨i, _, mod_ex f hv, ?_⟩
  split
  · exact hf v hs
  · exact hs

theorem Begun.step {s : St α} (h : Begun s) (e : Ev α) : Begun (step s e) := by
  unfold Control.step
  split
  · exact h
  · cases e with
    | reload p =>
      simp only
      split
      · cases p with
        | none => exact h
        | some cfg =>
          obtain ⟨i, v, hv, hs⟩ := h
          exact ⟨i, v, snoc_old hv, hs⟩
      · exact h
    | stop =>
      simp only [stop]
      repeat' split
      all_goals first | exact h | exact h.upd _ _ (fun v hv => hv)
    | now => simp only; split; exact h; exact h
    | ready k => simp only [ready]; split; exact h.upd _ _ (fun v _ => by simp); exact h
    | fail k => simp only [fail]; split; exact h.upd _ _ (fun v _ => by simp); exact h
    | begin_ k =>
      simp only [begin_]
      split
      · exact h
      · split
        · refine Begun.upd ?_ _ _ (fun v _ => by simp)
          unfold tell
          repeat' split
          all_goals first | exact h | exact h.upd _ _ (fun v hv => hv)
        · exact h
    | close k =>
      simp only [close]
      repeat' split
      all_goals first | exact h | exact h.upd _ _ (fun v _ => by simp)
    | crash k => simp only [crash]; split; exact h.upd _ _ (fun v _ => by simp); exact h
    | panic k => simp only [panic]; split; exact h.upd _ _ (fun v _ => by simp); exact h
    | abort k => simp only [abort]; split; exact h; exact h
    | collect => simp only [collect]; split; exact h; exact h

theorem Chain.run (evs : List (Ev α)) (hs : ∀ e ∈ evs, Smooth e) : ∀ {s : St α}, Chain s → Chain (run s evs) := by
  induction evs with
  | nil => exact fun h => h
  | cons e es ih =>
    intro s h
    exact ih (fun e' he' => hs e' (List.mem_cons_of_mem _ he')) (h.step e (hs e List.mem_cons_self))

theorem Begun.run (evs : List (Ev α)) : ∀ {s : St α}, Begun s → Begun (run s evs) := by
  induction evs with
  | nil => exact fun h => h
  | cons e es ih => exact fun h => ih (h.step e)

/-- **C56** However reloads overlap, once the listeners of some service are open, there are always open listeners, as long as
    nobody asks to stop and no service fails. (Missing: with a failing start this is false, see `C56_failed_start_fails`.) -/
theorem C56_reload_partial (cfg : α) (b : Bool) (evs more : List (Ev α)) (hs : ∀ e ∈ evs ++ more, Smooth e)
    (hup : ∃ v ∈ (run (init cfg b) evs).svcs, Up v) : ∃ v ∈ (run (init cfg b) (evs ++ more)).svcs, Up v := by
  have hb : Begun (run (init cfg b) evs) := by
    obtain ⟨v, hm, hv⟩ := hup
    obtain ⟨k, hk⟩ := List.getElem?_of_mem hm
    refine ⟨k, v, hk, ?_⟩
    rcases hv with hv | hv <;> rw [hv] <;> decide
  have : run (init cfg b) (evs ++ more) = run (run (init cfg b) evs) more := by simp [run, List.foldl_append]
  have hc := Chain.run (evs ++ more) hs (Chain.init cfg b)
  refine hc.up ?_
  rw [this]
  exact hb.run more

example : ∃ v ∈ (run (init (0 : Nat) true) [.ready 0, .begin_ 0]).svcs, Up v := ⟨⟨0, .running, none, false⟩, by decide, Or.inr rfl⟩

/-! ### Reload with a failing start -/

/-- nobody can reach service `k` any more, and it is running or has ended -/
structure Lost (s : St α) (k : Nat) : Prop where
  cur : s.current ≠ some k
  prev : ∀ v ∈ s.svcs, v.prev ≠ some k
  phase : ∃ v, s.svcs[k]? = some v ∧ (v.phase = .running ∨ v.phase = .ended)

theorem Lost.upd {s : St α} {k : Nat} (h : Lost s k) (i : Nat) (f : Svc α → Svc α)
    (hf : ∀ v, s.svcs[i]? = some v → ((f v).prev = v.prev ∨ (f v).prev = none) ∧
      ((v.phase = .running ∨ v.phase = .ended) → ((f v).phase = .running ∨ (f v).phase = .ended))) : Lost (upd s i f) k := by
  refine ⟨h.cur, ?_, ?_⟩
  · intro v hv
    obtain ⟨j, hj⟩ := List.getElem?_of_mem hv
    obtain ⟨o, h1, h2⟩ := mod_some hj
    have ho := h.prev o (List.mem_of_getElem? h1)
    subst h2
    split
    · rename_i hij; subst hij
      rcases (hf o h1).1 with h3 | h3
      · rw [h3]; exact ho
      · rw [h3]; simp
    · exact ho
  · obtain ⟨v, h1, h2⟩ := h.phase
    refine ⟨_, mod_ex f h1, ?_⟩
    split
    · rename_i hij; subst hij; exact (hf v h1).2 h2
    · exact h2

theorem Lost.step {s : St α} {k : Nat} (h : Lost s k) (e : Ev α) : Lost (step s e) k := by
  unfold Control.step
  split
  · exact h
  · cases e with
    | reload p =>
      simp only
      split
      · cases p with
        | none => exact ⟨h.cur, h.prev, h.phase⟩
        | some cfg =>
          obtain ⟨v, h1, h2⟩ := h.phase
          refine ⟨?_, ?_, ⟨v, snoc_old h1, h2⟩⟩
          · show some s.svcs.length ≠ some k
            have := lt_of_some h1
            simp; omega
          · intro w hw
            have hw' : w ∈ s.svcs ++ [⟨cfg, .starting, s.current, false⟩] := hw
            rw [List.mem_append, List.mem_singleton] at hw'
            rcases hw' with hw' | rfl
            · exact h.prev w hw'
            · exact h.cur
      · exact h
    | stop =>
      simp only [stop]
      repeat' split
      all_goals first | exact h | exact h.upd _ _ (fun v _ => ⟨Or.inl rfl, id⟩)
    | now => simp only; split; exact ⟨h.cur, h.prev, h.phase⟩; exact h
    | ready i =>
      simp only [ready]
      split
      · rename_i hp
        obtain ⟨v, hv, hv2⟩ := phaseOf_some hp
        refine h.upd _ _ (fun w hw => ⟨Or.inl rfl, ?_⟩)
        rw [hv] at hw; injection hw with hw; subst hw
        rw [hv2]; rintro (h | h) <;> cases h
      · exact h
    | fail i =>
      simp only [fail]
      split
      · have := h.upd i (fun v => { v with phase := .ended, prev := none }) (fun w _ => ⟨Or.inr rfl, fun _ => Or.inr rfl⟩)
        exact ⟨this.cur, this.prev, this.phase⟩
      · exact h
    | begin_ i =>
      simp only [begin_]
      split
      · exact h
      · split
        · refine Lost.upd ?_ _ _ (fun v _ => ⟨Or.inr rfl, fun _ => Or.inl rfl⟩)
          unfold tell
          repeat' split
          all_goals first | exact h | exact h.upd _ _ (fun v _ => ⟨Or.inl rfl, id⟩)
        · exact h
    | close i =>
      simp only [close]
      split
      · exact h
      · split
        · have := h.upd i (fun v => { v with phase := .ended }) (fun w _ => ⟨Or.inl rfl, fun _ => Or.inr rfl⟩)
          exact ⟨this.cur, this.prev, this.phase⟩
        · exact h
    | crash i =>
      simp only [crash]
      split
      · have := h.upd i (fun v => { v with phase := .ended }) (fun w _ => ⟨Or.inl rfl, fun _ => Or.inr rfl⟩)
        exact ⟨this.cur, this.prev, this.phase⟩
      · exact h
    | panic i =>
      simp only [panic]
      split
      · exact h.upd i _ (fun w _ => ⟨Or.inr rfl, fun _ => Or.inr rfl⟩)
      · exact h
    | abort i => simp only [abort]; split; exact ⟨h.cur, h.prev, h.phase⟩; exact h
    | collect => simp only [collect]; split; exact ⟨h.cur, h.prev, h.phase⟩; exact h

theorem Lost.run (evs : List (Ev α)) : ∀ {s : St α} {k : Nat}, Lost s k → Lost (run s evs) k := by
  induction evs with
  | nil => exact fun h => h
  | cons e es ih => exact fun h => ih (h.step e)

/-- a lost service ends as soon as it looks at its channel -/
theorem Lost.close {s : St α} {k : Nat} (h : Lost s k) (hx : s.exited = false) : phaseOf (Control.step s (.close k)) k = some .ended := by
  obtain ⟨v, h1, h2⟩ := h.phase
  unfold Control.step
  rw [if_neg (by simp [hx])]
  simp only [Control.close, h1]
  rcases h2 with h2 | h2
  · have hheld : held s k = false := by
      simp only [held, Bool.or_eq_false_iff]
      refine ⟨by simpa using h.cur, ?_⟩
      rw [List.any_eq_false]
      intro w hw
      simpa using h.prev w hw
    rw [if_pos ⟨h2, Or.inr hheld⟩]
    show ((s.svcs.modify k _)[k]?).map _ = _
    rw [mod_ex _ h1]; simp
  · rw [if_neg (by rw [h2]; simp)]
    simp [phaseOf, h1, h2]

/-- **C56** is false for a failing start: let a service be running that is the current one, and let a reload start a new one
    that fails (a port is taken, say). Then, whatever happens afterwards (unless the process has ended), the old service ends as
    soon as it looks at its channel. -/
theorem C56_failed_start_fails (s : St α) (k : Nat) (v : Svc α) (hx : s.exited = false) (hl : s.listening = true)
    (hc : s.current = some k) (hv : s.svcs[k]? = some v) (hr : v.phase = .running) (hp : ∀ w ∈ s.svcs, w.prev ≠ some k)
    (cfg : α) (evs : List (Ev α)) :
    let t := run s ([.reload (some cfg), .fail s.svcs.length] ++ evs)
    t.exited = false → phaseOf (step t (.close k)) k = some .ended := by
  intro t ht
  refine Lost.close ?_ ht
  have : t = run (run s [.reload (some cfg), .fail s.svcs.length]) evs := by simp [t, run, List.foldl_append]
  rw [this]
  refine Lost.run evs ?_
  have h1 : step s (.reload (some cfg)) = reload s (some cfg) := by
    unfold step; rw [if_neg (by simp [hx])]; simp [hl]
  show Lost (step (step s (.reload (some cfg))) (.fail s.svcs.length)) k
  rw [h1]
  have hph : phaseOf (reload s (some cfg)) s.svcs.length = some .starting := by
    simp [phaseOf, reload, start]
  have h2 : step (reload s (some cfg)) (.fail s.svcs.length) = fail (reload s (some cfg)) s.svcs.length := by
    unfold step; rw [if_neg (by simp [reload, start, hx])]
  rw [h2, fail, if_pos hph]
  have hlt := lt_of_some hv
  refine ⟨?_, ?_, ?_⟩
  · show some s.svcs.length ≠ some k
    simp; omega
  · intro w hw
    have hw' : w ∈ (s.svcs ++ [(⟨cfg, .starting, s.current, false⟩ : Svc α)]).modify s.svcs.length
        (fun v => { v with phase := .ended, prev := none }) := hw
    obtain ⟨j, hj⟩ := List.getElem?_of_mem hw'
    obtain ⟨o, h3, h4⟩ := mod_some hj
    rcases snoc_some h3 with h3 | ⟨h3, h5⟩
    · rw [if_neg (by have := lt_of_some h3; omega)] at h4
      subst h4
      exact hp _ (List.mem_of_getElem? h3)
    · rw [if_pos h3.symm] at h4
      subst h4; simp
  · refine ⟨v, ?_, Or.inl hr⟩
    show ((s.svcs ++ [(⟨cfg, .starting, s.current, false⟩ : Svc α)]).modify s.svcs.length _)[k]? = some v
    rw [mod_ex _ (snoc_old hv), if_neg (by omega)]

/-- the whole process ends after a reload whose start fails -/
example : (run (init (0 : Nat) true) [.ready 0, .begin_ 0, .reload (some 1), .fail 1, .close 0, .collect, .collect]).exited = true := by
  decide

/-! ### C89 the process does not outlive its services -/

theorem collects (n : Nat) : ∀ s : St α, s.listening = true → s.exited = false → s.notices = n → s.count = n → 1 ≤ n →
    (run s (List.replicate n .collect)).exited = true := by
  induction n with
  | zero => intro s _ _ _ _ h; omega
  | succ n ih =>
    intro s hl hx hn hc _
    have hstep : step s .collect = { s with notices := n, count := n, exited := decide ((n : Int) ≤ 0) } := by
      unfold step
      rw [if_neg (by simp [hx])]
      simp only [collect]
      rw [if_pos ⟨hl, hx, by omega⟩]
      have h1 : s.notices - 1 = n := by omega
      have h2 : s.count - 1 = n := by omega
      rw [h1, h2]
    show (run (step s .collect) (List.replicate n .collect)).exited = true
    by_cases h0 : n = 0
    · subst h0
      rw [hstep]; rfl
    · rw [hstep]
      refine ih _ hl ?_ rfl rfl (by omega)
      simp; omega

/-- **C89** If the control port could be bound and no service panicked, then once all services have ended the process ends
    when the control server has taken the messages that are there. -/
theorem C89_exit_partial (cfg : α) (evs : List (Ev α)) (hp : ∀ e ∈ evs, isPanic e = false)
    (hend : ∀ v ∈ (run (init cfg true) evs).svcs, v.phase = .ended) :
    (run (run (init cfg true) evs) (List.replicate (run (init cfg true) evs).notices .collect)).exited = true := by
  have hl : ∀ (es : List (Ev α)) (s : St α), (run s es).listening = s.listening := by
    intro es
    induction es with
    | nil => exact fun s => rfl
    | cons e es ih =>
      intro s
      refine (ih (step s e)).trans ?_
      unfold step
      split
      · rfl
      · cases e with
        | reload p => simp only; split; cases p <;> rfl; rfl
        | stop => simp only [stop]; repeat' split
                  all_goals rfl
        | now => simp only; split <;> rfl
        | ready k => simp only [ready]; split <;> rfl
        | fail k => simp only [fail]; split <;> rfl
        | begin_ k =>
          simp only [begin_]
          repeat' split
          · rfl
          · exact (ended_tell s _).2.2.2.2.2.1
          · rfl
        | close k => simp only [close]; repeat' split
                     all_goals rfl
        | crash k => simp only [crash]; split <;> rfl
        | panic k => simp only [panic]; split <;> rfl
        | abort k => simp only [abort]; split <;> rfl
        | collect => simp only [collect]; split <;> rfl
  have hlist := hl evs (init cfg true)
  rcases run_gone evs (Gone.init cfg true) with ⟨d', -, h2, h3⟩ | ⟨-, h2, -⟩ | ⟨-, h2⟩
  · have hd := h3 hp
    subst hd
    revert h2 hend hlist
    generalize run (init cfg true) evs = s
    intro hend hlist h2
    have hfull : endedCount s = s.svcs.length := by
      refine List.countP_eq_length.2 (fun v hv => ?_)
      simp [isEnded, hend v hv]
    have hlist : s.listening = true := hlist
    have hcount : s.count = s.notices := by have := h2.sum; omega
    have hpos := h2.pos
    exact collects s.notices s hlist h2.live rfl hcount (by omega)
  · rw [run_exited _ h2]; exact h2
  · rw [run_exited _ h2]; exact h2

example : ∀ v ∈ (run (init (0 : Nat) true) [.ready 0, .begin_ 0, .stop, .close 0]).svcs, v.phase = .ended := by decide

/-- **C89** is false after a panic: when the task of a service panics, the process never ends by itself afterwards, even when all
    its services have ended. -/
theorem C89_panic_fails (cfg : α) (b : Bool) (evs : List (Ev α)) (k : Nat) (v : Svc α)
    (hx : (run (init cfg b) evs).exited = false) (hv : (run (init cfg b) evs).svcs[k]? = some v) (hp : v.phase ≠ .ended)
    (more : List (Ev α)) (ha : ∀ e ∈ more, isAbort e = false) :
    (run (init cfg b) (evs ++ .panic k :: more)).exited = false := by
  rcases run_gone evs (Gone.init cfg b) with ⟨d, -, h2, -⟩ | ⟨-, h2, -⟩ | ⟨-, h2⟩
  · have hrun : run (init cfg b) (evs ++ .panic k :: more) = run (step (run (init cfg b) evs) (.panic k)) more := by
      simp [run, List.foldl_append]
    rw [hrun]
    have hg : Gone (step (run (init cfg b) evs) (.panic k)) (d + 1) := by
      revert h2 hv hx
      generalize run (init cfg b) evs = s
      intro hx hv h2
      unfold step
      rw [if_neg (by simp [hx])]
      have hph : phaseOf s k = some .starting ∨ phaseOf s k = some .bound ∨ phaseOf s k = some .running := by
        simp only [phaseOf, hv, Option.map_some, Option.some.injEq]
        cases h : v.phase with
        | starting => simp
        | bound => simp
        | running => simp
        | ended => exact absurd h hp
      simp only [panic]
      rw [if_pos hph]
      refine ⟨h2.live, h2.pos, ?_⟩
      rw [ended_more _ hv hp rfl]
      have := h2.sum
      show (s.notices : Int) + (s.svcs.modify k _).length - s.count + ((d + 1 : Nat) : Int) = ((endedCount s + 1 : Nat) : Int)
      rw [List.length_modify]; omega
    rcases run_gone more hg with ⟨d', -, h4, -⟩ | ⟨h4, -⟩ | ⟨⟨e, he, he2⟩, -⟩
    · exact h4.live
    · omega
    · rw [ha e he] at he2; cases he2
  · rw [hx] at h2; cases h2
  · rw [hx] at h2; cases h2

example : (run (init (0 : Nat) true) [.ready 0, .begin_ 0]).svcs[0]? = some ⟨0, .running, none, false⟩ := by decide

/-- **C89** is false when the control port is taken: the process never ends, even when its only service could not start. -/
theorem C89_port_fails (cfg : α) (evs : List (Ev α)) (ha : ∀ e ∈ evs, isAbort e = false) :
    (run (init cfg false) evs).exited = false := by
  have main : ∀ (es : List (Ev α)) (s : St α), (∀ e ∈ es, isAbort e = false) → s.listening = false → s.exited = false →
      (run s es).exited = false := by
    intro es
    induction es with
    | nil => exact fun s _ _ h => h
    | cons e es ih =>
      intro s ha hl hx
      have h2 : (step s e).listening = false ∧ (step s e).exited = false := by
        unfold step
        rw [if_neg (by simp [hx])]
        cases e with
        | reload p => simp only [hl]; exact ⟨hl, hx⟩
        | stop => simp only [hl]; exact ⟨hl, hx⟩
        | now => simp only [hl]; exact ⟨hl, hx⟩
        | ready k => simp only [ready]; split <;> exact ⟨hl, hx⟩
        | fail k => simp only [fail]; split <;> exact ⟨hl, hx⟩
        | begin_ k =>
          simp only [begin_]
          split
          · exact ⟨hl, hx⟩
          · rename_i v _
            split
            · obtain ⟨-, -, -, -, h5, h6, -⟩ := ended_tell s v.prev
              exact ⟨h6.trans hl, h5.trans hx⟩
            · exact ⟨hl, hx⟩
        | close k => simp only [close]; repeat' split
                     all_goals exact ⟨hl, hx⟩
        | crash k => simp only [crash]; split <;> exact ⟨hl, hx⟩
        | panic k => simp only [panic]; split <;> exact ⟨hl, hx⟩
        | abort k => cases ha (.abort k) List.mem_cons_self
        | collect => simp only [collect]; rw [if_neg (by simp [hl])]; exact ⟨hl, hx⟩
      exact ih _ (fun e he => ha e (List.mem_cons_of_mem _ he)) h2.1 h2.2
  exact main evs _ ha rfl rfl

/-! ### C90 the replies of the control server -/

theorem step_replies (s : St α) (e : Ev α) : (step s e).option = s.option ∧
    ((step s e).nowReplies = s.nowReplies ∨ (step s e).nowReplies = s.nowReplies ++ [s.option]) ∧
    ((step s e).reloadReplies = s.reloadReplies ∨ (step s e).reloadReplies = s.reloadReplies ++ [true]) := by
  unfold step
  split
  · exact ⟨rfl, Or.inl rfl, Or.inl rfl⟩
  · cases e with
    | reload p =>
      simp only
      split
      · cases p <;> exact ⟨rfl, Or.inl rfl, Or.inr rfl⟩
      · exact ⟨rfl, Or.inl rfl, Or.inl rfl⟩
    | stop => simp only [stop]; repeat' split
              all_goals exact ⟨rfl, Or.inl rfl, Or.inl rfl⟩
    | now =>
      simp only
      split
      · exact ⟨rfl, Or.inr rfl, Or.inl rfl⟩
      · exact ⟨rfl, Or.inl rfl, Or.inl rfl⟩
    | ready k => simp only [ready]; split <;> exact ⟨rfl, Or.inl rfl, Or.inl rfl⟩
    | fail k => simp only [fail]; split <;> exact ⟨rfl, Or.inl rfl, Or.inl rfl⟩
    | begin_ k =>
      simp only [begin_]
      split
      · exact ⟨rfl, Or.inl rfl, Or.inl rfl⟩
      · rename_i v _
        split
        · obtain ⟨-, -, -, -, -, -, -, h1, h2, h3⟩ := ended_tell s v.prev
          exact ⟨h1, Or.inl h2, Or.inl h3⟩
        · exact ⟨rfl, Or.inl rfl, Or.inl rfl⟩
    | close k => simp only [close]; repeat' split
                 all_goals exact ⟨rfl, Or.inl rfl, Or.inl rfl⟩
    | crash k => simp only [crash]; split <;> exact ⟨rfl, Or.inl rfl, Or.inl rfl⟩
    | panic k => simp only [panic]; split <;> exact ⟨rfl, Or.inl rfl, Or.inl rfl⟩
    | abort k => simp only [abort]; split <;> exact ⟨rfl, Or.inl rfl, Or.inl rfl⟩
    | collect => simp only [collect]; split <;> exact ⟨rfl, Or.inl rfl, Or.inl rfl⟩

theorem run_replies (cfg : α) (evs : List (Ev α)) : ∀ s : St α, s.option = cfg → (∀ x ∈ s.nowReplies, x = cfg) →
    (∀ x ∈ s.reloadReplies, x = true) →
    (∀ x ∈ (run s evs).nowReplies, x = cfg) ∧ (∀ x ∈ (run s evs).reloadReplies, x = true) := by
  induction evs with
  | nil => exact fun s _ h1 h2 => ⟨h1, h2⟩
  | cons e es ih =>
    intro s h0 h1 h2
    obtain ⟨h3, h4, h5⟩ := step_replies s e
    refine ih _ (h3.trans h0) ?_ ?_
    · rcases h4 with h4 | h4 <;> rw [h4]
      · exact h1
      · intro x hx
        rw [List.mem_append, List.mem_singleton] at hx
        rcases hx with hx | hx
        · exact h1 x hx
        · rw [hx]; exact h0
    · rcases h5 with h5 | h5 <;> rw [h5]
      · exact h2
      · intro x hx
        rw [List.mem_append, List.mem_singleton] at hx
        rcases hx with hx | hx
        · exact h2 x hx
        · exact hx

/-- **C90** is false: in every history, every request for the present configuration is answered with the one of the first
    start, whatever was loaded since; and every reload is answered as successful, though it could not be read. -/
theorem C90_replies_fails (cfg : α) (b : Bool) (evs : List (Ev α)) :
    (∀ x ∈ (run (init cfg b) evs).nowReplies, x = cfg) ∧ (∀ x ∈ (run (init cfg b) evs).reloadReplies, x = true) :=
  run_replies cfg evs _ rfl (by simp [init, start]) (by simp [init, start])

/-- the running service has another configuration, and a reload failed -/
example : (run (init (0 : Nat) true) [.ready 0, .begin_ 0, .reload (some 1), .ready 1, .begin_ 1, .close 0, .now, .reload none]).svcs =
      [⟨0, .ended, none, true⟩, ⟨1, .running, none, false⟩] ∧
    (run (init (0 : Nat) true) [.ready 0, .begin_ 0, .reload (some 1), .ready 1, .begin_ 1, .close 0, .now, .reload none]).nowReplies = [0] ∧
    (run (init (0 : Nat) true) [.ready 0, .begin_ 0, .reload (some 1), .ready 1, .begin_ 1, .close 0, .now, .reload none]).reloadReplies =
      [true, true] := by decide

end Wm.Control
