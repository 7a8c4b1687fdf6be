import Verif.Model.PidFile
import Verif.Props.Helper
/-! Property C209: the command `stop` ends the service and nothing else. -/
namespace Wm.PidFile
open Wm

/-- no two processes have the same number -/
structure Uniq (s : St) : Prop where
  one : ∀ p a b, (p, a) ∈ s.live → (p, b) ∈ s.live → a = b

theorem run_append (xs ys : List Event) : run (xs ++ ys) = ys.foldl step (run xs) := List.foldl_append ..

theorem run_snoc (xs : List Event) (e : Event) : run (xs ++ [e]) = step (run xs) e := run_append xs [e]

theorem free_iff {s : St} {p : Nat} : free s p = true ↔ ∀ b, (p, b) ∉ s.live := by
  unfold free
  rw [Bool.not_eq_true', List.any_eq_false]
  constructor
  · intro h b hb; exact h _ hb (by simp)
  · rintro h ⟨q, b⟩ hb he
    have : q = p := by simpa using he
    subst this
    exact h b hb

theorem find_live {s : St} (h : Uniq s) {p : Nat} {b : Bool} (hp : (p, b) ∈ s.live) :
    s.live.find? (fun e => showNat e.1 == showNat p) = some (p, b) := by
  cases hf : s.live.find? (fun e => showNat e.1 == showNat p) with
  | none =>
    have := List.find?_eq_none.1 hf _ hp
    simp at this
  | some e =>
    have h1 := List.find?_some hf
    have h2 := List.mem_of_find?_eq_some hf
    have h3 : e.1 = p := Helper.showNat_inj (by simpa using h1)
    obtain ⟨q, c⟩ := e
    subst h3
    rw [h.one _ _ _ h2 hp]

theorem mem_filter_ne {s : St} {p q : Nat} {b : Bool} :
    (q, b) ∈ s.live.filter (fun x => x.1 != p) ↔ (q, b) ∈ s.live ∧ q ≠ p := by
  simp [List.mem_filter]

theorem uniq_filter {s : St} (h : Uniq s) (p : Nat) (f : Option Text) (k : List (Nat × Bool)) :
    Uniq ⟨s.live.filter (fun x => x.1 != p), f, k⟩ :=
  ⟨fun q a b ha hb => h.one q a b (mem_filter_ne.1 ha).1 (mem_filter_ne.1 hb).1⟩

theorem uniq_add {s : St} (h : Uniq s) {p : Nat} (hp : free s p = true) (c : Bool) (f : Option Text) (k : List (Nat × Bool)) :
    Uniq ⟨s.live ++ [(p, c)], f, k⟩ := by
  have hp := free_iff.1 hp
  refine ⟨fun q a b ha hb => ?_⟩
  simp only [List.mem_append, List.mem_singleton, Prod.mk.injEq] at ha hb
  rcases ha with ha | ⟨rfl, rfl⟩ <;> rcases hb with hb | ⟨hq, rfl⟩
  · exact h.one q a b ha hb
  · subst hq; exact absurd ha (hp a)
  · exact absurd hb (hp b)
  · rfl

theorem uniq_kill {s : St} (h : Uniq s) (id : Text) : Uniq (kill s id) := by
  unfold kill
  cases s.live.find? (fun e => showNat e.1 == id) with
  | none => exact h
  | some e =>
    dsimp only
    split
    · exact uniq_filter h _ _ _
    · exact ⟨h.one⟩

theorem uniq_step {s : St} (h : Uniq s) (e : Event) : Uniq (step s e) := by
  cases e with
  | start p => simp only [step]; split <;> [exact uniq_add h ‹_› _ _ _; exact h]
  | other p => simp only [step]; split <;> [exact uniq_add h ‹_› _ _ _; exact h]
  | quit p => simp only [step]; split <;> [exact uniq_filter h _ _ _; exact h]
  | die p => simp only [step]; split <;> [exact uniq_filter h _ _ _; exact h]
  | ends p => simp only [step]; split <;> [exact uniq_filter h _ _ _; exact h]
  | stop =>
    simp only [step]
    split
    · exact h
    · split
      · exact h
      · exact uniq_kill h _

theorem uniq_run (es : List Event) : Uniq (run es) := by
  induction es using List.reverseRecOn with
  | nil => exact ⟨fun _ _ _ h _ => by cases h⟩
  | append_singleton es e ih => rw [run_snoc]; exact uniq_step ih e

theorem stop_hits {s : St} (h : Uniq s) {p : Nat} {b : Bool} (hp : (p, b) ∈ s.live) (hf : s.file = some (showNat p)) :
    step s .stop = { s with live := if b then s.live.filter (fun x => x.1 != p) else s.live, hit := s.hit ++ [(p, b)] } := by
  simp only [step, hf]
  rw [if_neg (showNat_ne_nil p)]
  unfold kill
  rw [find_live h hp, ← hf]

/-- this process of the program runs when `es` has happened -/
def Runs (p : Nat) (es : List Event) : Prop := (p, true) ∈ (run es).live

/-- the file names a process of this program that runs -/
def Named (s : St) : Prop := ∀ t, s.file = some t → ∃ p, t = showNat p ∧ (p, true) ∈ s.live

theorem named_step {s : St} (hu : Uniq s) (h : Named s) (e : Event) (h1 : ∀ p, e ≠ .die p) (h2 : e ≠ .stop) : Named (step s e) := by
  cases e with
  | die p => exact absurd rfl (h1 p)
  | stop => exact absurd rfl h2
  | start p =>
    simp only [step]; split
    · intro t ht; cases ht; exact ⟨p, rfl, by simp⟩
    · exact h
  | other p =>
    simp only [step]; split
    · intro t ht
      obtain ⟨q, h3, h4⟩ := h t ht
      exact ⟨q, h3, List.mem_append_left _ h4⟩
    · exact h
  | quit p =>
    simp only [step]; split
    · intro t ht
      dsimp only at ht
      split at ht
      · cases ht
      · rename_i hn
        obtain ⟨q, h3, h4⟩ := h t ht
        exact ⟨q, h3, mem_filter_ne.2 ⟨h4, fun hq => hn (by rw [ht, h3, hq])⟩⟩
    · exact h
  | ends p =>
    simp only [step]; split
    · rename_i hp
      intro t ht
      obtain ⟨q, h3, h4⟩ := h t ht
      refine ⟨q, h3, mem_filter_ne.2 ⟨h4, ?_⟩⟩
      rintro rfl
      exact absurd (hu.one _ _ _ hp h4) (by simp)
    · exact h

theorem hit_step (s : St) (e : Event) (h : e ≠ .stop) : (step s e).hit = s.hit := by
  cases e with
  | stop => exact absurd rfl h
  | start p => simp only [step]; split <;> rfl
  | other p => simp only [step]; split <;> rfl
  | quit p => simp only [step]; split <;> rfl
  | die p => simp only [step]; split <;> rfl
  | ends p => simp only [step]; split <;> rfl

theorem proper_run (es : List Event) (h1 : ∀ p, .die p ∉ es) (h2 : .stop ∉ es) : Named (run es) ∧ (run es).hit = [] := by
  induction es using List.reverseRecOn with
  | nil => exact ⟨(fun t h => by cases h), rfl⟩
  | append_singleton es e ih =>
    obtain ⟨h3, h4⟩ := ih (fun p hp => h1 p (by simp [hp])) (fun hp => h2 (by simp [hp]))
    rw [run_snoc]
    have he : e ≠ .stop := fun he => h2 (by simp [he])
    exact ⟨named_step (uniq_run es) h3 e (fun p hp => h1 p (by simp [hp])) he, by rw [hit_step _ _ he]; exact h4⟩

/-- **C209**, partial: as long as every process of this program ended by returning properly and nobody used `stop` before, `stop`
    sends its signal to no other process, and it ends the process started last, if that is still running.
    Missing: processes that end otherwise — also by `stop` itself —, see `C209_again_fails` and `C209_crash_fails`, and several
    processes, see `C209_two_fails`. -/
theorem C209_stop_partial (es : List Event) (h1 : ∀ p, .die p ∉ es) (h2 : .stop ∉ es) :
    (∀ e ∈ (run (es ++ [.stop])).hit, e.2 = true ∧ Runs e.1 es) ∧
    (∀ p before after, es = before ++ .start p :: after → (∀ b, (p, b) ∉ (run before).live) → (∀ q, .start q ∉ after) →
      .quit p ∉ after → (run (es ++ [.stop])).hit = [(p, true)] ∧ ¬ Runs p (es ++ [.stop])) := by
  obtain ⟨h3, h4⟩ := proper_run es h1 h2
  constructor
  · intro e he
    rw [run_snoc] at he
    cases hf : (run es).file with
    | none => simp [step, hf, h4] at he
    | some t =>
      obtain ⟨p, rfl, hp⟩ := h3 t hf
      rw [stop_hits (uniq_run es) hp hf, h4] at he
      simp at he
      subst he
      exact ⟨rfl, hp⟩
  · rintro p before after rfl hfree hstart hquit
    have key : ∀ after : List Event, (∀ q, .start q ∉ after) → .quit p ∉ after → (∀ q, .die q ∉ after) → .stop ∉ after →
        (p, true) ∈ (run (before ++ .start p :: after)).live ∧ (run (before ++ .start p :: after)).file = some (showNat p) := by
      intro after
      induction after using List.reverseRecOn with
      | nil =>
        intro _ _ _ _
        rw [run_snoc]
        simp only [step]
        rw [if_pos (free_iff.2 hfree)]
        exact ⟨by simp, rfl⟩
      | append_singleton after e ih =>
        intro a1 a2 a3 a4
        obtain ⟨g1, g2⟩ := ih (fun q hq => a1 q (by simp [hq])) (fun hq => a2 (by simp [hq])) (fun q hq => a3 q (by simp [hq]))
          (fun hq => a4 (by simp [hq]))
        have hu := uniq_run (before ++ .start p :: after)
        rw [show before ++ Event.start p :: (after ++ [e]) = (before ++ .start p :: after) ++ [e] by simp, run_snoc]
        generalize run (before ++ .start p :: after) = s at *
        cases e with
        | start q => exact absurd (by simp) (a1 q)
        | die q => exact absurd (by simp) (a3 q)
        | stop => exact absurd (by simp) a4
        | other q =>
          simp only [step]; split
          · exact ⟨List.mem_append_left _ g1, g2⟩
          · exact ⟨g1, g2⟩
        | quit q =>
          have hq : p ≠ q := by rintro rfl; exact a2 (by simp)
          simp only [step]; split
          · refine ⟨mem_filter_ne.2 ⟨g1, hq⟩, ?_⟩
            dsimp only
            rw [if_neg (by rw [g2]; intro h; exact hq (Helper.showNat_inj (Option.some.inj h)))]
            exact g2
          · exact ⟨g1, g2⟩
        | ends q =>
          simp only [step]; split
          · rename_i hq
            refine ⟨mem_filter_ne.2 ⟨g1, ?_⟩, g2⟩
            rintro rfl
            exact absurd (hu.one _ _ _ hq g1) (by simp)
          · exact ⟨g1, g2⟩
    obtain ⟨k1, k2⟩ := key after hstart hquit (fun q hq => h1 q (by simp [hq])) (fun hq => h2 (by simp [hq]))
    unfold Runs
    rw [run_snoc, stop_hits (uniq_run _) k1 k2, h4]
    refine ⟨rfl, ?_⟩
    dsimp only
    rw [if_pos rfl]
    exact fun h => (mem_filter_ne.1 h).2 rfl

/-- **C209** fails when `stop` is used twice: after any history, `stop` ends the process that the file names and leaves the file; when
    another process has got this number, the next `stop` sends its signal to that one. -/
theorem C209_again_fails (es : List Event) (p : Nat) (hp : Runs p es) (hf : (run es).file = some (showNat p)) :
    (run (es ++ [.stop, .other p, .stop])).hit = (run es).hit ++ [(p, true), (p, false)] := by
  have hu := uniq_run es
  have h1 := stop_hits hu hp hf
  rw [if_pos rfl] at h1
  rw [run_append, List.foldl_cons, List.foldl_cons, List.foldl_cons, List.foldl_nil, h1]
  have h2 := uniq_filter hu p (run es).file ((run es).hit ++ [(p, true)])
  generalize hs : (⟨(run es).live.filter (fun x => x.1 != p), (run es).file, (run es).hit ++ [(p, true)]⟩ : St) = s at *
  have hfr : free s p = true := free_iff.2 fun b hb => ((mem_filter_ne (s := run es)).1 (by rw [← hs] at hb; exact hb)).2 rfl
  have h3 : step s (.other p) = { s with live := s.live ++ [(p, false)] } := by simp only [step]; rw [if_pos hfr]
  have h4 := uniq_add h2 hfr false s.file s.hit
  rw [h3, stop_hits (p := p) (b := false) h4 (by simp) (by rw [← hs]; exact hf)]
  rw [← hs]
  simp

/-- **C209** fails after a crash: if the process that the file names ends otherwise than by returning properly, and another process
    gets its number, `stop` sends its signal to that one. -/
theorem C209_crash_fails (es : List Event) (p : Nat) (hp : Runs p es) (hf : (run es).file = some (showNat p)) :
    (run (es ++ [.die p, .other p, .stop])).hit = (run es).hit ++ [(p, false)] := by
  have hu := uniq_run es
  have h1 : step (run es) (.die p) = { run es with live := (run es).live.filter (fun x => x.1 != p) } := by
    simp only [step]; exact if_pos hp
  rw [run_append, List.foldl_cons, List.foldl_cons, List.foldl_cons, List.foldl_nil, h1]
  have h2 := uniq_filter hu p (run es).file (run es).hit
  generalize hs : (⟨(run es).live.filter (fun x => x.1 != p), (run es).file, (run es).hit⟩ : St) = s at *
  have hfr : free s p = true := free_iff.2 fun b hb => ((mem_filter_ne (s := run es)).1 (by rw [← hs] at hb; exact hb)).2 rfl
  have h3 : step s (.other p) = { s with live := s.live ++ [(p, false)] } := by simp only [step]; rw [if_pos hfr]
  have h4 := uniq_add h2 hfr false s.file s.hit
  rw [h3, stop_hits (p := p) (b := false) h4 (by simp) (by rw [← hs]; exact hf)]
  rw [← hs]

/-- **C209** fails with two processes of this program: when the one started last has returned, `stop` does nothing, though the other
    one is still running. -/
theorem C209_two_fails (es : List Event) (p q : Nat) (hp : Runs p es) (hq : Runs q es) (hpq : p ≠ q)
    (hf : (run es).file = some (showNat q)) :
    (run (es ++ [.quit q, .stop])).hit = (run es).hit ∧ Runs p (es ++ [.quit q, .stop]) := by
  have h1 : step (run es) (.quit q) = { run es with live := (run es).live.filter (fun x => x.1 != q), file := none } := by
    simp only [step]
    rw [if_pos (show (q, true) ∈ (run es).live from hq), if_pos hf]
  unfold Runs
  rw [run_append, List.foldl_cons, List.foldl_cons, List.foldl_nil, h1]
  exact ⟨rfl, mem_filter_ne.2 ⟨hp, hpq⟩⟩

/-! ### Examples -/

/-- one process among others; a second one started later and ended properly; after `stop`, number 7 goes to another process -/
example : (run [.other 3, .start 7, .stop]).hit = [(7, true)] ∧ (run [.start 7, .start 8, .quit 7, .stop]).hit = [(8, true)] ∧
    Runs 7 [.other 3, .start 7] ∧ (run [.other 3, .start 7]).file = some (showNat 7) ∧
    (run [.other 3, .start 7, .stop, .other 7, .stop]).hit = [(7, true), (7, false)] ∧
    Runs 7 [.start 7, .start 8] ∧ Runs 8 [.start 7, .start 8] ∧ (run [.start 7, .start 8, .quit 8, .stop]).hit = [] := by
  unfold Runs; decide +kernel

end Wm.PidFile
