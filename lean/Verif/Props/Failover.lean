import Verif.Model.Failover
import Verif.Props.Health
import Verif.Props.Upstream
import Mathlib.Data.List.Induction
/-! # C213: what a server that does not work costs the others of its group -/
namespace Wm.Failover
open Wm Wm.Health

variable {A : Type} [DecidableEq A]

theorem run_snoc (checked : Bool) (ss : List (Server A)) (answer : A → Nat → Answer) (es : List Event) (e : Event) :
    run checked ss answer (es ++ [e]) = step checked ss answer (run checked ss answer es) e := by
  simp [run, List.foldl_append]

/-- A request that is connected at once has the effect of `connect` for the one address (C42). -/
theorem ask_settle (checked : Bool) (ss : List (Server A)) (answer : A → Nat → Answer) (s : St A) (t t' : Nat)
    (draw : Nat → Nat) (a : A) (hg : getServer checked s.h t ss draw = .ok (some a)) (hu : s.h.isDown a t = false) :
    (step checked ss answer (step checked ss answer s (.ask t draw)) (.settle s.under.length t')).h =
      (connect s.h [⟨a, t, answer a t', t'⟩]).1 := by
  have h1 : step checked ss answer s (.ask t draw) = { s with under := s.under ++ [(t, a)] } := by
    simp [step, hg, hu]
  rw [h1]
  simp only [step, List.getElem?_concat_length, connect, hu]
  cases answer a t' <;> rfl

theorem since_mem (T : Nat) (evs : List (Nat × Bool)) : ∀ b ∈ sinceSilence T evs, ∃ e ∈ evs, e.2 = b := by
  induction evs using List.reverseRecOn with
  | nil => intro b hb; simp [sinceSilence] at hb
  | append_singleton evs e ih =>
    intro b hb
    rw [sinceSilence_snoc, List.mem_append] at hb
    rcases hb with hb | hb
    · split at hb
      · simp at hb
      · obtain ⟨e', h1, h2⟩ := ih b hb
        exact ⟨e', by simp [h1], h2⟩
    · exact ⟨e, by simp, (List.mem_singleton.1 hb).symm⟩

/-- an address that never failed is not down -/
theorem up_of_works (ops : List (Op A)) (x : A) (now : Nat)
    (h : ∀ e ∈ outcomesOf x ops, e.2 = true) : ((Check.global : Check A).run ops).isDown x now = false := by
  rw [Bool.eq_false_iff]
  intro hd
  obtain ⟨_, _, _, a, b, hab, _⟩ := (C41_down (sec 60) 3 2 (by omega) (by omega) ops x now).1 hd
  obtain ⟨e, he, hf⟩ := since_mem _ (outcomesOf x ops) false (by rw [hab]; simp [List.replicate])
  rw [h e he] at hf
  cases hf

/-- three failures in the last minute, and no success, make an address down -/
theorem down_of_fails (ops : List (Op A)) (hna : NoActive ops) (x : A) (t0 now : Nat) (hnow : now ≤ t0 + sec 60)
    (hf : ∀ e ∈ outcomesOf x ops, e.2 = false ∧ e.1 ≤ now)
    (hs : (outcomesOf x ops).Pairwise fun a b => a.1 ≤ b.1)
    (hc : 3 ≤ ((outcomesOf x ops).filter fun e => decide (t0 ≤ e.1)).length) :
    ((Check.global : Check A).run ops).isDown x now = true := by
  refine (C41_down (sec 60) 3 2 (by omega) (by omega) ops x now).2 ?_
  rw [patience_noActive _ x ops hna]
  generalize outcomesOf x ops = evs at *
  obtain ⟨evs, e3, rfl⟩ : ∃ l e, evs = l ++ [e] := by
    rcases List.eq_nil_or_concat evs with rfl | ⟨l, e, h⟩
    · simp at hc
    · exact ⟨l, e, by rw [h, List.concat_eq_append]⟩
  obtain ⟨evs, e2, rfl⟩ : ∃ l e, evs = l ++ [e] := by
    rcases List.eq_nil_or_concat evs with rfl | ⟨l, e, h⟩
    · have := List.length_filter_le (fun e : Nat × Bool => decide (t0 ≤ e.1)) [e3]
      simp only [List.nil_append] at hc
      simp at this; omega
    · exact ⟨l, e, by rw [h, List.concat_eq_append]⟩
  obtain ⟨evs, e1, rfl⟩ : ∃ l e, evs = l ++ [e] := by
    rcases List.eq_nil_or_concat evs with rfl | ⟨l, e, h⟩
    · have := List.length_filter_le (fun e : Nat × Bool => decide (t0 ≤ e.1)) [e2, e3]
      simp only [List.nil_append, List.cons_append] at hc
      simp only [List.length_cons, List.length_nil] at this; omega
    · exact ⟨l, e, by rw [h, List.concat_eq_append]⟩
  have f1 := hf e1 (by simp)
  have f2 := hf e2 (by simp)
  have f3 := hf e3 (by simp)
  have s12 : e1.1 ≤ e2.1 := by
    have := (List.pairwise_append.1 (List.pairwise_append.1 hs).1).2.2 e1 (by simp) e2 (by simp)
    exact this
  have s23 : e2.1 ≤ e3.1 := (List.pairwise_append.1 hs).2.2 e2 (by simp) e3 (by simp)
  have h1 : t0 ≤ e1.1 := by
    by_cases h : t0 ≤ e1.1
    · exact h
    · exfalso
      have hp : ∀ e ∈ evs ++ [e1], ¬ t0 ≤ e.1 := by
        intro e he hle
        rcases List.mem_append.1 he with he | he
        · have := (List.pairwise_append.1 (List.pairwise_append.1 (List.pairwise_append.1 hs).1).1).2.2 e he e1 (by simp)
          omega
        · rw [List.mem_singleton.1 he] at hle; exact h hle
      have h0 : (evs ++ [e1]).filter (fun e => decide (t0 ≤ e.1)) = [] := by
        rw [List.filter_eq_nil_iff]
        intro e he
        simpa using hp e he
      rw [List.filter_append, List.filter_append, h0] at hc
      have g2 := List.length_filter_le (fun e : Nat × Bool => decide (t0 ≤ e.1)) [e2]
      have g3 := List.length_filter_le (fun e : Nat × Bool => decide (t0 ≤ e.1)) [e3]
      simp only [List.length_append, List.length_nil, List.length_cons] at hc g2 g3
      omega
  refine ⟨e3.1, by simp, ?_, ?_⟩
  · have := f3.2; omega
  · rw [sinceSilence_snoc, sinceSilence_snoc, sinceSilence_snoc]
    have d2 : decide (e2.1 - e1.1 > sec 60) = false := by
      have := f2.2; simp; omega
    have d3 : decide (e3.1 - e2.1 > sec 60) = false := by
      have := f3.2; simp; omega
    simp only [List.getLast?_concat, Option.map_some, Option.elim, d2, d3, Bool.false_eq_true, if_false, f1.1, f2.1, f3.1]
    exact ⟨_, [], by simp [List.replicate, List.append_assoc]; rfl, by simp [List.replicate]⟩

/-- the events come in the order of their times -/
def Ordered (es : List Event) : Prop := (es.map Event.time).Pairwise (· ≤ ·)

/-- what holds along every execution in which the servers of `dead` never answer and the others always do -/
structure Inv (dead : A → Bool) (s : St A) (ops : List (Op A)) (now : Nat) : Prop where
  recs : s.h = (Check.global : Check A).run ops
  noAct : NoActive ops
  out : ∀ x, ∀ e ∈ outcomesOf x ops, e.2 = !dead x ∧ e.1 ≤ now
  sorted : ∀ x, (outcomesOf x ops).Pairwise fun a b => a.1 ≤ b.1
  lost : ∀ e ∈ s.lost, ∃ a, e.2 = some a ∧ dead a = true

theorem outcomesOf_snoc (x a : A) (ops : List (Op A)) (t : Nat) (ok : Bool) :
    outcomesOf x (ops ++ [.outcome a t ok]) = outcomesOf x ops ++ if a = x then [(t, ok)] else [] := by
  unfold outcomesOf
  rw [List.filterMap_append]
  by_cases h : a = x <;> simp [h]

theorem Inv.record {dead : A → Bool} {s : St A} {ops : List (Op A)} {now : Nat} (hi : Inv dead s ops now) (a : A) (t : Nat)
    (ht : now ≤ t) (s' : St A) (hh : s'.h = s.h.step (.outcome a t (!dead a)))
    (hl : ∀ e ∈ s'.lost, ∃ a, e.2 = some a ∧ dead a = true) : Inv dead s' (ops ++ [.outcome a t (!dead a)]) t := by
  refine ⟨?_, ?_, ?_, ?_, hl⟩
  · rw [hh, hi.recs]; simp [Check.run, List.foldl_append]
  · intro o ho
    rcases List.mem_append.1 ho with ho | ho
    · exact hi.noAct o ho
    · exact ⟨a, t, _, List.mem_singleton.1 ho⟩
  · intro x e he
    rw [outcomesOf_snoc] at he
    rcases List.mem_append.1 he with he | he
    · have := hi.out x e he
      exact ⟨this.1, by omega⟩
    · split at he
      · rename_i hx
        rw [List.mem_singleton.1 he, hx]; exact ⟨rfl, Nat.le_refl _⟩
      · simp at he
  · intro x
    rw [outcomesOf_snoc, List.pairwise_append]
    refine ⟨hi.sorted x, by split <;> simp, ?_⟩
    intro e he f hf
    split at hf
    · rw [List.mem_singleton.1 hf]
      have := (hi.out x e he).2
      show e.1 ≤ t
      omega
    · simp at hf

/-- the requests for `x` that came in the minute after `t0`, among those answered with an error -/
def lostTo (t0 : Nat) (x : A) (s : St A) : Nat :=
  s.lost.countP fun e => decide (t0 ≤ e.1 ∧ e.1 ≤ t0 + sec 60 ∧ e.2 = some x)

/-- … and among those under way -/
def underTo (t0 : Nat) (x : A) (s : St A) : Nat :=
  s.under.countP fun e => decide (t0 ≤ e.1 ∧ e.1 ≤ t0 + sec 60 ∧ e.2 = x)

/-- the failures recorded for `x` since `t0` -/
def failsOf (t0 : Nat) (x : A) (ops : List (Op A)) : Nat :=
  ((outcomesOf x ops).filter fun e => decide (t0 ≤ e.1)).length

theorem countP_eraseIdx {α : Type} (p : α → Bool) (l : List α) (i : Nat) (a : α) (h : l[i]? = some a) :
    l.countP p = (l.eraseIdx i).countP p + if p a then 1 else 0 := by
  induction l generalizing i with
  | nil => simp at h
  | cons b l ih =>
    cases i with
    | zero =>
      simp only [List.getElem?_cons_zero, Option.some.injEq] at h
      subst h
      simp [List.countP_cons]
    | succ i =>
      simp only [List.getElem?_cons_succ] at h
      have := ih i h
      simp only [List.eraseIdx_cons_succ, List.countP_cons]
      omega

/-- the settings of the servers, their weights, and one server that works -/
structure Suited (ss : List (Server A)) (dead : A → Bool) : Prop where
  settings : ∀ s ∈ ss, s.failTimeout = 60 * 1000000000 ∧ s.fallTimes = 3 ∧ s.riseTimes = 2
  weights : (ss.map (·.weight)).sum < 65536
  works : ∃ s ∈ ss, 0 < s.weight ∧ dead s.addr = false

def answers (dead : A → Bool) (a : A) (_ : Nat) : Answer := if dead a then .fail else .ok

theorem Inv.later {dead : A → Bool} {s : St A} {ops : List (Op A)} {now : Nat} (hi : Inv dead s ops now) (t : Nat)
    (ht : now ≤ t) (s' : St A) (hh : s'.h = s.h) (hl : s'.lost = s.lost) : Inv dead s' ops t :=
  ⟨hh.trans hi.recs, hi.noAct, fun x e he => ⟨(hi.out x e he).1, Nat.le_trans (hi.out x e he).2 ht⟩, hi.sorted, hl ▸ hi.lost⟩

/-- the time of the last event -/
def lastTime (es : List Event) : Nat := (es.getLast?.map Event.time).getD 0

theorem all_inv (checked : Bool) (ss : List (Server A)) (dead : A → Bool) (hw : Suited ss dead)
    (es : List Event) (ho : Ordered es) (hd : ∀ t draw, Event.ask t draw ∈ es → ∀ n, 0 < n → draw n < n) (k : Nat)
    (hk : ∀ es', es' <+: es → (run checked ss (answers dead) es').under.length ≤ k) :
    ∃ ops, Inv dead (run checked ss (answers dead) es) ops (lastTime es) ∧
      (∀ e ∈ (run checked ss (answers dead) es).under, e.1 ≤ lastTime es) ∧
      ∀ t0 x, dead x = true →
        lostTo t0 x (run checked ss (answers dead) es) ≤ failsOf t0 x ops ∧
        lostTo t0 x (run checked ss (answers dead) es) + underTo t0 x (run checked ss (answers dead) es) ≤ k + 2 := by
  induction es using List.reverseRecOn with
  | nil =>
    refine ⟨[], ⟨rfl, ?_, ?_, ?_, ?_⟩, ?_, ?_⟩
    · intro o ho; cases ho
    · intro x e he; cases he
    · intro x; exact List.Pairwise.nil
    · intro e he; cases he
    · intro e he; cases he
    · intro t0 x _; exact ⟨Nat.zero_le _, Nat.zero_le _⟩
  | append_singleton es e ih =>
    have hsplit := List.pairwise_append.1 (by simpa [Ordered] using ho : (es.map Event.time ++ [e.time]).Pairwise (· ≤ ·))
    obtain ⟨ops, hi, hu, hb⟩ := ih hsplit.1 (fun t draw hm => hd t draw (by simp [hm]))
      (fun es' h => hk es' (h.trans (List.prefix_append _ _)))
    have hle : lastTime es ≤ e.time := by
      unfold lastTime
      cases hl : es.getLast? with
      | none => exact Nat.zero_le _
      | some f => exact hsplit.2.2 f.time (List.mem_map_of_mem (List.mem_of_getLast? hl)) e.time (by simp)
    have hlast : lastTime (es ++ [e]) = e.time := by simp [lastTime]
    have hlen := hk (es ++ [e]) (List.prefix_refl _)
    have hlen0 := hk es (List.prefix_append _ _)
    rw [hlast]
    rw [run_snoc] at hlen ⊢
    generalize run checked ss (answers dead) es = s at *
    cases e with
    | ask t draw =>
      have hup : ∃ s' ∈ ss, 0 < s'.weight ∧ ((Check.global : Check A).run ops).isDown s'.addr t = false := by
        obtain ⟨s', h1, h2, h3⟩ := hw.works
        refine ⟨s', h1, h2, up_of_works ops s'.addr t ?_⟩
        intro f hf
        rw [(hi.out _ f hf).1, h3]; rfl
      obtain ⟨a, hg, _, hdn⟩ := (C43_usable_partial checked ops hi.noAct t ss draw (hd t draw (by simp)) hw.settings
        hw.weights).1 hup
      rw [← hi.recs] at hg hdn
      have hst : step checked ss (answers dead) s (.ask t draw) = { s with under := s.under ++ [(t, a)] } := by
        simp [step, hg, hdn]
      rw [hst] at hlen ⊢
      refine ⟨ops, hi.later t hle _ rfl rfl, ?_, ?_⟩
      · intro f hf
        rcases List.mem_append.1 hf with hf | hf
        · exact Nat.le_trans (hu f hf) hle
        · rw [List.mem_singleton.1 hf]; exact Nat.le_refl _
      · intro t0 x hx
        obtain ⟨b1, b2⟩ := hb t0 x hx
        refine ⟨b1, ?_⟩
        have hcnt : underTo t0 x { s with under := s.under ++ [(t, a)] } =
            underTo t0 x s + if t0 ≤ t ∧ t ≤ t0 + sec 60 ∧ a = x then 1 else 0 := by
          simp [underTo, List.countP_append, List.countP_cons]
        have hcl : underTo t0 x s ≤ s.under.length := List.countP_le_length
        have hl2 : lostTo t0 x { s with under := s.under ++ [(t, a)] } = lostTo t0 x s := rfl
        rw [hl2, hcnt]
        split
        · rename_i hwin
          obtain ⟨w1, w2, rfl⟩ := hwin
          have hlt : failsOf t0 a ops < 3 := by
            by_contra hc
            have := down_of_fails ops hi.noAct a t0 t w2
              (fun f hf => ⟨by rw [(hi.out a f hf).1, hx]; rfl, Nat.le_trans (hi.out a f hf).2 hle⟩) (hi.sorted a)
              (by unfold failsOf at hc; omega)
            rw [← hi.recs, hdn] at this
            cases this
          simp only [List.length_append, List.length_cons, List.length_nil] at hlen
          omega
        · omega
    | settle i t =>
      cases hg : s.under[i]? with
      | none =>
        have hst : step checked ss (answers dead) s (.settle i t) = s := by simp [step, hg]
        rw [hst]
        exact ⟨ops, hi.later t hle _ rfl rfl, fun f hf => Nat.le_trans (hu f hf) hle, hb⟩
      | some p =>
        obtain ⟨t1, a⟩ := p
        have ht1 : t1 ≤ t := Nat.le_trans (hu _ (List.mem_of_getElem? hg)) hle
        refine ⟨ops ++ [.outcome a t (!dead a)], ?_⟩
        have hsub : ∀ f ∈ s.under.eraseIdx i, f.1 ≤ t := fun f hf =>
          Nat.le_trans (hu f (List.mem_of_mem_eraseIdx hf)) hle
        have hf0 : ∀ t0 x, failsOf t0 x (ops ++ [.outcome a t (!dead a)]) =
            failsOf t0 x ops + if a = x ∧ t0 ≤ t then 1 else 0 := by
          intro t0 x
          unfold failsOf
          rw [outcomesOf_snoc, List.filter_append, List.length_append]
          congr 1
          by_cases h1 : a = x <;> by_cases h2 : t0 ≤ t <;> simp [h1, h2]
        have hue : ∀ t0 x, underTo t0 x s = (s.under.eraseIdx i).countP (fun e => decide (t0 ≤ e.1 ∧ e.1 ≤ t0 + sec 60 ∧ e.2 = x)) +
            if t0 ≤ t1 ∧ t1 ≤ t0 + sec 60 ∧ a = x then 1 else 0 := by
          intro t0 x
          unfold underTo
          rw [countP_eraseIdx _ s.under i (t1, a) hg]
          simp
        cases hda : dead a with
        | false =>
          have hst : step checked ss (answers dead) s (.settle i t) =
              { s with h := s.h.rise a t, under := s.under.eraseIdx i, served := s.served ++ [(t1, a)] } := by
            simp [step, hg, answers, hda]
          rw [hst]
          refine ⟨?_, hsub, ?_⟩
          · have := hi.record a t hle { s with h := s.h.rise a t, under := s.under.eraseIdx i, served := s.served ++ [(t1, a)] }
              (by rw [hda]; rfl) hi.lost
            rwa [hda] at this
          · intro t0 x hx
            obtain ⟨b1, b2⟩ := hb t0 x hx
            have hax : ¬ a = x := by rintro rfl; rw [hda] at hx; cases hx
            have g1 := hf0 t0 x
            have g2 := hue t0 x
            rw [if_neg (fun h => hax h.1), hda] at g1
            rw [if_neg (fun h => hax h.2.2)] at g2
            have g3 : lostTo t0 x { s with h := s.h.rise a t, under := s.under.eraseIdx i, served := s.served ++ [(t1, a)] } =
                lostTo t0 x s := rfl
            have g4 : underTo t0 x { s with h := s.h.rise a t, under := s.under.eraseIdx i, served := s.served ++ [(t1, a)] } =
              (s.under.eraseIdx i).countP (fun e => decide (t0 ≤ e.1 ∧ e.1 ≤ t0 + sec 60 ∧ e.2 = x)) := rfl
            rw [g3, g4]
            omega
        | true =>
          have hst : step checked ss (answers dead) s (.settle i t) =
              { s with h := s.h.fall a t, under := s.under.eraseIdx i, lost := s.lost ++ [(t1, some a)] } := by
            simp [step, hg, answers, hda]
          rw [hst]
          refine ⟨?_, hsub, ?_⟩
          · have := hi.record a t hle { s with h := s.h.fall a t, under := s.under.eraseIdx i, lost := s.lost ++ [(t1, some a)] }
              (by rw [hda]; rfl) (by
                intro f hf
                rcases List.mem_append.1 hf with hf | hf
                · exact hi.lost f hf
                · exact ⟨a, by rw [List.mem_singleton.1 hf], hda⟩)
            rwa [hda] at this
          · intro t0 x hx
            obtain ⟨b1, b2⟩ := hb t0 x hx
            have g1 := hf0 t0 x
            have g2 := hue t0 x
            have g3 : lostTo t0 x { s with h := s.h.fall a t, under := s.under.eraseIdx i, lost := s.lost ++ [(t1, some a)] } =
                lostTo t0 x s + if t0 ≤ t1 ∧ t1 ≤ t0 + sec 60 ∧ a = x then 1 else 0 := by
              simp [lostTo, List.countP_append, List.countP_cons]
            rw [hda] at g1
            rw [g3]
            have g4 : underTo t0 x { s with h := s.h.fall a t, under := s.under.eraseIdx i, lost := s.lost ++ [(t1, some a)] } =
              (s.under.eraseIdx i).countP (fun e => decide (t0 ≤ e.1 ∧ e.1 ≤ t0 + sec 60 ∧ e.2 = x)) := rfl
            rw [g4]
            by_cases hc : t0 ≤ t1 ∧ t1 ≤ t0 + sec 60 ∧ a = x
            · have hc2 : a = x ∧ t0 ≤ t := ⟨hc.2.2, Nat.le_trans hc.1 ht1⟩
              rw [if_pos hc] at g2 ⊢
              rw [if_pos hc2] at g1
              omega
            · rw [if_neg hc] at g2 ⊢
              omega

/-- a list whose entries are of few kinds, few of each kind, is short -/
theorem length_le_kinds {α : Type} (f : α → Option A) (kinds : List A) (b : Nat)
    (l : List α) (h1 : ∀ e ∈ l, ∃ x ∈ kinds, f e = some x)
    (h2 : ∀ x ∈ kinds, l.countP (fun e => decide (f e = some x)) ≤ b) : l.length ≤ b * kinds.length := by
  induction kinds generalizing l with
  | nil =>
    cases l with
    | nil => exact Nat.zero_le _
    | cons e l => obtain ⟨x, hx, _⟩ := h1 e (by simp); cases hx
  | cons x kinds ih =>
    have hlen : l.length = l.countP (fun e => decide (f e = some x)) + (l.filter (fun e => !decide (f e = some x))).length := by
      have h := List.length_eq_countP_add_countP (fun e => decide (f e = some x)) (l := l)
      rw [h, ← List.countP_eq_length_filter]
      congr 1
      apply List.countP_congr
      intro e _
      simp
    have hrest := ih (l.filter (fun e => !decide (f e = some x)))
      (by
        intro e he
        obtain ⟨he1, he2⟩ := List.mem_filter.1 he
        obtain ⟨y, hy, hf⟩ := h1 e he1
        rcases List.mem_cons.1 hy with rfl | hy
        · simp [hf] at he2
        · exact ⟨y, hy, hf⟩)
      (by
        intro y hy
        refine Nat.le_trans ?_ (h2 y (List.mem_cons_of_mem _ hy))
        exact List.Sublist.countP_le List.filter_sublist)
    have := h2 x (by simp)
    rw [hlen, List.length_cons, Nat.mul_succ]
    omega

/-- **C213**, partial: let the servers of a group have the health settings of the program's records (60 seconds, three
    failures, two successes) and weights that add up to less than 2^16; let some of its servers refuse every connection,
    the others accept every connection, and one of the latter have a positive weight. Then for every sequence of
    requests, with at most `k` of them under way at a time, and every random draw: each request answered with an error
    was tried at a server that refuses, and of the requests that come within any minute at most `k + 2` are lost for
    each such server (so at most three when they come one after the other).
    Missing: servers with other settings (`C213_default_fails`), servers that do not answer at all (`C213_hang_fails`),
    and a second try for the request itself (`C213_retry_fails`). -/
theorem C213_lost_partial (checked : Bool) (ss : List (Server A)) (dead : A → Bool)
    (answer : A → Nat → Answer) (hdead : ∀ a t, dead a = true → answer a t = .fail)
    (hlive : ∀ a t, dead a = false → answer a t = .ok)
    (hset : ∀ s ∈ ss, s.failTimeout = 60 * 1000000000 ∧ s.fallTimes = 3 ∧ s.riseTimes = 2)
    (hsum : (ss.map (·.weight)).sum < 65536) (hone : ∃ s ∈ ss, 0 < s.weight ∧ dead s.addr = false)
    (es : List Event) (ho : (es.map Event.time).Pairwise (· ≤ ·))
    (hd : ∀ t draw, Event.ask t draw ∈ es → ∀ n, 0 < n → draw n < n) (k : Nat)
    (hk : ∀ es', es' <+: es → (run checked ss answer es').under.length ≤ k) :
    (∀ e ∈ (run checked ss answer es).lost, ∃ a, e.2 = some a ∧ dead a = true) ∧
    (∀ (t0 : Nat) (x : A), dead x = true →
      ((run checked ss answer es).lost.filter fun e =>
        decide (t0 ≤ e.1 ∧ e.1 ≤ t0 + 60 * 1000000000 ∧ e.2 = some x)).length ≤ k + 2) ∧
    ∀ (t0 : Nat) (ds : List A), (∀ a, dead a = true → a ∈ ds) →
      ((run checked ss answer es).lost.filter fun e =>
        decide (t0 ≤ e.1 ∧ e.1 ≤ t0 + 60 * 1000000000)).length ≤ (k + 2) * ds.length := by
  have ha : answer = answers dead := by
    funext a t
    unfold answers
    cases h : dead a with
    | true => exact hdead a t h
    | false => exact hlive a t h
  subst ha
  obtain ⟨ops, hi, _, hb⟩ := all_inv checked ss dead ⟨hset, hsum, hone⟩ es ho hd k hk
  have hx1 : ∀ (t0 : Nat) (x : A), dead x = true → lostTo t0 x (run checked ss (answers dead) es) ≤ k + 2 := by
    intro t0 x hx
    have := (hb t0 x hx).2
    omega
  have hx2 : ∀ t0 x, lostTo t0 x (run checked ss (answers dead) es) ≤ k + 2 := by
    intro t0 x
    by_cases hx : dead x = true
    · exact hx1 t0 x hx
    · have h0 : lostTo t0 x (run checked ss (answers dead) es) = 0 := by
        unfold lostTo
        rw [List.countP_eq_zero]
        intro e he hc
        obtain ⟨a, ha, hda⟩ := hi.lost e he
        simp only [decide_eq_true_eq] at hc
        rw [ha] at hc
        rw [Option.some.inj hc.2.2] at hda
        exact hx hda
      omega
  refine ⟨hi.lost, fun t0 x hx => ?_, fun t0 ds hds => ?_⟩
  · rw [← List.countP_eq_length_filter]
    exact hx1 t0 x hx
  · refine length_le_kinds (fun e => e.2) ds (k + 2) _ ?_ ?_
    · intro e he
      obtain ⟨a, ha, hda⟩ := hi.lost e (List.mem_filter.1 he).1
      exact ⟨a, hds a hda, ha⟩
    · intro x _
      refine Nat.le_trans (Nat.le_of_eq ?_) (hx2 t0 x)
      rw [List.countP_filter]
      unfold lostTo
      apply List.countP_congr
      intro e _
      rw [Bool.and_eq_true, decide_eq_true_iff, decide_eq_true_iff, decide_eq_true_iff]
      exact ⟨fun h => ⟨h.2.1, h.2.2, h.1⟩, fun h => ⟨h.2.2, h.1, h.2.1⟩⟩

/-- two servers, one of which refuses: the first three requests that are sent to it are lost, then the other one serves
    all, also those that drew the first -/
example : let r := run (A := Nat) true [Server.simple 1, Server.simple 2] (fun a _ => if a = 1 then Answer.fail else .ok)
             [Event.ask 0 (fun _ => 0), .ask 0 (fun n => n / 2), .settle 0 1, .settle 0 1, .ask 2 (fun _ => 0), .settle 0 3,
              .ask 4 (fun n => n - 1), .settle 0 5, .ask 6 (fun _ => 0), .settle 0 7, .ask 8 (fun _ => 0), .settle 0 9]
    r.lost = [(0, some 1), (0, some 1), (2, some 1)] ∧ r.served = [(4, 2), (6, 2), (8, 2)] := by
  decide +kernel

/-- **C213** fails for the request itself: when the server picked refuses the connection, the request is answered with
    an error and no other server of the group is tried, for every group, all records and whatever the others would
    answer. -/
theorem C213_retry_fails (checked : Bool) (ss : List (Server A)) (answer : A → Nat → Answer) (s : St A) (t t' : Nat)
    (draw : Nat → Nat) (a : A) (hg : getServer checked s.h t ss draw = .ok (some a)) (ha : answer a t' = .fail) :
    ([.ask t draw, .settle s.under.length t'].foldl (step checked ss answer) s).lost = s.lost ++ [(t, some a)] ∧
    ([.ask t draw, .settle s.under.length t'].foldl (step checked ss answer) s).served = s.served := by
  cases hd : s.h.isDown a t with
  | true => simp [step, hg, hd]
  | false => simp [step, hg, hd, ha]

/-- a fresh program and a group of which the server drawn refuses -/
example : getServer true (init : St Nat).h 0 [Server.simple 1, Server.simple 2] (fun _ => 0) = .ok (some 1) := by
  decide +kernel

/-- **C213** fails for servers that do not answer: nothing is recorded when the time for the connection is over, so such a
    server is never left out. For every group whose first server does not answer, every number of requests that draw it
    is lost, whatever the other servers would do. -/
theorem C213_hang_fails (checked : Bool) (s : Server A) (ss : List (Server A)) (answer : A → Nat → Answer)
    (hh : ∀ t, answer s.addr t = .hang) (hw : 0 < ((s :: ss).map (·.weight)).sum)
    (hs : ((s :: ss).map (·.weight)).sum < 65536) (ts : List (Nat × Nat)) :
    let r := run checked (s :: ss) answer (ts.flatMap fun t => [.ask t.1 (fun _ => 0), .settle 0 t.2])
    r.lost = ts.map (fun t => (t.1, some s.addr)) ∧ r.served = [] ∧ r.h.map s.addr = none := by
  have hone : ∀ (l : List (Nat × Option A)) (t : Nat × Nat),
      [.ask t.1 (fun _ => 0), .settle 0 t.2].foldl (step checked (s :: ss) answer) ⟨Check.global, [], l, []⟩ =
        (⟨Check.global, [], l ++ [(t.1, some s.addr)], []⟩ : St A) := by
    intro l t
    have hdn : (Check.global : Check A).isDown s.addr t.1 = false := rfl
    have hus : (Check.global : Check A).usable t.1 s = true := rfl
    have hg : getServer checked (Check.global : Check A) t.1 (s :: ss) (fun _ => 0) = .ok (some s.addr) := by
      rw [getServer_ok checked _ t.1 (s :: ss) (fun _ => 0) hs hw]
      split <;> simp [choose, hus]
    simp [step, hg, hdn, hh]
  have hall : ∀ (l : List (Nat × Option A)),
      (ts.flatMap fun t => [Event.ask t.1 (fun _ => 0), .settle 0 t.2]).foldl (step checked (s :: ss) answer)
        ⟨Check.global, [], l, []⟩ = (⟨Check.global, [], l ++ ts.map (fun t => (t.1, some s.addr)), []⟩ : St A) := by
    induction ts with
    | nil => intro l; simp
    | cons t ts ih =>
      intro l
      rw [List.flatMap_cons, List.foldl_append, hone, ih]
      simp
  have h0 := hall []
  rw [List.nil_append] at h0
  have h1 : run checked (s :: ss) answer (ts.flatMap fun t => [.ask t.1 (fun _ => 0), .settle 0 t.2]) = _ := h0
  dsimp only
  rw [h1]
  exact ⟨rfl, rfl, rfl⟩

/-- three requests at a server that never answers, beside one that would -/
example : (run (A := Nat) true [Server.simple 1, Server.simple 2] (fun a _ => if a = 1 then .hang else .ok)
    ([(0, 10), (20, 30), (40, 50)].flatMap fun t => [.ask t.1 (fun _ => 0), .settle 0 t.2])).lost =
      [(0, some 1), (20, some 1), (40, some 1)] := by
  decide +kernel

/-- **C213** fails with the settings a configured server has by default (30 seconds, two failures): in a group of two
    such servers, after two requests were lost at the one that refuses, every request that draws a number above 100 (of
    200) in the next 30 seconds is lost as well, though the other server accepts every connection. No server is tried
    for it, so nothing is recorded, and this goes on for any number of requests. -/
theorem C213_default_fails (checked : Bool) (x y : A) (hxy : x ≠ y) (answer : A → Nat → Answer)
    (hx : ∀ t, answer x t = .fail) (t0 t1 : Nat) (qs : List (Nat × (Nat → Nat)))
    (hq : ∀ q ∈ qs, t1 ≤ q.1 ∧ q.1 ≤ t1 + 30 * 1000000000 ∧ 100 < q.2 200) :
    let r := run checked [Server.default x, Server.default y] answer
      ([.ask t0 (fun _ => 0), .ask t0 (fun _ => 0), .settle 0 t1, .settle 0 t1] ++ qs.map fun q => .ask q.1 q.2)
    r.lost = [(t0, some x), (t0, some x)] ++ qs.map (fun q => (q.1, none)) ∧ r.served = [] ∧
      r.h.isDown y t1 = false ∧ r.h.isDown x t1 = false := by
  let h : Check A := (Check.global.fall x t1).fall x t1
  have hm : h.map x = some ⟨none, t1, sec 60, 2, 0, false⟩ := by
    simp [h, Check.fall, Check.global, Check.new, Check.put, Record.new, Record.fresh]
  have hmy : h.map y = none := by
    simp [h, Check.fall, Check.global, Check.new, Check.put, Record.new, Record.fresh, hxy.symm]
  have hstart : run checked [Server.default x, Server.default y] answer
      [.ask t0 (fun _ => 0), .ask t0 (fun _ => 0), .settle 0 t1, .settle 0 t1] =
        ⟨h, [], [(t0, some x), (t0, some x)], []⟩ := by
    have hg : getServer checked (Check.global : Check A) t0 [Server.default x, Server.default y] (fun _ => 0) =
        .ok (some x) := by
      simp [getServer, sumWeight, addU16, Server.default, Check.isDown, Check.global, Check.new, choose, Check.usable,
        Check.checkDown]
    have hdn : (Check.global : Check A).isDown x t0 = false := rfl
    simp [run, init, step, hg, hdn, hx, h]
  have hask : ∀ q ∈ qs, getServer checked h q.1 [Server.default x, Server.default y] q.2 = .ok none := by
    intro q hqm
    obtain ⟨q1, q2, q3⟩ := hq q hqm
    have d60 : ¬ q.1 - t1 > sec 60 := by simp [sec]; omega
    have d30 : ¬ q.1 - t1 > sec 30 := by simp [sec]; omega
    have u1 : h.isDown x q.1 = false := by simp [Check.isDown, hm]
    have u2 : h.isDown y q.1 = false := by simp [Check.isDown, hmy]
    have v1 : h.usable q.1 (Server.default x) = false := by simp [Check.usable, Check.checkDown, Server.default, hm, d30]
    have v2 : h.usable q.1 (Server.default y) = true := by simp [Check.usable, Check.checkDown, Server.default, hmy]
    have hc : choose (h.usable q.1) [Server.default x, Server.default y] (q.2 200) = none := by
      have : ¬ q.2 200 ≤ (Server.default y).weight := by simp [Server.default]; omega
      simp [choose, v1, v2, this]
    have hsum : sumWeight checked h q.1 [Server.default x, Server.default y] 0 0 = .ok (200, 200) := by
      have w1 : (Server.default x).addr = x := rfl
      have w2 : (Server.default y).addr = y := rfl
      simp only [sumWeight, w1, w2, u1, u2]
      rfl
    unfold getServer
    rw [hsum]
    show Res.ok (choose _ _ (q.2 200)) = _
    rw [hc]
  have hrest : ∀ l : List (Nat × Option A), (qs.map fun q => Event.ask q.1 q.2).foldl
      (step checked [Server.default x, Server.default y] answer) ⟨h, [], l, []⟩ =
        ⟨h, [], l ++ qs.map (fun q => (q.1, none)), []⟩ := by
    clear hq
    induction qs with
    | nil => intro l; simp
    | cons q qs ih =>
      intro l
      rw [List.map_cons, List.foldl_cons]
      have hs1 : step checked [Server.default x, Server.default y] answer ⟨h, [], l, []⟩ (.ask q.1 q.2) =
          ⟨h, [], l ++ [(q.1, none)], []⟩ := by
        simp [step, hask q (by simp)]
      rw [hs1, ih (fun q' h' => hask q' (by simp [h']))]
      simp
  have hrun : run checked [Server.default x, Server.default y] answer
      ([.ask t0 (fun _ => 0), .ask t0 (fun _ => 0), .settle 0 t1, .settle 0 t1] ++ qs.map fun q => .ask q.1 q.2) =
        ⟨h, [], [(t0, some x), (t0, some x)] ++ qs.map (fun q => (q.1, none)), []⟩ := by
    unfold run at hstart ⊢
    rw [List.foldl_append, hstart, hrest]
  dsimp only
  rw [hrun]
  exact ⟨rfl, rfl, by simp [Check.isDown, hmy], by simp [Check.isDown, hm]⟩

end Wm.Failover
