import Verif.Model.Contact
import Verif.Props.Health
import Verif.Props.Upstream
import Verif.Props.Failover
/-! C181 (whether the server is contacted), C214 and C215: what the records of one task mean for others. -/
namespace Wm.Contact
open Wm Wm.Health

variable {A : Type} [DecidableEq A]

/-- after three failures in a row, no more than a minute apart, an address is down for a minute -/
theorem down_after_three (ops : List (Op A)) (hna : NoActive ops) (x : A) (before : List (Nat × Bool)) (t1 t2 t3 now : Nat)
    (he : outcomesOf x ops = before ++ [(t1, false), (t2, false), (t3, false)])
    (h12 : t2 ≤ t1 + 60 * 1000000000) (h23 : t3 ≤ t2 + 60 * 1000000000) (hnow : now ≤ t3 + 60 * 1000000000) :
    ((Check.global : Check A).run ops).isDown x now = true := by
  refine (C41_down (sec 60) 3 2 (by omega) (by omega) ops x now).2 ?_
  rw [patience_noActive _ x ops hna, he]
  have hs : sec 60 = 60 * 1000000000 := rfl
  refine ⟨t3, by simp, by rw [hs]; omega, ?_⟩
  have e3 : before ++ [(t1, false), (t2, false), (t3, false)] = before ++ [(t1, false)] ++ [(t2, false)] ++ [(t3, false)] := by
    simp
  have d2 : decide (t2 - t1 > sec 60) = false := by rw [hs]; simp; omega
  have d3 : decide (t3 - t2 > sec 60) = false := by rw [hs]; simp; omega
  rw [e3, sinceSilence_snoc, sinceSilence_snoc, sinceSilence_snoc]
  simp only [List.getLast?_concat, Option.map_some, Option.elim, d2, d3, Bool.false_eq_true, if_false]
  exact ⟨_, [], by simp [List.replicate, List.append_assoc]; rfl, by simp [List.replicate]⟩

theorem calls_down (x : A) (h : Check A) (t : Nat) (d : Nat) (ds : List Nat) (hd : h.isDown x t = true) :
    calls x h t (d :: ds) = (t, false) :: calls x h (t + sec 1) ds := by
  simp [calls, connect, hd]

theorem calls_up (x : A) (h : Check A) (t : Nat) (d : Nat) (ds : List Nat) (hd : h.isDown x t = false) :
    calls x h t (d :: ds) = (t, true) :: calls x (h.fall x (t + d)) (t + d + sec 1) ds := by
  simp [calls, connect, hd]

/-- **C181** fails for the server's part: after three failed attempts in a row, each no more than a minute after the one
    before, a client whose server is away goes on connecting every second, but for a minute - sixty times - the server
    is not contacted, whatever happened before. If it comes back in this time the client does not notice. -/
theorem C181_contact_fails (x : A) (ops : List (Op A)) (hna : NoActive ops) (before : List (Nat × Bool)) (t1 t2 t3 : Nat)
    (he : outcomesOf x ops = before ++ [(t1, false), (t2, false), (t3, false)])
    (h12 : t2 ≤ t1 + 60 * 1000000000) (h23 : t3 ≤ t2 + 60 * 1000000000) (ds : List Nat) (hl : ds.length = 60) :
    calls x ((Check.global : Check A).run ops) (t3 + 1000000000) ds =
      (List.range 60).map fun i => (t3 + (i + 1) * 1000000000, false) := by
  have hall : ∀ (ds : List Nat) (k : Nat), ds.length + k = 60 →
      calls x ((Check.global : Check A).run ops) (t3 + (k + 1) * 1000000000) ds =
        (List.range' k ds.length).map fun i => (t3 + (i + 1) * 1000000000, false) := by
    intro ds
    induction ds with
    | nil => intro k _; rfl
    | cons d ds ih =>
      intro k hk
      simp only [List.length_cons] at hk
      rw [calls_down _ _ _ _ _ (down_after_three ops hna x before t1 t2 t3 _ he h12 h23 (by omega))]
      have : t3 + (k + 1) * 1000000000 + sec 1 = t3 + (k + 1 + 1) * 1000000000 := by
        simp only [sec]; omega
      rw [this, ih (k + 1) (by omega), List.length_cons, List.range'_succ, List.map_cons]
  have := hall ds 0 (by omega)
  rw [hl] at this
  rw [List.range_eq_range']
  simpa using this

/-- **C181** (the server's part), partial: of 61 calls in a row, at least one contacts the server - whatever happened
    before, provided that nobody else reports about the address meanwhile. (The last outcome lies before the first call,
    as it does in the client's loop.) Missing: that each call does, see `C181_contact_fails`. -/
theorem C181_contact_partial (x : A) (ops : List (Op A)) (hna : NoActive ops) (t : Nat)
    (ht : ∀ e ∈ outcomesOf x ops, e.1 < t) (ds : List Nat) (hl : 61 ≤ ds.length) :
    ∃ c ∈ calls x ((Check.global : Check A).run ops) t ds, c.2 = true ∧ c.1 ≤ t + 60 * 1000000000 := by
  have hup : ((Check.global : Check A).run ops).isDown x (t + 60 * 1000000000) = false := by
    rw [Bool.eq_false_iff]
    intro hd
    obtain ⟨last, h1, h2, _⟩ := (C41_down (sec 60) 3 2 (by omega) (by omega) ops x _).1 hd
    rw [patience_noActive _ x ops hna] at h2
    obtain ⟨e, he, rfl⟩ := Option.map_eq_some_iff.1 h1
    have := ht e (List.mem_of_getLast? he)
    have hs : sec 60 = 60 * 1000000000 := rfl
    rw [hs] at h2
    omega
  generalize (Check.global : Check A).run ops = h at *
  have hall : ∀ (ds : List Nat) (k : Nat), 61 ≤ ds.length + k → k ≤ 60 →
      ∃ c ∈ calls x h (t + k * 1000000000) ds, c.2 = true ∧ c.1 ≤ t + 60 * 1000000000 := by
    intro ds
    induction ds with
    | nil => intro k h1 h2; simp at h1; omega
    | cons d ds ih =>
      intro k h1 h2
      cases hd : h.isDown x (t + k * 1000000000) with
      | false =>
        rw [calls_up _ _ _ _ _ hd]
        exact ⟨_, List.mem_cons_self, rfl, by show t + k * 1000000000 ≤ _; omega⟩
      | true =>
        have hk : k ≠ 60 := by rintro rfl; rw [hup] at hd; cases hd
        rw [calls_down _ _ _ _ _ hd]
        have e : t + k * 1000000000 + sec 1 = t + (k + 1) * 1000000000 := by simp only [sec]; omega
        rw [e]
        obtain ⟨c, hc, h3⟩ := ih (k + 1) (by simp only [List.length_cons] at h1; omega) (by omega)
        exact ⟨c, List.mem_cons_of_mem _ hc, h3⟩
  simpa using hall ds 0 (by omega) (by omega)

/-- a server that goes away: three attempts that last no time, then a minute without any, then the next three -/
example : ((calls 1 ((Check.global : Check Nat).run [.outcome 1 0 true]) (sec 1) (List.replicate 66 0)).map (·.2)) =
    List.replicate 3 true ++ List.replicate 60 false ++ List.replicate 3 true := by
  decide +kernel

end Wm.Contact

namespace Wm.Health
variable {A : Type} [DecidableEq A]

/-- **C214** fails: after three attempts in a row to connect to a target failed, no more than a minute apart, on behalf of
    any client, every client is told for a minute that the target cannot be reached - though it now can, and nobody
    tries. -/
theorem C214_others_fails (x : A) (ops : List (Op A)) (hna : NoActive ops) (t1 t2 t3 now done : Nat)
    (h12 : t2 ≤ t1 + 60 * 1000000000) (h23 : t3 ≤ t2 + 60 * 1000000000) (hnow : now ≤ t3 + 60 * 1000000000) :
    let h := (Check.global : Check A).run (ops ++ [.outcome x t1 false, .outcome x t2 false, .outcome x t3 false])
    connect h [⟨x, now, .ok, done⟩] = (h, [], .error) := by
  have hd := Contact.down_after_three (ops ++ [.outcome x t1 false, .outcome x t2 false, .outcome x t3 false])
    (by
      intro o ho
      rcases List.mem_append.1 ho with ho | ho
      · exact hna o ho
      · simp only [List.mem_cons, List.not_mem_nil, or_false] at ho
        rcases ho with rfl | rfl | rfl <;> exact ⟨_, _, _, rfl⟩)
    x (outcomesOf x ops) t1 t2 t3 now
    (by unfold outcomesOf; rw [List.filterMap_append]; simp) h12 h23 hnow
  dsimp only
  simp [connect, hd]

/-- **C214**, partial (exactly): a client that asks for a target with one address, which can be reached, is connected to it
    unless the target was heard of within the last minute and had three failures in a row, not followed by two successes
    in a row, since it was last not heard of for a minute. Missing: that case, see `C214_others_fails`. -/
theorem C214_exact_partial (x : A) (ops : List (Op A)) (hna : NoActive ops) (now done : Nat) :
    (connect ((Check.global : Check A).run ops) [⟨x, now, .ok, done⟩]).2.2 = .connected x ↔
      ¬ ∃ last, (outcomesOf x ops).getLast?.map Prod.fst = some last ∧ now ≤ last + 60 * 1000000000 ∧
        Down 3 2 (sinceSilence (60 * 1000000000) (outcomesOf x ops)) := by
  have hiff := C41_down (sec 60) 3 2 (by omega) (by omega) ops x now
  rw [patience_noActive _ x ops hna] at hiff
  have hs : sec 60 = 60 * 1000000000 := rfl
  rw [hs] at hiff
  have h2 : ((Check.global : Check A).run ops).isDown x now = true ↔ ∃ last, (outcomesOf x ops).getLast?.map Prod.fst = some last ∧
      now ≤ last + 60 * 1000000000 ∧ Down 3 2 (sinceSilence (60 * 1000000000) (outcomesOf x ops)) := by
    refine Iff.trans hiff ?_
    constructor
    · rintro ⟨l, a, b, c⟩; exact ⟨l, a, by omega, c⟩
    · rintro ⟨l, a, b, c⟩; exact ⟨l, a, by omega, c⟩
  rw [← h2]
  cases hd : ((Check.global : Check A).run ops).isDown x now <;> simp [connect, hd]

/-- two failures do not matter, nor do three of other targets -/
example : (connect ((Check.global : Check Nat).run [.outcome 1 0 false, .outcome 1 1 false, .outcome 2 1 false,
      .outcome 2 1 false, .outcome 2 1 false]) [⟨1, 5, .ok, 6⟩]).2.2 = .connected 1 ∧
    (connect ((Check.global : Check Nat).run [.outcome 1 0 false, .outcome 1 1 false, .outcome 1 2 false])
      [⟨1, 5, .ok, 6⟩]).2.2 = .error := by
  decide +kernel

/-- **C215** fails: of every address that anybody ever made the program connect to, a record is kept for ever - whatever
    happens afterwards, and however much time passes; so there are as many records as different addresses asked for. -/
theorem C215_kept_fails (xs : List A) (t : A → Nat) (ok : A → Bool) (later : List (Op A)) :
    ∀ x ∈ xs, (((Check.global : Check A).run (xs.map fun x => .outcome x (t x) (ok x))).run later).map x ≠ none := by
  intro x hx
  have hrun : ((Check.global : Check A).run (xs.map fun x => .outcome x (t x) (ok x))).run later =
      (Check.global : Check A).run ((xs.map fun x => .outcome x (t x) (ok x)) ++ later) := by
    simp [Check.run, List.foldl_append]
  rw [hrun]
  have h := record_holds (sec 60) 3 2 (by omega) (by omega) ((xs.map fun x => Op.outcome x (t x) (ok x)) ++ later) x
  have hm : mentions x ((xs.map fun x => Op.outcome x (t x) (ok x)) ++ later) = true := by
    simp only [mentions, List.any_append, List.any_map, Bool.or_eq_true, List.any_eq_true]
    exact Or.inl ⟨x, hx, by simp⟩
  rw [if_pos hm] at h
  obtain ⟨r, hr, _⟩ := h
  intro hc
  have : (Check.global : Check A) = Check.new (sec 60) 3 2 := rfl
  rw [this, hr] at hc
  cases hc

/-- **C215**, partial: nothing else is kept: a record is there exactly for the addresses that were connected to (or
    actively checked). Missing: that it is released, see `C215_kept_fails`. -/
theorem C215_only_partial (ops : List (Op A)) (x : A) :
    ((Check.global : Check A).run ops).map x ≠ none ↔
      (∃ t ok, .outcome x t ok ∈ ops) ∨ ∃ t i, .request x t i ∈ ops := by
  have h := record_holds (sec 60) 3 2 (by omega) (by omega) ops x
  have hm : mentions x ops = true ↔ (∃ t ok, Op.outcome x t ok ∈ ops) ∨ ∃ t i, Op.request x t i ∈ ops := by
    simp only [mentions, List.any_eq_true]
    constructor
    · rintro ⟨o, ho, hx⟩
      cases o with
      | outcome a t ok => simp only [decide_eq_true_eq] at hx; subst hx; exact Or.inl ⟨t, ok, ho⟩
      | request a t i => simp only [decide_eq_true_eq] at hx; subst hx; exact Or.inr ⟨t, i, ho⟩
    · rintro (⟨t, ok, ho⟩ | ⟨t, i, ho⟩)
      · exact ⟨_, ho, by simp⟩
      · exact ⟨_, ho, by simp⟩
  rw [← hm]
  have e : (Check.global : Check A) = Check.new (sec 60) 3 2 := rfl
  rw [e]
  by_cases hb : mentions x ops = true
  · rw [if_pos hb] at h
    obtain ⟨r, hr, _⟩ := h
    rw [hr]; simp [hb]
  · rw [if_neg hb] at h
    rw [h]; simp [hb]

/-- a thousand addresses asked for once, and then none for a year -/
example : ∀ x ∈ List.range 1000, ((Check.global : Check Nat).run ((List.range 1000).map fun x => .outcome x 0 false) |>.run
    [.outcome 5000 (sec 31536000) true]).map x ≠ none :=
  C215_kept_fails (List.range 1000) (fun _ => 0) (fun _ => false) _

end Wm.Health
