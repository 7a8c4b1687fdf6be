import Verif.Props.Health
import Mathlib.Algebra.BigOperators.Group.List.Basic
/-! Properties C43, C44: choosing a server of an upstream group. -/
namespace Wm.Health
open Wm

variable {A : Type} [DecidableEq A]

/-! ### the sums -/

def total (ss : List (Server A)) : Nat := (ss.map (·.weight)).sum

/-- the servers not known to be down -/
def upServers (h : Check A) (now : Nat) (ss : List (Server A)) : List (Server A) :=
  ss.filter fun s => !h.isDown s.addr now

theorem upServers_le (h : Check A) (now : Nat) (ss : List (Server A)) : total (upServers h now ss) ≤ total ss := by
  induction ss with
  | nil => exact Nat.le_refl _
  | cons s ss ih =>
    simp only [upServers, total, List.filter_cons, List.map_cons, List.sum_cons] at ih ⊢
    split
    · simp only [List.map_cons, List.sum_cons]; omega
    · omega

theorem sumWeight_ok (checked : Bool) (h : Check A) (now : Nat) (ss : List (Server A)) (a b : Nat)
    (hb : b + total ss < 65536) (hab : a ≤ b) :
    sumWeight checked h now ss a b = .ok (a + total (upServers h now ss), b + total ss) := by
  induction ss generalizing a b with
  | nil => rfl
  | cons s ss ih =>
    have ht : total (s :: ss) = s.weight + total ss := by simp [total]
    rw [ht] at hb
    simp only [sumWeight]
    have hall : addU16 checked b s.weight = .ok (b + s.weight) := by unfold addU16; rw [if_pos (by omega)]
    cases hd : h.isDown s.addr now with
    | true =>
      have hu : upServers h now (s :: ss) = upServers h now ss := by simp [upServers, hd]
      simp only [if_true, Res.bind_ok, hall]
      rw [ih _ _ (by omega) (by omega), hu, ht]
      congr 2; omega
    | false =>
      have hu : total (upServers h now (s :: ss)) = s.weight + total (upServers h now ss) := by
        simp [upServers, hd, total]
      have hsum : addU16 checked a s.weight = .ok (a + s.weight) := by unfold addU16; rw [if_pos (by omega)]
      simp only [Bool.false_eq_true, if_false, Res.bind_ok, hall, hsum]
      rw [ih _ _ (by omega) (by omega), hu, ht]
      congr 2 <;> omega

theorem getServer_ok (checked : Bool) (h : Check A) (now : Nat) (ss : List (Server A)) (draw : Nat → Nat)
    (hs : total ss < 65536) (hp : 0 < total ss) :
    getServer checked h now ss draw =
      if 0 < total (upServers h now ss) then .ok (choose (h.usable now) ss (draw (total (upServers h now ss))))
      else .ok (choose (fun _ => true) ss (draw (total ss))) := by
  have hne : ss.isEmpty = false := by
    cases ss with
    | nil => simp [total] at hp
    | cons s ss => rfl
  unfold getServer
  rw [hne, sumWeight_ok checked h now ss 0 0 (by omega) (Nat.le_refl _)]
  simp only [Bool.false_eq_true, if_false, Res.bind_ok, Nat.zero_add]
  by_cases hu : 0 < total (upServers h now ss)
  · rw [if_pos (by omega), if_pos hu]
  · rw [if_neg (by omega), if_neg hu, if_neg (by omega)]

/-! ### C43 -/

theorem choose_mem (usable : Server A → Bool) (ss : List (Server A)) (r : Nat) (a : A)
    (h : choose usable ss r = some a) : ∃ s ∈ ss, s.addr = a ∧ usable s = true := by
  induction ss generalizing r with
  | nil => simp [choose] at h
  | cons s ss ih =>
    simp only [choose] at h
    split at h
    · rename_i hu
      split at h
      · injection h with h; exact ⟨s, by simp, h, hu⟩
      · obtain ⟨s', h1, h2⟩ := ih _ h; exact ⟨s', by simp [h1], h2⟩
    · obtain ⟨s', h1, h2⟩ := ih _ h; exact ⟨s', by simp [h1], h2⟩

theorem choose_some (usable : Server A → Bool) (ss : List (Server A)) (r : Nat) (h : r < total (ss.filter usable)) :
    ∃ a, choose usable ss r = some a := by
  induction ss generalizing r with
  | nil => simp [total] at h
  | cons s ss ih =>
    simp only [choose]
    rw [List.filter_cons] at h
    split
    · rename_i hu
      rw [if_pos hu] at h
      split
      · exact ⟨_, rfl⟩
      · refine ih _ ?_
        simp only [total, List.map_cons, List.sum_cons] at h ⊢
        omega
    · rename_i hu
      rw [if_neg hu] at h
      exact ih _ h

/-- **C43** (configured) Whatever the group, the records, the random draw and the build, a server that is returned is a
    configured one. -/
theorem C43_configured (checked : Bool) (h : Check A) (now : Nat) (ss : List (Server A)) (draw : Nat → Nat) (a : A)
    (hr : getServer checked h now ss draw = .ok (some a)) : a ∈ ss.map (·.addr) := by
  unfold getServer at hr
  split at hr
  · simp at hr
  · cases hw : sumWeight checked h now ss 0 0 with
    | err e => rw [hw] at hr; simp at hr
    | panic => rw [hw] at hr; simp at hr
    | ok p =>
      rw [hw] at hr
      simp only [Res.bind_ok] at hr
      split at hr
      · injection hr with hr
        obtain ⟨s, h1, rfl, _⟩ := choose_mem _ _ _ _ hr
        exact List.mem_map_of_mem h1
      · split at hr
        · simp at hr
        · injection hr with hr
          obtain ⟨s, h1, rfl, _⟩ := choose_mem _ _ _ _ hr
          exact List.mem_map_of_mem h1

/-- the history contains no question of the active check (it is never started, src/core/wmcore.rs) -/
def NoActive (ops : List (Op A)) : Prop := ∀ o ∈ ops, ∃ a t ok, o = Op.outcome a t ok

theorem patience_noActive (T : Nat) (x : A) (ops : List (Op A)) (h : NoActive ops) : patience T x ops = T := by
  induction ops with
  | nil => rfl
  | cons o ops ih =>
    obtain ⟨a, t, ok, rfl⟩ := h o (by simp)
    simp only [patience]
    split
    · rfl
    · exact ih fun o ho => h o (by simp [ho])

/-- With the settings of the records themselves, the two tests for a server that is down agree. -/
theorem checkDown_eq (T M m : Nat) (hM : 2 ≤ M) (hm : 1 ≤ m) (ops : List (Op A)) (hna : NoActive ops) (x : A) (now : Nat) :
    ((Check.new T M m : Check A).run ops).checkDown x T M m now = ((Check.new T M m : Check A).run ops).isDown x now := by
  have h := record_holds T M m hM hm ops x
  rw [patience_noActive T x ops hna] at h
  unfold Check.checkDown Check.isDown
  by_cases hmx : mentions x ops = true
  · rw [if_pos hmx] at h
    obtain ⟨r, hr, h1, h2, h3, h4, _⟩ := h
    rw [hr]
    simp only [h1]
    split
    · rfl
    · split
      · rename_i hf
        rw [h2] at hf
        obtain ⟨a, ha⟩ := (le_run_iff _ _ _).1 hf
        symm
        rw [h4]
        refine ⟨a, [], by rw [List.append_nil, ha], ?_⟩
        intro hc
        have := hc.length_le
        simp at this; omega
      · split
        · rename_i hr'
          symm
          rw [Bool.eq_false_iff]
          intro hc
          obtain ⟨a, b, hab, hb⟩ := h4.1 hc
          apply hb
          rw [h3, hab] at hr'
          obtain ⟨M', rfl⟩ : ∃ M', M = M' + 1 := ⟨M - 1, by omega⟩
          rw [List.replicate_succ', ← List.append_assoc a, run_stop] at hr'
          exact ((le_run_iff _ _ _).1 hr').isInfix
        · rfl
  · rw [if_neg hmx] at h
    rw [h]

/-- **C43**, partial: for every group whose servers have the same health settings as the program's records (60 seconds,
    three failures, two successes) and whose weights add up to less than 2^16, after every history of outcomes and for
    every random draw: if some server that is not down has a positive weight, the server picked is configured and not
    down; otherwise, if some weight is positive, some configured server is picked.
    Missing: other settings (`C43_default_fails`), zero weights (`C43_zero_fails`), large weights (`C43_overflow_fails`). -/
theorem C43_usable_partial (checked : Bool) (ops : List (Op A)) (hna : NoActive ops) (now : Nat) (ss : List (Server A))
    (draw : Nat → Nat) (hdraw : ∀ n, 0 < n → draw n < n)
    (hset : ∀ s ∈ ss, s.failTimeout = 60 * 1000000000 ∧ s.fallTimes = 3 ∧ s.riseTimes = 2)
    (hs : (ss.map (·.weight)).sum < 65536) :
    ((∃ s ∈ ss, 0 < s.weight ∧ ((Check.global : Check A).run ops).isDown s.addr now = false) →
      ∃ a, getServer checked ((Check.global : Check A).run ops) now ss draw = .ok (some a) ∧ a ∈ ss.map (·.addr) ∧
        ((Check.global : Check A).run ops).isDown a now = false) ∧
    ((∃ s ∈ ss, 0 < s.weight) →
      ∃ a, getServer checked ((Check.global : Check A).run ops) now ss draw = .ok (some a) ∧ a ∈ ss.map (·.addr)) := by
  have hagree : ∀ s ∈ ss, ((Check.global : Check A).run ops).usable now s =
      !((Check.global : Check A).run ops).isDown s.addr now := by
    intro s hs
    obtain ⟨h1, h2, h3⟩ := hset s hs
    unfold Check.usable
    rw [h1, h2, h3]
    exact congrArg (!·) (checkDown_eq (sec 60) 3 2 (by omega) (by omega) ops hna s.addr now)
  generalize (Check.global : Check A).run ops = h at *
  have hpos : ∀ l : List (Server A), (∃ s ∈ l, 0 < s.weight) → 0 < total l := by
    rintro l ⟨s, hs, hw⟩
    obtain ⟨l1, l2, rfl⟩ := List.append_of_mem hs
    simp only [total, List.map_append, List.map_cons, List.sum_append, List.sum_cons]
    omega
  have hup : 0 < total (upServers h now ss) → ∃ a, getServer checked h now ss draw = .ok (some a) ∧
      a ∈ ss.map (·.addr) ∧ h.isDown a now = false := by
    intro hu
    have ht : 0 < total ss := Nat.lt_of_lt_of_le hu (upServers_le h now ss)
    have hfil : ss.filter (h.usable now) = upServers h now ss := List.filter_congr hagree
    rw [getServer_ok checked h now ss draw hs ht, if_pos hu]
    obtain ⟨a, ha⟩ := choose_some (h.usable now) ss (draw (total (upServers h now ss)))
      (by rw [hfil]; exact hdraw _ hu)
    obtain ⟨s, h1, rfl, h3⟩ := choose_mem _ _ _ _ ha
    refine ⟨s.addr, by rw [ha], List.mem_map_of_mem h1, ?_⟩
    rw [hagree s h1] at h3
    simpa using h3
  constructor
  · rintro ⟨s, hs1, hw, hd⟩
    refine hup (hpos _ ⟨s, ?_, hw⟩)
    simp [upServers, hs1, hd]
  · rintro hex
    by_cases hu : 0 < total (upServers h now ss)
    · obtain ⟨a, h1, h2, _⟩ := hup hu
      exact ⟨a, h1, h2⟩
    · have ht := hpos _ hex
      rw [getServer_ok checked h now ss draw hs ht, if_neg hu]
      obtain ⟨a, ha⟩ := choose_some (fun _ => true) ss (draw (total ss))
        (by rw [List.filter_true]; exact hdraw _ ht)
      obtain ⟨s, h1, rfl, _⟩ := choose_mem _ _ _ _ ha
      exact ⟨s.addr, by rw [ha], List.mem_map_of_mem h1⟩

/-- two servers, the first one down -/
example : let ops : List (Op Nat) := [.outcome 1 0 false, .outcome 1 0 false, .outcome 1 0 false]
    ((Check.global : Check Nat).run ops).isDown 1 5 = true ∧
    getServer true ((Check.global : Check Nat).run ops) 5 [Server.simple 1, Server.simple 2] (fun n => n / 2) = .ok (some 2) := by
  decide +kernel

/-- **C43** fails with the default settings of a configured server (30 seconds, two failures): after two failures the
    group with this one server yields nothing, though the server is not regarded as down by the records. -/
theorem C43_default_fails (checked : Bool) (a : A) (t : Nat) (draw : Nat → Nat) :
    let h := (Check.global : Check A).run [.outcome a t false, .outcome a t false]
    h.isDown a t = false ∧ getServer checked h t [Server.default a] draw = .ok none := by
  simp [Check.run, Check.step, Check.fall, Check.global, Check.new, Check.put, Check.isDown, Record.new, Record.fresh,
    getServer, sumWeight, Server.default, addU16, choose, Check.usable, Check.checkDown]

/-- **C43** fails when all weights are zero: picking from a non-empty group panics (drawing from an empty range). -/
theorem C43_zero_fails (checked : Bool) (h : Check A) (now : Nat) (ss : List (Server A)) (draw : Nat → Nat)
    (hne : ss ≠ []) (hz : ∀ s ∈ ss, s.weight = 0) : getServer checked h now ss draw = .panic := by
  have ht : total ss = 0 := by
    unfold total
    rw [List.sum_eq_zero]
    intro x hx
    obtain ⟨s, hs, rfl⟩ := List.mem_map.1 hx
    exact hz s hs
  have hu : total (upServers h now ss) = 0 := Nat.le_zero.1 (ht ▸ upServers_le h now ss)
  have he : ss.isEmpty = false := by
    cases ss with
    | nil => exact absurd rfl hne
    | cons => rfl
  unfold getServer
  rw [he, sumWeight_ok checked h now ss 0 0 (by omega) (Nat.le_refl _), ht, hu]
  rfl

/-- **C43** fails for large weights: with overflow checks, picking panics. -/
theorem C43_overflow_fails (h : Check A) (now : Nat) (a b : Server A) (draw : Nat → Nat) (ha : a.weight < 65536)
    (hb : b.weight < 65536) (hab : 65536 ≤ a.weight + b.weight) : getServer true h now [a, b] draw = .panic := by
  have h1 : addU16 true 0 a.weight = .ok a.weight := by unfold addU16; rw [if_pos (by omega)]; simp
  have h2 : addU16 true a.weight b.weight = .panic := by unfold addU16; rw [if_neg (by omega)]; rfl
  have h3 : addU16 true 0 b.weight = .ok b.weight := by unfold addU16; rw [if_pos (by omega)]; simp
  unfold getServer
  simp only [List.isEmpty_cons, Bool.false_eq_true, if_false, sumWeight]
  cases h.isDown a.addr now <;> cases h.isDown b.addr now <;> simp [h1, h2, h3]

example : getServer true (Check.global : Check Nat) 0 [⟨1, 40000, sec 60, 3, 2⟩, ⟨2, 40000, sec 60, 3, 2⟩] (fun _ => 0) = .panic := by
  decide +kernel

/-- **C43** fails for large weights without overflow checks as well: the sum wraps around, and when the weights of two
    servers add up to 2^16 exactly, picking panics, whatever the records say - even when neither server is down. -/
theorem C43_wrap_fails (h : Check A) (now : Nat) (a b : Server A) (draw : Nat → Nat) (ha : a.weight < 65536)
    (hb : b.weight < 65536) (hab : a.weight + b.weight = 65536) (hd : h.isDown a.addr now = h.isDown b.addr now) :
    getServer false h now [a, b] draw = .panic := by
  have h1 : addU16 false 0 a.weight = .ok a.weight := by unfold addU16; rw [if_pos (by omega)]; simp
  have h2 : addU16 false a.weight b.weight = .ok 0 := by unfold addU16; rw [if_neg (by omega), hab]; rfl
  unfold getServer
  simp only [List.isEmpty_cons, Bool.false_eq_true, if_false, sumWeight, hd]
  cases h.isDown b.addr now <;> simp [h1, h2]

example : getServer false (Check.global : Check Nat) 0 [⟨1, 32768, sec 60, 3, 2⟩, ⟨2, 32768, sec 60, 3, 2⟩] (fun _ => 0) = .panic := by
  decide +kernel

/-! ### C44: shares -/

/-- the loop sees only the usable servers -/
theorem choose_filter (usable : Server A → Bool) (ss : List (Server A)) (r : Nat) :
    choose usable ss r = choose (fun _ => true) (ss.filter usable) r := by
  induction ss generalizing r with
  | nil => rfl
  | cons s ss ih =>
    simp only [choose, List.filter_cons]
    split
    · simp only [choose, if_true]
      split
      · rfl
      · exact ih _
    · exact ih _

theorem choose_iff (pre post : List (Server A)) (s : Server A) (r : Nat)
    (hn : ((pre ++ s :: post).map (·.addr)).Nodup) :
    choose (fun _ => true) (pre ++ s :: post) r = some s.addr ↔ (pre ≠ [] → total pre < r) ∧ r ≤ total pre + s.weight := by
  induction pre generalizing r with
  | nil =>
    simp only [List.nil_append, choose, if_true, ne_eq, not_true_eq_false, false_implies, true_and, total, List.map_nil,
      List.sum_nil, Nat.zero_add]
    constructor
    · intro h
      by_contra hc
      rw [if_neg hc] at h
      obtain ⟨s', h1, h2, _⟩ := choose_mem _ _ _ _ h
      simp only [List.nil_append, List.map_cons, List.nodup_cons] at hn
      exact hn.1 (h2 ▸ List.mem_map_of_mem h1)
    · intro h; rw [if_pos h]
  | cons p pre ih =>
    simp only [List.cons_append, List.map_cons, List.nodup_cons] at hn
    have ih := ih (r - p.weight) hn.2
    have ht : total (p :: pre) = p.weight + total pre := by simp [total]
    simp only [List.cons_append, choose, if_true, ht, ne_eq, reduceCtorEq, not_false_eq_true, true_implies]
    split
    · rename_i hle
      constructor
      · intro h
        injection h with h
        exact absurd (h ▸ List.mem_map_of_mem (List.mem_append_right _ List.mem_cons_self)) hn.1
      · intro h; omega
    · rename_i hgt
      rw [ih]
      by_cases hp : pre = []
      · subst hp
        have : total ([] : List (Server A)) = 0 := rfl
        simp only [ne_eq, not_true_eq_false, false_implies, true_and, this]
        omega
      · simp only [ne_eq, hp, not_false_eq_true, true_implies]
        omega

theorem count_interval (lo hi n : Nat) :
    (List.range n).countP (fun r => decide (lo ≤ r ∧ r < hi)) = min hi n - lo := by
  induction n with
  | zero => simp
  | succ n ih =>
    rw [List.range_succ, List.countP_append, ih]
    by_cases h : lo ≤ n ∧ n < hi
    · simp [h]; omega
    · simp [h]; omega

/-- the number of the equally likely draws that pick an address -/
def picks (checked : Bool) (h : Check A) (now : Nat) (ss : List (Server A)) (a : A) : Nat :=
  (List.range (total (upServers h now ss))).countP fun r => getServer checked h now ss (fun _ => r) = .ok (some a)

/-- the exact share of a server -/
theorem picks_eq (checked : Bool) (h : Check A) (now : Nat) (ss pre post : List (Server A)) (s : Server A)
    (hagree : ∀ s ∈ ss, h.usable now s = !h.isDown s.addr now) (hs : total ss < 65536)
    (hn : (ss.map (·.addr)).Nodup) (hsplit : upServers h now ss = pre ++ s :: post)
    (hu : 0 < total (upServers h now ss)) :
    picks checked h now ss s.addr =
      min (total pre + s.weight + 1) (total pre + s.weight + total post) - (if pre = [] then 0 else total pre + 1) := by
  have hfil : ss.filter (h.usable now) = upServers h now ss := List.filter_congr hagree
  have ht : 0 < total ss := Nat.lt_of_lt_of_le hu (upServers_le h now ss)
  have hn' : ((pre ++ s :: post).map (·.addr)).Nodup := by
    rw [← hsplit]
    exact hn.sublist (List.filter_sublist.map _)
  have hsum : total (upServers h now ss) = total pre + s.weight + total post := by
    rw [hsplit]; simp [total]; omega
  unfold picks
  rw [hsum, ← count_interval]
  apply List.countP_congr
  intro r _
  rw [decide_eq_true_iff, decide_eq_true_iff]
  rw [getServer_ok checked h now ss _ hs ht, if_pos hu, choose_filter, hfil, hsplit]
  have := choose_iff pre post s r hn'
  constructor
  · intro h
    injection h with h
    obtain ⟨h1, h2⟩ := this.1 h
    by_cases hp : pre = []
    · rw [if_pos hp]; omega
    · rw [if_neg hp]; have := h1 hp; omega
  · intro h
    congr 1
    refine this.2 ⟨fun hp => ?_, by omega⟩
    rw [if_neg hp] at h; omega

/-- **C44**, partial: over all equally likely draws, the share of each usable server differs from its weight by at most
    one draw, and a server of weight 0 is never chosen unless it is the first usable one. (Different addresses; the two
    tests for being down agree, as in `C43_usable_partial`; weights add up to less than 2^16.)
    Missing: the exact proportion, which is false, see `C44_first_fails` and `C44_last_fails`. -/
theorem C44_share_partial (checked : Bool) (h : Check A) (now : Nat) (ss : List (Server A))
    (hagree : ∀ s ∈ ss, h.usable now s = !h.isDown s.addr now) (hs : total ss < 65536)
    (hn : (ss.map (·.addr)).Nodup) (s : Server A) (hm : s ∈ upServers h now ss) (hu : 0 < total (upServers h now ss)) :
    picks checked h now ss s.addr ≤ s.weight + 1 ∧ s.weight ≤ picks checked h now ss s.addr + 1 ∧
    (s.weight = 0 → (upServers h now ss).head? ≠ some s → picks checked h now ss s.addr = 0) := by
  obtain ⟨pre, post, hsplit⟩ := List.append_of_mem hm
  have hp := picks_eq checked h now ss pre post s hagree hs hn hsplit hu
  have hsum : total (upServers h now ss) = total pre + s.weight + total post := by
    rw [hsplit]; simp [total]; omega
  rw [hp]
  by_cases hpre : pre = []
  · subst hpre
    have h0 : total ([] : List (Server A)) = 0 := rfl
    rw [if_pos rfl, h0]
    refine ⟨by omega, by omega, fun _ hh => ?_⟩
    rw [hsplit] at hh
    simp at hh
  · rw [if_neg hpre]
    exact ⟨by omega, by omega, fun hw _ => by omega⟩

/-- **C44** fails: whenever another usable server has a positive weight, the first usable server gets one draw too many;
    in particular it is chosen even with weight 0. -/
theorem C44_first_fails (checked : Bool) (h : Check A) (now : Nat) (ss post : List (Server A)) (s : Server A)
    (hagree : ∀ s ∈ ss, h.usable now s = !h.isDown s.addr now) (hs : total ss < 65536) (hn : (ss.map (·.addr)).Nodup)
    (hsplit : upServers h now ss = s :: post) (hpos : 0 < total post) : picks checked h now ss s.addr = s.weight + 1 := by
  have hsum : total (upServers h now ss) = s.weight + total post := by rw [hsplit]; simp [total]
  rw [picks_eq checked h now ss [] post s hagree hs hn hsplit (by omega), if_pos rfl]
  have h0 : total ([] : List (Server A)) = 0 := rfl
  rw [h0]
  omega

/-- **C44** fails: the last of several usable servers gets one draw too few. -/
theorem C44_last_fails (checked : Bool) (h : Check A) (now : Nat) (ss pre : List (Server A)) (s : Server A)
    (hagree : ∀ s ∈ ss, h.usable now s = !h.isDown s.addr now) (hs : total ss < 65536) (hn : (ss.map (·.addr)).Nodup)
    (hsplit : upServers h now ss = pre ++ [s]) (hpre : pre ≠ []) (hpos : 0 < s.weight) :
    picks checked h now ss s.addr = s.weight - 1 := by
  have hsum : total (upServers h now ss) = total pre + s.weight := by rw [hsplit]; simp [total]
  rw [picks_eq checked h now ss pre [] s hagree hs hn hsplit (by omega), if_neg hpre]
  have h0 : total ([] : List (Server A)) = 0 := rfl
  rw [h0]
  omega

/-- weights 0, 1, 2: the first is chosen although its weight is 0, the last only once -/
example : let ss : List (Server Nat) := [⟨1, 0, sec 60, 3, 2⟩, ⟨2, 1, sec 60, 3, 2⟩, ⟨3, 2, sec 60, 3, 2⟩]
    (∀ s ∈ ss, (Check.global : Check Nat).usable 0 s = !(Check.global : Check Nat).isDown s.addr 0) ∧
    ([1, 2, 3].map (picks true (Check.global : Check Nat) 0 ss)) = [1, 1, 1] := by
  decide +kernel

/-- **C44** fails for large weights without overflow checks: when the weights of two servers add up to more than 2^16, the
    second one is never picked, whatever is drawn, though both are usable and have nearly the same weight. -/
theorem C44_wrap_fails (h : Check A) (now : Nat) (a b : Server A) (draw : Nat → Nat) (hdraw : ∀ n, 0 < n → draw n < n)
    (ha : a.weight < 65536) (hb : b.weight < 65536) (hab : 65536 < a.weight + b.weight)
    (hda : h.isDown a.addr now = false) (hdb : h.isDown b.addr now = false) (hu : h.usable now a = true) :
    getServer false h now [a, b] draw = .ok (some a.addr) := by
  have h1 : addU16 false 0 a.weight = .ok a.weight := by unfold addU16; rw [if_pos (by omega)]; simp
  obtain ⟨q, hq⟩ : ∃ q, a.weight + b.weight = q + 65536 := ⟨a.weight + b.weight - 65536, by omega⟩
  have e : (a.weight + b.weight) % 65536 = q := by omega
  have h2 : addU16 false a.weight b.weight = .ok q := by
    unfold addU16
    rw [if_neg (by omega), if_neg (by decide), e]
  have h3 := hdraw q (by omega)
  have h4 : q ≠ 0 := by omega
  have h5 : draw q ≤ a.weight := by omega
  unfold getServer
  simp only [List.isEmpty_cons, Bool.false_eq_true, if_false, sumWeight, hda, hdb, h1, h2, Res.bind_ok, choose, hu, if_true]
  rw [if_pos h4, if_pos h5]

example : getServer false (Check.global : Check Nat) 0 [⟨1, 40000, sec 60, 3, 2⟩, ⟨2, 40000, sec 60, 3, 2⟩] (fun n => n - 1) = .ok (some 1) := by
  decide +kernel

end Wm.Health
