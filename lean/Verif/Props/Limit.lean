import Verif.Model.Limit
import Mathlib.Data.List.Nodup
import Mathlib.Data.List.Dedup
import Mathlib.Data.List.Perm.Subperm
/-! Properties C38, C39, C40, C64: request limiting. -/
namespace Wm.Limit
open Wm

/-! ### the table -/

abbrev keys (ips : List (Text × Inner)) : List Text := ips.map Prod.fst

theorem get_none {ips : List (Text × Inner)} {ip : Text} : get ips ip = none ↔ ip ∉ keys ips := by
  simp only [get, Option.map_eq_none_iff, List.find?_eq_none, keys, List.mem_map, not_exists, not_and, beq_iff_eq]

theorem keys_set (ips : List (Text × Inner)) (ip : Text) (v : Inner) : keys (set ips ip v) = keys ips := by
  simp only [keys, set, List.map_map]
  apply List.map_congr_left
  intro e _
  by_cases h : e.1 = ip <;> simp [h]

theorem get_cons (e : Text × Inner) (ips : List (Text × Inner)) (ip : Text) :
    get (e :: ips) ip = if e.1 = ip then some e.2 else get ips ip := by
  by_cases h : e.1 = ip <;> simp [get, h]

theorem get_set_same {ips : List (Text × Inner)} {ip : Text} {v : Inner} (h : ip ∈ keys ips) :
    get (set ips ip v) ip = some v := by
  induction ips with
  | nil => simp [keys] at h
  | cons e ips ih =>
    simp only [set, List.map_cons, get_cons]
    by_cases he : e.1 = ip
    · simp [he]
    · simp only [if_neg he]
      refine ih ?_
      simp only [keys, List.map_cons, List.mem_cons] at h
      rcases h with h | h
      · exact absurd h.symm he
      · exact h

theorem get_set_other {ips : List (Text × Inner)} {ip x : Text} {v : Inner} (h : ip ≠ x) :
    get (set ips ip v) x = get ips x := by
  induction ips with
  | nil => rfl
  | cons e ips ih =>
    simp only [set, List.map_cons, get_cons]
    by_cases he : e.1 = ip
    · have hx : e.1 ≠ x := fun hc => h (he ▸ hc)
      simp only [he, if_true, if_neg h]
      exact ih
    · simp only [if_neg he]
      split
      · rfl
      · exact ih

theorem get_append (ips : List (Text × Inner)) (ip x : Text) (v : Inner) :
    get (ips ++ [(ip, v)]) x = (get ips x).or (if ip = x then some v else none) := by
  induction ips with
  | nil => rw [List.nil_append, get_cons]; rfl
  | cons e ips ih =>
    rw [List.cons_append, get_cons, get_cons, ih]
    split <;> rfl

theorem get_filter {ips : List (Text × Inner)} (hn : (keys ips).Nodup) (f : Inner → Bool) (x : Text) :
    get (ips.filter (fun e => f e.2)) x = (get ips x).filter f := by
  induction ips with
  | nil => rfl
  | cons e ips ih =>
    simp only [keys, List.map_cons, List.nodup_cons] at hn
    have ih := ih hn.2
    rw [List.filter_cons, get_cons]
    by_cases hf : f e.2 = true
    · rw [if_pos hf, get_cons, ih]
      by_cases he : e.1 = x
      · simp [he, hf, Option.filter]
      · simp [he]
    · rw [if_neg hf, ih]
      by_cases he : e.1 = x
      · subst he
        rw [get_none.2 hn.1]
        simp [hf, Option.filter]
      · simp [he]

theorem cleanup_keys_sub (z : Zone) (now : Nat) : (keys (z.cleanup now).ips).Sublist (keys z.ips) := by
  unfold Zone.cleanup
  split
  · exact List.Sublist.refl _
  · split
    · exact List.Sublist.refl _
    · exact List.filter_sublist.map _

theorem cleanup_fields (z : Zone) (now : Nat) :
    (z.cleanup now).limit = z.limit ∧ (z.cleanup now).nums = z.nums ∧ (z.cleanup now).per = z.per := by
  unfold Zone.cleanup
  split
  · exact ⟨rfl, rfl, rfl⟩
  · split <;> exact ⟨rfl, rfl, rfl⟩

theorem recv_fields (z : Zone) (r : Req) :
    (z.recv r).1.limit = z.limit ∧ (z.recv r).1.nums = z.nums ∧ (z.recv r).1.per = z.per := by
  have hc := cleanup_fields z r.time
  unfold Zone.recv
  simp only
  split
  · exact hc
  · split <;> exact hc

/-- no client is stored twice -/
theorem recv_nodup {z : Zone} (h : (keys z.ips).Nodup) (r : Req) : (keys (z.recv r).1.ips).Nodup := by
  have hc := h.sublist (cleanup_keys_sub z r.time)
  unfold Zone.recv
  simp only
  split
  · exact hc
  · split
    · simp only [keys_set]; exact hc
    · rename_i hg
      simp only [keys, List.map_append, List.map_cons, List.map_nil]
      rw [List.nodup_append]
      refine ⟨hc, by simp, ?_⟩
      rintro a ha b hb rfl
      simp only [List.mem_singleton] at hb
      exact get_none.1 hg (hb ▸ ha)

theorem recv_length {z : Zone} (h : z.ips.length ≤ z.limit) (r : Req) :
    (z.recv r).1.ips.length ≤ (z.recv r).1.limit := by
  have hc := cleanup_fields z r.time
  have hl := (cleanup_keys_sub z r.time).length_le
  simp only [keys, List.length_map] at hl
  unfold Zone.recv
  simp only
  split
  · simp only; omega
  · split
    · have : ∀ v, (set (z.cleanup r.time).ips r.ip v).length = (z.cleanup r.time).ips.length := by simp [set]
      simp only [this]; omega
    · simp only [List.length_append, List.length_singleton]; omega

theorem after_fields (z : Zone) (rs : List Req) :
    (z.after rs).limit = z.limit ∧ (z.after rs).nums = z.nums ∧ (z.after rs).per = z.per := by
  induction rs generalizing z with
  | nil => exact ⟨rfl, rfl, rfl⟩
  | cons r rs ih =>
    obtain ⟨a, b, c⟩ := ih (z.recv r).1
    obtain ⟨a', b', c'⟩ := recv_fields z r
    exact ⟨a.trans a', b.trans b', c.trans c'⟩

/-! ### C40: the table is bounded -/

/-- **C40** After every history of requests the number of clients remembered is at most the configured limit. -/
theorem C40_bounded (limit nums per t0 : Nat) (rs : List Req) :
    ((Zone.new limit nums per t0).after rs).ips.length ≤ limit := by
  suffices h : ∀ z : Zone, z.ips.length ≤ z.limit → (z.after rs).ips.length ≤ (z.after rs).limit by
    have := h (Zone.new limit nums per t0) (by simp [Zone.new])
    rwa [(after_fields _ _).1] at this
  induction rs with
  | nil => exact fun z h => h
  | cons r rs ih => exact fun z h => ih _ (recv_length h r)

/-- **C40** (when full) When, on arrival of a request and after cleanup, the table is full, the request is refused and
    nothing is stored; a refused request never adds a client. -/
theorem C40_full_refused (z : Zone) (r : Req) :
    ((z.cleanup r.time).ips.length ≥ z.limit → (z.recv r).2 = .refuse ∧ (z.recv r).1 = z.cleanup r.time) ∧
    ((z.recv r).2 = .refuse → ∀ ip ∈ keys (z.recv r).1.ips, ip ∈ keys z.ips) := by
  constructor
  · intro h
    rw [← (cleanup_fields z r.time).1] at h
    unfold Zone.recv
    simp only [if_pos h, and_self]
  · intro h ip hip
    have hs := (cleanup_keys_sub z r.time).subset
    unfold Zone.recv at h hip
    simp only at h hip
    split at hip
    · exact hs hip
    · rename_i hf
      rw [if_neg hf] at h
      split at hip
      · simp only [keys_set] at hip; exact hs hip
      · rename_i hg
        rw [hg] at h; simp at h

/-- the time has come to forget silent clients: at least a tenth of the table is used, and a hundred periods have passed since
    this was last done -/
def Sweeps (z : Zone) (now : Nat) : Prop := z.limit / 10 ≤ z.ips.length ∧ 100 * z.per ≤ now - z.lastRemove

/-- a client that is known and, if silent clients are forgotten now, was last counted no more than fifty periods ago -/
def Stays (z : Zone) (now : Nat) (ip : Text) : Prop :=
  ∃ v, (ip, v) ∈ z.ips ∧ (Sweeps z now → now - v.last ≤ 50 * z.per)

theorem mem_cleanup (z : Zone) (now : Nat) (e : Text × Inner) :
    e ∈ (z.cleanup now).ips ↔ e ∈ z.ips ∧ (Sweeps z now → now - e.2.last ≤ 50 * z.per) := by
  unfold Zone.cleanup Sweeps
  split
  · exact ⟨fun h => ⟨h, fun h' => by omega⟩, fun h => h.1⟩
  · split
    · exact ⟨fun h => ⟨h, fun h' => by omega⟩, fun h => h.1⟩
    · simp only [List.mem_filter, Bool.not_eq_true', decide_eq_false_iff_not, Nat.not_lt, gt_iff_lt]
      constructor
      · rintro ⟨h1, h2⟩; exact ⟨h1, fun _ => h2⟩
      · rintro ⟨h1, h2⟩; exact ⟨h1, h2 ⟨by omega, by omega⟩⟩

theorem keys_recv (z : Zone) (r : Req) (ip : Text) (h : ip ≠ r.ip) :
    ip ∈ keys (z.recv r).1.ips ↔ ip ∈ keys (z.cleanup r.time).ips := by
  unfold Zone.recv
  simp only
  split
  · rfl
  · split
    · simp only [keys_set]
    · simp [keys, h]

/-- **C40** (forgetting) A request makes the limit forget exactly the clients that were silent for more than fifty periods, and that
    only when at least a tenth of the table is used and a hundred periods have passed since it last did so. -/
theorem C40_forgets (z : Zone) (r : Req) (ip : Text) (h : ip ≠ r.ip) :
    ((∃ v, (ip, v) ∈ (z.recv r).1.ips) ↔ Stays z r.time ip) ∧
    (Sweeps z r.time → (z.recv r).1.lastRemove = r.time) ∧ (¬ Sweeps z r.time → (z.recv r).1.lastRemove = z.lastRemove) := by
  have hl : (z.recv r).1.lastRemove = (z.cleanup r.time).lastRemove := by
    unfold Zone.recv
    simp only
    split
    · rfl
    · split <;> rfl
  have hk : ∀ l : List (Text × Inner), (∃ v, (ip, v) ∈ l) ↔ ip ∈ keys l := by
    intro l; simp [keys]
  refine ⟨?_, ?_, ?_⟩
  · rw [hk, keys_recv z r ip h, ← hk]
    exact ⟨fun ⟨v, hv⟩ => ⟨v, (mem_cleanup _ _ _).1 hv⟩, fun ⟨v, hv⟩ => ⟨v, (mem_cleanup _ _ _).2 hv⟩⟩
  · intro hs
    rw [hl]; unfold Zone.cleanup
    rw [if_neg (by have := hs.1; omega), if_neg (by have := hs.2; omega)]
  · intro hs
    rw [hl]; unfold Zone.cleanup
    split
    · rfl
    · split
      · rfl
      · exact absurd ⟨by omega, by omega⟩ hs

example : let z : Zone := ⟨[(['a'], ⟨0, 3⟩), (['b'], ⟨900, 1⟩)], 20, 5, 10, 0⟩
    let r : Req := ⟨['c'], 1000, 0⟩
    Sweeps z 1000 ∧ ¬ Stays z 1000 ['a'] ∧ Stays z 1000 ['b'] ∧ (z.recv r).1.ips.map Prod.fst = [['b'], ['c']] := by
  refine ⟨⟨by decide, by decide⟩, ?_, ⟨⟨900, 1⟩, by simp, by simp⟩, by decide +kernel⟩
  rintro ⟨v, hv, h⟩
  have h := h ⟨by decide, by decide⟩
  simp at hv
  subst hv
  simp at h

example : let z := Zone.new 2 5 10 0
    let rs : List Req := [⟨['a'], 1, 0⟩, ⟨['b'], 2, 0⟩, ⟨['c'], 3, 0⟩]
    (z.after rs).ips.length = 2 ∧ (z.decisions rs).map Prod.snd = [.ok, .ok, .refuse] := by decide +kernel

/-! ### C38, C39: the budget of one client

The specification counts, for the times at which one client asked, the requests since the last pause longer than the
period. -/

/-- For each request of a client (its times in order): its number since the last pause longer than `per`.
    `before` is the time and number of the previous request. -/
def streaks (per : Nat) : Option (Nat × Nat) → List Nat → List Nat
  | _, [] => []
  | none, t :: ts => 1 :: streaks per (some (t, 1)) ts
  | some (l, k), t :: ts =>
    (if t - l > per then 1 else k + 1) :: streaks per (some (t, if t - l > per then 1 else k + 1)) ts

/-- the decision on the `k`-th request since the last pause -/
def rule (nums burst per k : Nat) : Decision :=
  if k ≤ nums then .ok else if k ≤ nums + burst then .delay per else .refuse

/-- the requests of one client -/
def ofClient (x : Text) (rs : List Req) : List Req := rs.filter (fun r => r.ip == x)

/-- the decisions on the requests of one client -/
def decisionsOf (x : Text) (z : Zone) (rs : List Req) : List Decision :=
  ((z.decisions rs).filter (fun d => d.1.ip == x)).map Prod.snd

/-- what the specification says about the requests of one client -/
def expected (nums per : Nat) (before : Option (Nat × Nat)) (xs : List Req) : List Decision :=
  List.zipWith (fun r k => rule nums r.burst per k) xs (streaks per before (xs.map (·.time)))

/-- times do not go back -/
def Ordered (t0 : Nat) : List Req → Prop
  | [] => True
  | r :: rs => t0 ≤ r.time ∧ Ordered r.time rs

/-- whenever the client asks, the table (after cleanup) is not full -/
def Roomy (x : Text) (z : Zone) : List Req → Prop
  | [] => True
  | r :: rs => (r.ip = x → (z.cleanup r.time).ips.length < z.limit) ∧ Roomy x (z.recv r).1 rs

/-- what the zone knows about a client whose last request was number `k` at time `l` -/
def Knows (x : Text) (z : Zone) (now : Nat) : Option (Nat × Nat) → Prop
  | none => get z.ips x = none
  | some (l, k) => l ≤ now ∧ (get z.ips x = some ⟨l, k⟩ ∨ (get z.ips x = none ∧ now - l > z.per))

theorem Knows.mono {x : Text} {z : Zone} {now t : Nat} {b : Option (Nat × Nat)} (h : Knows x z now b) (ht : now ≤ t) :
    Knows x z t b := by
  cases b with
  | none => exact h
  | some p =>
    obtain ⟨l, k⟩ := p
    obtain ⟨h1, h2⟩ := h
    refine ⟨by omega, ?_⟩
    rcases h2 with h2 | ⟨h2, h3⟩
    · exact .inl h2
    · exact .inr ⟨h2, by omega⟩

theorem Knows.cleanup {x : Text} {z : Zone} {now : Nat} {b : Option (Nat × Nat)} (hn : (keys z.ips).Nodup)
    (h : Knows x z now b) : Knows x (z.cleanup now) now b := by
  unfold Zone.cleanup
  split
  · exact h
  · split
    · exact h
    · cases b with
      | none =>
        simp only [Knows] at h ⊢
        rw [get_filter hn (fun v => !(decide (now - v.last > 50 * z.per))), h]; rfl
      | some p =>
        obtain ⟨l, k⟩ := p
        obtain ⟨h1, h2⟩ := h
        refine ⟨h1, ?_⟩
        simp only
        rw [get_filter hn (fun v => !(decide (now - v.last > 50 * z.per)))]
        rcases h2 with h2 | ⟨h2, h3⟩
        · rw [h2]
          by_cases hl : now - l > 50 * z.per
          · refine .inr ⟨by simp [Option.filter, hl], by omega⟩
          · exact .inl (by simp [Option.filter, hl])
        · exact .inr ⟨by rw [h2]; rfl, h3⟩

/-- the number of the next request -/
def next (per t : Nat) : Option (Nat × Nat) → Nat
  | none => 1
  | some (l, k) => if t - l > per then 1 else k + 1

theorem streaks_cons (per t : Nat) (b : Option (Nat × Nat)) (ts : List Nat) :
    streaks per b (t :: ts) = next per t b :: streaks per (some (t, next per t b)) ts := by
  cases b with
  | none => rfl
  | some p => rfl

/-- one request of the client itself -/
theorem recv_self {z : Zone} {r : Req} {now : Nat} {b : Option (Nat × Nat)} (hn : (keys z.ips).Nodup)
    (hk : Knows r.ip z now b) (ht : now ≤ r.time) (hroom : (z.cleanup r.time).ips.length < z.limit) (h1 : 1 ≤ z.nums) :
    (z.recv r).2 = rule z.nums r.burst z.per (next z.per r.time b) ∧
    Knows r.ip (z.recv r).1 r.time (some (r.time, next z.per r.time b)) := by
  have hk := (hk.mono ht).cleanup hn
  obtain ⟨f1, f2, f3⟩ := cleanup_fields z r.time
  have hfull : ¬ (z.cleanup r.time).ips.length ≥ (z.cleanup r.time).limit := by omega
  -- the case of a client without an entry
  have hnew : get (z.cleanup r.time).ips r.ip = none → next z.per r.time b = 1 →
      (z.recv r).2 = rule z.nums r.burst z.per (next z.per r.time b) ∧
      Knows r.ip (z.recv r).1 r.time (some (r.time, next z.per r.time b)) := by
    intro hg hnx
    unfold Zone.recv
    simp only [if_neg hfull, hg, hnx]
    refine ⟨by simp [rule, h1], Nat.le_refl _, .inl ?_⟩
    rw [get_append, hg]; simp
  cases b with
  | none => exact hnew hk rfl
  | some p =>
    obtain ⟨l, k⟩ := p
    obtain ⟨h2, h3⟩ := hk
    rcases h3 with h3 | ⟨h3, h4⟩
    · unfold Zone.recv
      simp only [if_neg hfull, h3, Inner.recv, f3, next]
      refine ⟨by simp only [Zone.verdict, rule, f2, f3], Nat.le_refl _, .inl ?_⟩
      refine get_set_same ?_
      by_contra hc
      rw [get_none.2 hc] at h3; simp at h3
    · exact hnew h3 (by simp only [next]; rw [if_pos (by rw [f3] at h4; exact h4)])

/-- one request of another client -/
theorem recv_other {z : Zone} {r : Req} {x : Text} {now : Nat} {b : Option (Nat × Nat)} (hn : (keys z.ips).Nodup)
    (hx : r.ip ≠ x) (hk : Knows x z now b) (ht : now ≤ r.time) : Knows x (z.recv r).1 r.time b := by
  have hk := (hk.mono ht).cleanup hn
  suffices h : get (z.recv r).1.ips x = get (z.cleanup r.time).ips x ∧ (z.recv r).1.per = (z.cleanup r.time).per by
    cases b with
    | none => simp only [Knows] at hk ⊢; rw [h.1, hk]
    | some p => simp only [Knows] at hk ⊢; rw [h.1, h.2]; exact hk
  unfold Zone.recv
  simp only
  split
  · exact ⟨rfl, rfl⟩
  · split
    · exact ⟨get_set_other hx, rfl⟩
    · refine ⟨?_, rfl⟩
      rw [get_append, if_neg hx]; simp

theorem decisions_client (x : Text) (rs : List Req) : ∀ (z : Zone) (now : Nat) (b : Option (Nat × Nat)),
    (keys z.ips).Nodup → 1 ≤ z.nums → Knows x z now b → Ordered now rs → Roomy x z rs →
    decisionsOf x z rs = expected z.nums z.per b (ofClient x rs) := by
  induction rs with
  | nil => intro z now b _ _ _ _ _; rfl
  | cons r rs ih =>
    intro z now b hn h1 hk ho hr
    obtain ⟨ho1, ho2⟩ := ho
    obtain ⟨hr1, hr2⟩ := hr
    obtain ⟨f1, f2, f3⟩ := recv_fields z r
    have hn' := recv_nodup hn r
    by_cases hx : r.ip = x
    · subst hx
      obtain ⟨hd, hk'⟩ := recv_self hn hk ho1 (hr1 rfl) h1
      have := ih _ _ _ hn' (by rw [f2]; exact h1) hk' ho2 hr2
      rw [f2, f3] at this
      simp only [decisionsOf, Zone.decisions, ofClient, List.filter_cons, BEq.rfl, if_true, List.map_cons, expected,
        streaks_cons, List.zipWith_cons_cons] at this ⊢
      rw [this, hd]
    · have hk' := recv_other hn hx hk ho1
      have := ih _ _ _ hn' (by rw [f2]; exact h1) hk' ho2 hr2
      rw [f2, f3] at this
      have hb : (r.ip == x) = false := by simpa using hx
      simp only [decisionsOf, Zone.decisions, ofClient, List.filter_cons, hb, Bool.false_eq_true, if_false] at this ⊢
      exact this

/-- **C38** (exact decisions) For every zone with a positive number of requests per period and every history of requests
    by any clients at any times: if the table is not full when the client asks, the decision on each of its requests
    depends only on its number since the client's last pause longer than the period. -/
theorem C38_exact (limit nums per t0 : Nat) (x : Text) (rs : List Req) (h1 : 1 ≤ nums) (ho : Ordered t0 rs)
    (hr : Roomy x (Zone.new limit nums per t0) rs) :
    decisionsOf x (Zone.new limit nums per t0) rs = expected nums per none (ofClient x rs) :=
  decisions_client x rs (Zone.new limit nums per t0) t0 none (by simp [Zone.new, keys]) h1 rfl ho hr

/-- **C39** What other clients do does not change the decisions for a client, as long as the table is not full when that
    client asks; cleanups do not matter. -/
theorem C39_independent (limit nums per t0 : Nat) (x : Text) (rs rs' : List Req) (h1 : 1 ≤ nums)
    (ho : Ordered t0 rs) (ho' : Ordered t0 rs') (hr : Roomy x (Zone.new limit nums per t0) rs)
    (hr' : Roomy x (Zone.new limit nums per t0) rs') (hx : ofClient x rs = ofClient x rs') :
    decisionsOf x (Zone.new limit nums per t0) rs = decisionsOf x (Zone.new limit nums per t0) rs' := by
  rw [C38_exact limit nums per t0 x rs h1 ho hr, C38_exact limit nums per t0 x rs' h1 ho' hr', hx]

/-! a history with fewer clients than the limit never finds the table full -/

theorem recv_keys (z : Zone) (r : Req) : ∀ k ∈ keys (z.recv r).1.ips, k ∈ keys z.ips ∨ k = r.ip := by
  intro k hk
  have hs := (cleanup_keys_sub z r.time).subset
  unfold Zone.recv at hk
  simp only at hk
  split at hk
  · exact .inl (hs hk)
  · split at hk
    · simp only [keys_set] at hk; exact .inl (hs hk)
    · simp only [keys, List.map_append, List.mem_append, List.map_cons, List.map_nil, List.mem_singleton] at hk
      rcases hk with hk | hk
      · exact .inl (hs hk)
      · exact .inr hk

/-- **C38**, **C39** (when the table has room) With fewer different clients in the history than the limit, the table is
    never full. -/
theorem C38_room (limit nums per t0 : Nat) (x : Text) (rs : List Req)
    (h : (rs.map (·.ip)).dedup.length < limit) : Roomy x (Zone.new limit nums per t0) rs := by
  suffices hs : ∀ (rs : List Req) (z : Zone) (all : List Text), (keys z.ips).Nodup → (∀ k ∈ keys z.ips, k ∈ all) →
      (∀ r ∈ rs, r.ip ∈ all) → all.length < z.limit → Roomy x z rs by
    refine hs rs _ (rs.map (·.ip)).dedup (by simp [Zone.new, keys]) (by simp [Zone.new, keys]) ?_ h
    intro r hr
    rw [List.mem_dedup]
    exact List.mem_map_of_mem hr
  intro rs
  induction rs with
  | nil => intros; trivial
  | cons r rs ih =>
    intro z all hn hk hr hl
    refine ⟨fun _ => ?_, ?_⟩
    · have h1 := (cleanup_keys_sub z r.time).length_le
      have h2 := (hn.subperm (fun k hk' => hk k hk')).length_le
      simp only [keys, List.length_map] at h1 h2
      omega
    · refine ih _ all (recv_nodup hn r) ?_ (fun r' hr' => hr r' (by simp [hr'])) (by rw [(recv_fields z r).1]; exact hl)
      intro k hk'
      rcases recv_keys z r k hk' with h | rfl
      · exact hk k h
      · exact hr r (by simp)

/-! counting in a window -/

/-- consecutive times are at most `per` apart -/
def Window (per : Nat) : List Nat → Prop
  | a :: b :: ts => b - a ≤ per ∧ Window per (b :: ts)
  | _ => True

theorem streaks_length (per : Nat) (b : Option (Nat × Nat)) (ts : List Nat) : (streaks per b ts).length = ts.length := by
  induction ts generalizing b with
  | nil => cases b <;> rfl
  | cons t ts ih => rw [streaks_cons, List.length_cons, ih, List.length_cons]

theorem streaks_append (per : Nat) (b : Option (Nat × Nat)) (ts us : List Nat) :
    ∃ b', streaks per b (ts ++ us) = streaks per b ts ++ streaks per b' us := by
  induction ts generalizing b with
  | nil => exact ⟨b, by cases b <;> rfl⟩
  | cons t ts ih =>
    obtain ⟨b', h⟩ := ih (some (t, next per t b))
    refine ⟨b', ?_⟩
    rw [List.cons_append, streaks_cons, streaks_cons, h, List.cons_append]

/-- in a window the numbers count up -/
theorem streaks_window (per : Nat) (ts : List Nat) (hw : Window per ts) (b : Option (Nat × Nat)) :
    ∃ s, 1 ≤ s ∧ streaks per b ts = List.range' s ts.length := by
  induction ts generalizing b with
  | nil => exact ⟨1, Nat.le_refl _, by cases b <;> rfl⟩
  | cons t ts ih =>
    refine ⟨next per t b, ?_, ?_⟩
    · cases b with
      | none => exact Nat.le_refl _
      | some p => obtain ⟨l, k⟩ := p; simp only [next]; split <;> omega
    · rw [streaks_cons, List.length_cons, List.range'_succ]
      congr 1
      cases ts with
      | nil => rfl
      | cons t' ts =>
        obtain ⟨hw1, hw2⟩ := hw
        obtain ⟨s, hs, he⟩ := ih hw2 (some (t, next per t b))
        rw [he]
        rw [streaks_cons, List.length_cons, List.range'_succ] at he
        injection he with he1 _
        have : s = next per t b + 1 := by rw [← he1]; simp only [next]; rw [if_neg (by omega)]
        rw [this]

theorem count_range' (s n lo hi : Nat) (f : Nat → Bool) (h : ∀ k, s ≤ k → f k = true → lo < k ∧ k ≤ hi) :
    ((List.range' s n).filter f).length ≤ hi - lo := by
  have hsub : ((List.range' s n).filter f).Subperm (List.range' (lo + 1) (hi - lo)) := by
    refine List.Nodup.subperm ((List.nodup_range' (step := 1)).filter _) ?_
    intro k hk
    rw [List.mem_filter] at hk
    have hm := List.mem_range'_1.1 hk.1
    have := h k hm.1 hk.2
    rw [List.mem_range'_1]
    omega
  simpa using hsub.length_le

/-- **C38** (counting) In any window of requests of a client — consecutive requests no further apart than the period —
    at most `nums` are passed at once and at most `burst` are delayed (`burst` being the same for all its requests), and
    everything else is refused. The window is any part `w` of the client's requests. Missing for the full claim: the
    case of a full table, see `C38_full_fails`, and of `nums = 0`, see `C38_zero_fails`. -/
theorem C38_window_partial (limit nums per burst t0 : Nat) (x : Text) (rs a w c : List Req) (h1 : 1 ≤ nums)
    (ho : Ordered t0 rs) (hr : Roomy x (Zone.new limit nums per t0) rs) (hsplit : ofClient x rs = a ++ w ++ c)
    (hb : ∀ r ∈ w, r.burst = burst) (hw : Window per (w.map (·.time))) :
    let ds := ((decisionsOf x (Zone.new limit nums per t0) rs).drop a.length).take w.length
    ds.length = w.length ∧ ds.countP (· = .ok) ≤ nums ∧ ds.countP (· = .delay per) ≤ burst ∧
    ∀ d ∈ ds, d = .ok ∨ d = .delay per ∨ d = .refuse := by
  simp only
  rw [C38_exact limit nums per t0 x rs h1 ho hr, hsplit, expected]
  obtain ⟨b1, e1⟩ := streaks_append per none ((a ++ w).map (·.time)) (c.map (·.time))
  obtain ⟨b2, e2⟩ := streaks_append per none (a.map (·.time)) (w.map (·.time))
  rw [List.map_append, e1, List.map_append, e2]
  rw [List.zipWith_append (by simp [streaks_length]), List.zipWith_append (by simp [streaks_length])]
  have hl1 : ∀ (l : List Req) (b : Option (Nat × Nat)),
      (List.zipWith (fun r k => rule nums r.burst per k) l (streaks per b (l.map (·.time)))).length = l.length := by
    intro l b; simp [streaks_length]
  rw [List.append_assoc, List.drop_left' (hl1 a none), List.take_left' (hl1 w b2)]
  obtain ⟨s, hs, he⟩ := streaks_window per _ hw b2
  rw [he, List.length_map]
  have hz : List.zipWith (fun r k => rule nums r.burst per k) w (List.range' s w.length)
      = (List.range' s w.length).map (rule nums burst per) := by
    clear he hw e2 e1 hsplit
    induction w generalizing s with
    | nil => rfl
    | cons r w ih =>
      rw [List.length_cons, List.range'_succ, List.zipWith_cons_cons, List.map_cons, hb r (by simp),
        ih (fun r hr => hb r (by simp [hr])) (s + 1) (by omega)]
  rw [hz]
  refine ⟨by simp, ?_, ?_, ?_⟩
  · rw [List.countP_map, List.countP_eq_length_filter]
    refine Nat.le_trans (count_range' s w.length 0 nums ((fun x => decide (x = Decision.ok)) ∘ rule nums burst per)
      (fun k hk1 hk => ?_)) (by omega)
    simp only [Function.comp, decide_eq_true_iff, rule] at hk
    split at hk
    · omega
    · split at hk <;> cases hk
  · rw [List.countP_map, List.countP_eq_length_filter]
    refine Nat.le_trans (count_range' s w.length nums (nums + burst)
      ((fun x => decide (x = Decision.delay per)) ∘ rule nums burst per) (fun k hk1 hk => ?_)) (by omega)
    simp only [Function.comp, decide_eq_true_iff, rule] at hk
    split at hk
    · cases hk
    · split at hk
      · omega
      · cases hk
  · intro d hd
    rw [List.mem_map] at hd
    obtain ⟨k, _, rfl⟩ := hd
    simp only [rule]
    split
    · simp
    · split <;> simp

/-- three clients, one of them asking five times in a window and once more after a pause -/
def sample : List Req :=
  [⟨['a'], 1, 1⟩, ⟨['b'], 1, 1⟩, ⟨['a'], 5, 1⟩, ⟨['a'], 9, 1⟩, ⟨['c'], 10, 1⟩, ⟨['a'], 12, 1⟩, ⟨['a'], 40, 1⟩]

example : Ordered 0 sample ∧ (sample.map (·.ip)).dedup.length < 5 ∧
    Window 10 (((ofClient ['a'] sample).take 4).map (·.time)) ∧
    decisionsOf ['a'] (Zone.new 5 2 10 0) sample = [.ok, .ok, .delay 10, .refuse, .ok] := by
  refine ⟨?_, ?_, ?_, ?_⟩
  · simp [Ordered, sample]
  · decide +kernel
  · have : ((ofClient ['a'] sample).take 4).map (·.time) = [1, 5, 9, 12] := by decide +kernel
    rw [this]; simp [Window]
  · decide +kernel

/-! a full table: a client that asks all the time, and `limit - 1` others that ask once in a hundred periods -/

/-- other clients than "a" -/
def others (n : Nat) : List Text := (List.range n).map fun k => List.replicate (k + 1) 'b'

/-- a hundred periods, beginning at `T`: the client and all others ask once, then the client alone once in every period -/
def round (limit per burst T : Nat) : List Req :=
  ⟨['a'], T, burst⟩ :: (others (limit - 1)).map (fun y => ⟨y, T, burst⟩) ++
    (List.range 99).map fun j => ⟨['a'], T + (j + 1) * per, burst⟩

/-- `n` such times -/
def crowded (limit per burst T : Nat) : Nat → List Req
  | 0 => []
  | n + 1 => round limit per burst T ++ crowded limit per burst (T + 100 * per) n

theorem cleanup_early (z : Zone) (now : Nat) (h : now - z.lastRemove < 100 * z.per) : z.cleanup now = z := by
  unfold Zone.cleanup
  split
  · rfl
  · simp [h]

theorem decisions_append (z : Zone) (a b : List Req) : z.decisions (a ++ b) = z.decisions a ++ (z.after a).decisions b := by
  induction a generalizing z with
  | nil => rfl
  | cons r a ih => simp only [List.cons_append, Zone.decisions, ih]; rfl

theorem decisionsOf_append (x : Text) (z : Zone) (a b : List Req) :
    decisionsOf x z (a ++ b) = decisionsOf x z a ++ decisionsOf x (z.after a) b := by
  unfold decisionsOf
  rw [decisions_append, List.filter_append, List.map_append]

theorem get_none_of {ips : List (Text × Inner)} {x : Text} (h : ∀ e ∈ ips, e.1 ≠ x) : get ips x = none := by
  unfold get
  rw [Option.map_eq_none_iff, List.find?_eq_none]
  intro e he hc
  exact h e he (by simpa using hc)

/-- new clients are entered while there is room -/
theorem fills (burst T : Nat) : ∀ (ys : List Text) (z : Zone), 0 < z.per → z.lastRemove = T → ys.Nodup →
    (∀ y ∈ ys, ∀ e ∈ z.ips, e.1 ≠ y) → z.ips.length + ys.length ≤ z.limit →
    z.after (ys.map fun y => ⟨y, T, burst⟩) = { z with ips := z.ips ++ ys.map fun y => (y, ⟨T, 1⟩) } := by
  intro ys
  induction ys with
  | nil => intro z _ _ _ _ _; simp [Zone.after]
  | cons y ys ih =>
    intro z hp hl hn hd hr
    have hc : z.cleanup T = z := cleanup_early z T (by rw [hl]; omega)
    have h1 : (z.recv ⟨y, T, burst⟩).1 = { z with ips := z.ips ++ [(y, ⟨T, 1⟩)] } := by
      simp only [Zone.recv, hc]
      rw [if_neg (by simp at hr; omega), get_none_of (hd y (by simp))]
    rw [List.map_cons, Zone.after, List.foldl_cons, h1]
    have := ih { z with ips := z.ips ++ [(y, ⟨T, 1⟩)] } hp hl (List.nodup_cons.1 hn).2 (by
      intro y' hy' e he
      rw [List.mem_append, List.mem_singleton] at he
      rcases he with he | rfl
      · exact hd y' (List.mem_cons_of_mem _ hy') e he
      · intro hc
        dsimp only at hc
        rw [hc] at hn
        exact (List.nodup_cons.1 hn).1 hy') (by simp at hr ⊢; omega)
    unfold Zone.after at this
    rw [this]
    simp

/-- a full table refuses, and stays as it is until it is cleaned up -/
theorem stays_full (z : Zone) (hf : z.limit ≤ z.ips.length) (rs : List Req)
    (h : ∀ r ∈ rs, r.time - z.lastRemove < 100 * z.per) :
    z.after rs = z ∧ ∀ d ∈ z.decisions rs, d.2 = .refuse := by
  induction rs with
  | nil => exact ⟨rfl, by intro d hd; cases hd⟩
  | cons r rs ih =>
    have hr : z.recv r = (z, .refuse) := by
      simp only [Zone.recv, cleanup_early z r.time (h r (by simp))]
      rw [if_pos hf]
    have hi := ih fun r hr => h r (List.mem_cons_of_mem _ hr)
    refine ⟨?_, ?_⟩
    · unfold Zone.after at *
      rw [List.foldl_cons, hr]
      exact hi.1
    · intro d hd
      rw [Zone.decisions, List.mem_cons, hr] at hd
      rcases hd with rfl | hd
      · rfl
      · exact hi.2 d hd

theorem others_ne (n : Nat) : ∀ y ∈ others n, y ≠ ['a'] := by
  intro y hy
  obtain ⟨k, _, rfl⟩ := List.mem_map.1 hy
  intro hc
  have := congrArg List.head? hc
  simp [List.replicate_succ] at this

theorem others_nodup (n : Nat) : (others n).Nodup := by
  refine List.Nodup.map ?_ List.nodup_range
  intro a b h
  have := congrArg List.length h
  simpa using this

/-- the table before a round: empty, or full of clients that asked a hundred periods ago -/
def Before (z : Zone) (T : Nat) : Prop :=
  z.cleanup T = { z with ips := [], lastRemove := T }

theorem round_passes (z : Zone) (burst T : Nat) (hp : 0 < z.per) (hl : 0 < z.limit) (hb : Before z T) :
    (∃ ds, decisionsOf ['a'] z (round z.limit z.per burst T) = .ok :: ds) ∧
    Before (z.after (round z.limit z.per burst T)) (T + 100 * z.per) ∧
    (z.after (round z.limit z.per burst T)).per = z.per ∧ (z.after (round z.limit z.per burst T)).limit = z.limit := by
  have h1 : z.recv ⟨['a'], T, burst⟩ = ({ z with ips := [(['a'], ⟨T, 1⟩)], lastRemove := T }, .ok) := by
    have hb' : z.cleanup T = { z with ips := [], lastRemove := T } := hb
    simp only [Zone.recv, hb']
    rw [if_neg (by simp; omega)]
    rfl
  have hfill := fills burst T (others (z.limit - 1)) { z with ips := [(['a'], ⟨T, 1⟩)], lastRemove := T } hp rfl
    (others_nodup _) (by
      intro y hy e he
      rw [List.mem_singleton] at he
      rw [he]
      exact (others_ne _ y hy).symm) (by simp [others]; omega)
  generalize hz2 : ({ z with
      ips := [(['a'], ⟨T, 1⟩)] ++ (others (z.limit - 1)).map fun y => (y, (⟨T, 1⟩ : Inner)), lastRemove := T } : Zone) = z2
  have hfill2 : ({ z with ips := [(['a'], ⟨T, 1⟩)], lastRemove := T } : Zone).after
      ((others (z.limit - 1)).map fun y => ⟨y, T, burst⟩) = z2 := by rw [hfill, ← hz2]
  have hlen : z2.ips.length = z.limit := by rw [← hz2]; simp [others]; omega
  have hper : z2.per = z.per := by rw [← hz2]
  have hlim : z2.limit = z.limit := by rw [← hz2]
  have hrem : z2.lastRemove = T := by rw [← hz2]
  have htimes : ∀ e ∈ z2.ips, e.2.last = T := by
    rw [← hz2]
    intro e he
    rw [List.mem_append, List.mem_singleton, List.mem_map] at he
    rcases he with rfl | ⟨y, _, rfl⟩ <;> rfl
  have hquiet := stays_full z2 (by omega) ((List.range 99).map fun j => ⟨['a'], T + (j + 1) * z.per, burst⟩) (by
    intro r hr
    obtain ⟨j, hj, rfl⟩ := List.mem_map.1 hr
    rw [hrem, hper]
    have hj : j < 99 := List.mem_range.1 hj
    have h3 : (j + 1) * z.per ≤ 99 * z.per := Nat.mul_le_mul_right _ (by omega)
    dsimp only
    omega)
  have hafter : z.after (round z.limit z.per burst T) = z2 := by
    have e1 : z.after (round z.limit z.per burst T) =
        ((({ z with ips := [(['a'], ⟨T, 1⟩)], lastRemove := T } : Zone).after
          ((others (z.limit - 1)).map fun y => ⟨y, T, burst⟩)).after
            ((List.range 99).map fun j => ⟨['a'], T + (j + 1) * z.per, burst⟩)) := by
      unfold round Zone.after
      rw [List.foldl_append, List.foldl_cons, h1]
    rw [e1, hfill2, hquiet.1]
  refine ⟨?_, ?_, by rw [hafter]; exact hper, by rw [hafter]; exact hlim⟩
  · refine ⟨?_, ?_⟩
    · exact (((({ z with ips := [(['a'], ⟨T, 1⟩)], lastRemove := T } : Zone).decisions
        ((others (z.limit - 1)).map (fun y => ⟨y, T, burst⟩) ++
          (List.range 99).map fun j => ⟨['a'], T + (j + 1) * z.per, burst⟩)).filter (fun d => d.1.ip == ['a'])).map Prod.snd)
    · unfold decisionsOf round
      rw [List.cons_append, Zone.decisions, h1]
      rfl
  · rw [hafter]
    have hc : z2.cleanup (T + 100 * z.per) = ⟨z2.ips.filter fun e => !(decide (T + 100 * z.per - e.2.last > 50 * z2.per)),
        z2.limit, z2.nums, z2.per, T + 100 * z.per⟩ := by
      unfold Zone.cleanup
      rw [if_neg (by omega), if_neg (by rw [hrem, hper]; omega)]
    unfold Before
    rw [hc]
    have : z2.ips.filter (fun e => !(decide (T + 100 * z.per - e.2.last > 50 * z2.per))) = [] := by
      rw [List.filter_eq_nil_iff]
      intro e he
      rw [htimes e he, hper]
      have : T + 100 * z.per - T > 50 * z.per := by omega
      rw [decide_eq_true this]
      decide
    rw [this]

theorem window_range (per : Nat) : ∀ m T, Window per ((List.range m).map fun j => T + j * per) := by
  intro m
  induction m with
  | zero => intro T; trivial
  | succ m ih =>
    intro T
    have e : (List.range (m + 1)).map (fun j => T + j * per) = T :: (List.range m).map fun j => T + per + j * per := by
      rw [List.range_succ_eq_map, List.map_cons, List.map_map]
      congr 1
      · omega
      · refine List.map_congr_left fun j _ => ?_
        simp only [Function.comp, Nat.succ_mul]
        omega
    rw [e]
    have := ih (T + per)
    cases m with
    | zero => trivial
    | succ m =>
      rw [List.range_succ_eq_map, List.map_cons] at this ⊢
      exact ⟨by omega, this⟩

theorem Ordered.mono {t u : Nat} {rs : List Req} (h : Ordered u rs) (htu : t ≤ u) : Ordered t rs := by
  cases rs with
  | nil => trivial
  | cons r rs => exact ⟨Nat.le_trans htu h.1, h.2⟩

theorem Ordered.append {u : Nat} {b : List Req} (hb : Ordered u b) : ∀ {t : Nat} {a : List Req}, Ordered t a →
    (∀ r ∈ a, r.time ≤ u) → t ≤ u → Ordered t (a ++ b) := by
  intro t a
  induction a generalizing t with
  | nil => intro _ _ h; exact hb.mono h
  | cons r a ih =>
    intro ha hr _
    exact ⟨ha.1, ih ha.2 (fun r' h' => hr r' (List.mem_cons_of_mem _ h')) (hr r (by simp))⟩

theorem ordered_range (per burst T : Nat) : ∀ m, Ordered T ((List.range m).map fun j => (⟨['a'], T + (j + 1) * per, burst⟩ : Req)) := by
  intro m
  induction m with
  | zero => trivial
  | succ m ih =>
    rw [List.range_succ, List.map_append]
    have hlast : Ordered (T + m * per) ([m].map fun j => (⟨['a'], T + (j + 1) * per, burst⟩ : Req)) :=
      ⟨by dsimp only; rw [Nat.succ_mul]; omega, trivial⟩
    refine Ordered.append hlast ih ?_ (by omega)
    · intro r hr
      obtain ⟨j, hj, rfl⟩ := List.mem_map.1 hr
      have : (j + 1) * per ≤ m * per := Nat.mul_le_mul_right _ (List.mem_range.1 hj)
      dsimp only; omega

theorem round_ordered (limit per burst T : Nat) :
    Ordered T (round limit per burst T) ∧ ∀ r ∈ round limit per burst T, r.time ≤ T + 100 * per := by
  constructor
  · refine ⟨Nat.le_refl _, ?_⟩
    refine Ordered.append (u := T) (ordered_range per burst T 99) ?_ ?_ (Nat.le_refl _)
    · generalize others (limit - 1) = ys
      induction ys with
      | nil => trivial
      | cons y ys ih => exact ⟨Nat.le_refl _, ih⟩
    · intro r hr
      obtain ⟨y, _, rfl⟩ := List.mem_map.1 hr
      exact Nat.le_refl _
  · intro r hr
    unfold round at hr
    rw [List.mem_append, List.mem_cons] at hr
    rcases hr with (rfl | hr) | hr
    · exact Nat.le_add_right _ _
    · obtain ⟨y, _, rfl⟩ := List.mem_map.1 hr
      exact Nat.le_add_right _ _
    · obtain ⟨j, hj, rfl⟩ := List.mem_map.1 hr
      have : (j + 1) * per ≤ 100 * per := Nat.mul_le_mul_right _ (by have := List.mem_range.1 hj; omega)
      dsimp only; omega

theorem round_times (limit per burst T : Nat) :
    (ofClient ['a'] (round limit per burst T)).map (·.time) = (List.range 100).map fun j => T + j * per := by
  have h1 : ((others (limit - 1)).map (fun y => (⟨y, T, burst⟩ : Req))).filter (fun r => r.ip == ['a']) = [] := by
    rw [List.filter_eq_nil_iff]
    intro r hr
    obtain ⟨y, hy, rfl⟩ := List.mem_map.1 hr
    simpa using others_ne _ y hy
  have h2 : ((List.range 99).map fun j => (⟨['a'], T + (j + 1) * per, burst⟩ : Req)).filter (fun r => r.ip == ['a'])
      = (List.range 99).map fun j => ⟨['a'], T + (j + 1) * per, burst⟩ := by
    rw [List.filter_eq_self]
    intro r hr
    obtain ⟨j, _, rfl⟩ := List.mem_map.1 hr
    simp
  unfold ofClient round
  rw [List.filter_append, List.filter_cons, h1, h2, if_pos (by simp)]
  rw [List.map_append, List.map_map, show List.range 100 = 0 :: (List.range 99).map Nat.succ from List.range_succ_eq_map,
    List.map_cons]
  simp [Function.comp_def]

/-- **C38** fails for a full table, whatever the limits: when as many clients ask as the table holds, each request of a client may be
    passed that is the first in a hundred periods, though the client asked in every period without pause, so that all its requests
    form one window. (The refusals of a full table are not counted, and the cleanup forgets a client that never stopped asking.) So a
    window may have any number of requests that are passed. -/
theorem C38_full_fails (limit nums per burst n : Nat) (hl : 0 < limit) (hp : 0 < per) :
    let rs := crowded limit per burst 0 n
    Window per ((ofClient ['a'] rs).map (·.time)) ∧ Ordered 0 rs ∧
    n ≤ (decisionsOf ['a'] (Zone.new limit nums per 0) rs).countP (· = .ok) := by
  have htimes : ∀ n T, (ofClient ['a'] (crowded limit per burst T n)).map (·.time)
      = (List.range (100 * n)).map fun j => T + j * per := by
    intro n
    induction n with
    | zero => intro T; rfl
    | succ n ih =>
      intro T
      have e : ofClient ['a'] (crowded limit per burst T (n + 1))
          = ofClient ['a'] (round limit per burst T) ++ ofClient ['a'] (crowded limit per burst (T + 100 * per) n) := by
        rw [crowded]
        unfold ofClient
        rw [List.filter_append]
      rw [e, List.map_append, round_times, ih, show 100 * (n + 1) = 100 + 100 * n by omega, List.range_add, List.map_append,
        List.map_map]
      congr 1
      refine List.map_congr_left fun j _ => ?_
      simp only [Function.comp, Nat.add_mul]
      omega
  have hord : ∀ n T, Ordered T (crowded limit per burst T n) := by
    intro n
    induction n with
    | zero => intro T; trivial
    | succ n ih =>
      intro T
      exact Ordered.append (ih (T + 100 * per)) (round_ordered limit per burst T).1 (round_ordered limit per burst T).2 (by omega)
  have hok : ∀ n T z, z.per = per → z.limit = limit → Before z T →
      n ≤ (decisionsOf ['a'] z (crowded limit per burst T n)).countP (· = .ok) := by
    intro n
    induction n with
    | zero => intros; exact Nat.zero_le _
    | succ n ih =>
      intro T z h1 h2 hb
      subst h1 h2
      obtain ⟨⟨ds, hds⟩, hb', h1', h2'⟩ := round_passes z burst T hp hl hb
      have := ih (T + 100 * z.per) _ h1' h2' hb'
      rw [crowded, decisionsOf_append, List.countP_append, hds, List.countP_cons_of_pos (by simp)]
      omega
  refine ⟨?_, hord n 0, hok n 0 _ rfl rfl ?_⟩
  · rw [htimes]; exact window_range per _ 0
  · unfold Before
    exact cleanup_early _ 0 (by simp [Zone.new]; omega)

/-- a table for one client, one request per period: two requests of a window are passed -/
example : crowded 1 1 0 0 2 = (List.range 200).map (fun i => (⟨['a'], i, 0⟩ : Req)) ∧
    decisionsOf ['a'] (Zone.new 1 1 1 0) ((crowded 1 1 0 0 2).take 101) = .ok :: List.replicate 99 .refuse ++ [.ok] := by decide +kernel

/-- **C38** fails for a rate of zero: the first request of every client is passed. -/
theorem C38_zero_fails (limit per t0 : Nat) (r : Req) (h : 0 < limit) :
    ((Zone.new limit 0 per t0).recv r).2 = .ok := by
  have hc : (Zone.new limit 0 per t0).cleanup r.time = Zone.new limit 0 per t0 ∨
      (Zone.new limit 0 per t0).cleanup r.time = Zone.new limit 0 per r.time := by
    unfold Zone.cleanup
    split
    · exact .inl rfl
    · split
      · exact .inl rfl
      · exact .inr rfl
  have hl : ∀ t, ¬ (Zone.new limit 0 per t).ips.length ≥ (Zone.new limit 0 per t).limit := by
    intro t; simp [Zone.new]; omega
  unfold Zone.recv
  simp only
  rcases hc with hc | hc <;> rw [hc, if_neg (hl _)] <;> rfl

/-! ### C64: zones -/

/-- **C64** fails: registering a zone that is already known changes nothing, whatever the new settings; after a
    reload the old limit, rate and period stay in force. -/
theorem C64_reload_fails (zs : Zones) (key : Text) (limit nums per limit' nums' per' now now' : Nat) :
    (zs.cache key limit nums per now).cache key limit' nums' per' now' = zs.cache key limit nums per now := by
  have h : (zs.cache key limit nums per now).any (fun e => e.1 == key) = true := by
    unfold Zones.cache
    split
    · assumption
    · simp
  unfold Zones.cache at h ⊢
  rw [if_pos h]

/-- the settings asked for are not those in force -/
example : ((Zones.cache [] ['z'] 10 5 60 0).cache ['z'] 20 100 60 1).map (fun e => (e.2.limit, e.2.nums)) = [(10, 5)] := by
  decide +kernel

/-- **C64**, partial: the first registration is the one in force, with exactly its settings, and registrations and
    requests of other zones change nothing for a zone. Missing: changed settings, see `C64_reload_fails`. -/
theorem C64_zones_partial (zs : Zones) (key : Text) (limit nums per now : Nat) :
    (zs.find? (fun e => e.1 == key) = none →
      (zs.cache key limit nums per now).find? (fun e => e.1 == key) = some (key, .new limit nums per now)) ∧
    (∀ other, other ≠ key → (zs.cache other limit nums per now).find? (fun e => e.1 == key) = zs.find? (fun e => e.1 == key)) ∧
    (∀ other r, other ≠ key → (zs.recv other r).1.find? (fun e => e.1 == key) = zs.find? (fun e => e.1 == key)) := by
  refine ⟨fun h => ?_, fun other ho => ?_, fun other r ho => ?_⟩
  · have hn : zs.any (fun e => e.1 == key) = false := by
      rw [List.any_eq_false]; exact List.find?_eq_none.1 h
    unfold Zones.cache
    rw [if_neg (by simp [hn]), List.find?_append, h]
    simp
  · unfold Zones.cache
    split
    · rfl
    · rw [List.find?_append]
      have : (other == key) = false := by simpa using ho
      simp [this]
  · unfold Zones.recv
    split
    · rfl
    · rename_i e he
      simp only
      clear he
      generalize (e.2.recv r).1 = z'
      induction zs with
      | nil => rfl
      | cons x zs ih =>
        rw [List.map_cons, List.find?_cons, List.find?_cons]
        by_cases hx : x.1 = other
        · have hb : (other == key) = false := by simpa using ho
          simp only [hx, if_true, hb]
          exact ih
        · simp only [if_neg hx]
          split
          · rfl
          · exact ih

example : ((Zones.cache [] ['z'] 10 5 60 0).recv ['z'] ⟨['a'], 1, 0⟩).2 = .ok ∧
    ((Zones.cache [] ['z'] 0 5 60 0).recv ['z'] ⟨['a'], 1, 0⟩).2 = .refuse := by decide +kernel

end Wm.Limit
