import Verif.Props.Limit
import Verif.Props.LimitOver
/-! Properties C40 and C64 over whole histories: when a table is full, and which settings a zone goes by. -/
namespace Wm.Limit
open Wm

/-! ### C40: when the table is full -/

/-- there are so many clients that stay that no other can be remembered -/
def FullAt (z : Zone) (limit now : Nat) : Prop :=
  ∃ S : List Text, S.Nodup ∧ (∀ ip ∈ S, Stays z now ip) ∧ limit ≤ S.length

theorem after_nodup (limit nums per t0 : Nat) (rs : List Req) :
    (keys ((Zone.new limit nums per t0).after rs).ips).Nodup := by
  suffices h : ∀ z : Zone, (keys z.ips).Nodup → (keys (z.after rs).ips).Nodup from h _ (by simp [Zone.new, keys])
  induction rs with
  | nil => exact fun z h => h
  | cons r rs ih => exact fun z h => ih _ (recv_nodup h r)

theorem stays_iff (z : Zone) (now : Nat) (ip : Text) : Stays z now ip ↔ ip ∈ keys (z.cleanup now).ips := by
  unfold Stays keys
  rw [List.mem_map]
  constructor
  · rintro ⟨v, hv⟩
    exact ⟨(ip, v), (mem_cleanup z now (ip, v)).2 hv, rfl⟩
  · rintro ⟨⟨a, v⟩, hv, rfl⟩
    exact ⟨v, (mem_cleanup z now (a, v)).1 hv⟩

theorem fullAt_iff (z : Zone) (limit now : Nat) (hn : (keys z.ips).Nodup) :
    FullAt z limit now ↔ limit ≤ (z.cleanup now).ips.length := by
  have hk : (keys (z.cleanup now).ips).length = (z.cleanup now).ips.length := List.length_map _
  constructor
  · rintro ⟨S, h1, h2, h3⟩
    have hs : S ⊆ keys (z.cleanup now).ips := fun ip hip => (stays_iff z now ip).1 (h2 ip hip)
    have := (h1.subperm hs).length_le
    omega
  · intro h
    exact ⟨_, hn.sublist (cleanup_keys_sub z now), fun ip hip => (stays_iff z now ip).2 hip, by omega⟩

/-- **C40** (when full) After every history: if as many clients as the limit allows stay remembered, the next request is
    refused, whoever asks, and its client is remembered only if it was before. If fewer stay, a client that is not among them
    is passed and remembered from then on. -/
theorem C40_full (limit nums per t0 : Nat) (rs : List Req) (r : Req) :
    let z := (Zone.new limit nums per t0).after rs
    (FullAt z limit r.time → (z.recv r).2 = .refuse ∧ ((∃ v, (r.ip, v) ∈ (z.recv r).1.ips) ↔ Stays z r.time r.ip)) ∧
    (¬ FullAt z limit r.time → ¬ Stays z r.time r.ip →
      (z.recv r).2 = .ok ∧ (r.ip, ⟨r.time, 1⟩) ∈ (z.recv r).1.ips) := by
  intro z
  have hn : (keys z.ips).Nodup := after_nodup limit nums per t0 rs
  have hl : (z.cleanup r.time).limit = limit := by
    rw [(cleanup_fields z r.time).1]
    exact (after_fields _ rs).1
  constructor
  · intro h
    have h' := (fullAt_iff z limit r.time hn).1 h
    have hr : z.recv r = (z.cleanup r.time, .refuse) := by
      unfold Zone.recv
      dsimp only
      rw [if_pos (by rw [hl]; exact h')]
    rw [hr]
    refine ⟨rfl, ?_⟩
    rw [stays_iff]
    simp [keys]
  · intro h hs
    have h' : ¬ limit ≤ (z.cleanup r.time).ips.length := fun x => h ((fullAt_iff z limit r.time hn).2 x)
    have hg : get (z.cleanup r.time).ips r.ip = none := get_none.2 (fun x => hs ((stays_iff z r.time r.ip).2 x))
    unfold Zone.recv
    dsimp only
    rw [if_neg (by rw [hl]; exact h'), hg]
    exact ⟨rfl, by simp⟩

/-- two clients fill a table for two; the third is refused, and so is the first when it asks again -/
example : let z := (Zone.new 2 5 10 0).after [⟨['a'], 1, 0⟩, ⟨['b'], 2, 0⟩]
    FullAt z 2 3 ∧ ¬ FullAt (Zone.new 2 5 10 0) 2 3 ∧ (z.recv ⟨['c'], 3, 0⟩).2 = .refuse ∧ (z.recv ⟨['a'], 3, 0⟩).2 = .refuse := by
  refine ⟨(fullAt_iff _ 2 3 (after_nodup 2 5 10 0 _)).2 (by decide +kernel), ?_, by decide +kernel, by decide +kernel⟩
  intro h
  have := (fullAt_iff _ 2 3 (after_nodup 2 5 10 0 [])).1 h
  exact absurd this (by decide +kernel)

/-! ### C64: the settings a zone goes by -/

/-- the requests to locations limited by zone `key` -/
def asksTo (key : Text) : List Event → List Req
  | [] => []
  | .load .. :: es => asksTo key es
  | .ask zone r :: es => if zone = key then r :: asksTo key es else asksTo key es

/-- what was answered to them -/
def repliesTo (key : Text) (es : List Event) (ts : List Told) : List Told :=
  ((es.zip ts).filter fun p => match p.1 with
    | .ask zone _ => zone == key
    | .load .. => false).map Prod.snd

/-- zone `key` is not among those loaded -/
def NeverLoads (key : Text) (es : List Event) : Prop := ∀ limit nums per now, Event.load key limit nums per now ∉ es

theorem replies_load (key k : Text) (a b c d : Nat) (es : List Event) (t : Told) (ts : List Told) :
    repliesTo key (.load k a b c d :: es) (t :: ts) = repliesTo key es ts := rfl

theorem replies_ask (key k : Text) (r : Req) (es : List Event) (t : Told) (ts : List Told) :
    repliesTo key (.ask k r :: es) (t :: ts) = if k = key then t :: repliesTo key es ts else repliesTo key es ts := by
  unfold repliesTo
  rw [List.zip_cons_cons, List.filter_cons]
  by_cases h : k = key
  · rw [if_pos (by simpa using h), if_pos h]; rfl
  · rw [if_neg (by simpa using h), if_neg h]

theorem find_recv (zs : Zones) (key : Text) (r : Req) (z : Zone) (h : zs.find? (fun e => e.1 == key) = some (key, z)) :
    (zs.recv key r).2 = (z.recv r).2 ∧ (zs.recv key r).1.find? (fun e => e.1 == key) = some (key, (z.recv r).1) := by
  unfold Zones.recv
  rw [h]
  refine ⟨rfl, ?_⟩
  dsimp only
  generalize (z.recv r).1 = z'
  induction zs with
  | nil => cases h
  | cons x zs ih =>
    rw [List.map_cons, List.find?_cons]
    by_cases hx : x.1 = key
    · simp [hx]
    · have hb : (x.1 == key) = false := by simpa using hx
      rw [List.find?_cons, hb] at h
      simp only [if_neg hx, hb]
      exact ih h

/-- once loaded, a zone goes by its settings -/
theorem replies_known (key : Text) (es : List Event) : ∀ (zs : Zones) (z : Zone),
    zs.find? (fun e => e.1 == key) = some (key, z) →
    repliesTo key es (ideal zs es) = (z.decisions (asksTo key es)).map fun d => .decided d.2 := by
  induction es with
  | nil => intro zs z _; rfl
  | cons e es ih =>
    intro zs z h
    cases e with
    | load k a b c d =>
      rw [ideal, replies_load, asksTo]
      refine ih _ z ?_
      unfold Zones.cache
      split
      · exact h
      · rw [List.find?_append, h]; rfl
    | ask k r =>
      rw [ideal, replies_ask, asksTo]
      by_cases hk : k = key
      · subst hk
        rw [if_pos rfl, if_pos rfl]
        obtain ⟨h1, h2⟩ := find_recv zs k r z h
        rw [ih _ _ h2, h1]
        rfl
      · rw [if_neg hk, if_neg hk]
        exact ih _ z (((C64_zones_partial zs key 0 0 0 0).2.2 k r hk).trans h)

/-- until it is loaded, a zone limits nothing -/
theorem replies_unknown (key : Text) (es fs : List Event) (hl : NeverLoads key es) : ∀ zs : Zones,
    zs.find? (fun e => e.1 == key) = none →
    ∃ zs', zs'.find? (fun e => e.1 == key) = none ∧
      repliesTo key (es ++ fs) (ideal zs (es ++ fs)) =
        (asksTo key es).map (fun _ => .decided .ok) ++ repliesTo key fs (ideal zs' fs) := by
  induction es with
  | nil => exact fun zs h => ⟨zs, h, rfl⟩
  | cons e es ih =>
    have ih := ih fun a b c d h => hl a b c d (List.mem_cons_of_mem _ h)
    intro zs h
    cases e with
    | load k a b c d =>
      rw [List.cons_append, ideal, replies_load, asksTo]
      refine ih _ ?_
      have hk : k ≠ key := fun hk => hl a b c d (by rw [hk]; exact List.mem_cons_self)
      exact ((C64_zones_partial zs key a b c d).2.1 k hk).trans h
    | ask k r =>
      rw [List.cons_append, ideal, replies_ask, asksTo]
      by_cases hk : k = key
      · subst hk
        have hr : zs.recv k r = (zs, .ok) := by unfold Zones.recv; rw [h]
        rw [if_pos rfl, if_pos rfl, hr]
        obtain ⟨zs', h1, h2⟩ := ih zs h
        exact ⟨zs', h1, by rw [h2]; rfl⟩
      · rw [if_neg hk, if_neg hk]
        exact ih _ (((C64_zones_partial zs key 0 0 0 0).2.2 k r hk).trans h)

/-- **C64**, partial (histories): in every history of configurations loaded and requests, a location limited by a zone is not
    limited until that zone is loaded, and from then on each client with room in the table is held to the rate and period that
    zone was first loaded with, whatever is asked of other zones and whatever is loaded. Missing: settings loaded later for the
    same zone, see `C64_reload_fails`. -/
theorem C64_history_partial (checked : Bool) (key : Text) (limit nums per t : Nat) (before later : List Event)
    (hm : Modest (before ++ .load key limit nums per t :: later)) (hl : NeverLoads key before) :
    ∃ ds : List Decision,
      repliesTo key (before ++ .load key limit nums per t :: later)
          (Shared.told checked ⟨[], false⟩ (before ++ .load key limit nums per t :: later)) =
        (asksTo key before).map (fun _ => .decided .ok) ++ ds.map .decided ∧
      ds.length = (asksTo key later).length ∧
      (1 ≤ nums → Ordered t (asksTo key later) → ((asksTo key later).map (·.ip)).dedup.length < limit → ∀ x,
        (((asksTo key later).zip ds).filter fun d => d.1.ip == x).map Prod.snd =
          expected nums per none (ofClient x (asksTo key later))) := by
  rw [(C174_decided_partial checked _ hm).1]
  obtain ⟨zs, h1, h2⟩ := replies_unknown key before (.load key limit nums per t :: later) hl [] rfl
  rw [h2, ideal, replies_load,
    replies_known key later _ _ ((C64_zones_partial zs key limit nums per t).1 h1)]
  have hd : ∀ (z : Zone) (rs : List Req), (z.decisions rs).map Prod.fst = rs := by
    intro z rs
    induction rs generalizing z with
    | nil => rfl
    | cons r rs ih => simp [Zone.decisions, ih]
  have hz : ∀ (z : Zone) (rs : List Req), rs.zip ((z.decisions rs).map Prod.snd) = z.decisions rs := by
    intro z rs
    conv_lhs => rw [← hd z rs]
    rw [hd z rs]
    induction rs generalizing z with
    | nil => rfl
    | cons r rs ih => simp [Zone.decisions, ih]
  refine ⟨((Zone.new limit nums per t).decisions (asksTo key later)).map Prod.snd, by rw [List.map_map]; rfl, ?_, ?_⟩
  · rw [List.length_map]
    conv_rhs => rw [← hd (Zone.new limit nums per t) (asksTo key later)]
    rw [List.length_map]
  · intro h1 ho hc x
    rw [hz]
    exact C38_exact limit nums per t x _ h1 ho (C38_room limit nums per t x _ hc)

/-- zone `z` is loaded with one request per period, then again with many; a client of it is held to one, and a location limited
    by another zone does not matter -/
example : let es : List Event := [.ask ['z'] ⟨['a'], 1, 0⟩]
    let later : List Event := [.load ['z'] 9 100 60 3, .load ['y'] 9 1 60 3, .ask ['z'] ⟨['a'], 4, 0⟩, .ask ['y'] ⟨['a'], 4, 0⟩,
      .ask ['z'] ⟨['a'], 5, 0⟩]
    Modest (es ++ .load ['z'] 9 1 60 2 :: later) ∧ NeverLoads ['z'] es ∧ asksTo ['z'] later = [⟨['a'], 4, 0⟩, ⟨['a'], 5, 0⟩] ∧
    Shared.told true ⟨[], false⟩ (es ++ .load ['z'] 9 1 60 2 :: later) =
      [.decided .ok, .loaded, .loaded, .loaded, .decided .ok, .decided .ok, .decided .refuse] := by
  refine ⟨⟨?_, ?_⟩, ?_, by decide +kernel, by decide +kernel⟩
  · intro a b c d e h
    simp at h
    rcases h with ⟨_, _, _, rfl, _⟩ | ⟨_, _, _, rfl, _⟩ | ⟨_, _, _, rfl, _⟩ <;> simp [FitsPer]
  · intro a b c d e f g h h'
    simp at h h'
    rcases h with ⟨_, _, rfl, _⟩ | ⟨_, _, rfl, _⟩ | ⟨_, _, rfl, _⟩ <;>
      rcases h' with ⟨_, rfl⟩ | ⟨_, rfl⟩ | ⟨_, rfl⟩ | ⟨_, rfl⟩ <;> simp
  · intro a b c d h
    simp at h

end Wm.Limit
