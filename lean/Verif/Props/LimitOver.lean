import Verif.Model.LimitOver
/-! Property C174: settings of limits that are too large for the arithmetic. -/
namespace Wm.Limit
open Wm

/-- settings that fit: a hundred periods are less than 2^64 seconds -/
def FitsPer (per : Nat) : Prop := 100 * per < 2 ^ 64 * 1000000000

/-- all zones loaded fit, and all requests ask with a burst that fits to every zone -/
def Modest (es : List Event) : Prop :=
  (∀ key limit nums per now, .load key limit nums per now ∈ es → FitsPer per) ∧
  ∀ key limit nums per now zone r, .load key limit nums per now ∈ es → .ask zone r ∈ es → nums + r.burst < 2 ^ 64

/-- what the callers get when numbers have no limits -/
def ideal (zs : Zones) : List Event → List Told
  | [] => []
  | .load key limit nums per now :: es => .loaded :: ideal (zs.cache key limit nums per now) es
  | .ask key r :: es => .decided (zs.recv key r).2 :: ideal (zs.recv key r).1 es

theorem perFits_iff (per : Nat) : perFits per = true ↔ FitsPer per := by
  simp only [perFits, FitsPer, decide_eq_true_eq]
  exact Nat.div_lt_iff_lt_mul (by decide)

theorem cleanup_settings (z : Zone) (now : Nat) :
    (z.cleanup now).nums = z.nums ∧ (z.cleanup now).per = z.per ∧ (z.cleanup now).limit = z.limit := by
  unfold Zone.cleanup
  split
  · exact ⟨rfl, rfl, rfl⟩
  · split <;> exact ⟨rfl, rfl, rfl⟩

theorem recv_settings (z : Zone) (r : Req) : (z.recv r).1.nums = z.nums ∧ (z.recv r).1.per = z.per := by
  have h := cleanup_settings z r.time
  unfold Zone.recv
  dsimp only
  split
  · exact ⟨h.1, h.2.1⟩
  · split
    · exact ⟨h.1, h.2.1⟩
    · exact ⟨h.1, h.2.1⟩

theorem recvO_eq (checked : Bool) (z : Zone) (r : Req) (hp : FitsPer z.per) (hb : z.nums + r.burst < 2 ^ 64) :
    z.recvO checked r = some (z.recv r) := by
  have hc : z.cleanupO r.time = some (z.cleanup r.time) := by
    unfold Zone.cleanupO
    split
    · rename_i h; simp [Zone.cleanup, h]
    · rw [if_pos ((perFits_iff _).2 hp)]
  have hs := cleanup_settings z r.time
  have hv : ∀ n, (z.cleanup r.time).verdictO checked r.burst n = some ((z.cleanup r.time).verdict r.burst n) := by
    intro n
    unfold Zone.verdictO Zone.verdict
    rw [hs.1, if_neg (show ¬ (checked = true ∧ 2 ^ 64 ≤ z.nums + r.burst) from fun h => by omega), Nat.mod_eq_of_lt hb]
    split
    · rfl
    · split <;> rfl
  unfold Zone.recvO Zone.recv
  rw [hc]
  dsimp only
  split
  · rfl
  · split
    · rename_i v hv'
      rw [hv, hv']
    · rename_i hv'
      rw [hv']

/-- the settings of all zones fit the requests to come -/
def Fit (zs : Zones) (es : List Event) : Prop :=
  ∀ e ∈ zs, FitsPer e.2.per ∧ ∀ zone r, .ask zone r ∈ es → e.2.nums + r.burst < 2 ^ 64

theorem told_ideal (checked : Bool) (es : List Event) : ∀ zs : Zones, Fit zs es → Modest es →
    Shared.told checked ⟨zs, false⟩ es = ideal zs es := by
  induction es with
  | nil => intro zs _ _; rfl
  | cons e es ih =>
    intro zs hz hm
    have hm' : Modest es := ⟨fun a b c d f h => hm.1 a b c d f (List.mem_cons_of_mem _ h),
      fun a b c d f g i h1 h2 => hm.2 a b c d f g i (List.mem_cons_of_mem _ h1) (List.mem_cons_of_mem _ h2)⟩
    have hz' : Fit zs es := fun x hx => ⟨(hz x hx).1, fun a b h => (hz x hx).2 a b (List.mem_cons_of_mem _ h)⟩
    cases e with
    | load key limit nums per now =>
      simp only [Shared.told, Shared.step, ideal, Bool.false_eq_true, if_false]
      rw [ih _ _ hm']
      intro x hx
      unfold Zones.cache at hx
      split at hx
      · exact hz' x hx
      · rcases List.mem_append.1 hx with hx | hx
        · exact hz' x hx
        · rw [List.mem_singleton] at hx
          subst hx
          exact ⟨hm.1 key limit nums per now List.mem_cons_self,
            fun zone r h => hm.2 key limit nums per now zone r List.mem_cons_self (List.mem_cons_of_mem _ h)⟩
    | ask key r =>
      simp only [Shared.told, Shared.step, ideal, Bool.false_eq_true, if_false, Zones.recv]
      cases hf : zs.find? (fun e => e.1 == key) with
      | none => simp only; rw [ih _ hz' hm']
      | some e =>
        have hmem := List.mem_of_find?_eq_some hf
        have he := hz e hmem
        simp only [recvO_eq checked e.2 r he.1 (he.2 key r List.mem_cons_self)]
        rw [ih _ _ hm']
        intro x hx
        obtain ⟨y, hy, rfl⟩ := List.mem_map.1 hx
        split
        · have hr := recv_settings e.2 r
          have := hz' e hmem
          dsimp only
          rw [hr.1, hr.2]
          exact this
        · exact hz' y hy

theorem ideal_decides (es : List Event) : ∀ zs : Zones, ∀ t ∈ ideal zs es, t = .loaded ∨ ∃ d, t = .decided d := by
  induction es with
  | nil => intro zs t h; cases h
  | cons e es ih =>
    intro zs t h
    cases e with
    | load key limit nums per now =>
      rcases List.mem_cons.1 h with rfl | h
      · exact .inl rfl
      · exact ih _ t h
    | ask key r =>
      rcases List.mem_cons.1 h with rfl | h
      · exact .inr ⟨_, rfl⟩
      · exact ih _ t h

/-- **C174**, partial: as long as the sum of rate and burst is below 2^64 and a hundred periods are below 2^64 seconds, in every
    history of configurations loaded and requests each request is decided, and exactly as if numbers had no limits (so that
    C38 to C40 hold as stated). Missing: larger settings, see the `_fails` theorems. -/
theorem C174_decided_partial (checked : Bool) (es : List Event) (h : Modest es) :
    Shared.told checked ⟨[], false⟩ es = ideal [] es ∧
    ∀ t ∈ Shared.told checked ⟨[], false⟩ es, t = .loaded ∨ ∃ d, t = .decided d := by
  have e := told_ideal checked es [] (by intro x hx; cases hx) h
  exact ⟨e, by rw [e]; exact ideal_decides es []⟩

/-! ### settings that do not fit -/

theorem told_poisoned (checked : Bool) (zs : Zones) (es : List Event) :
    Shared.told checked ⟨zs, true⟩ es = es.map fun _ => .locked := by
  induction es with
  | nil => rfl
  | cons e es ih => cases e <;> simp [Shared.told, Shared.step, ih]

theorem told_append (checked : Bool) (a b : List Event) : ∀ s : Shared, s.told checked (a ++ b) =
    s.told checked a ++ (a.foldl (fun s e => (s.step checked e).1) s).told checked b := by
  induction a with
  | nil => intro s; rfl
  | cons e a ih => intro s; simp [Shared.told, ih]

/-- what is asked of a zone that has seen one client only, always at the same time -/
def oneClient (limit nums per t : Nat) (ip : Text) (n : Nat) : Zone := ⟨[(ip, ⟨t, n⟩)], limit, nums, per, t⟩

theorem cleanupO_still (z : Zone) (t : Nat) (hp : FitsPer z.per) (ht : z.lastRemove = t) (hi : ∀ e ∈ z.ips, e.2.last = t) :
    z.cleanupO t = some z := by
  unfold Zone.cleanupO
  split
  · rfl
  · rw [if_pos ((perFits_iff _).2 hp)]
    unfold Zone.cleanup
    split
    · rfl
    · split
      · rfl
      · have : z.ips.filter (fun e => !(decide (t - e.2.last > 50 * z.per))) = z.ips := by
          rw [List.filter_eq_self]
          intro e he
          rw [hi e he]
          simp
        rw [this, ← ht]

theorem oneClient_step (checked : Bool) (limit nums per t burst : Nat) (key ip : Text) (n : Nat) (hl : 2 ≤ limit)
    (hp : FitsPer per) (hn : n + 1 ≤ nums) :
    Shared.step checked ⟨[(key, oneClient limit nums per t ip n)], false⟩ (.ask key ⟨ip, t, burst⟩) =
      (⟨[(key, oneClient limit nums per t ip (n + 1))], false⟩, .decided .ok) := by
  have hc := cleanupO_still (oneClient limit nums per t ip n) t hp rfl (by intro e he; simp [oneClient] at he; rw [he])
  have hr : (oneClient limit nums per t ip n).recvO checked ⟨ip, t, burst⟩ =
      some (oneClient limit nums per t ip (n + 1), .ok) := by
    unfold Zone.recvO
    rw [hc]
    dsimp only
    rw [if_neg (by simp [oneClient]; omega)]
    have : get (oneClient limit nums per t ip n).ips ip = some ⟨t, n⟩ := by simp [get, oneClient]
    rw [this]
    simp [Inner.recv, Zone.verdictO, oneClient, hn, set]
  simp [Shared.step, hr]

theorem first_step (checked : Bool) (limit nums per t burst : Nat) (key ip : Text) (hl : 2 ≤ limit) (hp : FitsPer per) :
    Shared.step checked ⟨[(key, .new limit nums per t)], false⟩ (.ask key ⟨ip, t, burst⟩) =
      (⟨[(key, oneClient limit nums per t ip 1)], false⟩, .decided .ok) := by
  have hc := cleanupO_still (Zone.new limit nums per t) t hp rfl (by intro e he; cases he)
  have hr : (Zone.new limit nums per t).recvO checked ⟨ip, t, burst⟩ =
      some (oneClient limit nums per t ip 1, .ok) := by
    unfold Zone.recvO
    rw [hc]
    dsimp only
    rw [if_neg (by simp [Zone.new]; omega)]
    have : get (Zone.new limit nums per t).ips ip = none := rfl
    rw [this]
    rfl
  simp [Shared.step, hr]

theorem burst_run (checked : Bool) (limit nums per t burst : Nat) (key ip : Text) (hl : 2 ≤ limit)
    (hp : FitsPer per) (k : Nat) : ∀ n, n + k ≤ nums →
    (List.replicate k (.ask key ⟨ip, t, burst⟩)).foldl (fun s e => (Shared.step checked s e).1)
        ⟨[(key, oneClient limit nums per t ip n)], false⟩ = ⟨[(key, oneClient limit nums per t ip (n + k))], false⟩ ∧
    Shared.told checked ⟨[(key, oneClient limit nums per t ip n)], false⟩ (List.replicate k (.ask key ⟨ip, t, burst⟩)) =
      List.replicate k (.decided .ok) := by
  induction k with
  | zero => intro n _; exact ⟨rfl, rfl⟩
  | succ k ih =>
    intro n hn
    have h1 := oneClient_step checked limit nums per t burst key ip n hl hp (by omega)
    obtain ⟨h2, h3⟩ := ih (n + 1) (by omega)
    constructor
    · rw [List.replicate_succ, List.foldl_cons, h1, h2]
      rw [show n + 1 + k = n + (k + 1) by omega]
    · rw [List.replicate_succ, Shared.told, h1, h3]
      rfl

/-- after `nums` requests of one client at one time -/
theorem nums_run (checked : Bool) (limit nums per t burst : Nat) (key ip : Text) (hl : 2 ≤ limit) (hp : FitsPer per)
    (h1 : 1 ≤ nums) (es : List Event) :
    Shared.told checked ⟨[], false⟩
        (.load key limit nums per t :: (List.replicate nums (.ask key ⟨ip, t, burst⟩) ++ es)) =
      .loaded :: (List.replicate nums (.decided .ok) ++
        Shared.told checked ⟨[(key, oneClient limit nums per t ip nums)], false⟩ es) := by
  obtain ⟨k, rfl⟩ : ∃ k, nums = k + 1 := ⟨nums - 1, by omega⟩
  obtain ⟨h2, h3⟩ := burst_run checked limit (k + 1) per t burst key ip hl hp k 1 (by omega)
  have hload : Shared.step checked ⟨[], false⟩ (.load key limit (k + 1) per t) =
      (⟨[(key, .new limit (k + 1) per t)], false⟩, .loaded) := by simp [Shared.step, Zones.cache]
  rw [Shared.told, hload, List.replicate_succ, List.cons_append, Shared.told, first_step checked limit _ per t burst key ip hl hp]
  dsimp only
  rw [told_append, h2, h3, List.replicate_succ, show 1 + k = k + 1 by omega]
  rfl

theorem over_recv (checked : Bool) (limit nums per t burst : Nat) (ip : Text) (hl : 2 ≤ limit) (hp : FitsPer per)
    (hb : burst < 2 ^ 64) (hover : 2 ^ 64 ≤ nums + burst) :
    (oneClient limit nums per t ip nums).recvO checked ⟨ip, t, burst⟩ =
      if checked then none else some (oneClient limit nums per t ip (nums + 1), .refuse) := by
  have hc := cleanupO_still (oneClient limit nums per t ip nums) t hp rfl (by intro e he; simp [oneClient] at he; rw [he])
  have hw : (nums + burst) % 2 ^ 64 < nums + 1 ∨ 2 ^ 64 ≤ nums := by
    by_cases h : 2 ^ 64 ≤ nums
    · exact .inr h
    · refine .inl ?_
      rw [Nat.mod_eq_sub_mod hover, Nat.mod_eq_of_lt (by omega)]
      omega
  have hw' : ¬ nums + 1 ≤ (nums + burst) % 2 ^ 64 := by
    rcases hw with h | h
    · omega
    · have := Nat.mod_lt (nums + burst) (show 0 < 2 ^ 64 by decide); omega
  unfold Zone.recvO
  rw [hc]
  dsimp only
  rw [if_neg (by simp [oneClient]; omega)]
  have : get (oneClient limit nums per t ip nums).ips ip = some ⟨t, nums⟩ := by simp [get, oneClient]
  rw [this]
  have hv : (oneClient limit nums per t ip nums).verdictO checked burst (nums + 1) = if checked then none else some .refuse := by
    unfold Zone.verdictO
    rw [if_neg (by simp [oneClient])]
    cases checked with
    | true => rw [if_pos ⟨rfl, hover⟩]; rfl
    | false =>
      rw [if_neg (by simp), if_neg (by simpa [oneClient] using hw')]
      rfl
  have hrecv : (Inner.mk t nums).recv (oneClient limit nums per t ip nums).per t = ⟨t, nums + 1⟩ := by simp [Inner.recv]
  dsimp only
  rw [hrecv, hv]
  cases checked with
  | true => rfl
  | false => simp [oneClient, set]

/-- **C174** fails (builds with overflow checks): if rate and burst together reach 2^64, a client that uses up its rate ends the
    handling of its next request, and from then on every request to any limited location fails, of whatever client and zone,
    and so does every load of a configuration with limits, until the process is restarted. -/
theorem C174_burst_fails (limit nums per t burst : Nat) (key ip : Text) (hl : 2 ≤ limit) (hp : FitsPer per) (h1 : 1 ≤ nums)
    (hb : burst < 2 ^ 64) (hover : 2 ^ 64 ≤ nums + burst) (es : List Event) :
    Shared.told true ⟨[], false⟩
        (.load key limit nums per t :: (List.replicate nums (.ask key ⟨ip, t, burst⟩) ++ .ask key ⟨ip, t, burst⟩ :: es)) =
      .loaded :: (List.replicate nums (.decided .ok) ++ .ended :: es.map fun _ => .locked) := by
  rw [nums_run true limit nums per t burst key ip hl hp h1]
  have hr := over_recv true limit nums per t burst ip hl hp hb hover
  rw [if_pos rfl] at hr
  rw [Shared.told]
  simp [Shared.step, hr, told_poisoned]

/-- **C174** fails (other builds): such a client is refused at once where it should be delayed, as the burst is lost. -/
theorem C174_wrap_fails (limit nums per t burst : Nat) (key ip : Text) (hl : 2 ≤ limit) (hp : FitsPer per) (h1 : 1 ≤ nums)
    (hb : burst < 2 ^ 64) (hover : 2 ^ 64 ≤ nums + burst) :
    Shared.told false ⟨[], false⟩
        (.load key limit nums per t :: (List.replicate nums (.ask key ⟨ip, t, burst⟩) ++ [.ask key ⟨ip, t, burst⟩])) =
      .loaded :: (List.replicate nums (.decided .ok) ++ [.decided .refuse]) := by
  rw [nums_run false limit nums per t burst key ip hl hp h1]
  have hr := over_recv false limit nums per t burst ip hl hp hb hover
  rw [if_neg (by decide)] at hr
  simp [Shared.told, Shared.step, hr]

/-- **C174** fails (every build): if a hundred periods reach 2^64 seconds, the first request that finds a tenth of the table used
    (with a limit below ten, the very first request) ends, and from then on every request to any limited location fails. -/
theorem C174_period_fails (checked : Bool) (zs : Zones) (key : Text) (z : Zone) (r : Req) (es : List Event)
    (hz : zs.find? (fun e => e.1 == key) = some (key, z)) (hu : z.limit / 10 ≤ z.ips.length) (hp : ¬ FitsPer z.per) :
    Shared.told checked ⟨zs, false⟩ (.ask key r :: es) = .ended :: es.map fun _ => .locked := by
  have hr : z.recvO checked r = none := by
    unfold Zone.recvO Zone.cleanupO
    rw [if_neg (by omega), if_neg (fun h => hp ((perFits_iff _).1 h))]
  rw [Shared.told]
  simp [Shared.step, hz, hr, told_poisoned]

/-- ordinary settings: three clients, two requests per second, burst one -/
example : Modest [.load ['z'] 100 2 1000000000 0, .ask ['z'] ⟨['a'], 5, 1⟩, .ask ['z'] ⟨['a'], 6, 1⟩] := by
  constructor
  · intro key limit nums per now h; simp at h; obtain ⟨_, _, _, rfl, _⟩ := h; unfold FitsPer; decide
  · intro key limit nums per now zone r h h'
    simp at h h'
    obtain ⟨_, _, rfl, _, _⟩ := h
    rcases h' with ⟨_, rfl⟩ | ⟨_, rfl⟩ <;> decide

example : Shared.told true ⟨[], false⟩ [.load ['z'] 100 2 1000000000 0, .ask ['z'] ⟨['a'], 5, 1⟩, .ask ['z'] ⟨['a'], 6, 1⟩,
    .ask ['z'] ⟨['a'], 7, 1⟩, .ask ['z'] ⟨['a'], 8, 1⟩] =
  [.loaded, .decided .ok, .decided .ok, .decided (.delay 1000000000), .decided .refuse] := by decide +kernel

/-- `burst=18446744073709551615` -/
example : Shared.told true ⟨[], false⟩ [.load ['y'] 9 5 1000000000 0, .load ['z'] 100 1 1000000000 0,
    .ask ['z'] ⟨['a'], 5, 2 ^ 64 - 1⟩, .ask ['z'] ⟨['a'], 6, 2 ^ 64 - 1⟩, .ask ['y'] ⟨['b'], 7, 0⟩] =
  [.loaded, .loaded, .decided .ok, .ended, .locked] := by decide +kernel

/-- a period of 10^18 seconds -/
example : Shared.told false ⟨[], false⟩ [.load ['z'] 9 5 (10 ^ 27) 0, .ask ['z'] ⟨['a'], 5, 0⟩, .ask ['z'] ⟨['b'], 6, 0⟩] =
  [.loaded, .ended, .locked] := by decide +kernel

end Wm.Limit
