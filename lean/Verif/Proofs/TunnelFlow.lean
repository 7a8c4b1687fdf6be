import Verif.Proofs.TunnelBase
/-! The delivery invariant: every message due to a stream was handed over to it, in order. -/
namespace Wm.Tunnel
open Wm Wm.Prot

/-- the happening names stream `h` -/
def Names (h : Nat) : Obs → Prop
  | .reg _ k | .opened _ k _ | .put k _ | .lost k _ | .overflow k _ | .took k _ | .rxGone k | .hangup k => k = h
  | _ => False

def owed (h : Nat) (debt : List (Nat × Frame)) : List Frame :=
  debt.filterMap fun p => if p.1 = h then some p.2 else none

@[simp] theorem owed_nil (h : Nat) : owed h [] = [] := rfl
@[simp] theorem owed_cons (h : Nat) (p : Nat × Frame) (d) :
    owed h (p :: d) = (if p.1 = h then [p.2] else []) ++ owed h d := by
  unfold owed; rw [List.filterMap_cons]; split <;> simp_all

/-- The delivery invariant, with messages still to be handed over in `debt`. -/
structure DInv (acc : List Obs → Frame → Bool) (debt : List (Nat × Frame)) (s : St) : Prop where
  mapOwner : s.phase = .running → ∀ id, lookup id s.map = owner s.trace id
  keys : (s.map.map (·.1)).Nodup
  mapId : ∀ p ∈ s.map, idOf s.trace p.2 = some p.1 ∧ p.2 < s.next
  flow : ∀ h, attempts h s.trace ++ owed h debt = due acc h s.trace
  open_ : ∀ h, (s.chan h).rx = true → received h s.trace ++ (s.chan h).q = puts h s.trace ∧ .rxGone h ∉ s.trace
  gone : ∀ h, (s.chan h).rx = false → received h s.trace <+: puts h s.trace ∧ (h < s.next → .rxGone h ∈ s.trace)
  fresh : ∀ h, s.next ≤ h → (s.chan h).rx = false ∧ ∀ o ∈ s.trace, ¬ Names h o
  lost : ∀ h f, .lost h f ∈ s.trace → .rxGone h ∈ s.trace

theorem attempts_fresh {h : Nat} {t : List Obs} (hf : ∀ o ∈ t, ¬ Names h o) :
    attempts h t = [] ∧ puts h t = [] ∧ received h t = [] := by
  refine ⟨?_, ?_, ?_⟩
  all_goals
    refine List.filterMap_eq_nil_iff.2 fun o ho => ?_
    have := hf o ho
    cases o <;> simp_all [Names]

theorem idOf_fresh {h : Nat} {t : List Obs} (hf : ∀ o ∈ t, ¬ Names h o) : idOf t h = none := by
  cases e : idOf t h with
  | none => rfl
  | some i => exact absurd rfl (hf _ (idOf_mem e))

theorem owner_fresh {h : Nat} {t : List Obs} (hf : ∀ o ∈ t, ¬ Names h o) (i : Nat) : owner t i ≠ some h :=
  fun e => absurd rfl (hf _ (owner_mem e))

theorem owner_idOf_unique {t : List Obs} {id h : Nat} : owner t id = some h → ∃ i, idOf t h = some i := by
  intro e
  have hm := owner_mem e
  clear e
  induction t using List.reverseRecOn with
  | nil => simp at hm
  | append_singleton t o ih =>
    rw [idOf_snoc]
    simp only [List.mem_append, List.mem_singleton] at hm
    cases o
    case reg i k =>
      dsimp only
      split
      · exact ⟨_, rfl⟩
      · rename_i hk
        rcases hm with hm | hm
        · exact ih hm
        · cases hm; exact absurd rfl hk
    all_goals (simp only [reduceCtorEq, or_false] at hm; exact ih hm)

/-- observations that concern neither registration, nor delivery, nor channels -/
def Quiet : Obs → Prop
  | .arrived _ | .setMap _ | .submitted _ | .queued .. | .wrote _ => True
  | _ => False

theorem DInv.congr {acc d s s'} (h : DInv acc d s) (hm : s'.map = s.map) (hc : s'.chan = s.chan)
    (hn : s'.next = s.next) (hp : s'.phase = .running → s.phase = .running) (ht : s'.trace = s.trace) :
    DInv acc d s' where
  mapOwner hr id := by rw [hm, ht]; exact h.mapOwner (hp hr) id
  keys := by rw [hm]; exact h.keys
  mapId := by rw [hm, ht, hn]; exact h.mapId
  flow := by rw [ht]; exact h.flow
  open_ := by rw [ht, hc]; exact h.open_
  gone := by rw [ht, hc, hn]; exact h.gone
  fresh := by rw [ht, hc, hn]; exact h.fresh
  lost := by rw [ht]; exact h.lost

theorem DInv.quiet {acc d s} (h : DInv acc d s) {o : Obs} (ho : Quiet o) : DInv acc d (emit o s) where
  mapOwner hr id := by
    simp only [emit, owner_snoc]; cases o <;> simp_all only [Quiet] <;> exact h.mapOwner hr id
  keys := h.keys
  mapId p hp := by
    simp only [emit, idOf_snoc]; cases o <;> simp_all only [Quiet] <;> exact h.mapId p hp
  flow k := by
    simp only [emit, attempts_snoc, due_snoc]
    cases o <;> simp_all only [Quiet, dueNow, List.append_nil] <;> exact h.flow k
  open_ k hk := by
    have := h.open_ k hk
    simp only [emit, received_snoc, puts_snoc, List.mem_append, List.mem_singleton]
    cases o <;> simp_all [Quiet]
  gone k hk := by
    have := h.gone k hk
    simp only [emit, received_snoc, puts_snoc, List.mem_append, List.mem_singleton]
    cases o <;> simp_all [Quiet]
  fresh k hk := by
    have := h.fresh k hk
    refine ⟨this.1, fun x hx => ?_⟩
    simp only [emit, List.mem_append, List.mem_singleton] at hx
    rcases hx with hx | rfl
    · exact this.2 x hx
    · cases x <;> simp_all [Quiet, Names]
  lost k f hk := by
    simp only [emit, List.mem_append, List.mem_singleton] at hk ⊢
    rcases hk with hk | rfl
    · exact .inl (h.lost k f hk)
    · simp [Quiet] at ho

theorem DInv.quiet' {acc d s s'} (h : DInv acc d s) (o : Obs) (ho : Quiet o) (hm : s'.map = s.map)
    (hc : s'.chan = s.chan) (hn : s'.next = s.next) (hp : s'.phase = s.phase) (ht : s'.trace = s.trace ++ [o]) :
    DInv acc d s' :=
  (h.quiet ho).congr hm hc hn (fun x => hp ▸ x) ht

/-- observations naming an existing stream without moving messages -/
theorem DInv.note {acc d s} (h : DInv acc d s) {o : Obs} (k : Nat) (hk : k < s.next)
    (ho : o = .hangup k ∨ ∃ i how, o = .opened i k how) : DInv acc d (emit o s) where
  mapOwner hr id := by
    simp only [emit, owner_snoc]; rcases ho with rfl | ⟨i, how, rfl⟩ <;> exact h.mapOwner hr id
  keys := h.keys
  mapId p hp := by
    simp only [emit, idOf_snoc]; rcases ho with rfl | ⟨i, how, rfl⟩ <;> exact h.mapId p hp
  flow k := by
    simp only [emit, attempts_snoc, due_snoc]
    rcases ho with rfl | ⟨i, how, rfl⟩ <;> simpa [dueNow] using h.flow k
  open_ k hk := by
    have := h.open_ k hk
    simp only [emit, received_snoc, puts_snoc, List.mem_append, List.mem_singleton]
    rcases ho with rfl | ⟨i, how, rfl⟩ <;> simp_all
  gone k hk := by
    have := h.gone k hk
    simp only [emit, received_snoc, puts_snoc, List.mem_append, List.mem_singleton]
    rcases ho with rfl | ⟨i, how, rfl⟩ <;> simp_all
  fresh j hj := by
    have := h.fresh j hj
    refine ⟨this.1, fun x hx => ?_⟩
    simp only [emit, List.mem_append, List.mem_singleton] at hx
    have hj' : s.next ≤ j := hj
    rcases hx with hx | rfl
    · exact this.2 x hx
    · rcases ho with rfl | ⟨i, how, rfl⟩ <;> simp only [Names] <;> omega
  lost k f hk := by
    simp only [emit, List.mem_append, List.mem_singleton] at hk ⊢
    rcases hk with hk | rfl
    · exact .inl (h.lost k f hk)
    · rcases ho with ho | ⟨i, how, ho⟩ <;> cases ho

theorem DInv.setTx {acc d s} (h : DInv acc d s) (k : Nat) (b : Bool) :
    DInv acc d (setChan k { s.chan k with tx := b } s) where
  mapOwner := h.mapOwner
  keys := h.keys
  mapId := h.mapId
  flow := h.flow
  open_ j hj := by
    simp only [setChan] at hj ⊢
    by_cases e : j = k
    · subst e; simp only [if_true] at hj ⊢; exact h.open_ j hj
    · simp only [e, if_false] at hj ⊢; exact h.open_ j hj
  gone j hj := by
    simp only [setChan] at hj ⊢
    by_cases e : j = k
    · subst e; simp only [if_true] at hj ⊢; exact h.gone j hj
    · simp only [e, if_false] at hj ⊢; exact h.gone j hj
  fresh j hj := by
    have := h.fresh j hj
    simp only [setChan]
    by_cases e : j = k
    · subst e; simpa using this
    · simpa [e] using this
  lost := h.lost

theorem DInv.hangup {acc d s} (h : DInv acc d s) (k : Nat) (hk : k < s.next) : DInv acc d (hangup k s) :=
  (h.setTx k false).note k hk (.inl rfl)

theorem hangup_fold (m : List (Nat × Nat)) : ∀ (s : St) {acc d}, DInv acc d s → (∀ p ∈ m, p.2 < s.next) →
    DInv acc d (m.foldl (fun s x => hangup x.2 s) s) := by
  induction m with
  | nil => intro s acc d h _; exact h
  | cons p m ih =>
    intro s acc d h hm
    exact ih _ (h.hangup p.2 (hm p (by simp))) (fun q hq => hm q (by simp [hq]))

theorem DInv.dropMap {acc d s} (h : DInv acc d s) (p : Phase) (hp : p ≠ .running) :
    DInv acc d { s with phase := p, map := [] } where
  mapOwner hr := absurd hr hp
  keys := by simp
  mapId := by simp
  flow := h.flow
  open_ := h.open_
  gone := h.gone
  fresh := h.fresh
  lost := h.lost

theorem DInv.finish {acc d s} (h : DInv acc d s) (p : Phase) (hp : p ≠ .running) : DInv acc d (finish p s) :=
  DInv.dropMap (hangup_fold s.map s h (fun q hq => (h.mapId q hq).2)) p hp

/-- handing over the oldest owed message -/
theorem DInv.pay {acc d s k f} (h : DInv acc ((k, f) :: d) s) (hk : k < s.next) (o : Obs)
    (ho : o = .put k f ∧ (s.chan k).rx = true ∨ o = .lost k f ∧ (s.chan k).rx = false ∨ o = .overflow k f) :
    DInv acc d (emit o (match o with
      | .put _ _ => setChan k { s.chan k with q := (s.chan k).q ++ [f] } s
      | _ => s)) := by
  have hfl : ∀ j, attempts j (s.trace ++ [o]) ++ owed j d = due acc j (s.trace ++ [o]) := by
    intro j
    have hj := h.flow j
    simp only [owed_cons] at hj
    have hd : due acc j (s.trace ++ [o]) = due acc j s.trace := by
      rw [due_snoc]; rcases ho with ⟨rfl, _⟩ | ⟨rfl, _⟩ | rfl <;> simp [dueNow]
    have ha : attempts j (s.trace ++ [o]) = attempts j s.trace ++ (if k = j then [f] else []) := by
      rw [attempts_snoc]; rcases ho with ⟨rfl, _⟩ | ⟨rfl, _⟩ | rfl <;> rfl
    rw [hd, ha, ← hj, List.append_assoc]
  have how : ∀ id, owner (s.trace ++ [o]) id = owner s.trace id := by
    intro id; rw [owner_snoc]; rcases ho with ⟨rfl, _⟩ | ⟨rfl, _⟩ | rfl <;> rfl
  have hid : ∀ id, idOf (s.trace ++ [o]) id = idOf s.trace id := by
    intro id; rw [idOf_snoc]; rcases ho with ⟨rfl, _⟩ | ⟨rfl, _⟩ | rfl <;> rfl
  have hrec : ∀ j, received j (s.trace ++ [o]) = received j s.trace := by
    intro id; rw [received_snoc]; rcases ho with ⟨rfl, _⟩ | ⟨rfl, _⟩ | rfl <;> simp
  have hg : ∀ j, Obs.rxGone j ∈ s.trace ++ [o] ↔ Obs.rxGone j ∈ s.trace := by
    intro j; rcases ho with ⟨rfl, _⟩ | ⟨rfl, _⟩ | rfl <;> simp
  have hnm : ∀ j, s.next ≤ j → ∀ x ∈ s.trace ++ [o], ¬ Names j x := by
    intro j hj x hx
    simp only [List.mem_append, List.mem_singleton] at hx
    rcases hx with hx | rfl
    · exact (h.fresh j hj).2 x hx
    · rcases ho with ⟨rfl, _⟩ | ⟨rfl, _⟩ | rfl <;> simp only [Names] <;> omega
  have hl : ∀ j g, Obs.lost j g ∈ s.trace ++ [o] → Obs.rxGone j ∈ s.trace ++ [o] := by
    intro j g hj
    rw [hg]
    simp only [List.mem_append, List.mem_singleton] at hj
    rcases hj with hj | hj
    · exact h.lost j g hj
    · rcases ho with ⟨rfl, _⟩ | ⟨rfl, hr⟩ | rfl <;> cases hj
      exact (h.gone _ hr).2 hk
  rcases ho with ⟨rfl, hr⟩ | ⟨rfl, hr⟩ | rfl
  · refine ⟨fun hr id => ?_, h.keys, fun p hp => ?_, hfl, fun j hj => ?_, fun j hj => ?_, fun j hj => ?_, hl⟩
    · simp only [emit, setChan, how]; exact h.mapOwner hr id
    · simp only [emit, setChan, hid]; exact h.mapId p hp
    · simp only [emit, setChan] at hj ⊢
      rw [hrec, puts_snoc, hg]
      by_cases e : j = k
      · subst e
        simp only [if_true] at hj ⊢
        rw [← List.append_assoc, (h.open_ j hr).1]; exact ⟨rfl, (h.open_ j hr).2⟩
      · have e' : k ≠ j := fun x => e x.symm
        simp only [e, e', if_false] at hj ⊢
        simpa using h.open_ j hj
    · simp only [emit, setChan] at hj ⊢
      rw [hrec, puts_snoc, hg]
      by_cases e : j = k
      · subst e; simp [hr] at hj
      · have e' : k ≠ j := fun x => e x.symm
        simp only [e, e', if_false] at hj ⊢
        simpa using h.gone j hj
    · refine ⟨?_, hnm j hj⟩
      have := (h.fresh j hj).1
      simp only [emit, setChan]
      have e : j ≠ k := by have hj' : s.next ≤ j := hj; omega
      simpa [e] using this
  all_goals
    refine ⟨fun hr id => ?_, h.keys, fun p hp => ?_, hfl, fun j hj => ?_, fun j hj => ?_, fun j hj => ?_, hl⟩
    · simp only [emit, how]; exact h.mapOwner hr id
    · simp only [emit, hid]; exact h.mapId p hp
    · simp only [emit] at hj ⊢
      rw [hrec, puts_snoc, hg]; simpa using h.open_ j hj
    · simp only [emit] at hj ⊢
      rw [hrec, puts_snoc, hg]; simpa using h.gone j hj
    · exact ⟨(h.fresh j hj).1, hnm j hj⟩

theorem DInv.trySend {acc d s k f} (h : DInv acc ((k, f) :: d) s) (hk : k < s.next) :
    DInv acc d (trySend k f s) := by
  unfold Tunnel.trySend
  split
  · rename_i hr; exact h.pay hk _ (.inr (.inl ⟨rfl, hr⟩))
  · rename_i hr
    split
    · exact h.pay hk (.put k f) (.inl ⟨rfl, by simpa using hr⟩)
    · exact h.pay hk _ (.inr (.inr rfl))

/-- the invariant between steps -/
def Flow (acc : List Obs → Frame → Bool) (s : St) : Prop := DInv acc s.pending.toList s ∧ ∀ p ∈ s.pending, p.1 < s.next

theorem Flow.sendAwait {acc s k f} (h : DInv acc [(k, f)] s) (hp : s.pending = none) (hk : k < s.next) :
    Flow acc (sendAwait k f s).1 := by
  unfold Tunnel.sendAwait
  split
  · rename_i hr
    have := h.pay hk _ (.inr (.inl ⟨rfl, hr⟩))
    exact ⟨by simpa [emit, hp] using this, by simp [emit, hp]⟩
  · rename_i hr
    split
    · have := h.pay hk (.put k f) (.inl ⟨rfl, by simpa using hr⟩)
      exact ⟨by simpa [putChan, emit, setChan, hp] using this, by simp [putChan, emit, setChan, hp]⟩
    · exact ⟨h.congr rfl rfl rfl id rfl, by simp; exact hk⟩

theorem DInv.got {acc s} (h : DInv acc [] s) (f : Frame) (hr : s.phase = .running) :
    DInv acc (if acc s.trace f = true then
        (match lookup f.sockMap s.map with | some k => [(k, f)] | none => []) else []) (emit (.got f) s) where
  mapOwner hr id := by simp only [emit, owner_snoc]; exact h.mapOwner hr id
  keys := h.keys
  mapId p hp := by simp only [emit, idOf_snoc]; exact h.mapId p hp
  flow j := by
    simp only [emit, attempts_snoc, due_snoc, dueNow, ← h.flow j, owed_nil, List.append_nil]
    rw [h.mapOwner hr]
    by_cases ha : acc s.trace f = true
    · simp only [ha, if_true, true_and]
      cases owner s.trace f.sockMap with
      | none => simp
      | some k => simp
    · simp [ha]
  open_ j hj := by
    have := h.open_ j hj
    simp only [emit, received_snoc, puts_snoc, List.mem_append, List.mem_singleton]
    simp_all
  gone j hj := by
    have := h.gone j hj
    simp only [emit, received_snoc, puts_snoc, List.mem_append, List.mem_singleton]
    simp_all
  fresh j hj := by
    have := h.fresh j hj
    refine ⟨this.1, fun x hx => ?_⟩
    simp only [emit, List.mem_append, List.mem_singleton] at hx
    rcases hx with hx | rfl
    · exact this.2 x hx
    · simp [Names]
  lost k f hk := by
    simp only [emit, List.mem_append, List.mem_singleton, reduceCtorEq, or_false] at hk ⊢
    exact h.lost k f hk

theorem lookup_mem {m : List (Nat × Nat)} {id h : Nat} : lookup id m = some h → (id, h) ∈ m := by
  induction m with
  | nil => simp [lookup]
  | cons p m ih =>
    obtain ⟨i, k⟩ := p
    simp only [lookup]
    split
    · rename_i e; intro hk; simp at hk; simp [e, hk]
    · intro hk; exact List.mem_cons_of_mem _ (ih hk)

theorem lookup_of_mem {m : List (Nat × Nat)} (hn : (m.map (·.1)).Nodup) {id h : Nat} (hm : (id, h) ∈ m) :
    lookup id m = some h := by
  induction m with
  | nil => simp at hm
  | cons p m ih =>
    obtain ⟨i, k⟩ := p
    simp only [List.map_cons, List.nodup_cons, List.mem_map, not_exists, not_and] at hn
    simp only [lookup]
    simp only [List.mem_cons, Prod.mk.injEq] at hm
    rcases hm with ⟨rfl, rfl⟩ | hm
    · simp
    · split
      · rename_i e; subst e; exact absurd rfl (hn.1 _ hm)
      · exact ih hn.2 hm

theorem lookup_filter {m : List (Nat × Nat)} {id j : Nat} (h : j ≠ id) :
    lookup j (m.filter (fun p => p.1 ≠ id)) = lookup j m := by
  induction m with
  | nil => rfl
  | cons p m ih =>
    obtain ⟨i, k⟩ := p
    by_cases e : i = id
    · subst e
      have : ¬ i = j := fun e => h e.symm
      simp [lookup, this] at ih ⊢
      exact ih
    · simp only [ne_eq, e, not_false_eq_true, decide_true, List.filter_cons_of_pos, lookup]
      split
      · rfl
      · exact ih

theorem register_trace (id : Nat) (s : St) : (register id s).trace =
    s.trace ++ (match lookup id s.map with | some old => [.hangup old] | none => []) ++ [.reg id s.next] := by
  unfold register
  cases lookup id s.map <;> simp [emit, setChan, hangup]

@[simp] theorem register_next (id : Nat) (s : St) : (register id s).next = s.next + 1 := by
  unfold register; simp [emit]

@[simp] theorem register_phase (id : Nat) (s : St) : (register id s).phase = s.phase := by
  unfold register; cases lookup id s.map <;> rfl

@[simp] theorem register_pending (id : Nat) (s : St) : (register id s).pending = s.pending := by
  unfold register; cases lookup id s.map <;> rfl

@[simp] theorem register_ready (id : Nat) (s : St) : (register id s).readyShutdown = s.readyShutdown := by
  unfold register; cases lookup id s.map <;> rfl

theorem DInv.reg {acc d s} (h : DInv acc d s) (id : Nat) :
    DInv acc d (emit (.reg id s.next) { setChan s.next ⟨[], true, true⟩ s with
      map := (id, s.next) :: s.map.filter (fun p => p.1 ≠ id), next := s.next + 1 }) where
  mapOwner hr j := by
    simp only [emit, owner_snoc, lookup]
    split
    · rfl
    · rename_i e
      rw [lookup_filter (fun x => e x.symm)]; exact h.mapOwner hr j
  keys := by
    simp only [emit, List.map_cons, List.nodup_cons]
    refine ⟨?_, ?_⟩
    · simp
    · exact h.keys.sublist (List.Sublist.map _ List.filter_sublist)
  mapId p hp := by
    simp only [emit, List.mem_cons, List.mem_filter] at hp ⊢
    rw [idOf_snoc]
    rcases hp with rfl | ⟨hp, _⟩
    · simp
    · have := h.mapId p hp
      have e : s.next ≠ p.2 := by omega
      simp only [e, if_false]
      exact ⟨this.1, by omega⟩
  flow j := by
    simp only [emit, attempts_snoc, due_snoc, dueNow, List.append_nil]; exact h.flow j
  open_ j hj := by
    simp only [emit, setChan, received_snoc, puts_snoc, List.append_nil] at hj ⊢
    by_cases e : j = s.next
    · subst e
      have := h.fresh s.next (Nat.le_refl _)
      simp [attempts_fresh this.2]
      intro hm; exact absurd rfl (this.2 _ hm)
    · simp only [e, if_false] at hj ⊢
      simpa using h.open_ j hj
  gone j hj := by
    simp only [emit, setChan, received_snoc, puts_snoc, List.append_nil] at hj ⊢
    by_cases e : j = s.next
    · subst e; simp at hj
    · simp only [e, if_false] at hj ⊢
      have := h.gone j hj
      refine ⟨this.1, fun hl => ?_⟩
      simp only [List.mem_append]
      exact .inl (this.2 (by omega))
  fresh j hj := by
    simp only [emit] at hj ⊢
    have := h.fresh j (by omega)
    refine ⟨?_, fun x hx => ?_⟩
    · have e : j ≠ s.next := by omega
      simpa [setChan, e] using this.1
    · simp only [List.mem_append, List.mem_singleton] at hx
      rcases hx with hx | rfl
      · exact this.2 x hx
      · simp only [Names]; omega
  lost j f hj := by
    simp only [emit, List.mem_append, List.mem_singleton, reduceCtorEq, or_false] at hj ⊢
    exact h.lost j f hj

theorem DInv.register {acc d s} (h : DInv acc d s) (id : Nat) : DInv acc d (register id s) := by
  unfold Tunnel.register
  cases hl : lookup id s.map with
  | none => exact h.reg id
  | some old =>
    have hm := h.mapId _ (lookup_mem hl)
    exact (h.hangup old hm.2).reg id

theorem DInv.take {acc d s k f q} (h : DInv acc d s) (hq : (s.chan k).q = f :: q) (hr : (s.chan k).rx = true) :
    DInv acc d (emit (.took k f) (setChan k { s.chan k with q := q } s)) where
  mapOwner hr id := by simp only [emit, owner_snoc]; exact h.mapOwner hr id
  keys := h.keys
  mapId p hp := by simp only [emit, idOf_snoc]; exact h.mapId p hp
  flow j := by
    simp only [emit, setChan, attempts_snoc, due_snoc, dueNow, List.append_nil]; exact h.flow j
  open_ j hj := by
    simp only [emit, setChan, received_snoc, puts_snoc, List.append_nil] at hj ⊢
    by_cases e : j = k
    · subst e
      have := h.open_ j hr
      simp only [if_true, List.append_assoc, List.singleton_append, ← hq]
      simpa using this
    · have e' : k ≠ j := fun x => e x.symm
      simp only [e, e', if_false] at hj ⊢
      simpa using h.open_ j hj
  gone j hj := by
    simp only [emit, setChan, received_snoc, puts_snoc, List.append_nil] at hj ⊢
    by_cases e : j = k
    · subst e; simp [hr] at hj
    · have e' : k ≠ j := fun x => e x.symm
      simp only [e, e', if_false] at hj ⊢
      have := h.gone j hj
      simpa using this
  fresh j hj := by
    have hj' : s.next ≤ j := hj
    have := h.fresh j hj'
    have hk : k ≠ j := by rintro rfl; rw [this.1] at hr; cases hr
    refine ⟨?_, fun x hx => ?_⟩
    · simpa [emit, setChan, hk.symm] using this.1
    · simp only [emit, setChan, List.mem_append, List.mem_singleton] at hx
      rcases hx with hx | rfl
      · exact this.2 x hx
      · simpa [Names] using hk
  lost j f hj := by
    simp only [emit, setChan, List.mem_append, List.mem_singleton, reduceCtorEq, or_false] at hj ⊢
    exact h.lost j f hj

theorem DInv.drop {acc d s k} (h : DInv acc d s) (hr : (s.chan k).rx = true) (b : Bool) :
    DInv acc d (emit (.rxGone k) (setChan k ⟨[], false, b⟩ s)) where
  mapOwner hr id := by simp only [emit, owner_snoc]; exact h.mapOwner hr id
  keys := h.keys
  mapId p hp := by simp only [emit, idOf_snoc]; exact h.mapId p hp
  flow j := by
    simp only [emit, setChan, attempts_snoc, due_snoc, dueNow, List.append_nil]; exact h.flow j
  open_ j hj := by
    simp only [emit, setChan, received_snoc, puts_snoc, List.append_nil] at hj ⊢
    by_cases e : j = k
    · subst e; simp at hj
    · simp only [e, if_false] at hj ⊢
      have := h.open_ j hj
      refine ⟨this.1, ?_⟩
      simp only [List.mem_append, List.mem_singleton, Obs.rxGone.injEq, e, or_false]
      exact this.2
  gone j hj := by
    simp only [emit, setChan, received_snoc, puts_snoc, List.append_nil] at hj ⊢
    by_cases e : j = k
    · subst e
      have := h.open_ j hr
      exact ⟨⟨_, this.1⟩, by simp⟩
    · simp only [e, if_false] at hj ⊢
      have := h.gone j hj
      refine ⟨this.1, fun hl => ?_⟩
      simp only [List.mem_append]
      exact .inl (this.2 hl)
  fresh j hj := by
    have hj' : s.next ≤ j := hj
    have := h.fresh j hj'
    have hk : k ≠ j := by rintro rfl; rw [this.1] at hr; cases hr
    refine ⟨?_, fun x hx => ?_⟩
    · simpa [emit, setChan, hk.symm] using this.1
    · simp only [emit, setChan, List.mem_append, List.mem_singleton] at hx
      rcases hx with hx | rfl
      · exact this.2 x hx
      · simpa [Names] using hk
  lost j f hj := by
    simp only [emit, setChan, List.mem_append, List.mem_singleton, reduceCtorEq, or_false] at hj ⊢
    exact .inl (h.lost j f hj)

theorem trySend_next (k : Nat) (f : Frame) (s : St) : (trySend k f s).next = s.next := by
  unfold trySend; split
  · rfl
  · split <;> rfl

theorem trySend_phase (k : Nat) (f : Frame) (s : St) : (trySend k f s).phase = s.phase := by
  unfold trySend; split
  · rfl
  · split <;> rfl

theorem trySend_map (k : Nat) (f : Frame) (s : St) : (trySend k f s).map = s.map := by
  unfold trySend; split
  · rfl
  · split <;> rfl

theorem trySend_pending (k : Nat) (f : Frame) (s : St) : (trySend k f s).pending = s.pending := by
  unfold trySend; split
  · rfl
  · split <;> rfl

theorem trySend_ready (k : Nat) (f : Frame) (s : St) : (trySend k f s).readyShutdown = s.readyShutdown := by
  unfold trySend; split
  · rfl
  · split <;> rfl

theorem closeFold {acc} (m : List (Nat × Nat)) : ∀ (s : St), DInv acc (m.map fun x => (x.2, Frame.close x.1 [])) s →
    (∀ p ∈ m, p.2 < s.next) →
    DInv acc [] (m.foldl (fun s x => trySend x.2 (.close x.1 []) s) s) := by
  induction m with
  | nil => intro s h _; exact h
  | cons p m ih =>
    intro s h hm
    simp only [List.map_cons] at h
    refine ih _ (h.trySend (hm p (by simp))) (fun q hq => ?_)
    rw [trySend_next]; exact hm q (by simp [hq])

theorem owed_map (m : List (Nat × Nat)) (j : Nat) (oid : Option Nat)
    (hn : (m.map (·.1)).Nodup) (hid : ∀ p ∈ m, p.2 = j → oid = some p.1) :
    owed j (m.map fun x => (x.2, Frame.close x.1 [])) =
      oid.elim [] (fun i => if lookup i m = some j then [.close i []] else []) := by
  induction m with
  | nil => cases oid <;> simp [lookup]
  | cons p m ih =>
    obtain ⟨i, k⟩ := p
    simp only [List.map_cons, List.nodup_cons, List.mem_map, not_exists, not_and] at hn
    have ih := ih hn.2 (fun p hp => hid p (by simp [hp]))
    rw [List.map_cons, owed_cons, ih]
    dsimp only
    by_cases e : k = j
    · subst e
      have := hid (i, k) (by simp) rfl
      subst this
      have hl : lookup i m = none := by
        cases hl : lookup i m with
        | none => rfl
        | some x => exact absurd rfl (hn.1 _ (lookup_mem hl))
      simp [hl, lookup]
    · simp only [e, if_false, List.nil_append]
      cases oid with
      | none => rfl
      | some x =>
        by_cases ex : i = x
        · subst ex
          have hl : lookup i m = none := by
            cases hl : lookup i m with
            | none => rfl
            | some x => exact absurd rfl (hn.1 _ (lookup_mem hl))
          simp [hl, e, lookup]
        · simp [ex, lookup]

theorem DInv.connLost {acc s} (h : DInv acc [] s) (hr : s.phase = .running) :
    DInv acc (s.map.map fun x => (x.2, Frame.close x.1 [])) (emit .connLost s) where
  mapOwner hr id := by simp only [emit, owner_snoc]; exact h.mapOwner hr id
  keys := h.keys
  mapId p hp := by simp only [emit, idOf_snoc]; exact h.mapId p hp
  flow j := by
    simp only [emit, attempts_snoc, due_snoc, dueNow, ← h.flow j, owed_nil, List.append_nil]
    rw [owed_map s.map j (idOf s.trace j) h.keys (fun p hp e => e ▸ (h.mapId p hp).1)]
    cases idOf s.trace j with
    | none => rfl
    | some i => simp only [h.mapOwner hr, Option.elim]
  open_ j hj := by
    have := h.open_ j hj
    simp only [emit, received_snoc, puts_snoc, List.mem_append, List.mem_singleton]
    simp_all
  gone j hj := by
    have := h.gone j hj
    simp only [emit, received_snoc, puts_snoc, List.mem_append, List.mem_singleton]
    simp_all
  fresh j hj := by
    have := h.fresh j hj
    refine ⟨this.1, fun x hx => ?_⟩
    simp only [emit, List.mem_append, List.mem_singleton] at hx
    rcases hx with hx | rfl
    · exact this.2 x hx
    · simp [Names]
  lost k f hk := by
    simp only [emit, List.mem_append, List.mem_singleton, reduceCtorEq, or_false] at hk ⊢
    exact h.lost k f hk

theorem hangup_fold_pending (m : List (Nat × Nat)) : ∀ s : St,
    (m.foldl (fun s x => hangup x.2 s) s).pending = s.pending := by
  induction m with
  | nil => intro s; rfl
  | cons p m ih => intro s; exact (ih _).trans rfl

@[simp] theorem finish_pending (p : Phase) (s : St) : (finish p s).pending = s.pending := by
  unfold finish; exact hangup_fold_pending _ _

theorem closeAll_pending (s : St) : (closeAll s).pending = s.pending := by
  unfold closeAll
  generalize s.map = m
  induction m generalizing s with
  | nil => rfl
  | cons p m ih => simp only [List.foldl_cons]; rw [ih, trySend_pending]

theorem Flow.of {acc s} (h : DInv acc [] s) (hp : s.pending = none) : Flow acc s :=
  ⟨by rw [hp]; exact h, by simp [hp]⟩

theorem Flow.plain {acc s} (h : Flow acc s) (hp : s.pending = none) : DInv acc [] s := by
  have := h.1; rwa [hp] at this

/-- Everything except the handling of a message. -/
theorem Flow.kept {acc} : Kept (Flow acc) where
  buf s b h := ⟨h.1.congr rfl rfl rfl id rfl, h.2⟩
  read s bs h hi := ⟨h.1.quiet' (.arrived bs) trivial rfl rfl rfl rfl rfl, h.2⟩
  fin s p h hi hp := by
    refine Flow.of ((h.plain hi.2).finish p hp) ?_
    rw [finish_pending, hi.2]
  lost s h hi := by
    have h1 := (h.plain hi.2).connLost hi.1
    have h2 : DInv acc [] (closeAll (emit .connLost s)) :=
      closeFold s.map _ h1 (fun q hq => (h.1.mapId q hq).2)
    refine Flow.of (h2.finish .ended (by simp)) ?_
    rw [finish_pending, closeAll_pending]; exact hi.2
  submit s f h _ _ := ⟨h.1.quiet' (.submitted f) trivial rfl rfl rfl rfl rfl, h.2⟩
  take s k f q h hq hr := ⟨h.1.take hq hr, h.2⟩
  drop s k h hr := ⟨h.1.drop hr _, h.2⟩
  retry s k f h hp := by
    have h1 := h.1
    rw [hp] at h1
    exact Flow.sendAwait (h1.congr rfl rfl rfl id rfl) rfl (h.2 (k, f) (by simp [hp]))
  work s id d h hi := by
    refine Flow.of (((h.plain hi.2).register id).quiet' (.queued false (.create id d)) trivial rfl rfl rfl rfl rfl) ?_
    show (register id s).pending = none
    simp [hi.2]
  recv s f q h hi _ := Flow.of ((h.plain hi.2).quiet' (.queued true f) trivial rfl rfl rfl rfl rfl) hi.2
  wrote s n h hi _ _ :=
    Flow.of ((h.plain hi.2).quiet' (.wrote (s.writeBuf.take n)) trivial rfl rfl rfl rfl rfl) hi.2
  drained s n h hi _ _ := by
    have h1 : DInv acc [] (emit (.wrote (s.writeBuf.take n)) { s with writeBuf := s.writeBuf.drop n }) :=
      (h.plain hi.2).quiet' (.wrote (s.writeBuf.take n)) trivial rfl rfl rfl rfl rfl
    refine Flow.of (h1.finish .ended (by simp)) ?_
    rw [finish_pending]; exact hi.2

end Wm.Tunnel
