import Verif.Props.WorldDrain
/-!
Endless executions of the tunnel: whatever stays under way is passed on, if every part gets its turn again and again.
-/
namespace Wm

/-! ### repeated turns -/

/-- again and again -/
def Often (P : Nat → Prop) : Prop := ∀ t, ∃ t', t ≤ t' ∧ P t'

theorem chain_prefix {α : Type} {B : Nat → List α} (h : ∀ t, B t <+: B (t + 1)) {a b : Nat} (hab : a ≤ b) : B a <+: B b := by
  induction b with
  | zero => rw [Nat.le_zero.1 hab]; exact List.prefix_refl _
  | succ b ih =>
    rcases Nat.lt_or_ge b a with hlt | hge
    · rw [Nat.le_antisymm hab hlt]; exact List.prefix_refl _
    · exact (ih hge).trans (h b)

/-- A growing list `B`, always a beginning of a growing list `C`, reaches what `C` was, if `B` grows again and again while
    it is shorter. -/
theorem reaches {α : Type} {B C : Nat → List α} {E : Nat → Prop} (hB : ∀ t, B t <+: B (t + 1)) (hC : ∀ t, C t <+: C (t + 1))
    (hBC : ∀ t, B t <+: C t) (hE : Often E)
    (hs : ∀ t, E t → (B t).length < (C t).length → (B t).length < (B (t + 1)).length) (t : Nat) :
    ∃ t', t ≤ t' ∧ C t <+: B t' := by
  have key : ∀ d u, t ≤ u → (C t).length - (B u).length ≤ d → ∃ t', t ≤ t' ∧ (C t).length ≤ (B t').length := by
    intro d
    induction d with
    | zero => intro u hu hd; exact ⟨u, hu, by omega⟩
    | succ d ih =>
      intro u hu hd
      rcases Nat.lt_or_ge (B u).length (C t).length with hlt | hge
      · obtain ⟨u', h1, h2⟩ := hE u
        have hb := (chain_prefix hB h1).length_le
        have hc := (chain_prefix hC (Nat.le_trans hu h1)).length_le
        have hb' := (hB u').length_le
        rcases Nat.lt_or_ge (B u').length (C u').length with hlt' | hge'
        · exact ih (u' + 1) (by omega) (by have := hs u' h2 hlt'; omega)
        · exact ⟨u', by omega, by omega⟩
      · exact ⟨u, hu, hge⟩
  obtain ⟨t', h1, h2⟩ := key _ t (Nat.le_refl t) (Nat.le_refl _)
  exact ⟨t', h1, List.prefix_of_prefix_length_le (chain_prefix hC h1) (hBC t') h2⟩

namespace Tunnel
open Wm Wm.Prot

theorem arrived_mono {t t' : List Obs} (e : t <+: t') : arrived t <+: arrived t' := by
  obtain ⟨u, rfl⟩ := e; rw [arrived_append']; exact List.prefix_append _ _
theorem submissions_mono {t t' : List Obs} (e : t <+: t') : submissions t <+: submissions t' := by
  obtain ⟨u, rfl⟩ := e; unfold submissions; rw [List.filterMap_append]; exact List.prefix_append _ _
theorem puts_mono {t t' : List Obs} (k : Nat) (e : t <+: t') : puts k t <+: puts k t' := by
  obtain ⟨u, rfl⟩ := e; unfold puts; rw [List.filterMap_append]; exact List.prefix_append _ _
theorem gots_mono {t t' : List Obs} (e : t <+: t') : gots t <+: gots t' := by
  obtain ⟨u, rfl⟩ := e; rw [gots_append]; exact List.prefix_append _ _
theorem datas_mono {a b : List Frame} (i : Nat) (e : a <+: b) : datas i a <+: datas i b := by
  obtain ⟨u, rfl⟩ := e; unfold datas; rw [List.filterMap_append]; exact List.prefix_append _ _

/-- an end that has decoded all it could has looked at every message that arrived whole -/
theorem AtIdle.seen {fs : List Frame} {s : St} (h : AtIdle fs [] s) (hl : Live s) (hf : ∀ f ∈ fs, Fits f)
    (ha : arrived s.trace <+: fs.flatMap wire ++ []) {gs : List Frame} (hg : gs <+: fs)
    (hw : gs.flatMap wire <+: arrived s.trace) : gs.map asReceived <+: gots s.trace := by
  obtain ⟨c, rest, e1, e2, e3⟩ := h.1 ha
  have hn := h.2 ha hl
  rw [e2]
  have hc : c <+: fs := ⟨rest, e1.symm⟩
  rcases Nat.lt_or_ge c.length gs.length with hlt | hge
  · exfalso
    obtain ⟨x, hx⟩ := List.prefix_of_prefix_length_le hc hg (Nat.le_of_lt hlt)
    cases x with
    | nil => rw [List.append_nil] at hx; rw [hx] at hlt; omega
    | cons f x =>
      rw [e3, ← hx] at hw
      obtain ⟨r, hr⟩ := hw
      simp only [List.flatMap_append, List.append_assoc, List.flatMap_cons] at hr
      have := List.append_cancel_left hr
      rw [← this] at hn
      refine hn (complete_wire (hf f ?_) _)
      obtain ⟨y, hy⟩ := hg
      rw [← hy, ← hx]; simp
  · obtain ⟨x, hx⟩ := List.prefix_of_prefix_length_le hg hc hge
    rw [← hx, List.map_append]
    exact List.prefix_append _ _

/-- While a loop waits for a task, it stays as it is until its message is taken; then it goes on. -/
theorem blocked_step (cfg : Cfg) {fs : List Frame} (hS : Stream fs []) (es : List Event)
    (ha : arrived (serverRun cfg es).trace <+: fs.flatMap wire ++ []) (hr : (serverRun cfg es).phase = .running)
    {h : Nat} {f : Frame} (hp : (serverRun cfg es).pending = some (h, f)) (e : Event) :
    ((serverStep cfg (serverRun cfg es) e).pending = some (h, f) ∧
      (serverStep cfg (serverRun cfg es) e).readBuf = (serverRun cfg es).readBuf) ∨
    (serverStep cfg (serverRun cfg es) e).pending = none ∨
    (serverStep cfg (serverRun cfg es) e).readBuf.length < (serverRun cfg es).readBuf.length := by
  have htake := (unblock_take cfg hS es ha hr hp).2
  have hdrop := (unblock_drop cfg hS es ha hr hp).2
  obtain ⟨w1, w2⟩ := server_waits cfg es h f hp
  generalize serverRun cfg es = s at *
  have hno : ¬ (s.phase = .running ∧ s.pending = none) := by rw [hp]; simp
  have hfull : ¬ (s.chan h).q.length < streamCap := by omega
  cases e with
  | submit g =>
    left
    unfold serverStep step
    dsimp only
    split
    · exact ⟨hp, rfl⟩
    · exact ⟨hp, rfl⟩
  | take k =>
    by_cases hk : k = h
    · subst hk; exact .inr htake
    · left
      unfold serverStep step
      dsimp only
      cases hq : (s.chan k).q with
      | nil => exact ⟨hp, rfl⟩
      | cons g q =>
        dsimp only
        split
        · simp only [resumePending, emit, setChan, hp, sendAwait, if_neg (Ne.symm hk), w1, hfull, if_false, Bool.true_eq_false,
            if_true, and_self]
        · exact ⟨hp, rfl⟩
  | dropRx k =>
    by_cases hk : k = h
    · subst hk; exact .inr hdrop
    · left
      unfold serverStep step
      dsimp only
      split
      · simp only [resumePending, emit, setChan, hp, sendAwait, if_neg (Ne.symm hk), w1, hfull, if_false, Bool.true_eq_false,
          if_true, and_self]
      · exact ⟨hp, rfl⟩
  | _ =>
    left
    unfold serverStep step
    dsimp only
    rw [if_neg hno]
    exact ⟨hp, rfl⟩

end Tunnel

namespace Relay

theorem step_grows (r : St) (e : Event) : r.trace <+: (step r e).trace := by
  have ht : (top r).trace = r.trace := (top_same r).1
  have hb : ∀ s : St, s.trace <+: (branch s e).trace := by
    intro s
    cases e <;> simp only [branch]
    case recv f =>
      cases f with
      | none => exact List.prefix_refl _
      | some f => cases f <;> simp [emit]
    all_goals (repeat' split)
    all_goals simp [emit]
  unfold step
  split
  · rw [← ht]; exact hb _
  · split
    · split
      · simp [emit]
      · exact List.prefix_refl _
    · exact List.prefix_refl _
    · exact List.prefix_refl _
  · exact List.prefix_refl _

theorem inputs_mono {t t' : List Obs} (e : t <+: t') : inputs t <+: inputs t' := by
  obtain ⟨u, rfl⟩ := e; unfold inputs; rw [List.flatMap_append]; exact List.prefix_append _ _
theorem outputs_mono {t t' : List Obs} (e : t <+: t') : outputs t <+: outputs t' := by
  obtain ⟨u, rfl⟩ := e; unfold outputs; rw [List.flatMap_append]; exact List.prefix_append _ _
theorem sends_mono {t t' : List Obs} (e : t <+: t') : sends t <+: sends t' := by
  obtain ⟨u, rfl⟩ := e; unfold sends; rw [List.filterMap_append]; exact List.prefix_append _ _
theorem gots_mono {t t' : List Obs} (e : t <+: t') : gots t <+: gots t' := by
  obtain ⟨u, rfl⟩ := e; unfold gots; rw [List.filterMap_append]; exact List.prefix_append _ _
theorem pieces_mono {t t' : List Obs} (e : t <+: t') : pieces t <+: pieces t' := by
  obtain ⟨u, rfl⟩ := e; unfold pieces; rw [List.filterMap_append]; exact List.prefix_append _ _

theorem pieces_flatten (t : List Obs) : (pieces t).flatten = inputs t := by
  induction t with
  | nil => rfl
  | cons o t ih => cases o <;> simp_all [pieces, inputs]

end Relay

namespace World
open Wm.Prot

theorem relayStep_grows (T : Tunnel.St → Tunnel.Event → Tunnel.St) (dies s r h e) :
    r.trace <+: (relayStep T dies s r h e).2.trace := by
  cases e <;> simp only [relayStep]
  case slot =>
    split
    · split
      · split
        · exact Relay.step_grows _ _
        · exact List.prefix_refl _
      · exact List.prefix_refl _
    · split
      · exact (Relay.step_grows _ _).trans (Relay.step_grows _ _)
      · exact List.prefix_refl _
  all_goals (repeat' split)
  all_goals first | exact List.prefix_refl _ | exact Relay.step_grows _ _

/-- a visitor stays at its place, with its channel -/
theorem visitor_next {cfg : Cfg} {w : St} {n : Nat} {v : Visitor} (hg : Guests cfg w) (hv : w.visitors[n]? = some v) (e : Event) :
    ∃ v', (step cfg w e).visitors[n]? = some v' ∧ v.relay.trace <+: v'.relay.trace ∧
      ∀ k, v.handle = some k → v'.handle = some k := by
  have same : ∃ v', w.visitors[n]? = some v' ∧ v.relay.trace <+: v'.relay.trace ∧
      ∀ k, v.handle = some k → v'.handle = some k := ⟨v, hv, List.prefix_refl _, fun _ h => h⟩
  have hlt := (List.getElem?_eq_some_iff.1 hv).1
  have more : ∀ x, ∃ v', (w.visitors ++ [x])[n]? = some v' ∧ v.relay.trace <+: v'.relay.trace ∧
      ∀ k, v.handle = some k → v'.handle = some k :=
    fun x => ⟨v, by rw [List.getElem?_append_left hlt]; exact hv, List.prefix_refl _, fun _ h => h⟩
  cases e with
  | accept => exact same
  | visit j mode =>
    simp only [step]
    split
    · exact same
    · split
      · exact same
      · split
        · split
          · exact more _
          · exact same
        · exact more _
  | work =>
    simp only [step]
    split
    · exact same
    · rename_i j name rest hw
      split
      · exact same
      · rename_i x hx
        split
        · by_cases hj : j = n
          · subst hj
            rw [hv] at hx; cases hx
            obtain ⟨y, hy, hn⟩ := hg.works (j, name) (by rw [hw]; simp)
            rw [hv] at hy; cases hy
            exact ⟨_, List.getElem?_set_self hlt, List.prefix_refl _, fun k hk => by rw [hn] at hk; cases hk⟩
          · exact ⟨v, by dsimp only; rw [List.getElem?_set_ne hj]; exact hv, List.prefix_refl _, fun _ h => h⟩
        · exact same
  | srv e => exact same
  | cli e => exact same
  | otherS e => exact same
  | otherC e => exact same
  | vis j e =>
    simp only [step]
    split
    · exact same
    · rename_i x hx
      by_cases hj : j = n
      · subst hj
        rw [hv] at hx; cases hx
        exact ⟨_, List.getElem?_set_self hlt, relayStep_grows _ _ _ _ _ _, fun _ h => h⟩
      · exact ⟨v, by dsimp only; rw [List.getElem?_set_ne hj]; exact hv, List.prefix_refl _, fun _ h => h⟩
  | start i h =>
    simp only [step]
    split <;> exact same
  | loc j e =>
    simp only [step]
    split <;> exact same

/-- a local connection stays at its place -/
theorem local_next {cfg : Cfg} {w : St} {m : Nat} {l : Relay.St × Nat} (hl : w.locals[m]? = some l) (e : Event) :
    ∃ l', (step cfg w e).locals[m]? = some l' ∧ l.1.trace <+: l'.1.trace ∧ l'.2 = l.2 := by
  have same : ∃ l', w.locals[m]? = some l' ∧ l.1.trace <+: l'.1.trace ∧ l'.2 = l.2 := ⟨l, hl, List.prefix_refl _, rfl⟩
  have hlt := (List.getElem?_eq_some_iff.1 hl).1
  cases e with
  | accept => exact same
  | visit j mode =>
    simp only [step]
    repeat' split
    all_goals exact same
  | work =>
    simp only [step]
    repeat' split
    all_goals exact same
  | srv e => exact same
  | cli e => exact same
  | otherS e => exact same
  | otherC e => exact same
  | vis j e =>
    simp only [step]
    split <;> exact same
  | start i h =>
    simp only [step]
    split
    · exact ⟨l, by dsimp only; rw [List.getElem?_append_left hlt]; exact hl, List.prefix_refl _, rfl⟩
    · exact same
  | loc j e =>
    simp only [step]
    split
    · exact same
    · rename_i x hx
      by_cases hj : j = m
      · subst hj
        rw [hl] at hx; cases hx
        exact ⟨_, List.getElem?_set_self hlt, relayStep_grows _ _ _ _ _ _, rfl⟩
      · exact ⟨l, by dsimp only; rw [List.getElem?_set_ne hj]; exact hl, List.prefix_refl _, rfl⟩

theorem One.grows {T} (hT : Steps T) {s s'} (ho : One T s s') : s.trace <+: s'.trace := by
  rcases ho with rfl | ⟨e, rfl⟩
  · exact List.prefix_refl _
  · obtain ⟨u, e1, _⟩ := hT s e
    rw [e1, List.append_assoc]; exact List.prefix_append _ _

end World
end Wm
