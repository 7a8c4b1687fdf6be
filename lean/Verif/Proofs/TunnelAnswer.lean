import Verif.Proofs.TunnelInput
/-! Open requests at the client, and its introduction. -/
namespace Wm.Tunnel
open Wm Wm.Prot

theorem findMapping_spec (ms : List MappingConfig) (d : Text) :
    (findMapping ms d = none ↔ NoMatch ms d) ∧ ∀ m, findMapping ms d = some m ↔ LastMatch ms d m := by
  have hsn : ∀ ms m, findMapping (ms ++ [m]) d = if m.domain == d || m.name == d then some m else findMapping ms d := by
    intro ms m; simp [findMapping]
  have hl : ∀ ms m x, LastMatch (ms ++ [m]) d x ↔
      ((m.domain = d ∨ m.name = d) ∧ x = m) ∨ ((m.domain ≠ d ∧ m.name ≠ d) ∧ LastMatch ms d x) := by
    intro ms m x
    constructor
    · rintro ⟨pre, post, e, hx, hp⟩
      rcases List.eq_nil_or_concat post with rfl | ⟨l, a, rfl⟩
      · have := List.append_inj' (s₁ := ms) (t₁ := [m]) (s₂ := pre) (t₂ := [x]) e rfl
        simp at this
        rw [this.2]; exact .inl ⟨hx, rfl⟩
      · have h' : ms ++ [m] = (pre ++ x :: l) ++ [a] := by simpa using e
        have := List.append_inj' (s₁ := ms) (t₁ := [m]) (s₂ := pre ++ x :: l) (t₂ := [a]) h' rfl
        simp at this
        obtain ⟨rfl, rfl⟩ := this
        exact .inr ⟨hp _ (by simp), pre, l, rfl, hx, fun y hy => hp y (by simp [hy])⟩
    · rintro (⟨h1, rfl⟩ | ⟨h1, pre, post, rfl, hx, hp⟩)
      · exact ⟨ms, [], rfl, h1, by simp⟩
      · refine ⟨pre, post ++ [m], by simp, hx, ?_⟩
        intro y hy
        simp only [List.mem_append, List.mem_singleton] at hy
        rcases hy with hy | rfl
        · exact hp y hy
        · exact h1
  have hn : ∀ ms m, NoMatch (ms ++ [m]) d ↔ NoMatch ms d ∧ (m.domain ≠ d ∧ m.name ≠ d) := by
    intro ms m
    unfold NoMatch
    constructor
    · intro h; exact ⟨fun x hx => h x (by simp [hx]), h m (by simp)⟩
    · rintro ⟨h1, h2⟩ x hx
      simp only [List.mem_append, List.mem_singleton] at hx
      rcases hx with hx | rfl
      · exact h1 x hx
      · exact h2
  induction ms using List.reverseRecOn with
  | nil =>
    refine ⟨by simp [findMapping, NoMatch], fun m => ?_⟩
    simp only [findMapping, List.foldl_nil, reduceCtorEq, false_iff]
    rintro ⟨pre, post, e, _⟩
    simp at e
  | append_singleton ms m ih =>
    refine ⟨?_, fun x => ?_⟩
    · rw [hsn, hn, ← ih.1]
      by_cases h : m.domain == d || m.name == d
      · simp only [h, if_true, reduceCtorEq, false_iff]
        simp only [Bool.or_eq_true, beq_iff_eq] at h
        rintro ⟨_, h1, h2⟩
        exact h.elim h1 h2
      · simp only [h, Bool.false_eq_true, if_false]
        simp only [Bool.or_eq_true, beq_iff_eq, not_or] at h
        exact ⟨fun x => ⟨x, h⟩, fun x => x.1⟩
    · rw [hsn, hl, ← ih.2]
      by_cases h : m.domain == d || m.name == d
      · simp only [h, if_true, Option.some.injEq]
        simp only [Bool.or_eq_true, beq_iff_eq] at h
        constructor
        · intro e; exact .inl ⟨h, e.symm⟩
        · rintro (⟨_, e⟩ | ⟨h1, _⟩)
          · exact e.symm
          · exact (h.elim h1.1 h1.2).elim
      · simp only [h, Bool.false_eq_true, if_false]
        simp only [Bool.or_eq_true, beq_iff_eq, not_or] at h
        constructor
        · intro e; exact .inr ⟨h, e⟩
        · rintro (⟨h1, _⟩ | ⟨_, e⟩)
          · exact (h1.elim h.1 h.2).elim
          · exact e

/-- the request to open `id` for `d` was answered by what follows it -/
def Answer (cfg : Cfg) (id : Nat) (d : Option Text) (t2 : List Obs) (ph : Phase) : Prop :=
  (NoMatch cfg.mappings (d.getD []) → (∃ r, t2 = .submitted (.close id []) :: r) ∨ ph = .stuck) ∧
  ∀ m, LastMatch cfg.mappings (d.getD []) m → ∃ pre h r, t2 = pre ++ .reg id h :: outcome m id h :: r ∧
    (pre = [] ∨ ∃ old, pre = [.hangup old])

def AnsInv (cfg : Cfg) (s : St) : Prop :=
  ∀ t1 id d t2, s.trace = t1 ++ .got (.create id d) :: t2 → Answer cfg id d t2 s.phase

theorem Answer.more {cfg id d t2 ph ph'} (h : Answer cfg id d t2 ph) (u : List Obs) (hp : ph = .stuck → ph' = .stuck) :
    Answer cfg id d (t2 ++ u) ph' := by
  refine ⟨fun hn => ?_, fun m hm => ?_⟩
  · rcases h.1 hn with ⟨r, rfl⟩ | hs
    · exact .inl ⟨r ++ u, rfl⟩
    · exact .inr (hp hs)
  · obtain ⟨pre, k, r, rfl, hpre⟩ := h.2 m hm
    exact ⟨pre, k, r ++ u, by simp, hpre⟩

theorem AnsInv.grow {cfg s s'} (h : AnsInv cfg s) (u : List Obs) (ht : s'.trace = s.trace ++ u)
    (hp : s.phase = .stuck → s'.phase = .stuck) (hu : ∀ f, .got f ∉ u := by simp) : AnsInv cfg s' := by
  intro t1 id d t2 e
  rw [ht] at e
  rcases List.append_eq_append_iff.1 e with ⟨a, e1, e2⟩ | ⟨a, e1, e2⟩
  · exact absurd (by rw [e2]; simp) (hu (.create id d))
  · cases a with
    | nil => exact absurd (by rw [List.nil_append] at e2; rw [← e2]; simp) (hu (.create id d))
    | cons x a =>
      simp only [List.cons_append, List.cons.injEq] at e2
      obtain ⟨rfl, rfl⟩ := e2
      exact (h t1 id d a e1).more u hp

theorem AnsInv.trySend {cfg s} (h : AnsInv cfg s) (k : Nat) (f : Frame) : AnsInv cfg (trySend k f s) := by
  unfold Tunnel.trySend
  split
  · exact h.grow [.lost k f] rfl id
  · split
    · exact h.grow [.put k f] rfl id
    · exact h.grow [.overflow k f] rfl id

theorem AnsInv.closeFold {cfg} (m : List (Nat × Nat)) : ∀ s, AnsInv cfg s →
    AnsInv cfg (m.foldl (fun s x => Tunnel.trySend x.2 (.close x.1 []) s) s) := by
  induction m with
  | nil => intro s h; exact h
  | cons x m ih => intro s h; exact ih _ (h.trySend _ _)

theorem closeAll_phase (s : St) : (closeAll s).phase = s.phase := by
  unfold closeAll
  generalize s.map = m
  induction m generalizing s with
  | nil => rfl
  | cons p m ih => simp only [List.foldl_cons]; rw [ih, trySend_phase]

theorem AnsInv.finish {cfg s} (h : AnsInv cfg s) (hr : s.phase = .running) (p : Phase) : AnsInv cfg (finish p s) :=
  h.grow _ (finish_trace p s) (fun e => by rw [hr] at e; cases e)

theorem AnsInv.sendAwait {cfg s} (h : AnsInv cfg s) (k : Nat) (f : Frame) : AnsInv cfg (sendAwait k f s).1 := by
  unfold Tunnel.sendAwait
  split
  · exact h.grow [.lost k f] rfl id
  · split
    · exact h.grow [.put k f] rfl id
    · exact h.grow [] (by simp) id

theorem AnsInv.register {cfg s} (h : AnsInv cfg s) (id : Nat) : AnsInv cfg (register id s) := by
  refine h.grow _ ((register_trace id s).trans (List.append_assoc ..)) (fun e => by rw [register_phase]; exact e) ?_
  cases lookup id s.map <;> simp

theorem AnsInv.kept {cfg} : Kept (AnsInv cfg) where
  buf s b h := h.grow [] (by simp) id
  read s bs h _ := h.grow [.arrived bs] rfl id
  fin s ph h hi _ := h.finish hi.1 ph
  lost s h hi := by
    have h1 : AnsInv cfg (emit .connLost s) := h.grow [.connLost] rfl id
    refine AnsInv.finish (AnsInv.closeFold _ _ h1) ?_ _
    exact (closeAll_phase _).trans hi.1
  submit s f h _ _ := h.grow [.submitted f] rfl id
  take s k f q h _ _ := h.grow [.took k f] rfl id
  drop s k h _ := h.grow [.rxGone k] rfl id
  retry s k f h _ := AnsInv.sendAwait (s := { s with pending := none }) (h.grow [] (by simp) id) k f
  work s id d h hi := (h.register id).grow [.queued false (.create id d)] rfl (fun x => x)
  recv s f q h _ hq := h.grow [.queued true f] rfl id
  wrote s n h _ _ _ := h.grow [.wrote (s.writeBuf.take n)] rfl id
  drained s n h hi _ _ := by
    have h1 : AnsInv cfg (emit (.wrote (s.writeBuf.take n)) { s with writeBuf := s.writeBuf.drop n }) :=
      h.grow [.wrote (s.writeBuf.take n)] rfl id
    exact h1.finish hi.1 _

/-- handling a message: the answer follows it directly -/
theorem AnsInv.after {cfg s s'} (h : AnsInv cfg s) (hr : s.phase = .running) (f : Frame) (u : List Obs)
    (ht : s'.trace = s.trace ++ .got f :: u) (hu : ∀ g, .got g ∉ u)
    (ha : ∀ id d, f = .create id d → Answer cfg id d u s'.phase) : AnsInv cfg s' := by
  intro t1 id d t2 e
  rw [ht] at e
  rcases List.append_eq_append_iff.1 e with ⟨a, e1, e2⟩ | ⟨a, e1, e2⟩
  · cases a with
    | nil =>
      simp only [List.nil_append, List.cons.injEq, Obs.got.injEq] at e2
      obtain ⟨rfl, rfl⟩ := e2
      exact ha id d rfl
    | cons x a =>
      simp only [List.cons_append, List.cons.injEq] at e2
      exact absurd (by rw [e2.2]; simp) (hu (.create id d))
  · cases a with
    | nil =>
      simp only [List.nil_append, List.cons.injEq, Obs.got.injEq] at e2
      obtain ⟨rfl, rfl⟩ := e2
      exact ha id d rfl
    | cons x a =>
      simp only [List.cons_append, List.cons.injEq] at e2
      obtain ⟨rfl, rfl⟩ := e2
      exact (h t1 id d a e1).more _ (fun e => by rw [hr] at e; cases e)

theorem clientHandle_ans (cfg : Cfg) (s : St) (f : Frame) (h : AnsInv cfg s) (hl : Live s) :
    AnsInv cfg (clientHandle cfg s f).1 := by
  obtain ⟨⟨⟨u, e1, e2, e3⟩, er⟩, _⟩ := clientHandle_looks cfg s f
  have hnog : ∀ u : List Obs, gots u = [] → ∀ g, .got g ∉ u := by
    intro u hu g hg
    have : g ∈ gots u := List.mem_filterMap.2 ⟨_, hg, rfl⟩
    rw [hu] at this; simp at this
  cases f with
  | create id d =>
    obtain ⟨hn, hs⟩ := findMapping_spec cfg.mappings (d.getD [])
    rw [clientHandle]
    dsimp only
    cases hm : findMapping cfg.mappings (d.getD []) with
    | none =>
      have hno := hn.1 hm
      have hnl : ∀ m, ¬ LastMatch cfg.mappings (d.getD []) m := by
        intro m hc; rw [← hs, hm] at hc; cases hc
      dsimp only
      unfold selfSend
      split
      · refine h.after hl.1 (.create id d) [.submitted (.close id [])] (by simp [emit]) (by simp) ?_
        rintro i x e
        cases e
        exact ⟨fun _ => .inl ⟨[], rfl⟩, fun m hc => absurd hc (hnl m)⟩
      · refine h.after hl.1 (.create id d) [] (by simp [emit]) (by simp) ?_
        rintro i x e
        cases e
        exact ⟨fun _ => .inr rfl, fun m hc => absurd hc (hnl m)⟩
    | some m =>
      have hlm := (hs m).1 hm
      have hno : ¬ NoMatch cfg.mappings (d.getD []) := by intro hc; rw [← hn, hm] at hc; cases hc
      have huniq : ∀ x, LastMatch cfg.mappings (d.getD []) x → x = m := by
        intro x hx; rw [← hs, hm] at hx; simpa using hx.symm
      dsimp only
      have hreg := register_trace id (emit (.got (.create id d)) s)
      have hmap : (emit (.got (.create id d)) s).map = s.map := rfl
      have hnx : (emit (.got (.create id d)) s).next = s.next := rfl
      rw [hmap, hnx] at hreg
      have hfin : ∀ (s' : St), s'.trace = (register id (emit (.got (.create id d)) s)).trace ++ [outcome m id s.next] →
          AnsInv cfg s' := by
        intro s' ht
        refine h.after hl.1 (.create id d)
          ((match lookup id s.map with | some old => [.hangup old] | none => []) ++
            .reg id s.next :: outcome m id s.next :: []) ?_ ?_ ?_
        · rw [ht, hreg]; cases lookup id s.map <;> simp [emit]
        · intro g
          have : outcome m id s.next ≠ .got g := by
            unfold outcome; split
            · simp
            · split <;> simp
          cases lookup id s.map <;> simp [this.symm]
        · rintro i x e
          cases e
          refine ⟨fun hc => absurd hc hno, fun y hy => ?_⟩
          rw [huniq y hy]
          refine ⟨_, s.next, [], rfl, ?_⟩
          cases lookup id s.map <;> simp
      split
      · rename_i hpx
        have hpx := (isProxy_iff m).1 hpx
        exact hfin _ (by simp only [emit, outcome, if_pos hpx])
      · rename_i hpx
        have hpx : ¬ m.mode.map Char.toLower = "proxy".toList := fun hc => hpx ((isProxy_iff m).2 hc)
        split
        · rename_i hla
          exact hfin _ (by simp only [emit, setChan, outcome, if_neg hpx, hla])
        · rename_i a hla
          exact hfin _ (by simp only [emit, outcome, if_neg hpx, hla])
  | close id r =>
    exact h.after hl.1 (.close id r) u (by rw [e1]; simp [emit]) (hnog u e2) (by simp)
  | data id r =>
    exact h.after hl.1 (.data id r) u (by rw [e1]; simp [emit]) (hnog u e2) (by simp)
  | mapping id r =>
    exact h.after hl.1 (.mapping id r) u (by rw [e1]; simp [emit]) (hnog u e2) (by simp)
  | token id r =>
    exact h.after hl.1 (.token id r) u (by rw [e1]; simp [emit]) (hnog u e2) (by simp)

theorem client_ans (cfg : Cfg) (q : List Frame) (es : List Event) :
    AnsInv cfg (clientRun cfg q es) ∧ CInv (accepted (clientInit cfg q).trace) q (clientRun cfg q es) := by
  have hK : Kept (fun s => AnsInv cfg s ∧ CInv (accepted (clientInit cfg q).trace) q s) :=
    AnsInv.kept.and (Flow.kept.and (HInv.kept.and BInv.kept))
  refine run_inv (Kept.preserved hK ?_) es _ ⟨?_, (Fresh.init cfg q).cinv⟩
  · intro s f h hl
    have h1 := clientHandle_inv cfg _ _ s f h.2 hl
    exact ⟨⟨clientHandle_ans cfg s f h.1 hl, h1.1⟩, h1.2⟩
  · intro t1 id d t2 e
    obtain ⟨f, hf⟩ := (Fresh.init cfg q).trace (.got (.create id d)) (by rw [e]; simp)
    cases hf

/-- once failed, nothing is written any more -/
theorem clientInit_failed (cfg : Cfg) (q : List Frame) (es : List Event) (h : (clientInit cfg q).phase ≠ .running) :
    written (clientRun cfg q es).trace = [] := by
  have hK : ∀ (es : List Event) s, s.phase ≠ .running → (∀ k, (s.chan k).rx = false) → s.pending = none →
      written (es.foldl (clientStep cfg) s).trace = written s.trace := by
    intro es
    induction es with
    | nil => intro s _ _ _; rfl
    | cons e t ih =>
      intro s hr hc hp
      have : clientStep cfg s e = s := by
        unfold clientStep
        cases e <;> simp only [step]
        case submit f => simp [hr]
        case take k => simp only [hc]; cases (s.chan k).q <;> rfl
        case dropRx k => simp [hc]
        all_goals simp [hr]
      simp only [List.foldl_cons]
      rw [this]; exact ih s hr hc hp
  have hf := Fresh.init cfg q
  have := hK es _ h (fun k => by rw [hf.chan]; rfl) hf.pending
  unfold clientRun
  rw [this]
  exact (Fresh.silent hf.trace).1

theorem clientInit_accepted (cfg : Cfg) (q : List Frame) (h : (clientInit cfg q).phase = .running) :
    accepted (clientInit cfg q).trace = introduction cfg := by
  have hi : ∀ f s, (introduce f s).phase = .running →
      s.phase = .running ∧ accepted (introduce f s).trace = accepted s.trace ++ [f] := by
    intro f s
    unfold introduce
    split
    · rename_i hr
      split
      · intro _; exact ⟨hr, by simp [enqueue, emit, accepted_snoc]⟩
      · intro hc; simp at hc
      · intro hc; simp at hc
    · rename_i hr; intro hc; exact absurd hc hr
  unfold clientInit introduction at *
  dsimp only at *
  rcases cfg with ⟨_ | u, _ | p, ms⟩ <;> dsimp only at * <;> by_cases hm : ms = [] <;> simp only [hm, if_true, if_false] at h ⊢
  all_goals first
    | rfl
    | (have h1 := hi _ _ h; have h2 := hi _ _ h1.1; rw [h1.2, h2.2]; rfl)
    | (have := hi _ _ h; rw [this.2]; rfl)

end Wm.Tunnel
