import Verif.Proofs.TunnelFlow
/-! Further invariants of a tunnel end: login guard, outgoing bytes, hang-ups; and the message handlers. -/
namespace Wm.Prot
open Wm

/-- an encoder appends, and what it appends does not depend on the buffer -/
def Lin (g : Bytes → Enc) : Prop := ∀ buf, (g buf).buf = buf ++ (g []).buf ∧ (g buf).result = (g []).result

theorem Lin.put (bs : Bytes) : Lin (put bs) := fun buf => by simp [Prot.put]

theorem Lin.short (s : Text) : Lin (fun b => writeShortString b s) := fun buf => by
  unfold writeShortString; dsimp only; split <;> simp

theorem Lin.andThen {g h : Bytes → Enc} (hg : Lin g) (hh : Lin h) : Lin (fun b => (g b).andThen h) := fun buf => by
  obtain ⟨g1, g2⟩ := hg buf
  simp only [Enc.andThen, g2]
  cases (g []).result with
  | ok n =>
    dsimp only
    rw [(hh (g buf).buf).1, (hh (g []).buf).1, (hh (g buf).buf).2, (hh (g []).buf).2, g1]
    simp
  | err e => exact ⟨g1, rfl⟩
  | panic => exact ⟨g1, rfl⟩

theorem Lin.rules (hs : List ConfigHeader) : Lin (encodeRules hs) := by
  induction hs with
  | nil => exact Lin.put []
  | cons h t ih =>
    exact ((((Lin.put _).andThen (Lin.put _)).andThen (Lin.short _)).andThen (Lin.short _)).andThen ih

theorem Lin.encode (f : Frame) : Lin f.encode := by
  cases f with
  | create s d =>
    cases d with
    | none => exact ((Lin.put _).andThen (Lin.put _)).andThen (Lin.put _)
    | some d => exact ((Lin.put _).andThen (Lin.put _)).andThen (Lin.put _)
  | close s r => exact (Lin.put _).andThen (Lin.short _)
  | data s d => exact (Lin.put _).andThen (Lin.put _)
  | token u p => exact ((Lin.put _).andThen (Lin.short _)).andThen (Lin.short _)
  | mapping s ms =>
    intro buf
    simp only [Frame.encode, encodeMapping]
    generalize (Prot.put (putU16 (ms.length % 2 ^ 16)) []).andThen (encodeMappings ms) = c
    cases c.result with
    | ok n => exact ((Lin.put _).andThen (Lin.put _)) buf
    | err e => simp
    | panic => simp

theorem encode_append (f : Frame) (buf : Bytes) : (f.encode buf).buf = buf ++ wire f := (Lin.encode f buf).1

end Wm.Prot

namespace Wm.Tunnel
open Wm Wm.Prot

/-! ### outgoing bytes -/

structure BInv (pre : List Frame) (outq0 : List Frame) (s : St) : Prop where
  bytes : written s.trace ++ s.writeBuf = (accepted s.trace).flatMap wire
  relay : relayed s.trace ++ s.outq = outq0 ++ submissions s.trace
  intro_ : pre <+: accepted s.trace

def Unsent : Obs → Prop
  | .wrote _ | .queued .. | .submitted _ => False
  | _ => True

theorem BInv.note {p q s s'} (h : BInv p q s) (o : Obs) (ho : Unsent o) (ht : s'.trace = s.trace ++ [o])
    (hw : s'.writeBuf = s.writeBuf) (hq : s'.outq = s.outq) : BInv p q s' := by
  obtain ⟨h1, h2, h3⟩ := h
  refine ⟨?_, ?_, ?_⟩
  · rw [ht, hw, written_snoc, accepted_snoc]; cases o <;> simp_all [Unsent]
  · rw [ht, hq, relayed_snoc, submissions_snoc]; cases o <;> simp_all [Unsent]
  · rw [ht, accepted_snoc]; cases o <;> simp_all [Unsent]

theorem BInv.congr {p q s s'} (h : BInv p q s) (ht : s'.trace = s.trace)
    (hw : s'.writeBuf = s.writeBuf) (hq : s'.outq = s.outq) : BInv p q s' :=
  ⟨by rw [ht, hw]; exact h.1, by rw [ht, hq]; exact h.2, by rw [ht]; exact h.3⟩

theorem BInv.enqueue {p q s} (h : BInv p q s) (f : Frame) : BInv p q (enqueue f s) := by
  obtain ⟨h1, h2, h3⟩ := h
  refine ⟨?_, ?_, ?_⟩
  · simp only [Tunnel.enqueue, emit, written_snoc, accepted_snoc, encode_append, List.append_nil, List.flatMap_append]
    rw [← h1]; simp
  · simp only [Tunnel.enqueue, emit, relayed_snoc, submissions_snoc, List.append_nil]; exact h2
  · simp only [Tunnel.enqueue, emit, accepted_snoc]; exact h3.trans (List.prefix_append _ _)

theorem BInv.recv {p q s f r} (h : BInv p q s) (hq : s.outq = f :: r) :
    BInv p q (Tunnel.enqueue f { s with outq := r } true) := by
  obtain ⟨h1, h2, h3⟩ := h
  refine ⟨?_, ?_, ?_⟩
  · simp only [Tunnel.enqueue, emit, written_snoc, accepted_snoc, encode_append, List.append_nil, List.flatMap_append]
    rw [← h1]; simp
  · simp only [Tunnel.enqueue, emit, relayed_snoc, submissions_snoc, List.append_nil]
    rw [← h2, hq]; simp
  · simp only [Tunnel.enqueue, emit, accepted_snoc]; exact h3.trans (List.prefix_append _ _)

theorem BInv.submit {p q s} (h : BInv p q s) (f : Frame) :
    BInv p q (emit (.submitted f) { s with outq := s.outq ++ [f] }) := by
  obtain ⟨h1, h2, h3⟩ := h
  refine ⟨?_, ?_, ?_⟩
  · simp only [emit, written_snoc, accepted_snoc, List.append_nil]; exact h1
  · simp only [emit, relayed_snoc, submissions_snoc, List.append_nil]
    rw [← List.append_assoc, h2]; simp
  · simp only [emit, accepted_snoc, List.append_nil]; exact h3

theorem BInv.wrote {p q s} (h : BInv p q s) (n : Nat) :
    BInv p q (emit (.wrote (s.writeBuf.take n)) { s with writeBuf := s.writeBuf.drop n }) := by
  obtain ⟨h1, h2, h3⟩ := h
  refine ⟨?_, ?_, ?_⟩
  · simp only [emit, written_snoc, accepted_snoc, List.append_nil]; rw [← h1]; simp
  · simp only [emit, relayed_snoc, submissions_snoc, List.append_nil]; exact h2
  · simp only [emit, accepted_snoc, List.append_nil]; exact h3

theorem BInv.hangupFold {p q} (m : List (Nat × Nat)) : ∀ s, BInv p q s →
    BInv p q (m.foldl (fun s x => hangup x.2 s) s) := by
  induction m with
  | nil => intro s h; exact h
  | cons x m ih => intro s h; exact ih _ (h.note (.hangup x.2) trivial rfl rfl rfl)

theorem BInv.finish {p q s} (h : BInv p q s) (ph : Phase) : BInv p q (finish ph s) :=
  (BInv.hangupFold s.map s h).congr rfl rfl rfl

theorem BInv.trySend {p q s} (h : BInv p q s) (k : Nat) (f : Frame) : BInv p q (trySend k f s) := by
  unfold Tunnel.trySend
  split
  · exact h.note (.lost k f) trivial rfl rfl rfl
  · split
    · exact h.note (.put k f) trivial rfl rfl rfl
    · exact h.note (.overflow k f) trivial rfl rfl rfl

theorem BInv.closeFold {p q} (m : List (Nat × Nat)) : ∀ s, BInv p q s →
    BInv p q (m.foldl (fun s x => Tunnel.trySend x.2 (.close x.1 []) s) s) := by
  induction m with
  | nil => intro s h; exact h
  | cons x m ih => intro s h; exact ih _ (h.trySend _ _)

theorem BInv.sendAwait {p q s} (h : BInv p q s) (k : Nat) (f : Frame) : BInv p q (sendAwait k f s).1 := by
  unfold Tunnel.sendAwait
  split
  · exact h.note (.lost k f) trivial rfl rfl rfl
  · split
    · exact h.note (.put k f) trivial rfl rfl rfl
    · exact h.congr rfl rfl rfl

theorem BInv.register {p q s} (h : BInv p q s) (id : Nat) : BInv p q (register id s) := by
  unfold Tunnel.register
  cases lookup id s.map with
  | none => exact h.note (.reg id s.next) trivial rfl rfl rfl
  | some old =>
    have h1 : BInv p q (Tunnel.hangup old s) := h.note (.hangup old) trivial rfl rfl rfl
    exact h1.note (.reg id s.next) trivial rfl rfl rfl

theorem BInv.kept {p q} : Kept (BInv p q) where
  buf s b h := h.congr rfl rfl rfl
  read s bs h _ := h.note (.arrived bs) trivial rfl rfl rfl
  fin s ph h _ _ := h.finish ph
  lost s h _ := by
    refine BInv.finish ?_ _
    have h1 : BInv p q (emit .connLost s) := h.note .connLost trivial rfl rfl rfl
    exact BInv.closeFold _ _ h1
  submit s f h _ _ := h.submit f
  take s k f q h _ _ := h.note (.took k f) trivial rfl rfl rfl
  drop s k h _ := h.note (.rxGone k) trivial rfl rfl rfl
  retry s k f h _ := BInv.sendAwait (s := { s with pending := none }) (h.congr rfl rfl rfl) k f
  work s id d h _ := (h.register id).enqueue _
  recv s f q h _ hq := h.recv hq
  wrote s n h _ _ _ := h.wrote n
  drained s n h _ _ _ := (h.wrote n).finish _

/-! ### hang-ups -/

structure HInv (s : St) : Prop where
  cover : ∀ h < s.next, (∃ id, (id, h) ∈ s.map) ∨ .hangup h ∈ s.trace
  keys : (s.map.map (·.1)).Nodup
  over : s.phase = .running ∨ s.phase = .stuck ∨ s.map = []
  regs : ∀ i h, .reg i h ∈ s.trace → idOf s.trace h = some i ∧ h < s.next

theorem idOf_grow {h : Nat} (o : List Obs) : ∀ {t : List Obs}, (∀ i k, .reg i k ∉ o) → idOf (t ++ o) h = idOf t h := by
  induction o with
  | nil => intro t _; simp
  | cons x o ih =>
    intro t hx
    have h1 : idOf (t ++ [x]) h = idOf t h := by
      rw [idOf_snoc]
      cases x <;> first | rfl | exact absurd (List.mem_cons_self) (hx _ _)
    have := ih (t := t ++ [x]) (fun i k hk => hx i k (List.mem_cons_of_mem _ hk))
    rw [List.append_assoc] at this
    exact this.trans h1

theorem regs_grow {t t' : List Obs} {n : Nat} (o : List Obs) (h : ∀ i h, .reg i h ∈ t → idOf t h = some i ∧ h < n)
    (ht : t' = t ++ o) (ho : ∀ i k, .reg i k ∉ o) : ∀ i h, .reg i h ∈ t' → idOf t' h = some i ∧ h < n := by
  intro i k hk
  rw [ht, idOf_grow o ho]
  rw [ht, List.mem_append] at hk
  rcases hk with hk | hk
  · exact h i k hk
  · exact absurd hk (ho i k)

theorem HInv.grow {s s'} (h : HInv s) (o : List Obs) (ht : s'.trace = s.trace ++ o) (hm : s'.map = s.map)
    (hn : s'.next = s.next) (hp : s'.phase = s.phase) (ho : ∀ i k, .reg i k ∉ o := by simp) : HInv s' := by
  refine ⟨fun k hk => ?_, by rw [hm]; exact h.keys, by rw [hp, hm]; exact h.over, ?_⟩
  · rw [hn] at hk
    rw [hm, ht]
    rcases h.cover k hk with hc | hc
    · exact .inl hc
    · exact .inr (by simp [hc])
  · rw [hn]; exact regs_grow o h.regs ht ho

theorem hangupFold_trace (m : List (Nat × Nat)) : ∀ s : St,
    (m.foldl (fun s x => hangup x.2 s) s).trace = s.trace ++ m.map (fun x => .hangup x.2) := by
  induction m with
  | nil => intro s; simp
  | cons x m ih => intro s; simp only [List.foldl_cons, ih]; simp [hangup, emit, setChan]

theorem hangupFold_next (m : List (Nat × Nat)) : ∀ s : St,
    (m.foldl (fun s x => hangup x.2 s) s).next = s.next := by
  induction m with
  | nil => intro s; rfl
  | cons x m ih => intro s; exact (ih _).trans rfl

theorem finish_trace (p : Phase) (s : St) : (finish p s).trace = s.trace ++ s.map.map (fun x => .hangup x.2) :=
  hangupFold_trace _ _

theorem finish_next (p : Phase) (s : St) : (finish p s).next = s.next := hangupFold_next _ _

@[simp] theorem finish_phase (p : Phase) (s : St) : (finish p s).phase = p := rfl

theorem HInv.finish {s} (h : HInv s) (p : Phase) : HInv (finish p s) := by
  refine ⟨fun k hk => .inr ?_, by simp [Tunnel.finish], .inr (.inr rfl), ?_⟩
  · rw [finish_next] at hk
    rw [finish_trace]
    rcases h.cover k hk with ⟨id, hc⟩ | hc
    · simp only [List.mem_append, List.mem_map]
      exact .inr ⟨_, hc, rfl⟩
    · simp [hc]
  · rw [finish_next]; exact regs_grow _ h.regs (finish_trace p s) (by simp)

theorem HInv.trySend {s} (h : HInv s) (k : Nat) (f : Frame) : HInv (trySend k f s) := by
  unfold Tunnel.trySend
  split
  · exact h.grow [.lost k f] rfl rfl rfl rfl
  · split
    · exact h.grow [.put k f] rfl rfl rfl rfl
    · exact h.grow [.overflow k f] rfl rfl rfl rfl

theorem HInv.closeFold (m : List (Nat × Nat)) : ∀ s, HInv s →
    HInv (m.foldl (fun s x => Tunnel.trySend x.2 (.close x.1 []) s) s) := by
  induction m with
  | nil => intro s h; exact h
  | cons x m ih => intro s h; exact ih _ (h.trySend _ _)

theorem HInv.sendAwait {s} (h : HInv s) (k : Nat) (f : Frame) : HInv (sendAwait k f s).1 := by
  unfold Tunnel.sendAwait
  split
  · exact h.grow [.lost k f] rfl rfl rfl rfl
  · split
    · exact h.grow [.put k f] rfl rfl rfl rfl
    · exact h.grow [] (by simp) rfl rfl rfl

theorem register_map (id : Nat) (s : St) :
    (register id s).map = (id, s.next) :: s.map.filter (fun p => p.1 ≠ id) := by
  unfold register; cases lookup id s.map <;> rfl

theorem HInv.register {s} (h : HInv s) (id : Nat) (hr : s.phase = .running) : HInv (register id s) := by
  refine ⟨fun k hk => ?_, ?_, .inl ?_, ?_⟩
  · rw [register_map, register_trace]
    simp only [register_next] at hk
    by_cases e : k = s.next
    · subst e; exact .inl ⟨id, by simp⟩
    · rcases h.cover k (by omega) with ⟨i, hc⟩ | hc
      · by_cases ei : i = id
        · subst ei
          rw [lookup_of_mem h.keys hc]; right; simp
        · exact .inl ⟨i, List.mem_cons_of_mem _ (List.mem_filter.2 ⟨hc, by simpa using ei⟩)⟩
      · right; simp [hc]
  · rw [register_map, List.map_cons, List.nodup_cons]
    exact ⟨by simp, h.keys.sublist (List.Sublist.map _ List.filter_sublist)⟩
  · simp [hr]
  · have h1 : ∀ i k, .reg i k ∈ s.trace ++ (match lookup id s.map with | some old => [.hangup old] | none => []) →
        idOf (s.trace ++ (match lookup id s.map with | some old => [.hangup old] | none => [])) k = some i ∧
          k < s.next :=
      regs_grow _ h.regs rfl (by cases lookup id s.map <;> simp)
    rw [register_trace, register_next]
    intro i k hk
    rw [idOf_snoc]
    dsimp only
    rw [List.mem_append] at hk
    rcases hk with hk | hk
    · have := h1 i k hk
      have e : s.next ≠ k := by omega
      simp only [e, if_false]
      exact ⟨this.1, by omega⟩
    · simp at hk
      obtain ⟨rfl, rfl⟩ := hk
      simp

theorem HInv.kept : Kept HInv where
  buf s b h := h.grow [] (by simp) rfl rfl rfl
  read s bs h _ := h.grow [.arrived bs] rfl rfl rfl rfl
  fin s ph h _ _ := h.finish ph
  lost s h _ := by
    refine HInv.finish ?_ _
    have h1 : HInv (emit .connLost s) := h.grow [.connLost] rfl rfl rfl rfl
    exact HInv.closeFold _ _ h1
  submit s f h _ _ := h.grow [.submitted f] rfl rfl rfl rfl
  take s k f q h _ _ := h.grow [.took k f] rfl rfl rfl rfl
  drop s k h _ := h.grow [.rxGone k] rfl rfl rfl rfl
  retry s k f h _ := HInv.sendAwait (s := { s with pending := none }) (h.grow [] (by simp) rfl rfl rfl) k f
  work s id d h hi := (h.register id hi.1).grow [.queued false (.create id d)] rfl rfl rfl rfl
  recv s f q h _ hq := h.grow [.queued true f] rfl rfl rfl rfl
  wrote s n h _ _ _ := h.grow [.wrote (s.writeBuf.take n)] rfl rfl rfl rfl
  drained s n h _ _ _ := by
    have h1 : HInv (emit (.wrote (s.writeBuf.take n)) { s with writeBuf := s.writeBuf.drop n }) :=
      h.grow [.wrote (s.writeBuf.take n)] rfl rfl rfl rfl
    exact h1.finish _

/-! ### the login guard -/

def ServedOk (cfg : Cfg) (t : List Obs) : Prop :=
  ∀ t1 o t2, t = t1 ++ o :: t2 → Served o → .connLost ∉ t1 → LoggedIn cfg t1

theorem snoc_split {t t1 t2 : List Obs} {o x : Obs} (h : t ++ [o] = t1 ++ x :: t2) :
    (t2 = [] ∧ t1 = t ∧ x = o) ∨ ∃ t2', t2 = t2' ++ [o] ∧ t = t1 ++ x :: t2' := by
  rcases List.eq_nil_or_concat t2 with rfl | ⟨l, a, rfl⟩
  · left
    have := List.append_inj' (s₁ := t) (t₁ := [o]) (s₂ := t1) (t₂ := [x]) h rfl
    simp at this
    exact ⟨rfl, this.1.symm, this.2.symm⟩
  · right
    have h' : t ++ [o] = (t1 ++ x :: l) ++ [a] := by simpa using h
    have := List.append_inj' (s₁ := t) (t₁ := [o]) (s₂ := t1 ++ x :: l) (t₂ := [a]) h' rfl
    simp at this
    exact ⟨l, by simp [this.2], this.1⟩

theorem ServedOk.snoc {cfg t o} (h : ServedOk cfg t) (ho : Served o → .connLost ∉ t → LoggedIn cfg t) :
    ServedOk cfg (t ++ [o]) := by
  intro t1 x t2 e hs hc
  rcases snoc_split e with ⟨rfl, rfl, rfl⟩ | ⟨t2', rfl, rfl⟩
  · exact ho hs hc
  · exact h t1 x t2' rfl hs hc

theorem gots_append (a b : List Obs) : gots (a ++ b) = gots a ++ gots b := by simp [gots]

theorem LoggedIn.mono {cfg t} (h : LoggedIn cfg t) (u : List Obs) : LoggedIn cfg (t ++ u) := by
  rcases h with h | ⟨f, hf, hl⟩
  · exact .inl h
  · exact .inr ⟨f, by simp [gots_append, hf], hl⟩

/-- the message `f` was refused: it is the only message looked at, and the refusal was queued right after it -/
def Refused (f : Frame) (t : List Obs) : Prop :=
  ∃ t1 t2, t = t1 ++ .got f :: .queued false (.close 0 notVerify) :: t2 ∧ gots t1 = [] ∧ gots t2 = []

structure Guard (cfg : Cfg) (s : St) : Prop where
  verify : s.verify = decide (LoggedIn cfg s.trace)
  served : ServedOk cfg s.trace
  noOver : ∀ k f, .overflow k f ∈ s.trace → .connLost ∈ s.trace
  pend : s.pending ≠ none → LoggedIn cfg s.trace
  open_ : ¬ Protected cfg → s.readyShutdown = false
  first : Protected cfg → (gots s.trace = [] ∧ s.readyShutdown = false) ∨
    (∃ f fs, gots s.trace = f :: fs ∧ IsLogin cfg f ∧ s.readyShutdown = false) ∨
    (∃ f, ¬ IsLogin cfg f ∧ Refused f s.trace ∧ s.readyShutdown = true ∧ (s.phase = .running → s.writeBuf ≠ []))

theorem Guard.grow {cfg s s'} (h : Guard cfg s) (o : Obs) (ho : ∀ f, o ≠ .got f)
    (hs : Served o → .connLost ∉ s.trace → LoggedIn cfg s.trace) (ht : s'.trace = s.trace ++ [o])
    (hv : s'.verify = s.verify) (hr : s'.readyShutdown = s.readyShutdown)
    (hp : s'.pending = s.pending ∨ s'.pending = none) (hph : s'.phase = s.phase)
    (hw : s'.phase = .running → s.readyShutdown = true → s.writeBuf ≠ [] → s'.writeBuf ≠ [])
    (hov : ∀ k f, o = .overflow k f → .connLost ∈ s.trace := by simp) : Guard cfg s' := by
  have hg : gots s'.trace = gots s.trace := by
    rw [ht, gots_snoc]; cases o <;> simp_all
  have hl : LoggedIn cfg s'.trace ↔ LoggedIn cfg s.trace := by unfold LoggedIn; rw [hg]
  refine ⟨?_, ?_, ?_, ?_, ?_, ?_⟩
  · rw [hv, h.verify]; exact decide_eq_decide.2 hl.symm
  · rw [ht]; exact h.served.snoc hs
  · intro k f hk
    rw [ht, List.mem_append] at hk ⊢
    rcases hk with hk | hk
    · exact .inl (h.noOver k f hk)
    · exact .inl (hov k f (List.mem_singleton.1 hk).symm)
  · intro hp'
    rw [hl]
    rcases hp with hp | hp
    · exact h.pend (hp ▸ hp')
    · exact absurd hp hp'
  · intro hu; rw [hr]; exact h.open_ hu
  · intro hu
    rw [hg, hr, hph]
    rcases h.first hu with h1 | h1 | ⟨f, h1, ⟨t1, t2, e, g1, g2⟩, h3, h4⟩
    · exact .inl h1
    · exact .inr (.inl h1)
    · refine .inr (.inr ⟨f, h1, ⟨t1, t2 ++ [o], ?_, g1, ?_⟩, h3, fun hr => hw (hph ▸ hr) h3 (h4 hr)⟩)
      · rw [ht, e]; simp
      · rw [gots_snoc, g2]; cases o <;> simp_all

theorem Guard.congr {cfg s s'} (h : Guard cfg s) (ht : s'.trace = s.trace)
    (hv : s'.verify = s.verify) (hr : s'.readyShutdown = s.readyShutdown)
    (hp : s'.pending = s.pending ∨ s'.pending = none) (hph : s'.phase = .running → s.phase = .running)
    (hw : s'.writeBuf = s.writeBuf) : Guard cfg s' := by
  refine ⟨?_, ?_, ?_, ?_, ?_, ?_⟩
  · rw [hv, ht]; exact h.verify
  · rw [ht]; exact h.served
  · rw [ht]; exact h.noOver
  · intro hp'
    rw [ht]
    rcases hp with hp | hp
    · exact h.pend (hp ▸ hp')
    · exact absurd hp hp'
  · intro hu; rw [hr]; exact h.open_ hu
  · intro hu
    rw [ht, hr, hw]
    rcases h.first hu with h1 | h1 | ⟨f, h1, h2, h3, h4⟩
    · exact .inl h1
    · exact .inr (.inl h1)
    · exact .inr (.inr ⟨f, h1, h2, h3, fun x => h4 (hph x)⟩)

theorem Guard.hangupFold {cfg} (m : List (Nat × Nat)) : ∀ s, Guard cfg s →
    Guard cfg (m.foldl (fun s x => hangup x.2 s) s) := by
  induction m with
  | nil => intro s h; exact h
  | cons x m ih =>
    intro s h
    exact ih _ (h.grow (.hangup x.2) (by simp) (fun x => x.elim) rfl rfl rfl (.inl rfl) rfl (fun _ _ x => x))

theorem Guard.stop {cfg s} (h : Guard cfg s) (os : List Obs) : ∀ {s' : St},
    (∀ o ∈ os, (∀ f, o ≠ .got f) ∧ ¬ Served o) →
    s'.trace = s.trace ++ os → s'.verify = s.verify → s'.readyShutdown = s.readyShutdown → s'.pending = s.pending →
    s'.phase ≠ .running → Guard cfg s' := by
  induction os using List.reverseRecOn with
  | nil =>
    intro s' _ ht hv hr hp hph
    have h0 : Guard cfg { s with phase := .ended } := h.congr rfl rfl rfl (.inl rfl) (by simp) rfl
    refine ⟨?_, ?_, ?_, ?_, ?_, ?_⟩
    · rw [hv, ht, List.append_nil]; exact h.verify
    · rw [ht, List.append_nil]; exact h.served
    · rw [ht, List.append_nil]; exact h.noOver
    · rw [hp, ht, List.append_nil]; exact h.pend
    · rw [hr]; exact h.open_
    · intro hu
      rw [ht, hr, List.append_nil]
      rcases h.first hu with h1 | h1 | ⟨f, h1, h2, h3, h4⟩
      · exact .inl h1
      · exact .inr (.inl h1)
      · exact .inr (.inr ⟨f, h1, h2, h3, fun x => absurd x hph⟩)
  | append_singleton os o ih =>
    intro s' ho ht hv hr hp hph
    have h1 := ih (s' := { s' with trace := s.trace ++ os }) (fun x hx => ho x (by simp [hx])) rfl hv hr hp hph
    have := ho o (by simp)
    exact h1.grow o this.1 (fun x => absurd x this.2) (by simp [ht]) rfl rfl (.inl rfl) rfl (fun x => absurd x hph)
      (fun k f e => absurd (e ▸ trivial) this.2)

theorem hangupFold_same (m : List (Nat × Nat)) : ∀ s : St,
    (m.foldl (fun s x => hangup x.2 s) s).verify = s.verify ∧
    (m.foldl (fun s x => hangup x.2 s) s).readyShutdown = s.readyShutdown := by
  induction m with
  | nil => intro s; exact ⟨rfl, rfl⟩
  | cons x m ih => intro s; exact ih _

theorem Guard.finish {cfg s} (h : Guard cfg s) (p : Phase) (hp : p ≠ .running) : Guard cfg (finish p s) :=
  (Guard.hangupFold s.map s h).congr rfl rfl rfl (.inl rfl) (fun x => absurd x hp) rfl

theorem Guard.trySend {cfg s} (h : Guard cfg s) (k : Nat) (f : Frame)
    (hc : .connLost ∈ s.trace) : Guard cfg (trySend k f s) := by
  have hs : .connLost ∉ s.trace → LoggedIn cfg s.trace := fun hn => absurd hc hn
  unfold Tunnel.trySend
  split
  · exact h.grow (.lost k f) (by simp) (fun _ => hs) rfl rfl rfl (.inl rfl) rfl (fun _ _ x => x)
  · split
    · exact h.grow (.put k f) (by simp) (fun _ => hs) rfl rfl rfl (.inl rfl) rfl (fun _ _ x => x)
    · exact h.grow (.overflow k f) (by simp) (fun _ => hs) rfl rfl rfl (.inl rfl) rfl (fun _ _ x => x)
        (fun _ _ _ => hc)

theorem trySend_keeps (k : Nat) (f : Frame) (s : St) (o : Obs) (h : o ∈ s.trace) : o ∈ (trySend k f s).trace := by
  unfold trySend
  split
  · simp [emit, h]
  · split <;> simp [putChan, emit, setChan, h]

theorem Guard.closeFold {cfg} (m : List (Nat × Nat)) : ∀ s, Guard cfg s → .connLost ∈ s.trace →
    Guard cfg (m.foldl (fun s x => Tunnel.trySend x.2 (.close x.1 []) s) s) := by
  induction m with
  | nil => intro s h _; exact h
  | cons x m ih =>
    intro s h hc
    exact ih _ (h.trySend _ _ hc) (trySend_keeps _ _ _ _ hc)

theorem Guard.sendAwait {cfg s} (h : Guard cfg s) (k : Nat) (f : Frame) (hs : LoggedIn cfg s.trace) :
    Guard cfg (sendAwait k f s).1 := by
  unfold Tunnel.sendAwait
  split
  · exact h.grow (.lost k f) (by simp) (fun _ _ => hs) rfl rfl rfl (.inl rfl) rfl (fun _ _ x => x)
  · split
    · exact h.grow (.put k f) (by simp) (fun _ _ => hs) rfl rfl rfl (.inl rfl) rfl (fun _ _ x => x)
    · exact ⟨h.verify, h.served, h.noOver, fun _ => hs, h.open_, h.first⟩

theorem Guard.register {cfg s} (h : Guard cfg s) (id : Nat) : Guard cfg (register id s) := by
  unfold Tunnel.register
  cases lookup id s.map with
  | none => exact h.grow (.reg id s.next) (by simp) (fun x => x.elim) rfl rfl rfl (.inl rfl) rfl (fun _ _ x => x)
  | some old =>
    have h1 : Guard cfg (Tunnel.hangup old s) :=
      h.grow (.hangup old) (by simp) (fun x => x.elim) rfl rfl rfl (.inl rfl) rfl (fun _ _ x => x)
    exact h1.grow (.reg id s.next) (by simp) (fun x => x.elim) rfl rfl rfl (.inl rfl) rfl (fun _ _ x => x)

theorem Guard.enqueue {cfg s} (h : Guard cfg s) (f : Frame) (b : Bool) : Guard cfg (Tunnel.enqueue f s b) :=
  h.grow (.queued b f) (by simp) (fun x => x.elim) rfl rfl rfl (.inl rfl) rfl
    (fun _ _ x => by simp [Tunnel.enqueue, emit, encode_append, x])

theorem Guard.kept {cfg} : Kept (Guard cfg) where
  buf s b h := h.congr rfl rfl rfl (.inl rfl) id rfl
  read s bs h _ := h.grow (.arrived bs) (by simp) (fun x => x.elim) rfl rfl rfl (.inl rfl) rfl (fun _ _ x => x)
  fin s ph h _ hp := h.finish ph hp
  lost s h _ := by
    refine Guard.finish ?_ _ (by simp)
    have h1 : Guard cfg (emit .connLost s) :=
      h.grow .connLost (by simp) (fun x => x.elim) rfl rfl rfl (.inl rfl) rfl (fun _ _ x => x)
    exact Guard.closeFold _ _ h1 (by simp [emit])
  submit s f h _ _ := h.grow (.submitted f) (by simp) (fun x => x.elim) rfl rfl rfl (.inl rfl) rfl (fun _ _ x => x)
  take s k f q h _ _ := h.grow (.took k f) (by simp) (fun x => x.elim) rfl rfl rfl (.inl rfl) rfl (fun _ _ x => x)
  drop s k h _ := h.grow (.rxGone k) (by simp) (fun x => x.elim) rfl rfl rfl (.inl rfl) rfl (fun _ _ x => x)
  retry s k f h hp := Guard.sendAwait (s := { s with pending := none })
    (h.congr rfl rfl rfl (.inr rfl) id rfl) k f (h.pend (by simp [hp]))
  work s id d h hi := (h.register id).enqueue _ _
  recv s f q h _ hq := Guard.enqueue (s := { s with outq := q }) (h.congr rfl rfl rfl (.inl rfl) id rfl) f true
  wrote s n h _ _ hd := h.grow (.wrote (s.writeBuf.take n)) (by simp) (fun x => x.elim) rfl rfl rfl (.inl rfl) rfl
    (fun _ hr _ => by
      rcases hd with hd | hd
      · exact hd
      · rw [hd] at hr; cases hr)
  drained s n h hi _ _ := by
    refine h.stop (.wrote (s.writeBuf.take n) :: s.map.map (fun x => .hangup x.2)) ?_ ?_ ?_ ?_ ?_ (by simp)
    · intro o ho
      simp only [List.mem_cons, List.mem_map] at ho
      rcases ho with rfl | ⟨x, _, rfl⟩ <;> exact ⟨by simp, fun x => x.elim⟩
    · rw [finish_trace]; simp [emit]
    · exact (hangupFold_same _ _).1
    · exact (hangupFold_same _ _).2
    · rw [finish_pending]; rfl

theorem isCheckSucc_iff (cfg : Cfg) (u p : Text) :
    isCheckSucc u p cfg.username cfg.password = true ↔ IsLogin cfg (.token u p) := by
  unfold isCheckSucc IsLogin
  cases cfg.username <;> cases cfg.password <;> simp <;> grind

end Wm.Tunnel
