import Verif.Proofs.TunnelRun
/-! What one step of a tunnel end adds to its trace: the happening itself (`heads`), then what the decode loop does
(`InnerL`). -/
namespace Wm.Tunnel
open Wm Wm.Prot

def regCount (i : Nat) (t : List Obs) : Nat := t.countP fun | .reg j _ => j == i | _ => false
def openCount (i : Nat) (t : List Obs) : Nat := t.countP fun | .opened j _ _ => j == i | _ => false

@[simp] theorem datas_nil (i) : datas i [] = [] := rfl
@[simp] theorem datas_append (i a b) : datas i (a ++ b) = datas i a ++ datas i b := by simp [datas]
@[simp] theorem creates_nil (i) : creates i [] = 0 := rfl
@[simp] theorem creates_append (i a b) : creates i (a ++ b) = creates i a + creates i b := by simp [creates]
@[simp] theorem regCount_nil (i) : regCount i [] = 0 := rfl
@[simp] theorem regCount_append (i a b) : regCount i (a ++ b) = regCount i a + regCount i b := by simp [regCount]
@[simp] theorem openCount_nil (i) : openCount i [] = 0 := rfl
@[simp] theorem openCount_append (i a b) : openCount i (a ++ b) = openCount i a + openCount i b := by
  simp [openCount]

theorem gots_append' (a b) : gots (a ++ b) = gots a ++ gots b := by simp [gots]
theorem received_append (h a b) : received h (a ++ b) = received h a ++ received h b := by simp [received]
theorem submissions_append (a b) : submissions (a ++ b) = submissions a ++ submissions b := by simp [submissions]
theorem accepted_append (a b) : accepted (a ++ b) = accepted a ++ accepted b := by simp [accepted]
theorem relayed_append (a b) : relayed (a ++ b) = relayed a ++ relayed b := by simp [relayed]
theorem written_append (a b) : written (a ++ b) = written a ++ written b := by simp [written]
theorem arrived_append' (a b) : arrived (a ++ b) = arrived a ++ arrived b := by simp [arrived]

/-- happenings the decode loop can cause -/
def Inner : Obs → Prop
  | .arrived _ | .took .. | .wrote _ | .connLost => False
  | .queued b f => b = false ∧ f = .close 0 notVerify
  | .submitted f => ∃ i, f = .close i []
  | _ => True

/-- how often an end itself has submitted a close for `i` -/
def selfCloses (i : Nat) (t : List Obs) : Nat := t.countP fun | .submitted (.close j []) => j == i | _ => false

theorem selfCloses_append (i) (a b : List Obs) : selfCloses i (a ++ b) = selfCloses i a + selfCloses i b := List.countP_append

structure InnerL (u : List Obs) : Prop where
  plain : ∀ o ∈ u, Inner o
  regs : ∀ i, regCount i u ≤ creates i (gots u)
  /-- every stream opened or refused has been asked for -/
  answers : ∀ i, openCount i u + selfCloses i u ≤ creates i (gots u)
  openReg : ∀ i h how, .opened i h how ∈ u → .reg i h ∈ u
  subs : ∀ f, .submitted f ∈ u → ∃ i d, f = .close i [] ∧ .got (.create i d) ∈ u
  /-- a stream is registered right after its open request -/
  just : ∀ a b i h, u = a ++ .reg i h :: b → ∃ a' d pre, a = a' ++ .got (.create i d) :: pre ∧ gots pre = []

theorem InnerL.opens {u} (h : InnerL u) (i) : openCount i u ≤ creates i (gots u) := by
  have := h.answers i; omega

theorem InnerL.nil : InnerL [] := ⟨by simp, by simp, by simp [selfCloses], by simp, by simp, by simp⟩

theorem InnerL.append {a b} (ha : InnerL a) (hb : InnerL b) : InnerL (a ++ b) := by
  refine ⟨?_, fun i => ?_, fun i => ?_, ?_, ?_, ?_⟩
  · intro o ho
    rcases List.mem_append.1 ho with h | h
    · exact ha.plain o h
    · exact hb.plain o h
  · have := ha.regs i; have := hb.regs i
    simp only [regCount_append, gots_append', creates_append]; omega
  · have := ha.answers i; have := hb.answers i
    simp only [openCount_append, selfCloses_append, gots_append', creates_append]; omega
  · intro i h how ho
    rcases List.mem_append.1 ho with h | h
    · exact List.mem_append.2 (.inl (ha.openReg _ _ _ h))
    · exact List.mem_append.2 (.inr (hb.openReg _ _ _ h))
  · intro f hf
    rcases List.mem_append.1 hf with h | h
    · obtain ⟨i, d, e, hg⟩ := ha.subs f h; exact ⟨i, d, e, List.mem_append.2 (.inl hg)⟩
    · obtain ⟨i, d, e, hg⟩ := hb.subs f h; exact ⟨i, d, e, List.mem_append.2 (.inr hg)⟩
  · intro x y i h e
    rcases List.append_eq_append_iff.1 e with ⟨z, e1, e2⟩ | ⟨z, e1, e2⟩
    · obtain ⟨a', d, pre, e3, e4⟩ := hb.just z y i h e2
      exact ⟨a ++ a', d, pre, by rw [e1, e3]; simp, e4⟩
    · cases z with
      | nil =>
        obtain ⟨a', d, pre, e3, e4⟩ := hb.just [] y i h (by simpa using e2.symm)
        simp at e3
      | cons o z =>
        simp only [List.cons_append, List.cons.injEq] at e2
        obtain ⟨rfl, _⟩ := e2
        exact ha.just x z i h e1

/-- happenings of the decode loop that concern no new stream -/
def Noise : Obs → Prop
  | .hangup _ | .put .. | .lost .. | .overflow .. | .rxGone _ | .setMap _ | .got _ => True
  | .queued b f => b = false ∧ f = .close 0 notVerify
  | _ => False

theorem InnerL.noise {u} (h : ∀ o ∈ u, Noise o) : InnerL u := by
  refine ⟨fun o ho => ?_, fun i => ?_, fun i => ?_, fun i k how ho => ?_, fun f hf => ?_, fun a b i k e => ?_⟩
  · have := h o ho; cases o <;> simp_all [Noise, Inner]
  · have : regCount i u = 0 := by
      refine List.countP_eq_zero.2 fun o ho => ?_
      have := h o ho; cases o <;> simp_all [Noise]
    omega
  · have : openCount i u = 0 := by
      refine List.countP_eq_zero.2 fun o ho => ?_
      have := h o ho; cases o <;> simp_all [Noise]
    have : selfCloses i u = 0 := by
      refine List.countP_eq_zero.2 fun o ho => ?_
      have := h o ho; cases o <;> simp_all [Noise]
    omega
  · exact (h _ ho).elim
  · exact (h _ hf).elim
  · exact (h (.reg i k) (by rw [e]; simp)).elim

/-- the decode loop leads from `s` to `s'` -/
def Grow (s s' : St) : Prop :=
  ∃ u, s'.trace = s.trace ++ u ∧ InnerL u ∧ s.next ≤ s'.next ∧ ∀ i h, .reg i h ∈ u → s.next ≤ h

theorem Grow.refl (s : St) : Grow s s := ⟨[], by simp, InnerL.nil, Nat.le_refl _, by simp⟩

theorem Grow.trans {a b c} (h1 : Grow a b) (h2 : Grow b c) : Grow a c := by
  obtain ⟨u, e1, i1, n1, r1⟩ := h1
  obtain ⟨v, e2, i2, n2, r2⟩ := h2
  refine ⟨u ++ v, by rw [e2, e1]; simp, i1.append i2, by omega, fun i h hm => ?_⟩
  rcases List.mem_append.1 hm with hm | hm
  · exact r1 i h hm
  · have := r2 i h hm; omega

theorem Grow.noise {s s' : St} (u : List Obs) (ht : s'.trace = s.trace ++ u) (hu : ∀ o ∈ u, Noise o)
    (hn : s'.next = s.next) : Grow s s' :=
  ⟨u, ht, InnerL.noise hu, by omega, fun _ _ hm => (hu _ hm).elim⟩

theorem Grow.congr {a s s' : St} (h : Grow a s) (ht : s'.trace = s.trace) (hn : s'.next = s.next) : Grow a s' :=
  h.trans ⟨[], by simp [ht], InnerL.nil, by omega, by simp⟩

theorem Grow.trySend (k f) (s : St) : Grow s (trySend k f s) := by
  unfold Tunnel.trySend
  split
  · exact Grow.noise [.lost k f] rfl (by simp [Noise]) rfl
  · split
    · exact Grow.noise [.put k f] rfl (by simp [Noise]) rfl
    · exact Grow.noise [.overflow k f] rfl (by simp [Noise]) rfl

theorem Grow.sendAwait (k f) (s : St) : Grow s (sendAwait k f s).1 := by
  unfold Tunnel.sendAwait
  split
  · exact Grow.noise [.lost k f] rfl (by simp [Noise]) rfl
  · split
    · exact Grow.noise [.put k f] rfl (by simp [Noise]) rfl
    · exact Grow.noise [] (by simp) (by simp) rfl

theorem Grow.finish (p) (s : St) : Grow s (finish p s) :=
  Grow.noise _ (finish_trace p s) (fun o ho => by
    obtain ⟨x, _, rfl⟩ := List.mem_map.1 ho; trivial) (finish_next p s)

theorem Grow.closeFold (m : List (Nat × Nat)) : ∀ s : St,
    Grow s (m.foldl (fun s x => Tunnel.trySend x.2 (.close x.1 []) s) s) := by
  induction m with
  | nil => intro s; exact Grow.refl _
  | cons x m ih => intro s; exact (Grow.trySend _ _ _).trans (ih _)

/-- an open request that leads to a new stream: `tail` is the outcome -/
theorem Grow.opening (s s' : St) (id : Nat) (d : Option Text) (o : Obs)
    (ht : s'.trace = (register id (emit (.got (.create id d)) s)).trace ++ [o])
    (hn : s'.next = s.next + 1)
    (ho : (∃ how, o = .opened id s.next how) ∨ o = .rxGone s.next) : Grow s s' := by
  rw [register_trace] at ht
  have ht' : s'.trace = s.trace ++ (.got (.create id d) ::
      ((match lookup id s.map with | some old => [.hangup old] | none => []) ++ [.reg id s.next, o])) := by
    rw [ht]; simp only [emit]; cases lookup id s.map <;> simp
  refine ⟨_, ht', ⟨?_, ?_, ?_, ?_, ?_, ?_⟩, by omega, ?_⟩
  · intro x hx
    rcases ho with ⟨how, rfl⟩ | rfl <;> cases hl : lookup id s.map <;> simp [hl] at hx <;>
      (rcases hx with rfl | rfl | rfl | rfl <;> simp [Inner])
  · intro i
    rcases ho with ⟨how, rfl⟩ | rfl <;> cases lookup id s.map <;>
      simp [regCount, creates, gots, List.countP_cons]
  · intro i
    rcases ho with ⟨how, rfl⟩ | rfl <;> cases lookup id s.map <;>
      simp [openCount, selfCloses, creates, gots, List.countP_cons]
  · intro i k how hk
    rcases ho with ⟨how', rfl⟩ | rfl <;> cases hl : lookup id s.map <;> simp_all
  · intro f hf
    rcases ho with ⟨how', rfl⟩ | rfl <;> cases hl : lookup id s.map <;> simp_all
  · intro a b i k e
    have hone : ∀ (c : List Obs) (x y : Obs), (∀ i h, x ≠ .reg i h) → (∀ i h, .reg i h ∉ c) →
        (.got (.create id d) :: (c ++ [.reg id s.next, x]) : List Obs) = a ++ .reg i k :: b →
        i = id ∧ a = .got (.create id d) :: c := by
      clear e
      intro c x _ hx hc e
      cases a with
      | nil => cases e
      | cons o' a =>
        simp only [List.cons_append, List.cons.injEq] at e
        obtain ⟨rfl, e'⟩ := e
        rcases List.append_eq_append_iff.1 e' with ⟨z, e1, e2⟩ | ⟨z, e1, e2⟩
        · cases z with
          | nil => simp at e2; exact ⟨e2.1.1.symm, by simp [e1]⟩
          | cons o z =>
            simp only [List.cons_append, List.cons.injEq] at e2
            obtain ⟨_, e2⟩ := e2
            cases z with
            | nil => simp at e2; exact absurd e2.1 (hx _ _)
            | cons o z => simp at e2
        · cases z with
          | nil => simp at e2; exact ⟨e2.1.1, by simp [e1]⟩
          | cons o z =>
            simp only [List.cons_append, List.cons.injEq] at e2
            exact absurd (by rw [e1, ← e2.1]; simp) (hc i k)
    have hx : ∀ i h, o ≠ .reg i h := by rintro i h rfl; rcases ho with ⟨_, h⟩ | h <;> cases h
    cases hl : lookup id s.map with
    | none =>
      rw [hl] at e
      obtain ⟨rfl, rfl⟩ := hone [] o o hx (by simp) e
      exact ⟨[], d, [], rfl, rfl⟩
    | some old =>
      rw [hl] at e
      obtain ⟨rfl, rfl⟩ := hone [.hangup old] o o hx (by simp) e
      exact ⟨[], d, [.hangup old], rfl, rfl⟩
  · intro i k hk
    rcases ho with ⟨how', rfl⟩ | rfl <;> cases hl : lookup id s.map <;> simp_all

theorem Grow.got (f) (s : St) : Grow s (emit (.got f) s) := Grow.noise [.got f] rfl (by simp [Noise]) rfl

theorem serverHandle_grow (cfg : Cfg) (s : St) (f : Frame) : Grow s (serverHandle cfg s f).1 := by
  unfold serverHandle
  dsimp only
  split
  · exact (Grow.got f s).congr rfl rfl
  · split
    · exact (Grow.got f s).trans (Grow.noise [.queued false (.close 0 notVerify)] rfl (by simp [Noise]) rfl)
    · cases f with
      | create id d =>
        exact Grow.opening s _ id d (.opened id s.next (.proxy none)) rfl (by simp [emit]) (.inl ⟨_, rfl⟩)
      | close id d =>
        dsimp only
        split
        · exact (Grow.got _ s).trans (Grow.sendAwait _ _ _)
        · exact Grow.got _ s
      | data id d =>
        dsimp only
        split
        · exact (Grow.got _ s).trans (Grow.sendAwait _ _ _)
        · exact Grow.got _ s
      | mapping id ms => exact (Grow.got _ s).trans (Grow.noise [.setMap ms] rfl (by simp [Noise]) rfl)
      | token u p => exact Grow.got _ s

theorem clientHandle_grow (cfg : Cfg) (s : St) (f : Frame) : Grow s (clientHandle cfg s f).1 := by
  unfold clientHandle
  dsimp only
  cases f with
  | create id d =>
    dsimp only
    split
    · unfold selfSend
      split
      · refine ⟨[.got (.create id d), .submitted (.close id [])], by simp [emit], ⟨?_, ?_, ?_, ?_, ?_, ?_⟩,
          Nat.le_refl _, by simp⟩
        · simp [Inner]
        · intro i; simp [regCount]
        · intro i; simp [openCount, selfCloses, creates, gots, List.countP_cons]
        · simp
        · intro f hf; simp at hf; exact ⟨id, d, hf, by simp⟩
        · intro a b i h e
          have : (.reg i h : Obs) ∈ [.got (.create id d), .submitted (.close id [])] := by rw [e]; simp
          simp at this
      · exact (Grow.got _ s).congr rfl rfl
    · rename_i m _
      split
      · exact Grow.opening s _ id d (.opened id s.next (.proxy (some m.headers))) rfl (by simp [emit])
          (.inl ⟨_, rfl⟩)
      · split
        · exact Grow.opening s _ id d (.rxGone s.next) rfl (by simp [emit, setChan]) (.inr rfl)
        · exact Grow.opening s _ id d (.opened id s.next (.connect _)) rfl (by simp [emit]) (.inl ⟨_, rfl⟩)
  | close id d =>
    dsimp only
    split
    · exact Grow.got _ s
    · split
      · exact (Grow.got _ s).trans (Grow.trySend _ _ _)
      · exact Grow.got _ s
  | data id d =>
    dsimp only
    split
    · exact (Grow.got _ s).trans (Grow.trySend _ _ _)
    · exact Grow.got _ s
  | mapping id ms => exact Grow.got _ s
  | token u p => exact (Grow.got _ s).trans (Grow.finish _ _)

variable {H : St → Frame → St × Bool}

theorem resume_grow (hH : ∀ s f, Grow s (H s f).1) (s : St) : Grow s (resume H s) := by
  unfold resume
  split
  · have hp := (pump_inv H (fun x => Grow s x) (fun x => Grow s x) (fun _ h => h)
      (fun x f h => ⟨h.trans (hH x f), fun _ => h.trans (hH x f)⟩) s.readBuf s (Grow.refl s)).1
    have hp' := hp.congr (s' := { (pump H s s.readBuf).1 with readBuf := (pump H s s.readBuf).2.1 }) rfl rfl
    dsimp only
    split
    · exact hp'.trans (Grow.finish _ _)
    · exact hp'.trans (Grow.finish _ _)
    · exact hp'
  · exact Grow.refl _

theorem resumePending_grow (hH : ∀ s f, Grow s (H s f).1) (s : St) : Grow s (resumePending H s) := by
  unfold resumePending
  split
  · exact Grow.refl _
  · rename_i h f hp
    dsimp only
    have h1 : Grow s (sendAwait h f { s with pending := none }).1 := by
      have := Grow.sendAwait h f { s with pending := none }
      exact this
    split
    · exact h1
    · exact h1.trans (resume_grow hH _)

/-- what an event itself puts on the trace -/
def heads (s : St) : Event → List Obs
  | .submit f => if s.phase = .running ∧ s.outq.length < outCap then [.submitted f] else []
  | .take h =>
    match (s.chan h).q with
    | [] => []
    | f :: _ => if (s.chan h).rx then [.took h f] else []
  | .dropRx h => if (s.chan h).rx then [.rxGone h] else []
  | .work id d =>
    if s.phase = .running ∧ s.pending = none then
      (match lookup id s.map with | some old => [.hangup old] | none => []) ++
        [.reg id s.next, .queued false (.create id d)]
    else []
  | .recv =>
    if s.phase = .running ∧ s.pending = none then
      match s.outq with
      | [] => []
      | f :: _ => [.queued true f]
    else []
  | .read bs => if s.phase = .running ∧ s.pending = none then [.arrived bs] else []
  | .readEnd => if s.phase = .running ∧ s.pending = none then [.connLost] else []
  | .wrote n =>
    if s.phase = .running ∧ s.pending = none then
      if s.writeBuf = [] then [] else [.wrote (s.writeBuf.take n)]
    else []
  | .writeErr => []

/-- One step of a tunnel end: the happening itself, then what the decode loop does. -/
theorem step_heads (hH : ∀ s f, Grow s (H s f).1) (we : St → St) (hwe : ∀ s, Grow s (we s)) (s : St) (e : Event) :
    ∃ u, (step H we s e).trace = s.trace ++ heads s e ++ u ∧ InnerL u ∧ s.next ≤ (step H we s e).next ∧
      (∀ i h, .reg i h ∈ u → s.next ≤ h) := by
  have same : ∀ s' : St, s' = s → ∃ u, s'.trace = s.trace ++ [] ++ u ∧ InnerL u ∧ s.next ≤ s'.next ∧
      (∀ i h, .reg i h ∈ u → s.next ≤ h) := by
    rintro s' rfl; exact ⟨[], by simp, InnerL.nil, Nat.le_refl _, by simp⟩
  have after : ∀ (hd : List Obs) (m s' : St), Grow m s' → m.trace = s.trace ++ hd → s.next ≤ m.next →
      ∃ u, s'.trace = s.trace ++ hd ++ u ∧ InnerL u ∧ s.next ≤ s'.next ∧ (∀ i h, .reg i h ∈ u → s.next ≤ h) := by
    rintro hd m s' ⟨u, e1, e2, e3, e4⟩ h1 h2
    exact ⟨u, by rw [e1, h1], e2, by omega, fun i h hm => by have := e4 i h hm; omega⟩
  cases e <;> simp only [step, heads]
  case submit f =>
    split
    · exact after [.submitted f] _ _ (Grow.refl _) rfl (Nat.le_refl _)
    · exact same _ rfl
  case take h =>
    cases hq : (s.chan h).q with
    | nil => exact same _ rfl
    | cons f q =>
      dsimp only
      split
      · exact after [.took h f] _ _ (resumePending_grow hH _) rfl (Nat.le_refl _)
      · exact same _ rfl
  case dropRx h =>
    split
    · exact after [.rxGone h] _ _ (resumePending_grow hH _) rfl (Nat.le_refl _)
    · exact same _ rfl
  case work id d =>
    by_cases hc : s.phase = .running ∧ s.pending = none
    · rw [if_pos hc, if_pos hc]
      refine after _ _ _ (resume_grow hH _) ?_ ?_
      · simp only [enqueue, emit, register_trace]; cases lookup id s.map <;> simp
      · simp [enqueue, emit]
    · rw [if_neg hc, if_neg hc]; exact same _ rfl
  case recv =>
    by_cases hc : s.phase = .running ∧ s.pending = none
    · rw [if_pos hc, if_pos hc]
      cases ho : s.outq with
      | nil => exact same _ rfl
      | cons f q => exact after _ _ _ (resume_grow hH _) rfl (Nat.le_refl _)
    · rw [if_neg hc, if_neg hc]; exact same _ rfl
  case read bs =>
    by_cases hc : s.phase = .running ∧ s.pending = none
    · rw [if_pos hc, if_pos hc]; exact after _ _ _ (resume_grow hH _) rfl (Nat.le_refl _)
    · rw [if_neg hc, if_neg hc]; exact same _ rfl
  case readEnd =>
    by_cases hc : s.phase = .running ∧ s.pending = none
    · rw [if_pos hc, if_pos hc]
      exact after _ _ _ ((Grow.closeFold _ (emit .connLost s)).trans (Grow.finish _ _)) rfl (Nat.le_refl _)
    · rw [if_neg hc, if_neg hc]; exact same _ rfl
  case wrote n =>
    by_cases hc : s.phase = .running ∧ s.pending = none
    · rw [if_pos hc, if_pos hc]
      split
      · exact same _ rfl
      · split
        · exact after _ _ _ (Grow.finish _ _) rfl (Nat.le_refl _)
        · exact after _ _ _ (resume_grow hH _) rfl (Nat.le_refl _)
    · rw [if_neg hc, if_neg hc]; exact same _ rfl
  case writeErr =>
    by_cases hc : s.phase = .running ∧ s.pending = none
    · rw [if_pos hc]
      split
      · exact same _ rfl
      · exact after [] s _ (hwe s) (by simp) (Nat.le_refl _)
    · rw [if_neg hc]; exact same _ rfl

theorem serverStep_heads (cfg : Cfg) (s : St) (e : Event) :
    ∃ u, (serverStep cfg s e).trace = s.trace ++ heads s e ++ u ∧ InnerL u ∧ s.next ≤ (serverStep cfg s e).next ∧
      (∀ i h, .reg i h ∈ u → s.next ≤ h) :=
  step_heads (serverHandle_grow cfg) _ (fun s => Grow.finish _ s) s e

theorem clientStep_heads (cfg : Cfg) (s : St) (e : Event) :
    ∃ u, (clientStep cfg s e).trace = s.trace ++ heads s e ++ u ∧ InnerL u ∧ s.next ≤ (clientStep cfg s e).next ∧
      (∀ i h, .reg i h ∈ u → s.next ≤ h) :=
  step_heads (clientHandle_grow cfg) _ (fun s => resume_grow (clientHandle_grow cfg) s) s e

theorem work_nextId (cfg : Cfg) (s : St) (id d) (hc : s.phase = .running ∧ s.pending = none) :
    s.next < (serverStep cfg s (.work id d)).next := by
  obtain ⟨_, _, _, h, _⟩ := resume_grow (serverHandle_grow cfg) (enqueue (.create id d) (register id s))
  simp only [serverStep, step]
  rw [if_pos hc]
  have h2 : (enqueue (.create id d) (register id s)).next = s.next + 1 := by simp [enqueue, emit]
  rw [h2] at h
  exact h

theorem heads_received {s : St} {e : Event} {k : Nat} (h : e ≠ .take k) : received k (heads s e) = [] := by
  cases e <;> simp only [heads]
  case submit f => split <;> rfl
  case take j =>
    have hj : j ≠ k := fun x => h (by rw [x])
    split
    · rfl
    · split <;> simp [received, hj]
  case dropRx h => split <;> rfl
  case work id d =>
    split
    · cases lookup id s.map <;> rfl
    · rfl
  case recv =>
    split
    · split <;> rfl
    · rfl
  case readEnd => split <;> rfl
  case read => split <;> rfl
  case wrote n =>
    split
    · split <;> rfl
    · rfl
  case writeErr => rfl

/-! ### what the inner part does not contain -/

theorem InnerL.received {u} (h : InnerL u) (k) : received k u = [] := by
  refine List.filterMap_eq_nil_iff.2 fun o ho => ?_
  have := h.plain o ho; cases o <;> simp_all [Inner]

theorem InnerL.written {u} (h : InnerL u) : written u = [] := by
  refine List.flatMap_eq_nil_iff.2 fun o ho => ?_
  have := h.plain o ho; cases o <;> simp_all [Inner]

theorem InnerL.arrived {u} (h : InnerL u) : arrived u = [] := by
  refine List.flatMap_eq_nil_iff.2 fun o ho => ?_
  have := h.plain o ho; cases o <;> simp_all [Inner]

theorem InnerL.accepted {u} (h : InnerL u) : ∀ f ∈ accepted u, f = .close 0 notVerify := by
  intro f hf
  simp only [Tunnel.accepted, List.mem_filterMap] at hf
  obtain ⟨o, ho, e⟩ := hf
  have := h.plain o ho
  cases o <;> simp_all [Inner]

theorem InnerL.submissions {u} (h : InnerL u) : ∀ f ∈ submissions u, ∃ i, f = .close i [] := by
  intro f hf
  simp only [Tunnel.submissions, List.mem_filterMap] at hf
  obtain ⟨o, ho, e⟩ := hf
  have := h.plain o ho
  cases o <;> simp_all [Inner]

theorem datas_closes {i fs} (h : ∀ f ∈ fs, ∃ j r, f = Frame.close j r) : datas i fs = [] := by
  refine List.filterMap_eq_nil_iff.2 fun f hf => ?_
  obtain ⟨j, r, rfl⟩ := h f hf; rfl

theorem creates_closes {i fs} (h : ∀ f ∈ fs, ∃ j r, f = Frame.close j r) : creates i fs = 0 := by
  refine List.countP_eq_zero.2 fun f hf => ?_
  obtain ⟨j, r, rfl⟩ := h f hf; simp

end Wm.Tunnel
