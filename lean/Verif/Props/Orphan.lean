import Verif.Model.Orphan
import Verif.Proofs.Select
import Verif.Proofs.TunnelRun
/-! What becomes of a tunnel whose service is replaced (C144). -/
namespace Wm.Select
open Wm Wm.Prot Wm.Tunnel

/-! ## C144: the tunnels of a replaced service

"When a service is replaced by a reload, its tunnels go on working, or are closed so that the peer connects again." -/

/-- things that the tasks of an end's own streams do, without the loop of the tunnel -/
def OwnDoing : Obs → Prop
  | .submitted _ => True
  | .took _ _ => True
  | .rxGone _ => True
  | _ => False

/-- the polls among the moves -/
def pollCount (ms : List Move) : Nat := ms.countP fun | .ev (.poll _) => true | _ => false

/-- the events at the loop among the moves -/
def eventsOf (ms : List Move) : List Ev := ms.filterMap fun | .ev e => some e | _ => none

/-- the number of visitors being served -/
def serving (ms : List Move) : Nat :=
  ms.foldl (fun n m => match m with | .visit => n + 1 | .leave => n - 1 | _ => n) 0

/-- no visitor is accepted by a service that has ended -/
def InTime (ms : List Move) : Prop := ∀ a b, ms = a ++ .visit :: b → .replaced ∉ a

/-- at every moment the service has not been replaced or some visitor is being served -/
def Attended (ms : List Move) : Prop := ∀ a b, ms = a ++ b → .replaced ∈ a → 0 < serving a

/-- the loop of a tunnel end is going, and not waiting for a stream's task to take a message -/
def Loops (s : Tunnel.St) : Prop := s.phase = .running ∧ s.pending = none

/-- `step` with the event of another task touches neither the loop's place nor what it has read and written -/
theorem task_own {H : Tunnel.St → Frame → Tunnel.St × Bool} {we : Tunnel.St → Tunnel.St} (s : Tunnel.St) (e : Event)
    (he : (∃ f, e = .submit f) ∨ (∃ h, e = .take h) ∨ ∃ h, e = .dropRx h) (hp : s.pending = none) :
    (Tunnel.step H we s e).phase = s.phase ∧ (Tunnel.step H we s e).pending = none ∧
    ∃ u, (Tunnel.step H we s e).trace = s.trace ++ u ∧ ∀ o ∈ u, OwnDoing o := by
  have hz : ∃ u, s.trace = s.trace ++ u ∧ ∀ o ∈ u, OwnDoing o := ⟨[], by simp, by simp⟩
  rcases he with ⟨f, rfl⟩ | ⟨h, rfl⟩ | ⟨h, rfl⟩
  · simp only [Tunnel.step]
    split
    · exact ⟨rfl, hp, [.submitted f], rfl, by simp [OwnDoing]⟩
    · exact ⟨rfl, hp, hz⟩
  · simp only [Tunnel.step]
    split
    · exact ⟨rfl, hp, hz⟩
    · split
      · simp only [resumePending, emit, setChan, hp]
        exact ⟨trivial, trivial, _, rfl, by simp [OwnDoing]⟩
      · exact ⟨rfl, hp, hz⟩
  · simp only [Tunnel.step]
    split
    · simp only [resumePending, emit, setChan, hp]
      exact ⟨trivial, trivial, _, rfl, by simp [OwnDoing]⟩
    · exact ⟨rfl, hp, hz⟩

/-- the loop spins -/
def Spins (s : St) : Prop := s.pc = .work ∧ s.works = []

/-- how many polls are left before the loop spins -/
def rank (s : St) : Nat :=
  s.works.length + match s.pc with | .work => 0 | .asleep => 1 | .write => 2 | .read => 3 | .recv => 4

theorem orphan_task {H : Tunnel.St → Frame → Tunnel.St × Bool} {we : Tunnel.St → Tunnel.St} (s : St) (a : Act)
    (ha : atSelect s.tun = true) :
    let s' := orphanStep (Tunnel.step H we) s (.task a)
    atSelect s'.tun = true ∧ s'.pc = s.pc ∧ s'.works = s.works ∧
      ∃ u, s'.tun.trace = s.tun.trace ++ u ∧ ∀ o ∈ u, OwnDoing o := by
  have hz : ∃ u, s.tun.trace = s.tun.trace ++ u ∧ ∀ o ∈ u, OwnDoing o := ⟨[], by simp, by simp⟩
  have ha' : s.tun.phase = .running ∧ s.tun.pending = none := by simpa [atSelect] using ha
  have key : ∀ e, ((∃ f, e = .submit f) ∨ (∃ h, e = .take h) ∨ ∃ h, e = .dropRx h) →
      atSelect (Tunnel.step H we s.tun e) = true ∧
      ∃ u, (Tunnel.step H we s.tun e).trace = s.tun.trace ++ u ∧ ∀ o ∈ u, OwnDoing o := by
    intro e he
    obtain ⟨h1, h2, h3⟩ := task_own (H := H) (we := we) s.tun e he ha'.2
    exact ⟨by simp [atSelect, h1, h2, ha'.1], h3⟩
  cases a with
  | work id d => exact ⟨ha, rfl, rfl, hz⟩
  | submit f =>
    show atSelect (taskStep _ s (.submit f)).tun = true ∧ (taskStep _ s (.submit f)).pc = s.pc ∧ (taskStep _ s (.submit f)).works = s.works ∧ _
    simp only [taskStep]
    split
    · obtain ⟨h1, h2⟩ := key (.submit f) (.inl ⟨f, rfl⟩)
      refine ⟨h1, rfl, rfl, ?_⟩
      obtain ⟨u, hu, ho⟩ := h2
      refine ⟨u, ?_, ho⟩
      simp only [orphanStep, step, taskStep]
      rw [if_pos (by assumption)]
      exact hu
    · refine ⟨ha, rfl, rfl, ?_⟩
      simp only [orphanStep, step, taskStep]
      rw [if_neg (by assumption)]
      exact hz
  | take h =>
    obtain ⟨h1, h2⟩ := key (.take h) (.inr (.inl ⟨h, rfl⟩))
    exact ⟨h1, rfl, rfl, h2⟩
  | dropRx h =>
    obtain ⟨h1, h2⟩ := key (.dropRx h) (.inr (.inr ⟨h, rfl⟩))
    exact ⟨h1, rfl, rfl, h2⟩

/-- once the service is gone and no visitor is left, this stays so -/
theorem closed_stays {T} {s : Owned} (m : Move) (h : s.isOpen = false) : (moveStep T s m).isOpen = false := by
  simp only [Owned.isOpen, Bool.or_eq_false_iff, decide_eq_false_iff_not] at h ⊢
  cases m <;> simp_all [moveStep]

theorem closed_fold {T} (ms : List Move) {s : Owned} (h : s.isOpen = false) : (ms.foldl (moveStep T) s).isOpen = false := by
  induction ms generalizing s with
  | nil => exact h
  | cons m ms ih => exact ih (closed_stays m h)

theorem spins_forever {H we} (ms : List Move) (s : Owned) (h : s.isOpen = false) (ha : atSelect s.st.tun = true)
    (hs : Spins s.st) :
    let s' := ms.foldl (moveStep (Tunnel.step H we)) s
    s'.isOpen = false ∧ atSelect s'.st.tun = true ∧ Spins s'.st ∧
      ∃ u, s'.st.tun.trace = s.st.tun.trace ++ u ∧ ∀ o ∈ u, OwnDoing o := by
  induction ms generalizing s with
  | nil => exact ⟨h, ha, hs, [], by simp, by simp⟩
  | cons m ms ih =>
    have hc := closed_stays (T := Tunnel.step H we) m h
    have hstep : atSelect (moveStep (Tunnel.step H we) s m).st.tun = true ∧ Spins (moveStep (Tunnel.step H we) s m).st ∧
        ∃ u, (moveStep (Tunnel.step H we) s m).st.tun.trace = s.st.tun.trace ++ u ∧ ∀ o ∈ u, OwnDoing o := by
      cases m with
      | visit => simp only [moveStep]; split <;> exact ⟨ha, hs, [], by simp, by simp⟩
      | leave => exact ⟨ha, hs, [], by simp [moveStep], by simp⟩
      | replaced => exact ⟨ha, hs, [], by simp [moveStep], by simp⟩
      | ev e =>
        simp only [moveStep, h, Bool.false_eq_true, if_false]
        cases e with
        | task a =>
          obtain ⟨h1, h2, h3, h4⟩ := orphan_task (H := H) (we := we) s.st a ha
          exact ⟨h1, ⟨h2.trans hs.1, h3.trans hs.2⟩, h4⟩
        | poll r =>
          simp only [orphanStep]
          rw [if_pos ⟨hs.1, hs.2⟩]
          exact ⟨ha, hs, [], by simp, by simp⟩
    obtain ⟨h1, h2, u, hu, hou⟩ := hstep
    obtain ⟨g0, g1, g2, v, hv, hov⟩ := ih _ hc h1 h2
    refine ⟨g0, g1, g2, u ++ v, ?_, ?_⟩
    · rw [List.foldl_cons, hv, hu, List.append_assoc]
    · intro o ho
      rcases List.mem_append.mp ho with ho | ho
      exacts [hou o ho, hov o ho]

theorem orphan_rank {T} (s : St) (r : Answer) (ha : atSelect s.tun = true) :
    Spins s ∨ rank (orphanStep T s (.poll r)) < rank s := by
  by_cases hs : s.pc = .work ∧ s.works = []
  · exact .inl hs
  right
  simp only [orphanStep, if_neg hs, step, ha, if_true]
  obtain ⟨tun, works, pc, log⟩ := s
  cases pc with
  | work =>
    cases works with
    | nil => exact absurd ⟨rfl, rfl⟩ hs
    | cons w ws => obtain ⟨id, d⟩ := w; simp [pollStep, rank]
  | recv => simp only [pollStep]; split <;> simp [rank]
  | read => cases r <;> simp [pollStep, rank]
  | write => simp only [pollStep]; split <;> [simp [rank]; (cases r <;> simp [rank])]
  | asleep => simp [pollStep, rank]

theorem rank_task {T} (s : St) (a : Act) : rank (orphanStep T s (.task a)) = rank s := by
  cases a with
  | submit f => simp only [orphanStep, step, taskStep]; split <;> rfl
  | _ => rfl

/-- within as many polls as its rank, an orphaned loop spins, or is over or blocked meanwhile -/
theorem spins_soon {H we} (ms : List Move) (s : Owned) (h : s.isOpen = false) (hn : rank s.st ≤ pollCount ms) :
    (∃ a b, ms = a ++ b ∧ atSelect (a.foldl (moveStep (Tunnel.step H we)) s).st.tun = false) ∨
    Spins (ms.foldl (moveStep (Tunnel.step H we)) s).st := by
  induction ms generalizing s with
  | nil =>
    right
    have : rank s.st = 0 := by simpa [pollCount] using hn
    simp only [rank] at this
    refine ⟨?_, List.eq_nil_of_length_eq_zero (show s.st.works.length = 0 by omega)⟩
    show s.st.pc = .work
    cases hpc : s.st.pc <;> simp [hpc] at this ⊢
  | cons m ms ih =>
    by_cases ha : atSelect s.st.tun = true
    swap
    · exact .inl ⟨[], m :: ms, rfl, by simpa using ha⟩
    have hc := closed_stays (T := Tunnel.step H we) m h
    have go : rank (moveStep (Tunnel.step H we) s m).st ≤ pollCount ms →
        (∃ a b, m :: ms = a ++ b ∧ atSelect (a.foldl (moveStep (Tunnel.step H we)) s).st.tun = false) ∨
        Spins ((m :: ms).foldl (moveStep (Tunnel.step H we)) s).st := by
      intro hr
      rcases ih _ hc hr with ⟨a, b, hab, hb⟩ | hb
      · exact .inl ⟨m :: a, b, by rw [hab]; rfl, hb⟩
      · exact .inr hb
    cases m with
    | visit =>
      apply go
      simp only [moveStep]; split <;> simpa [pollCount] using hn
    | leave => apply go; simpa [pollCount, moveStep] using hn
    | replaced => apply go; simpa [pollCount, moveStep] using hn
    | ev e =>
      cases e with
      | task a =>
        apply go
        simp only [moveStep, h, Bool.false_eq_true, if_false, rank_task]
        simpa [pollCount] using hn
      | poll r =>
        rcases orphan_rank (T := Tunnel.step H we) s.st r ha with hs | hlt
        · exact .inr (spins_forever _ _ h ha hs).2.2.1
        · apply go
          simp only [moveStep, h, Bool.false_eq_true, if_false]
          have : pollCount (Move.ev (.poll r) :: ms) = pollCount ms + 1 := by simp [pollCount]
          omega

theorem works_le {T s0} (ms : List Move) : (moves T s0 ms).st.works.length ≤ workCap := by
  induction ms using List.reverseRecOn with
  | nil => simp [moves]
  | append_singleton ms m ih =>
    have hmono : ∀ (s : St) (e : Ev), s.works.length ≤ workCap → (step T s e).works.length ≤ workCap := by
      intro s e hs
      cases e with
      | task a =>
        cases a with
        | work id d =>
          simp only [step, taskStep]; split
          · rename_i hc; simp; omega
          · exact hs
        | submit f => simp only [step, taskStep]; split <;> exact hs
        | take h => exact hs
        | dropRx h => exact hs
      | poll r =>
        simp only [step]
        split
        · obtain ⟨tun, works, pc, log⟩ := s
          cases pc with
          | work =>
            cases works with
            | nil => simp [pollStep]
            | cons w ws => obtain ⟨id, d⟩ := w; simp [pollStep] at hs ⊢; omega
          | recv => simp only [pollStep]; split <;> exact hs
          | read => cases r <;> exact hs
          | write => simp only [pollStep]; split <;> [exact hs; (cases r <;> exact hs)]
          | asleep => exact hs
        · exact hs
    have ho : ∀ (s : St) (e : Ev), s.works.length ≤ workCap → (orphanStep T s e).works.length ≤ workCap := by
      intro s e hs
      cases e with
      | poll r => simp only [orphanStep]; split <;> [exact hs; exact hmono s _ hs]
      | task a => cases a <;> first | exact hs | exact hmono s _ hs
    simp only [moves, List.foldl_append, List.foldl_cons, List.foldl_nil] at ih ⊢
    cases m with
    | visit => simp only [moveStep]; split <;> exact ih
    | leave => exact ih
    | replaced => exact ih
    | ev e =>
      simp only [moveStep]
      split
      exacts [hmono _ _ ih, ho _ _ ih]

theorem rank_le {T s0} (ms : List Move) : rank (moves T s0 ms).st ≤ 14 := by
  have := works_le (T := T) (s0 := s0) ms
  simp only [rank, workCap] at this ⊢
  split <;> omega

theorem moves_append (T s0) (a b : List Move) : moves T s0 (a ++ b) = b.foldl (moveStep T) (moves T s0 a) := by
  simp [moves]

theorem visitors_le {T s0} (ms : List Move) : (moves T s0 ms).visitors ≤ serving ms := by
  induction ms using List.reverseRecOn with
  | nil => simp [moves, serving]
  | append_singleton ms m ih =>
    rw [moves_append]
    simp only [serving, List.foldl_append, List.foldl_cons, List.foldl_nil] at ih ⊢
    cases m with
    | visit => simp only [moveStep]; split <;> (try simp only []) <;> omega
    | leave => simp only [moveStep]; omega
    | replaced => simpa [moveStep] using ih
    | ev e => simpa [moveStep] using ih

theorem service_iff {T s0} (ms : List Move) : (moves T s0 ms).service = true ↔ .replaced ∉ ms := by
  induction ms using List.reverseRecOn with
  | nil => simp [moves]
  | append_singleton ms m ih =>
    rw [moves_append]
    cases m with
    | visit => simp only [List.foldl_cons, List.foldl_nil, moveStep]; split <;> simp [ih]
    | _ => simp [moveStep, ih]

theorem visitors_eq {T s0} (ms : List Move) (hl : InTime ms) : (moves T s0 ms).visitors = serving ms := by
  induction ms using List.reverseRecOn with
  | nil => simp [moves, serving]
  | append_singleton ms m ih =>
    have hl' : InTime ms := fun a b h => hl a (b ++ [m]) (by rw [h]; simp)
    have ih := ih hl'
    rw [moves_append]
    simp only [serving, List.foldl_append, List.foldl_cons, List.foldl_nil] at ih ⊢
    cases m with
    | visit =>
      have : (moves T s0 ms).service = true := (service_iff ms).2 (hl ms [] (by simp))
      simp [moveStep, this, ih]
    | leave => simp only [moveStep, ih]
    | replaced => simpa [moveStep] using ih
    | ev e => simpa [moveStep] using ih

theorem closed_of {T s0} (ms : List Move) (hr : .replaced ∈ ms) (hv : serving ms = 0) : (moves T s0 ms).isOpen = false := by
  have h1 := visitors_le (T := T) (s0 := s0) ms
  have h2 : (moves T s0 ms).service = false := by
    rw [← Bool.not_eq_true, service_iff]; simpa using hr
  simp [Owned.isOpen, h2]; omega

theorem orphaned {H we s0} (ms ms' : List Move) (hr : .replaced ∈ ms) (hv : serving ms = 0) (hn : 14 ≤ pollCount ms')
    (hsel : ∀ a b, ms' = a ++ b → Loops (moves (Tunnel.step H we) s0 (ms ++ a)).st.tun) (more : List Move) :
    (moves (Tunnel.step H we) s0 (ms ++ ms' ++ more)).st.tun.phase = .running ∧
    ∃ u, (moves (Tunnel.step H we) s0 (ms ++ ms' ++ more)).st.tun.trace =
        (moves (Tunnel.step H we) s0 (ms ++ ms')).st.tun.trace ++ u ∧ ∀ o ∈ u, OwnDoing o := by
  have hc := closed_of (T := Tunnel.step H we) (s0 := s0) ms hr hv
  have hat : ∀ a b, ms' = a ++ b → atSelect (a.foldl (moveStep (Tunnel.step H we)) (moves (Tunnel.step H we) s0 ms)).st.tun = true := by
    intro a b h
    rw [← moves_append]
    simpa [atSelect, Loops] using hsel a b h
  rcases spins_soon (H := H) (we := we) ms' _ hc (Nat.le_trans (rank_le ms) hn) with ⟨a, b, hab, hb⟩ | hs
  · rw [hat a b hab] at hb; cases hb
  · have hc' : (moves (Tunnel.step H we) s0 (ms ++ ms')).isOpen = false := by
      rw [moves_append]
      exact closed_fold ms' hc
    rw [← moves_append] at hs
    rw [moves_append _ _ (ms ++ ms')]
    obtain ⟨_, h2, _, h4⟩ := spins_forever (H := H) (we := we) more _ hc' (by rw [moves_append]; exact hat ms' [] (by simp)) hs
    exact ⟨by simp [atSelect] at h2; exact h2.1, h4⟩

/-- a loop that sleeps when the last sending end goes never does anything again -/
theorem orphaned_asleep {H we s0} (ms : List Move) (hr : .replaced ∈ ms) (hv : serving ms = 0)
    (hl : Loops (moves (Tunnel.step H we) s0 ms).st.tun) (hp : (moves (Tunnel.step H we) s0 ms).st.pc = .asleep)
    (hw : (moves (Tunnel.step H we) s0 ms).st.works = []) (more : List Move) :
    (moves (Tunnel.step H we) s0 (ms ++ more)).st.tun.phase = .running ∧
    ∃ u, (moves (Tunnel.step H we) s0 (ms ++ more)).st.tun.trace =
        (moves (Tunnel.step H we) s0 ms).st.tun.trace ++ u ∧ ∀ o ∈ u, OwnDoing o := by
  have hc := closed_of (T := Tunnel.step H we) (s0 := s0) ms hr hv
  rw [moves_append]
  generalize moves (Tunnel.step H we) s0 ms = s at *
  have ha : atSelect s.st.tun = true := by simpa [atSelect, Loops] using hl
  clear hr hv hl
  induction more generalizing s with
  | nil => exact ⟨by simp [atSelect] at ha; exact ha.1, [], by simp, by simp⟩
  | cons m more ih =>
    have hc' := closed_stays (T := Tunnel.step H we) m hc
    have skip : ∀ s', moveStep (Tunnel.step H we) s m = s' → s'.st = s.st →
        ((m :: more).foldl (moveStep (Tunnel.step H we)) s).st.tun.phase = .running ∧
        ∃ u, ((m :: more).foldl (moveStep (Tunnel.step H we)) s).st.tun.trace = s.st.tun.trace ++ u ∧ ∀ o ∈ u, OwnDoing o := by
      intro s' h1 h2
      have := ih s' (by rw [h2]; exact hp) (by rw [h2]; exact hw) (h1 ▸ hc') (by rw [h2]; exact ha)
      rw [List.foldl_cons, h1]
      rwa [h2] at this
    cases m with
    | visit =>
      refine skip _ rfl ?_
      simp only [moveStep]; split <;> rfl
    | leave => exact skip _ rfl rfl
    | replaced => exact skip _ rfl rfl
    | ev e =>
      cases e with
      | task a =>
        obtain ⟨h1, h2, h3, u, hu, hou⟩ := orphan_task (H := H) (we := we) s.st a ha
        have e1 : (moveStep (Tunnel.step H we) s (.ev (.task a))).st = orphanStep (Tunnel.step H we) s.st (.task a) := by
          simp [moveStep, hc]
        obtain ⟨g1, v, hv, hov⟩ := ih _ (by rw [e1, h2]; exact hp) (by rw [e1, h3]; exact hw) hc' (by rw [e1]; exact h1)
        refine ⟨g1, u ++ v, ?_, ?_⟩
        · rw [List.foldl_cons, hv, e1, hu, List.append_assoc]
        · intro o ho
          rcases List.mem_append.mp ho with ho | ho
          exacts [hou o ho, hov o ho]
      | poll r =>
        have e1 : (moveStep (Tunnel.step H we) s (.ev (.poll r))).st = { s.st with pc := .work } := by
          simp [moveStep, hc, orphanStep, hp, step, ha, pollStep]
        obtain ⟨_, g2, _, v, hv, hov⟩ := spins_forever (H := H) (we := we) more _ hc' (by rw [e1]; exact ha)
          (by rw [e1]; exact ⟨rfl, hw⟩)
        refine ⟨by simp [atSelect] at g2; exact g2.1, v, ?_, hov⟩
        rw [List.foldl_cons, hv, e1]

theorem attended_open {T s0} (ms : List Move) (hi : InTime ms) (ha : Attended ms) :
    (moves T s0 ms).st = run T s0 (eventsOf ms) := by
  induction ms using List.reverseRecOn with
  | nil => rfl
  | append_singleton ms m ih =>
    have hi' : InTime ms := fun a b h => hi a (b ++ [m]) (by rw [h]; simp)
    have ha' : Attended ms := fun a b h => ha a (b ++ [m]) (by rw [h]; simp)
    have ih := ih hi' ha'
    have ho : (moves T s0 ms).isOpen = true := by
      by_cases hr : .replaced ∈ ms
      · have := ha ms [m] rfl hr
        rw [← visitors_eq (T := T) (s0 := s0) ms hi'] at this
        simp [Owned.isOpen, this]
      · simp [Owned.isOpen, (service_iff (T := T) (s0 := s0) ms).2 hr]
    rw [moves_append]
    cases m with
    | visit =>
      have : (moveStep T (moves T s0 ms) .visit).st = (moves T s0 ms).st := by simp only [moveStep]; split <;> rfl
      simpa [eventsOf, this] using ih
    | leave => simpa [eventsOf, moveStep] using ih
    | replaced => simpa [eventsOf, moveStep] using ih
    | ev e =>
      have : eventsOf (ms ++ [.ev e]) = eventsOf ms ++ [e] := by simp [eventsOf]
      rw [this, run_snoc, ← ih]
      simp [moveStep, ho]

/-- **C144** (server), partial: as long as the service has not been replaced, or a visitor that it has accepted is still served, a
    tunnel end works as if nothing had happened: what the other properties say about it holds. Missing: after that, see
    `C144_server_fails`. -/
theorem C144_server_goes_on_partial (cfg : Cfg) (ms : List Move) (hi : InTime ms) (ha : Attended ms) :
    (serverMoves cfg ms).st = server cfg (eventsOf ms) :=
  attended_open ms hi ha

/-- **C144** fails at the server: after the service was replaced and the last visitor has gone, the end of the tunnel takes
    fourteen more turns at most; then it never reads or sends anything again, nor is the connection closed, whatever happens. (What
    its streams' tasks still submit stays where it is.) -/
theorem C144_server_fails (cfg : Cfg) (ms ms' : List Move) (hr : .replaced ∈ ms) (hv : serving ms = 0)
    (hn : 14 ≤ pollCount ms') (hl : ∀ a b, ms' = a ++ b → Loops (serverMoves cfg (ms ++ a)).st.tun) (more : List Move) :
    (serverMoves cfg (ms ++ ms' ++ more)).st.tun.phase = .running ∧
    ∃ u, (serverMoves cfg (ms ++ ms' ++ more)).st.tun.trace = (serverMoves cfg (ms ++ ms')).st.tun.trace ++ u ∧
      ∀ o ∈ u, OwnDoing o :=
  orphaned ms ms' hr hv hn hl more

/-- **C144** fails at once at a server end that has nothing to do at that moment: of all that the client sends from then on not one
    byte is read, and the client is not told. -/
theorem C144_server_idle_fails (cfg : Cfg) (ms : List Move) (hr : .replaced ∈ ms) (hv : serving ms = 0)
    (hl : Loops (serverMoves cfg ms).st.tun) (hp : (serverMoves cfg ms).st.pc = .asleep)
    (hw : (serverMoves cfg ms).st.works = []) (more : List Move) :
    (serverMoves cfg (ms ++ more)).st.tun.phase = .running ∧
    ∃ u, (serverMoves cfg (ms ++ more)).st.tun.trace = (serverMoves cfg ms).st.tun.trace ++ u ∧ ∀ o ∈ u, OwnDoing o :=
  orphaned_asleep ms hr hv hl hp hw more

theorem serving_no_visit (ms : List Move) (h : .visit ∉ ms) : serving ms = 0 := by
  induction ms using List.reverseRecOn with
  | nil => rfl
  | append_singleton ms m ih =>
    have h1 := ih (by simp at h; exact h.1)
    simp only [serving, List.foldl_append, List.foldl_cons, List.foldl_nil] at h1 ⊢
    cases m <;> simp_all

theorem pollCount_filter (ms : List Move) : pollCount (ms.filter (· ≠ .visit)) = pollCount ms := by
  induction ms with
  | nil => rfl
  | cons m ms ih => cases m <;> simp_all [pollCount, List.countP_cons]

/-- **C144** fails at the client as soon as its service was replaced, whether or not streams are open: they get nothing more, and
    are not told. -/
theorem C144_client_fails (cfg : Cfg) (q : List Frame) (ms ms' : List Move) (hr : .replaced ∈ ms)
    (hn : 14 ≤ pollCount ms') (hl : ∀ a b, ms' = a ++ b → Loops (clientMoves cfg q (ms ++ a)).st.tun) (more : List Move) :
    (clientMoves cfg q (ms ++ ms' ++ more)).st.tun.phase = .running ∧
    ∃ u, (clientMoves cfg q (ms ++ ms' ++ more)).st.tun.trace = (clientMoves cfg q (ms ++ ms')).st.tun.trace ++ u ∧
      ∀ o ∈ u, OwnDoing o := by
  unfold clientMoves at hl ⊢
  simp only [List.filter_append] at hl ⊢
  refine orphaned _ _ (by simp [hr]) (serving_no_visit _ (by simp)) (by rw [pollCount_filter]; exact hn) ?_ _
  intro a b hab
  obtain ⟨a', b', h1, h2, h3⟩ := List.filter_eq_append_iff.mp hab
  rw [← h2]
  exact hl a' b' h1

theorem written_own (t u : List Obs) (h : ∀ o ∈ u, OwnDoing o) : written (t ++ u) = written t := by
  induction u using List.reverseRecOn with
  | nil => simp
  | append_singleton u o ih =>
    have h1 := ih fun x hx => h x (by simp [hx])
    have h2 := h o (by simp)
    rw [← List.append_assoc]
    cases o <;> simp_all [written, OwnDoing]

/-- **C144** fails likewise for a connection that a client makes after its service was replaced: it never introduces itself. -/
theorem C144_client_silent_fails (cfg : Cfg) (q : List Frame) (hi : (clientInit cfg q).phase = .running) (more : List Move) :
    (clientMoves cfg q (.replaced :: more)).st.tun.phase = .running ∧
    written (clientMoves cfg q (.replaced :: more)).st.tun.trace = [] := by
  have hw : written (clientInit cfg q).trace = [] ∧ (clientInit cfg q).pending = none := by
    have hF := Fresh.init cfg q
    refine ⟨?_, hF.pending⟩
    unfold written
    rw [List.flatMap_eq_nil_iff]
    intro o ho
    obtain ⟨f, rfl⟩ := hF.trace o ho
    rfl
  obtain ⟨_, h2, _, u, hu, hou⟩ := spins_forever (H := clientHandle cfg) (we := fun s => resume (clientHandle cfg) s)
    (more.filter (· ≠ .visit)) ⟨⟨clientInit cfg q, [], .work, []⟩, false, 0⟩ rfl (by simp [atSelect, hi, hw.2]) ⟨rfl, rfl⟩
  have e : clientMoves cfg q (.replaced :: more) = (more.filter (· ≠ .visit)).foldl
      (moveStep (Tunnel.step (clientHandle cfg) fun s => resume (clientHandle cfg) s)) ⟨⟨clientInit cfg q, [], .work, []⟩, false, 0⟩ := by
    simp [clientMoves, moves, moveStep, clientStep]
  rw [e]
  refine ⟨by simp only [atSelect, Bool.and_eq_true, decide_eq_true_eq] at h2; exact h2.1, ?_⟩
  rw [hu, written_own _ _ hou]
  exact hw.1

/-! Cases that meet the hypotheses. -/

private def cfg0 : Cfg := ⟨none, none, []⟩
private def poll : Move := .ev (.poll .pending)
/-- a client's message is read, the loop falls asleep, a visitor comes and its stream is opened, the service is replaced -/
private def before : List Move :=
  [poll, poll, .ev (.poll (.bytes [])), .visit, .ev (.task (.work 2 (some "web".toList))), poll, poll, poll, poll, .replaced]

example : InTime before ∧ Attended before ∧ .replaced ∈ before := by
  have h : ∀ n ≤ 10, .replaced ∈ before.take n → 0 < serving (before.take n) := by decide +kernel
  refine ⟨?_, ?_, by decide⟩
  · intro a b hab
    have h1 : ∀ n < 10, before[n]? = some .visit → .replaced ∉ before.take n := by decide +kernel
    have h2 := h1 a.length (by have := congrArg List.length hab; simp [before] at this; omega)
    rw [hab] at h2
    simpa using h2
  · intro a b hab
    have h2 := h a.length (by have := congrArg List.length hab; simp [before] at this; omega)
    rw [hab] at h2
    simpa using h2

example : .replaced ∈ before ++ [.leave] ∧ serving (before ++ [.leave]) = 0 ∧
    14 ≤ pollCount (List.replicate 14 poll) ∧
    ∀ n ≤ 14, Loops (serverMoves cfg0 (before ++ [.leave] ++ List.replicate n poll)).st.tun := by
  refine ⟨by decide, by decide, by decide, ?_⟩
  unfold Loops
  decide +kernel

/-- what was left to be sent when the last visitor went is then never sent -/
example : (serverMoves cfg0 (before ++ [.leave] ++ List.replicate 14 poll)).st.tun.writeBuf ≠ [] := by decide +kernel

example : let ms := [poll, poll, poll, poll, .replaced]
    Loops (serverMoves cfg0 ms).st.tun ∧ (serverMoves cfg0 ms).st.pc = .asleep ∧ (serverMoves cfg0 ms).st.works = [] ∧
    Loops (clientMoves cfg0 [] ms).st.tun := by
  unfold Loops
  decide +kernel

example : (clientInit ⟨some "a".toList, some "b".toList, []⟩ []).phase = .running := by decide +kernel

end Wm.Select
