import Verif.Proofs.Select
import Verif.Props.TunnelProgress
import Mathlib.Tactic.Tauto
/-! The order in which a tunnel end serves its sources: announcing before sending (C92), writing is last (C94). -/
namespace Wm.Select
open Wm Wm.Prot Wm.Tunnel

/-- Everything proved about tunnel ends for all orders of branches holds for the loop with its fixed order. -/
theorem server_refines (cfg : Cfg) (evs : List Ev) : ∃ es, (server cfg evs).tun = serverRun cfg es :=
  run_refines _ _ evs

theorem client_refines (cfg : Cfg) (q : List Frame) (evs : List Ev) : ∃ es, (client cfg q evs).tun = clientRun cfg q es :=
  run_refines _ _ evs

/-! ## C92 -/

/-- the stream ids in `L` are opened by local tasks: each of their messages is submitted after the stream was opened -/
def OpenedFirst (L : Nat → Prop) (log : List Act) : Prop :=
  ∀ l1 f l2, log = l1 ++ .submit f :: l2 → L f.sockMap → ∃ d, .work f.sockMap d ∈ l1

/-- for the streams in `L` no message is accepted for sending before the stream was announced to the peer -/
def AnnouncedFirst (L : Nat → Prop) (t : List Obs) : Prop :=
  ∀ t1 f t2, t = t1 ++ .queued true f :: t2 → L f.sockMap → ∃ d, .queued false (.create f.sockMap d) ∈ t1

/-- no task opens a stream between the first two polls of one `select!` -/
def PollsTogether (cfg : Cfg) (evs : List Ev) : Prop :=
  ∀ a id d b, evs = a ++ .task (.work id d) :: b → (server cfg a).pc ≠ .recv

theorem PollsTogether.init {cfg evs e} (h : PollsTogether cfg (evs ++ [e])) : PollsTogether cfg evs := by
  intro a id d b he
  exact h a id d (b ++ [e]) (by rw [he]; simp)

theorem OpenedFirst.of_prefix {L l l'} (h : OpenedFirst L (l ++ l')) : OpenedFirst L l := by
  intro l1 f l2 he
  exact h l1 f (l2 ++ l') (by rw [he]; simp)

theorem AnnouncedFirst.snoc {L t o} (h : AnnouncedFirst L t)
    (ho : ∀ f, o = .queued true f → L f.sockMap → ∃ d, .queued false (.create f.sockMap d) ∈ t) :
    AnnouncedFirst L (t ++ [o]) := by
  intro t1 f t2 he hL
  rcases snoc_split he with ⟨h1, h2, h3⟩ | ⟨u, h1, h2⟩
  · obtain ⟨d, hd⟩ := ho f h3.symm hL
    exact ⟨d, h2 ▸ hd⟩
  · exact h t1 f u h2 hL

theorem AnnouncedFirst.calm {L t0} (h : AnnouncedFirst L t0) {s} (hc : Calm t0 s) : AnnouncedFirst L s.trace := by
  obtain ⟨u, e, hp⟩ := hc
  rw [e]
  clear e
  induction u using List.reverseRecOn with
  | nil => simpa using h
  | append_singleton u o ih =>
    rw [← List.append_assoc]
    exact (ih fun x hx => hp x (by simp [hx])).snoc (fun f hf => absurd hf ((hp o (by simp)).1 f))

/-- announced, or waiting to be -/
def Known (s : St) (id : Nat) : Prop :=
  (∃ d, .queued false (.create id d) ∈ s.tun.trace) ∨ ∃ d, (id, d) ∈ s.works

structure OInv (L : Nat → Prop) (s : St) : Prop where
  first : AnnouncedFirst L s.tun.trace
  queue : ∀ f ∈ s.tun.outq, L f.sockMap → Known s f.sockMap
  known : ∀ id d, .work id d ∈ s.log → s.tun.phase = .running → Known s id
  empty : s.pc = .recv → s.works = []

theorem Calm.keeps {t0 s o} (h : Calm t0 s) (ho : o ∈ t0) : o ∈ s.trace := by
  obtain ⟨u, e, _⟩ := h; rw [e]; simp [ho]

theorem server_adds (cfg : Cfg) (s : Tunnel.St) (e : Event) :
    (Calm s.trace (serverStep cfg s e)) ∨
    (∃ f q, e = .recv ∧ s.outq = f :: q ∧ Calm (s.trace ++ [.queued true f]) (serverStep cfg s e)) ∨
    (∃ n, e = .wrote n ∧ Calm (s.trace ++ [.wrote (s.writeBuf.take n)]) (serverStep cfg s e)) :=
  step_adds (serverHandle_calm cfg) (fun _ _ h => h.finish _) s e

theorem client_adds (cfg : Cfg) (s : Tunnel.St) (e : Event) :
    (Calm s.trace (clientStep cfg s e)) ∨
    (∃ f q, e = .recv ∧ s.outq = f :: q ∧ Calm (s.trace ++ [.queued true f]) (clientStep cfg s e)) ∨
    (∃ n, e = .wrote n ∧ Calm (s.trace ++ [.wrote (s.writeBuf.take n)]) (clientStep cfg s e)) :=
  step_adds (clientHandle_calm cfg) (fun _ _ h => resume_calm (clientHandle_calm cfg) h) s e

/-- events other than `recv` keep the order and what is known -/
theorem OInv.other {L cfg s} (h : OInv L s) (e : Event) (he : e ≠ .recv) (hs : ∀ f, e ≠ .submit f)
    (hph : (serverStep cfg s.tun e).phase = .running → s.tun.phase = .running)
    (pc : Pc) (hpc : pc = .recv → s.works = []) : OInv L { s with tun := serverStep cfg s.tun e, pc := pc } := by
  have ht : AnnouncedFirst L (serverStep cfg s.tun e).trace ∧ ∀ o ∈ s.tun.trace, o ∈ (serverStep cfg s.tun e).trace := by
    rcases server_adds cfg s.tun e with h1 | ⟨f, q, h1, _⟩ | ⟨n, h1, h2⟩
    · exact ⟨h.first.calm h1, fun o ho => h1.keeps ho⟩
    · exact absurd h1 he
    · refine ⟨AnnouncedFirst.calm (h.first.snoc (by simp)) h2, fun o ho => h2.keeps (by simp [ho])⟩
  have hk : ∀ id, Known s id → Known { s with tun := serverStep cfg s.tun e, pc := pc } id := by
    rintro id (⟨d, hd⟩ | hd)
    · exact .inl ⟨d, ht.2 _ hd⟩
    · exact .inr hd
  refine ⟨ht.1, ?_, ?_, hpc⟩
  · intro f hf hL
    refine hk _ (h.queue f ?_ hL)
    have : f ∈ (serverStep cfg s.tun e).outq := hf
    rwa [serverStep_outq cfg s.tun e hs he] at this
  · intro id d hid hr
    exact hk _ (h.known id d hid (hph hr))

theorem OInv.pc {L s} (h : OInv L s) (pc : Pc) (hpc : pc = .recv → s.works = []) : OInv L { s with pc := pc } :=
  ⟨h.first, h.queue, h.known, hpc⟩

theorem phase_back (cfg : Cfg) (s : Tunnel.St) (e : Event) (h : (serverStep cfg s e).phase = .running)
    : s.phase = .running := by
  by_contra hc
  have : ∀ {H : Tunnel.St → Frame → Tunnel.St × Bool} (t : Tunnel.St), t.phase ≠ .running →
      (resume H t) = t := by
    intro H t ht
    unfold resume
    rw [if_neg]; exact fun x => ht x.1
  have h2 : ∀ (t : Tunnel.St), t.phase ≠ .running → (resumePending (serverHandle cfg) t).phase ≠ .running := by
    intro t ht
    unfold resumePending
    split
    · exact ht
    · rename_i k f hp
      dsimp only
      have h3 : (sendAwait k f { t with pending := none }).1.phase = t.phase := by
        unfold sendAwait; split
        · rfl
        · split <;> rfl
      split
      · rw [h3]; exact ht
      · rw [this _ (by rw [h3]; exact ht), h3]; exact ht
  revert h
  unfold serverStep
  cases e <;> simp only [Tunnel.step]
  case submit f => simp [hc]
  case take k =>
    split
    · exact hc
    · split
      · exact fun x => h2 (emit (.took k _) (setChan k _ s)) hc x
      · exact hc
  case dropRx k =>
    split
    · exact fun x => h2 (emit (.rxGone k) (setChan k _ s)) hc x
    · exact hc
  all_goals simp [hc]

theorem oinv_step {L cfg s} (e : Ev) (h : OInv L s) (hw : ∀ id d, e = .task (.work id d) → s.pc ≠ .recv)
    (hl : OpenedFirst L (step (serverStep cfg) s e).log) : OInv L (step (serverStep cfg) s e) := by
  cases e with
  | task a =>
    cases a with
    | work id d =>
      simp only [step, taskStep]
      split
      · refine ⟨h.first, ?_, ?_, fun hp => absurd hp (hw id d rfl)⟩
        · intro f hf hL
          rcases h.queue f hf hL with hk | ⟨d, hk⟩
          · exact .inl hk
          · exact .inr ⟨d, by simp [hk]⟩
        · intro i d' hi hr
          simp only [List.mem_append, List.mem_singleton, Act.work.injEq] at hi
          rcases hi with hi | ⟨rfl, rfl⟩
          · rcases h.known i d' hi hr with hk | ⟨d, hk⟩
            · exact .inl hk
            · exact .inr ⟨d, by simp [hk]⟩
          · exact .inr ⟨d', by simp⟩
      · exact h
    | submit f =>
      simp only [step, taskStep] at hl ⊢
      split
      · rename_i hc
        rw [if_pos hc] at hl
        have ht : (serverStep cfg s.tun (.submit f)) = emit (.submitted f) { s.tun with outq := s.tun.outq ++ [f] } := by
          simp only [serverStep, Tunnel.step]; rw [if_pos hc]
        have hk : ∀ id, Known s id → Known { s with
            tun := emit (.submitted f) { s.tun with outq := s.tun.outq ++ [f] }, log := s.log ++ [.submit f] } id := by
          rintro id (⟨d, hd⟩ | hd)
          · exact .inl ⟨d, by simp [emit, hd]⟩
          · exact .inr hd
        rw [ht]
        refine ⟨h.first.snoc (by simp), ?_, ?_, h.empty⟩
        · intro g hg hL
          simp only [emit, List.mem_append, List.mem_singleton] at hg
          rcases hg with hg | rfl
          · exact hk _ (h.queue g hg hL)
          · obtain ⟨d, hd⟩ := hl s.log g [] rfl hL
            exact hk _ (h.known _ d hd hc.1)
        · intro id d hid hr
          simp only [List.mem_append, List.mem_singleton, reduceCtorEq, or_false] at hid
          exact hk _ (h.known id d hid hc.1)
      · exact h
    | take k => exact h.other (.take k) (by simp) (by simp) (phase_back cfg _ _) s.pc h.empty
    | dropRx k => exact h.other (.dropRx k) (by simp) (by simp) (phase_back cfg _ _) s.pc h.empty
  | poll r =>
    simp only [step]
    split
    · rename_i hat
      unfold pollStep
      split
      · rename_i hpc
        split
        · rename_i hwk; exact h.pc .recv (fun _ => hwk)
        · rename_i id d w hwk
          -- a new stream is announced
          have hi : Idle s.tun := by simpa [atSelect, Idle] using hat
          have hx : ∃ v, (serverStep cfg s.tun (.work id d)).trace = s.tun.trace ++ v ∧
              .queued false (.create id d) ∈ v ∧ ∀ o ∈ v, Plain o := by
            have h0 : Calm (s.tun.trace) (enqueue (.create id d) (register id s.tun)) :=
              ((Calm.refl s.tun).register id).one (.queued false (.create id d)) rfl ⟨by simp, by simp⟩
            obtain ⟨v, hv, hvp⟩ := h0
            have hmem : .queued false (.create id d) ∈ v := by
              have h1 : (enqueue (.create id d) (register id s.tun)).trace =
                  (register id s.tun).trace ++ [.queued false (.create id d)] := rfl
              rw [h1, register_trace, List.append_assoc, List.append_assoc] at hv
              rw [← List.append_cancel_left hv]
              simp
            obtain ⟨u, hu, hup⟩ := resume_calm (serverHandle_calm cfg)
              (Calm.refl (enqueue (.create id d) (register id s.tun)))
            refine ⟨v ++ u, ?_, by simp [hmem], ?_⟩
            · have : serverStep cfg s.tun (.work id d) =
                  resume (serverHandle cfg) (enqueue (.create id d) (register id s.tun)) := by
                have hc : s.tun.phase = .running ∧ s.tun.pending = none := hi
                simp only [serverStep, Tunnel.step]; rw [if_pos hc]
              rw [this, hu, hv, List.append_assoc]
            · intro o ho
              rcases List.mem_append.1 ho with h | h
              · exact hvp o h
              · exact hup o h
          obtain ⟨v, hv, hmem, hvp⟩ := hx
          have hk : ∀ i, Known s i → Known { s with works := w, tun := serverStep cfg s.tun (.work id d) } i := by
            rintro i (⟨d', hd⟩ | ⟨d', hd⟩)
            · exact .inl ⟨d', by simp only [hv]; simp [hd]⟩
            · rw [hwk] at hd
              rcases List.mem_cons.1 hd with e | hd
              · obtain ⟨rfl, rfl⟩ := Prod.mk.inj e
                exact .inl ⟨d', by simp only [hv]; simp [hmem]⟩
              · exact .inr ⟨d', hd⟩
          refine ⟨?_, ?_, ?_, ?_⟩
          · exact h.first.calm (s := serverStep cfg s.tun (.work id d)) ⟨v, hv, hvp⟩
          · intro f hf hL
            refine hk _ (h.queue f ?_ hL)
            have : f ∈ (serverStep cfg s.tun (.work id d)).outq := hf
            rwa [serverStep_outq cfg s.tun _ (by simp) (by simp)] at this
          · intro i d' hi' hr
            exact hk _ (h.known i d' hi' hi.1)
          · intro hp
            rw [hpc] at hp; cases hp
      · rename_i hpc
        split
        · exact h.pc .read (by simp)
        · rename_i hne
          have hi : Idle s.tun := by simpa [atSelect, Idle] using hat
          have hemp := h.empty hpc
          cases hq : s.tun.outq with
          | nil => exact absurd hq hne
          | cons f q =>
            have hst : serverStep cfg s.tun .recv = resume (serverHandle cfg) (enqueue f { s.tun with outq := q } true) := by
              have hc : s.tun.phase = .running ∧ s.tun.pending = none := hi
              simp only [serverStep, Tunnel.step]; rw [if_pos hc, hq]
            have hc : Calm (s.tun.trace ++ [.queued true f]) (serverStep cfg s.tun .recv) := by
              rw [hst]
              exact resume_calm (serverHandle_calm cfg) ⟨[], by simp [enqueue, emit], by simp⟩
            have hann : L f.sockMap → ∃ d, .queued false (.create f.sockMap d) ∈ s.tun.trace := by
              intro hL
              rcases h.queue f (by rw [hq]; simp) hL with hk | ⟨d, hk⟩
              · exact hk
              · rw [hemp] at hk; cases hk
            have hk : ∀ i, Known s i → Known { s with tun := serverStep cfg s.tun .recv, pc := .work } i := by
              rintro i (⟨d', hd⟩ | hd)
              · exact .inl ⟨d', hc.keeps (by simp [hd])⟩
              · exact .inr hd
            refine ⟨AnnouncedFirst.calm (h.first.snoc fun g hg hL => ?_) hc, ?_, ?_, by simp⟩
            · have : f = g := by simpa using hg
              subst this; exact hann hL
            · intro g hg hL
              refine hk _ (h.queue g ?_ hL)
              have hg' : g ∈ (serverStep cfg s.tun .recv).outq := hg
              rw [hst, resume_outq] at hg'
              rw [hq]; exact List.mem_cons_of_mem _ hg'
            · intro i d' hi' hr
              exact hk _ (h.known i d' hi' hi.1)
      · split
        · exact h.other (.read _) (by simp) (by simp) (phase_back cfg _ _) .work (by simp)
        · exact h.other .readEnd (by simp) (by simp) (phase_back cfg _ _) .work (by simp)
        · exact h.pc .write (by simp)
      · split
        · exact h.pc .asleep (by simp)
        · split
          · exact h.other (.wrote _) (by simp) (by simp) (phase_back cfg _ _) .work (by simp)
          · exact h.other .writeErr (by simp) (by simp) (phase_back cfg _ _) .work (by simp)
          · exact h.pc .asleep (by simp)
      · exact h.pc .work (by simp)
    · exact h

theorem log_grows (T s e) : ∃ l, (step T s e).log = s.log ++ l := by
  cases e with
  | task a =>
    cases a <;> simp only [step, taskStep]
    · split
      · exact ⟨_, rfl⟩
      · exact ⟨[], by simp⟩
    · split
      · exact ⟨_, rfl⟩
      · exact ⟨[], by simp⟩
    · exact ⟨[], by simp⟩
    · exact ⟨[], by simp⟩
  | poll r =>
    refine ⟨[], ?_⟩
    rw [List.append_nil]
    simp only [step]
    split
    · unfold pollStep
      split
      · split <;> rfl
      · split <;> rfl
      · split <;> rfl
      · split
        · rfl
        · split <;> rfl
      · rfl
    · rfl

/-- **C92**, partial (server): if the tasks of locally opened streams submit their messages after opening them, and no
    stream is opened just between the two polls of one `select!` (always so on a single-threaded runtime), then no
    message of such a stream is accepted for sending before the stream has been announced to the peer. Missing: the
    second proviso, see `C92_data_before_create_fails`. -/
theorem C92_announced_first_partial (cfg : Cfg) (L : Nat → Prop) (evs : List Ev)
    (hl : OpenedFirst L (server cfg evs).log) (hp : PollsTogether cfg evs) :
    AnnouncedFirst L (server cfg evs).tun.trace := by
  suffices h : OInv L (server cfg evs) from h.first
  induction evs using List.reverseRecOn with
  | nil =>
    refine ⟨?_, by simp [server, run, serverInit], by simp [server, run], by simp [server, run]⟩
    intro t1 f t2 he
    simp [server, run, serverInit] at he
  | append_singleton evs e ih =>
    have hs : server cfg (evs ++ [e]) = step (serverStep cfg) (server cfg evs) e := run_snoc _ _ _ _
    rw [hs] at hl ⊢
    obtain ⟨l, hl'⟩ := log_grows (serverStep cfg) (server cfg evs) e
    have h1 := ih (by rw [hl'] at hl; exact hl.of_prefix) hp.init
    refine oinv_step e h1 (fun id d he => ?_) hl
    subst he
    exact hp evs id d [] rfl

/-- a history with two streams that meets all provisos -/
def orderly : List Ev :=
  [.task (.work 2 none), .task (.submit (.data 2 [7])), .poll .pending, .poll .pending, .poll .pending,
   .task (.work 4 none), .poll .pending, .task (.submit (.close 4 [])), .poll .pending, .poll .pending]

example : (server ⟨none, none, []⟩ orderly).log
      = [.work 2 none, .submit (.data 2 [7]), .work 4 none, .submit (.close 4 [])] ∧
    accepted (server ⟨none, none, []⟩ orderly).tun.trace
      = [.create 2 none, .data 2 [7], .create 4 none, .close 4 []] := by
  decide +kernel

def isWork : Option Ev → Bool
  | some (.task (.work _ _)) => true
  | _ => false

example : PollsTogether ⟨none, none, []⟩ orderly := by
  intro a id d b he
  have h1 : a = orderly.take a.length := by rw [he]; simp
  have h2 : orderly[a.length]? = some (.task (.work id d)) := by rw [he]; simp
  have h3 : a.length < 10 := by
    have : a.length < orderly.length := by rw [he]; simp
    exact this
  rw [h1]
  clear he h1
  revert h2
  generalize a.length = n at *
  have key : ∀ n, n < 10 → (n = 0 ∨ n = 5 → (server ⟨none, none, []⟩ (orderly.take n)).pc ≠ .recv) ∧
      (n ≠ 0 → n ≠ 5 → isWork orderly[n]? = false) := by
    decide +kernel
  intro h2
  obtain ⟨k1, k2⟩ := key n h3
  by_cases h0 : n = 0 ∨ n = 5
  · exact k1 h0
  · have := k2 (by tauto) (by tauto)
    rw [h2] at this; cases this

/-- **C92** fails on a multi-threaded runtime: the loop finds no new stream, then a task opens stream `id` and submits
    its first message, then the loop polls for submitted messages - and the message leaves before the announcement, for
    every stream and message. -/
theorem C92_data_before_create_fails (id : Nat) (bs : Bytes) :
    let evs := [.poll .pending, .task (.work id none), .task (.submit (.data id bs)), .poll .pending, .poll .pending]
    let s := server ⟨none, none, []⟩ evs
    OpenedFirst (fun _ => True) s.log ∧ accepted s.tun.trace = [.data id bs, .create id none] ∧
    ¬ AnnouncedFirst (fun _ => True) s.tun.trace := by
  have hd : ∀ (H : Tunnel.St → Frame → Tunnel.St × Bool) (s : Tunnel.St), s.readBuf = [] → (resume H s).trace = s.trace ∧
      (resume H s).phase = s.phase ∧ (resume H s).pending = s.pending ∧ (resume H s).map = s.map ∧
      (resume H s).readBuf = [] ∧ (resume H s).next = s.next := by
    intro H s hb
    unfold resume
    split
    · have hn : decodeFrame [] = (.ok none, []) := by decide
      rw [hb, pump_none H s hn]
      exact ⟨rfl, rfl, rfl, rfl, rfl, rfl⟩
    · exact ⟨rfl, rfl, rfl, rfl, hb, rfl⟩
  intro evs s
  have ht : s.tun.trace = [.submitted (.data id bs), .queued true (.data id bs), .reg id 0, .queued false (.create id none)]
      ∧ s.log = [.work id none, .submit (.data id bs)] := by
    let s3 : St := run (serverStep ⟨none, none, []⟩) (serverInit ⟨none, none, []⟩)
      [.poll .pending, .task (.work id none), .task (.submit (.data id bs))]
    have e3 : s3 = ⟨emit (.submitted (.data id bs)) { serverInit ⟨none, none, []⟩ with outq := [.data id bs] },
        [(id, none)], .recv, [.work id none, .submit (.data id bs)]⟩ := by
      simp [s3, run, step, pollStep, taskStep, atSelect, serverInit, serverStep, Tunnel.step, workCap, outCap, emit]
    have e4 : s = step (serverStep ⟨none, none, []⟩) (step (serverStep ⟨none, none, []⟩) s3 (.poll .pending)) (.poll .pending) := rfl
    obtain ⟨a1, a2, a3, a4, a5, a6⟩ := hd (serverHandle ⟨none, none, []⟩)
      (enqueue (.data id bs) { (emit (.submitted (.data id bs)) { serverInit ⟨none, none, []⟩ with outq := [.data id bs] }) with outq := [] } true) rfl
    have e5 : step (serverStep ⟨none, none, []⟩) s3 (.poll .pending) =
        ⟨resume (serverHandle ⟨none, none, []⟩) (enqueue (.data id bs) { (emit (.submitted (.data id bs)) { serverInit ⟨none, none, []⟩ with outq := [.data id bs] }) with outq := [] } true),
          [(id, none)], .work, [.work id none, .submit (.data id bs)]⟩ := by
      rw [e3]
      simp [step, pollStep, atSelect, serverInit, serverStep, Tunnel.step, emit]
    rw [e4, e5]
    generalize hg : resume (serverHandle ⟨none, none, []⟩) (enqueue (.data id bs) { (emit (.submitted (.data id bs)) { serverInit ⟨none, none, []⟩ with outq := [.data id bs] }) with outq := [] } true) = x at *
    have hx : x.phase = .running ∧ x.pending = none := ⟨a2, a3⟩
    have hst : serverStep ⟨none, none, []⟩ x (.work id none) =
        resume (serverHandle ⟨none, none, []⟩) (enqueue (.create id none) (register id x)) := by
      simp only [serverStep, Tunnel.step]; rw [if_pos hx]
    have hrb : (enqueue (.create id none) (register id x)).readBuf = [] := by
      show (register id x).readBuf = []
      unfold register
      rw [a4]
      exact a5
    have hb := hd (serverHandle ⟨none, none, []⟩) _ hrb
    constructor
    · simp only [step, atSelect, hx, pollStep]
      simp only [decide_true, Bool.and_self, if_true, hst, hb.1]
      show (register id x).trace ++ [_] = _
      rw [register_trace, a4, a1, a6]
      simp [enqueue, emit, serverInit, lookup]
    · simp only [step, atSelect, hx, pollStep]
      simp
  refine ⟨?_, ?_, ?_⟩
  · rw [ht.2]
    intro l1 f l2 he _
    have : l1 = [.work id none] ∧ f = .data id bs := by
      cases l1 with
      | nil => simp at he
      | cons a l1 =>
        cases l1 with
        | nil => simp at he; exact ⟨by rw [he.1], he.2.1.symm⟩
        | cons b l1 => simp at he
    obtain ⟨rfl, rfl⟩ := this
    exact ⟨none, by simp [Frame.sockMap]⟩
  · rw [ht.1]; rfl
  · rw [ht.1]
    intro hc
    obtain ⟨d, hd⟩ := hc [.submitted (.data id bs)] (.data id bs) _ rfl trivial
    simp at hd

/-! ## C94 -/

/-- the connection always has bytes to read -/
def AlwaysReadable (evs : List Ev) : Prop := ∀ r, .poll r ∈ evs → ∃ bs, r = .bytes bs

theorem starved {T : Tunnel.St → Event → Tunnel.St} (hT : ∀ s e,
      (Calm s.trace (T s e)) ∨ (∃ f q, e = .recv ∧ s.outq = f :: q ∧ Calm (s.trace ++ [.queued true f]) (T s e)) ∨
      (∃ n, e = .wrote n ∧ Calm (s.trace ++ [.wrote (s.writeBuf.take n)]) (T s e)))
    (s0 : Tunnel.St) (evs : List Ev) (h : AlwaysReadable evs) :
    written (run T s0 evs).tun.trace = written s0.trace ∧ (run T s0 evs).pc ≠ .write := by
  induction evs using List.reverseRecOn with
  | nil => exact ⟨rfl, by simp [run]⟩
  | append_singleton evs e ih =>
    obtain ⟨h1, h2⟩ := ih (fun r hr => h r (by simp [hr]))
    rw [run_snoc]
    have key : ∀ x, (∀ n, x ≠ .wrote n) → written (T (run T s0 evs).tun x).trace = written s0.trace := by
      intro x hx
      rcases hT (run T s0 evs).tun x with hc | ⟨f, q, _, _, hc⟩ | ⟨n, hn, _⟩
      · rw [written_calm hc, h1]
      · rw [written_calm hc, ← h1]; simp [written]
      · exact absurd hn (hx n)
    cases e with
    | task a =>
      cases a with
      | work id d => simp only [step, taskStep]; split <;> exact ⟨h1, h2⟩
      | submit f =>
        simp only [step, taskStep]; split
        · exact ⟨key _ (by simp), h2⟩
        · exact ⟨h1, h2⟩
      | take k => exact ⟨key _ (by simp), h2⟩
      | dropRx k => exact ⟨key _ (by simp), h2⟩
    | poll r =>
      obtain ⟨bs, rfl⟩ := h r (by simp)
      simp only [step]
      split
      · unfold pollStep
        split
        · split
          · exact ⟨h1, by simp⟩
          · exact ⟨key _ (by simp), h2⟩
        · split
          · exact ⟨h1, by simp⟩
          · exact ⟨key _ (by simp), by simp⟩
        · exact ⟨key _ (by simp), by simp⟩
        · rename_i hpc; exact absurd hpc h2
        · exact ⟨h1, by simp⟩
      · exact ⟨h1, h2⟩

/-- **C94** fails: as long as the peer keeps the connection readable, neither end writes a single byte - whatever is
    submitted, however long this goes on. -/
theorem C94_reading_starves_writing_fails (cfg : Cfg) (q : List Frame) (evs : List Ev) (h : AlwaysReadable evs) :
    written (server cfg evs).tun.trace = [] ∧ written (client cfg q evs).tun.trace = [] := by
  have h1 := (starved (server_adds cfg) (serverInit cfg) evs h).1
  have h2 := (starved (client_adds cfg) (clientInit cfg q) evs h).1
  refine ⟨h1, h2.trans (Fresh.silent (Fresh.init cfg q).trace).1⟩

/-- a busy peer sends messages for unknown streams; a local visitor waits in vain -/
def busy (n : Nat) : List Ev :=
  [.task (.work 2 none), .task (.submit (.data 2 [7]))] ++
    List.replicate n (.poll (.bytes (wire (.data 9 [0]))))

example : AlwaysReadable (busy 30) := by
  intro r hr
  simp [busy] at hr
  exact ⟨_, hr⟩

example : accepted (server ⟨none, none, []⟩ (busy 30)).tun.trace = [.create 2 none, .data 2 [7]] ∧
    written (server ⟨none, none, []⟩ (busy 30)).tun.trace = [] := by
  decide +kernel

/-- **C94**, partial: once no stream is waiting to be opened, no message to be sent and nothing to be read, the next
    bytes are written. Missing: nothing guarantees such a moment, see `C94_reading_starves_writing_fails`. -/
theorem C94_written_when_quiet_partial (cfg : Cfg) (evs : List Ev) (hi : Idle (server cfg evs).tun)
    (hpc : (server cfg evs).pc = .work) (hw : (server cfg evs).works = []) (ho : (server cfg evs).tun.outq = [])
    (n : Nat) :
    ∃ rest, written (server cfg evs).tun.trace ++ rest = (accepted (server cfg evs).tun.trace).flatMap wire ∧
      written (server cfg evs).tun.trace ++ rest.take n
        <+: written (server cfg (evs ++ [.poll .pending, .poll .pending, .poll .pending, .poll (.accepts n)])).tun.trace := by
  obtain ⟨es, he⟩ := server_refines cfg evs
  have hI : SInv cfg (server cfg evs).tun := he ▸ server_inv cfg es
  refine ⟨_, hI.2.2.bytes, ?_⟩
  have hat : atSelect (server cfg evs).tun = true := by simp [atSelect, hi.1, hi.2]
  have hrun : server cfg (evs ++ [.poll .pending, .poll .pending, .poll .pending, .poll (.accepts n)]) =
      step (serverStep cfg) (step (serverStep cfg) (step (serverStep cfg) (step (serverStep cfg) (server cfg evs)
        (.poll .pending)) (.poll .pending)) (.poll .pending)) (.poll (.accepts n)) := by
    simp [server, run]
  rw [hrun]
  have e1 : step (serverStep cfg) (server cfg evs) (.poll .pending) = { server cfg evs with pc := .recv } := by
    simp only [step, hat, if_true, pollStep, hpc, hw]
  have e2 : step (serverStep cfg) { server cfg evs with pc := .recv } (.poll .pending)
      = { server cfg evs with pc := .read } := by
    simp only [step, hat, if_true, pollStep, ho]
  have e3 : step (serverStep cfg) { server cfg evs with pc := .read } (.poll .pending)
      = { server cfg evs with pc := .write } := by
    simp only [step, hat, if_true, pollStep]
  rw [e1, e2, e3]
  by_cases hb : (server cfg evs).tun.writeBuf = []
  · simp only [step, hat, if_true, pollStep, hb]
    simp
  · simp only [step, hat, if_true, pollStep, hb, if_false]
    exact write_next (server_preserved cfg) hI hi n

end Wm.Select
