import Verif.Proofs.TunnelMore
import Verif.Proofs.TunnelProgress
import Verif.Props.Codec
/-! C153: a stream whose task does not take its messages, and the other streams of the tunnel. -/
namespace Wm.Tunnel
open Wm Wm.Prot

/-! ### what the server's loop waits for -/

/-- the loop only waits for a stream whose channel is full and whose task is there -/
def Waits (s : St) : Prop := ∀ h f, s.pending = some (h, f) → (s.chan h).rx = true ∧ (s.chan h).q.length = streamCap

theorem Waits.free {s : St} (h : s.pending = none) : Waits s := fun _ _ e => by rw [h] at e; cases e

theorem sendAwait_waits {s : St} (hp : s.pending = none) (hb : ∀ h, (s.chan h).q.length ≤ streamCap) (k : Nat) (f : Frame) :
    Waits (sendAwait k f s).1 ∧ ((sendAwait k f s).2 = false → (sendAwait k f s).1.pending = none) := by
  unfold sendAwait
  split
  · exact ⟨.free hp, fun _ => hp⟩
  · rename_i hr
    split
    · exact ⟨.free hp, fun _ => hp⟩
    · rename_i hq
      refine ⟨fun h g e => ?_, by simp⟩
      simp only [Option.some.injEq, Prod.mk.injEq] at e
      obtain ⟨rfl, rfl⟩ := e
      exact ⟨by simpa using hr, Nat.le_antisymm (hb _) (by simpa using hq)⟩

theorem serverHandle_waits (cfg : Cfg) {s : St} (hp : s.pending = none) (hb : ∀ h, (s.chan h).q.length ≤ streamCap) (f : Frame) :
    Waits (serverHandle cfg s f).1 ∧ ((serverHandle cfg s f).2 = false → (serverHandle cfg s f).1.pending = none) := by
  have hp1 : (emit (.got f) s).pending = none := hp
  have hb1 : ∀ h, ((emit (.got f) s).chan h).q.length ≤ streamCap := hb
  unfold serverHandle
  generalize emit (.got f) s = u at *
  dsimp only
  split
  · exact ⟨.free hp1, fun _ => hp1⟩
  · split
    · exact ⟨.free hp1, fun _ => hp1⟩
    · cases f with
      | create id d => exact ⟨.free ((register_pending id u).trans hp1), fun _ => (register_pending id u).trans hp1⟩
      | close id r =>
        dsimp only
        split
        · exact sendAwait_waits hp1 hb1 _ _
        · exact ⟨.free hp1, fun _ => hp1⟩
      | data id r =>
        dsimp only
        split
        · exact sendAwait_waits hp1 hb1 _ _
        · exact ⟨.free hp1, fun _ => hp1⟩
      | mapping i ms => exact ⟨.free hp1, fun _ => hp1⟩
      | token u p => exact ⟨.free hp1, fun _ => hp1⟩

theorem resume_waits (cfg : Cfg) {s : St} (hp : s.pending = none) (hb : Bounded s) : Waits (resume (serverHandle cfg) s) := by
  unfold resume
  split
  · have hpu := pump_inv (serverHandle cfg) (fun s => s.pending = none ∧ Bounded s) Waits (fun s h => .free h.1)
      (fun s f h => ⟨(serverHandle_waits cfg h.1 h.2.streams f).1,
        fun e => ⟨(serverHandle_waits cfg h.1 h.2.streams f).2 e, serverHandle_bounded cfg s f h.2⟩⟩) s.readBuf s ⟨hp, hb⟩
    dsimp only
    cases he : (pump (serverHandle cfg) s s.readBuf).2.2 with
    | more => exact hpu.1
    | stopped => exact hpu.1
    | err e => exact .free ((finish_pending _ _).trans (hpu.2 (by simp [he])).1)
    | panic => exact .free ((finish_pending _ _).trans (hpu.2 (by simp [he])).1)
  · exact .free hp

theorem resumePending_waits (cfg : Cfg) {s : St} (hb : Bounded s) : Waits (resumePending (serverHandle cfg) s) := by
  unfold resumePending
  split
  · rename_i h; exact .free h
  · rename_i h f hp
    have hb' : Bounded { s with pending := none } := hb.of rfl rfl
    have h1 := sendAwait_waits (s := { s with pending := none }) rfl hb'.streams h f
    dsimp only
    split
    · exact h1.1
    · rename_i hn
      exact resume_waits cfg (h1.2 (by simpa using hn)) (hb'.sendAwait _ _)

theorem step_waits (cfg : Cfg) {s : St} (h : Waits s) (hb : Bounded s) (e : Event) : Waits (serverStep cfg s e) := by
  have hK := Bounded.kept
  unfold serverStep
  cases e <;> simp only [step]
  case submit f => split <;> exact h
  case take k =>
    split
    · exact h
    · rename_i f q hq
      split
      · rename_i hr; exact resumePending_waits cfg (hK.take s k f q hb hq hr)
      · exact h
  case dropRx k =>
    split
    · rename_i hr; exact resumePending_waits cfg (hK.drop s k hb hr)
    · exact h
  case work id d =>
    split
    · rename_i hi
      exact resume_waits cfg ((register_pending id s).trans hi.2) (hK.work s id d hb hi)
    · exact h
  case recv =>
    split
    · rename_i hi
      split
      · exact h
      · rename_i f q hq; exact resume_waits cfg hi.2 (hK.recv s f q hb hi hq)
    · exact h
  case read bs =>
    split
    · rename_i hi; exact resume_waits cfg hi.2 (hK.read s bs hb hi)
    · exact h
  case readEnd =>
    split
    · rename_i hi; exact .free ((finish_pending _ _).trans ((closeAll_pending _).trans hi.2))
    · exact h
  case wrote n =>
    split
    · rename_i hi
      split
      · exact h
      · split
        · exact .free ((finish_pending _ _).trans hi.2)
        · exact resume_waits cfg hi.2 (hb.of rfl rfl)
    · exact h
  case writeErr =>
    split
    · rename_i hi
      split
      · exact h
      · exact .free ((finish_pending _ _).trans hi.2)
    · exact h

theorem server_waits (cfg : Cfg) (es : List Event) : Waits (serverRun cfg es) := by
  induction es using List.reverseRecOn with
  | nil => exact .free rfl
  | append_singleton es e ih =>
    rw [show serverRun cfg (es ++ [e]) = serverStep cfg (serverRun cfg es) e by simp [serverRun]]
    exact step_waits cfg ih (server_bounded cfg es).2 e

/-! ### while it waits -/

theorem retry_full {H : St → Frame → St × Bool} {t : St} {h f} (hp : t.pending = some (h, f))
    (hf : (t.chan h).q.length = streamCap) (hr : (t.chan h).rx = true) : resumePending H t = t := by
  unfold resumePending
  rw [hp]
  have e : sendAwait h f { t with pending := none } = ({ t with pending := some (h, f) }, true) := by
    unfold sendAwait
    rw [if_neg (by simp [hr]), if_neg (by simp [hf])]
  simp only [e, if_true]
  cases t; simp at hp; simp [hp]

/-- what can be seen of the progress of the loop: what was read, decoded, delivered, accepted for sending, and written -/
def Still (t t' : List Obs) : Prop :=
  arrived t' = arrived t ∧ gots t' = gots t ∧ (∀ h, attempts h t' = attempts h t) ∧ accepted t' = accepted t ∧
  written t' = written t

theorem Still.snoc (t : List Obs) {o : Obs} (ho : (∃ f, o = .submitted f) ∨ (∃ k f, o = .took k f) ∨ ∃ k, o = .rxGone k) :
    Still t (t ++ [o]) := by
  rcases ho with ⟨f, rfl⟩ | ⟨k, f, rfl⟩ | ⟨k, rfl⟩ <;>
    refine ⟨?_, ?_, fun j => ?_, ?_, ?_⟩ <;>
    simp [written, gots, arrived, attempts, accepted, List.filterMap_append, List.flatMap_append]

theorem still_step (cfg : Cfg) {s : St} {h : Nat} {f : Frame} (hr : s.phase = .running) (hp : s.pending = some (h, f))
    (hw : Waits s) (e : Event) (h1 : e ≠ .take h) (h2 : e ≠ .dropRx h) :
    (serverStep cfg s e).phase = .running ∧ (serverStep cfg s e).pending = some (h, f) ∧
    Still s.trace (serverStep cfg s e).trace := by
  have triv : s.phase = .running ∧ s.pending = some (h, f) ∧ Still s.trace s.trace :=
    ⟨hr, hp, rfl, rfl, fun _ => rfl, rfl, rfl⟩
  obtain ⟨hx, hq⟩ := hw h f hp
  have other : ∀ k c o, k ≠ h → resumePending (serverHandle cfg) (emit o (setChan k c s)) = emit o (setChan k c s) := by
    intro k c o hk
    have e : (setChan k c s).chan h = s.chan h := by simp [setChan, Ne.symm hk]
    exact retry_full (h := h) (f := f) hp (by show ((setChan k c s).chan h).q.length = _; rw [e]; exact hq)
      (by show ((setChan k c s).chan h).rx = _; rw [e]; exact hx)
  cases e with
  | submit g =>
    unfold serverStep step
    dsimp only
    split
    · exact ⟨hr, hp, Still.snoc _ (.inl ⟨_, rfl⟩)⟩
    · exact triv
  | take k =>
    have hk : k ≠ h := fun e => h1 (by rw [e])
    unfold serverStep step
    dsimp only
    split
    · exact triv
    · rename_i g q _
      split
      · rw [other k _ _ hk]
        exact ⟨hr, hp, Still.snoc _ (.inr (.inl ⟨_, _, rfl⟩))⟩
      · exact triv
  | dropRx k =>
    have hk : k ≠ h := fun e => h2 (by rw [e])
    unfold serverStep step
    dsimp only
    split
    · rw [other k _ _ hk]
      exact ⟨hr, hp, Still.snoc _ (.inr (.inr ⟨_, rfl⟩))⟩
    · exact triv
  | _ =>
    rw [show serverStep cfg s _ = s by simp [serverStep, step, hp]]
    exact triv

theorem still_run (cfg : Cfg) {h : Nat} {f : Frame} (es' : List Event) : ∀ es, (serverRun cfg es).phase = .running →
    (serverRun cfg es).pending = some (h, f) → (∀ e ∈ es', e ≠ .take h ∧ e ≠ .dropRx h) →
    (serverRun cfg (es ++ es')).phase = .running ∧ Still (serverRun cfg es).trace (serverRun cfg (es ++ es')).trace := by
  induction es' with
  | nil => intro es hr hp _; simp only [List.append_nil]; exact ⟨hr, rfl, rfl, fun _ => rfl, rfl, rfl⟩
  | cons e es' ih =>
    intro es hr hp he
    have h1 := still_step cfg hr hp (server_waits cfg es) e (he e (by simp)).1 (he e (by simp)).2
    rw [← show serverRun cfg (es ++ [e]) = serverStep cfg (serverRun cfg es) e by simp [serverRun]] at h1
    have h2 := ih (es ++ [e]) h1.1 h1.2.1 (fun x hx => he x (by simp [hx]))
    rw [List.append_assoc, List.singleton_append] at h2
    obtain ⟨_, _, a1, a2, a3, a4, a5⟩ := h1
    obtain ⟨b0, b1, b2, b3, b4, b5⟩ := h2
    exact ⟨b0, b1.trans a1, b2.trans a2, fun k => (b3 k).trans (a3 k), b4.trans a4, b5.trans a5⟩

/-! ### the claims -/

/-- **C153** fails at the server: a message for a stream has been decoded and could not be handed over, because ten wait
    for the stream's task. Whatever happens from now on, until that one task takes a message or ends: nothing more is
    read from the tunnel, no message is decoded or delivered to any stream, nothing is accepted for sending, and nothing
    is written - not even what was accepted before. -/
theorem C153_waiting_fails (cfg : Cfg) (es es' : List Event) (h : Nat) (hr : (serverRun cfg es).phase = .running)
    (hw : attempts h (serverRun cfg es).trace ≠ due (serverAccepts cfg) h (serverRun cfg es).trace)
    (he : ∀ e ∈ es', e ≠ .take h ∧ e ≠ .dropRx h) :
    (serverRun cfg (es ++ es')).phase = .running ∧
    arrived (serverRun cfg (es ++ es')).trace = arrived (serverRun cfg es).trace ∧
    gots (serverRun cfg (es ++ es')).trace = gots (serverRun cfg es).trace ∧
    (∀ k, attempts k (serverRun cfg (es ++ es')).trace = attempts k (serverRun cfg es).trace) ∧
    accepted (serverRun cfg (es ++ es')).trace = accepted (serverRun cfg es).trace ∧
    written (serverRun cfg (es ++ es')).trace = written (serverRun cfg es).trace := by
  have hF : Flow (serverAccepts cfg) (serverRun cfg es) := (server_inv cfg es).1.1
  have hfl := hF.1.flow h
  cases hp : (serverRun cfg es).pending with
  | none =>
    rw [hp] at hfl
    exact absurd (by simpa using hfl) hw
  | some p =>
    obtain ⟨k, f⟩ := p
    rw [hp] at hfl
    have hk : k = h := by
      by_contra hne
      exact hw (by simpa [hne] using hfl)
    subst hk
    exact still_run cfg es' es hr hp he

/-- **C153** at the server: this happens with every stream whose task has ten messages to take when another arrives for
    it, and only then: the loop waits for a task that is there and has exactly ten untaken messages. -/
theorem C153_waits_for_full (cfg : Cfg) (es : List Event) (h : Nat)
    (hw : attempts h (serverRun cfg es).trace ≠ due (serverAccepts cfg) h (serverRun cfg es).trace) :
    .rxGone h ∉ (serverRun cfg es).trace ∧
    (puts h (serverRun cfg es).trace).length = (received h (serverRun cfg es).trace).length + 10 := by
  have hF : Flow (serverAccepts cfg) (serverRun cfg es) := (server_inv cfg es).1.1
  have hfl := hF.1.flow h
  cases hp : (serverRun cfg es).pending with
  | none =>
    rw [hp] at hfl
    exact absurd (by simpa using hfl) hw
  | some p =>
    obtain ⟨k, f⟩ := p
    rw [hp] at hfl
    have hk : k = h := by
      by_contra hne
      exact hw (by simpa [hne] using hfl)
    subst hk
    obtain ⟨hx, hq⟩ := server_waits cfg es k f hp
    have := hF.1.open_ k hx
    refine ⟨this.2, ?_⟩
    rw [← this.1, List.length_append, hq]; rfl

/-- **C153**, partial (server): as long as no task has ten messages to take, the loop waits for none: every decoded
    message has been handed over to its stream. Missing: with ten untaken messages of one stream all wait, see
    `C153_waiting_fails`. -/
theorem C153_server_partial (cfg : Cfg) (es : List Event)
    (hq : ∀ h, .rxGone h ∉ (serverRun cfg es).trace →
      (puts h (serverRun cfg es).trace).length < (received h (serverRun cfg es).trace).length + 10) (h : Nat) :
    attempts h (serverRun cfg es).trace = due (serverAccepts cfg) h (serverRun cfg es).trace := by
  by_contra hw
  have := C153_waits_for_full cfg es h hw
  have := hq h this.1
  omega

/-- **C153** (client): the client's loop waits for no stream: every message it has decoded has been handed over, or
    discarded, at once (what is discarded is the subject of C14). -/
theorem C153_client (cfg : Cfg) (q : List Frame) (es : List Event) (h : Nat) :
    attempts h (clientRun cfg q es).trace = due clientAccepts h (clientRun cfg q es).trace := by
  have hF : Flow clientAccepts (clientRun cfg q es) := (client_inv cfg q es).1
  have := hF.1.flow h
  rw [client_never_waits] at this
  simpa using this

-- eleven messages for one stream, and one for another: the latter waits with everything else, also when it is written
example : let s := serverRun ⟨none, none, []⟩ [.work 2 none, .work 4 none,
      .read ((List.range 11).flatMap fun n => wire (.data 2 [UInt8.ofNat n]))]
    s.phase = .running ∧ attempts 0 s.trace ≠ due (serverAccepts ⟨none, none, []⟩) 0 s.trace ∧
    (accepted s.trace).length = 2 ∧ written s.trace = [] := by
  refine ⟨by decide +kernel, by decide +kernel, by decide +kernel, by decide +kernel⟩

end Wm.Tunnel
