import Verif.Model.Relay
import Mathlib.Data.List.Induction
/-! Properties C19-C21: relaying a local connection through the tunnel. -/
namespace Wm.Relay
open Wm Wm.Prot

/-! ### Vocabulary: functions of the observable history -/

/-- bytes read from the local connection -/
def inputs (t : List Obs) : Bytes := t.flatMap fun | .input bs => bs | _ => []
/-- bytes written to the local connection -/
def outputs (t : List Obs) : Bytes := t.flatMap fun | .output bs => bs | _ => []
/-- messages handed over to the tunnel -/
def sends (t : List Obs) : List Frame := t.filterMap fun | .sent f => some f | _ => none
/-- messages received from the tunnel -/
def gots (t : List Obs) : List Frame := t.filterMap fun | .got f => some f | _ => none
/-- the payload of a data message -/
def payload : Frame → Bytes
  | .data _ d => d
  | _ => []

theorem inputs_snoc (t o) : inputs (t ++ [o]) = inputs t ++ inputs [o] := by simp [inputs]
theorem outputs_snoc (t o) : outputs (t ++ [o]) = outputs t ++ outputs [o] := by simp [outputs]
theorem sends_snoc (t o) : sends (t ++ [o]) = sends t ++ sends [o] := by simp [sends]
theorem gots_snoc (t o) : gots (t ++ [o]) = gots t ++ gots [o] := by simp [gots]

/-- the message is a data message of stream `id` -/
def IsData (id : Nat) (f : Frame) : Prop := ∃ d, f = .data id d

structure Inv (id : Nat) (s : St) : Prop where
  ident : s.id = id
  up : (sends s.trace).flatMap payload ++ s.link.flatMap payload ++ s.read = inputs s.trace
  down : outputs s.trace ++ s.write = (gots s.trace).flatMap payload
  link : ∀ f ∈ s.link, IsData id f
  sends : s.phase ≠ .done → ∀ f ∈ sends s.trace, IsData id f
  done : s.phase = .done → ∃ ds, (∀ f ∈ ds, IsData id f) ∧
    (Relay.sends s.trace = ds ++ [.close id []] ∨ (Relay.sends s.trace = ds ∧ s.alive = false))

theorem inv_top {id s} (h : Inv id s) (hr : s.phase = .running) : Inv id (top s) := by
  unfold top
  split
  · exact h
  · obtain ⟨h1, h2, h3, h4, h5, h6⟩ := h
    refine ⟨h1, ?_, h3, ?_, h5, h6⟩
    · simpa [payload] using h2
    · intro f hf
      simp only [List.mem_append, List.mem_singleton] at hf
      rcases hf with hf | rfl
      · exact h4 f hf
      · exact ⟨_, by rw [h1]⟩

theorem inv_branch {id s} (h : Inv id s) (hr : s.phase = .running) (e : Event) : Inv id (branch s e) := by
  obtain ⟨h1, h2, h3, h4, h5, h6⟩ := h
  have h5 := h5 (by simp [hr])
  have hstop : Inv id { s with phase := .closing } := ⟨h1, h2, h3, h4, fun _ => h5, by simp⟩
  cases e <;> simp only [branch]
  case read bs =>
    split
    · exact hstop
    · refine ⟨h1, ?_, ?_, h4, fun _ => ?_, ?_⟩
      · simp only [emit, sends_snoc, inputs_snoc, ← h2]; simp [Relay.sends, inputs]
      · simp only [emit, outputs_snoc, gots_snoc, List.flatMap_append, ← h3]; simp [gots, outputs]
      · simpa [emit, sends_snoc, Relay.sends] using h5
      · simp [emit, hr]
  case readEnd => exact hstop
  case wrote n =>
    split
    · exact ⟨h1, h2, h3, h4, fun _ => h5, h6⟩
    · refine ⟨h1, ?_, ?_, h4, fun _ => ?_, ?_⟩
      · simp only [emit, sends_snoc, inputs_snoc, ← h2]; simp [Relay.sends, inputs]
      · simp only [emit, outputs_snoc, gots_snoc, List.flatMap_append, ← h3]; simp [gots, outputs]
      · simpa [emit, sends_snoc, Relay.sends] using h5
      · simp [emit, hr]
  case writeErr =>
    split
    · exact ⟨h1, h2, h3, h4, fun _ => h5, h6⟩
    · exact hstop
  case recv f =>
    cases f with
    | none => exact hstop
    | some f =>
      have hup : (Relay.sends (s.trace ++ [.got f])).flatMap payload ++ s.link.flatMap payload ++ s.read
          = inputs (s.trace ++ [.got f]) := by
        simp only [sends_snoc, inputs_snoc, ← h2]; simp [Relay.sends, inputs]
      have hs : ∀ g ∈ Relay.sends (s.trace ++ [.got f]), IsData id g := by
        simpa [sends_snoc, Relay.sends] using h5
      have hd : outputs (s.trace ++ [.got f]) ++ (s.write ++ payload f)
          = (gots (s.trace ++ [.got f])).flatMap payload := by
        simp only [outputs_snoc, gots_snoc, List.flatMap_append, ← h3]; simp [gots, outputs]
      cases f <;> dsimp only
      case data i d => exact ⟨h1, hup, hd, h4, fun _ => hs, by simp [emit, hr]⟩
      all_goals
        refine ⟨h1, hup, ?_, h4, fun _ => hs, by simp [emit, hr]⟩
        simpa [payload, emit] using hd
  case slot =>
    cases hl : s.link with
    | nil => exact ⟨h1, h2, h3, h4, fun _ => h5, h6⟩
    | cons f l =>
      dsimp only
      split
      · refine ⟨h1, ?_, ?_, ?_, fun _ => ?_, by simp [emit, hr]⟩
        · simp only [emit, sends_snoc, inputs_snoc, List.flatMap_append, ← h2, hl]; simp [Relay.sends, inputs]
        · simp only [emit, outputs_snoc, gots_snoc, List.flatMap_append, ← h3]; simp [gots, outputs]
        · intro g hg; exact h4 g (by rw [hl]; exact List.mem_cons_of_mem _ hg)
        · intro g hg
          simp only [emit, sends_snoc, List.mem_append] at hg
          rcases hg with hg | hg
          · exact h5 g hg
          · simp [Relay.sends] at hg; subst hg; exact h4 _ (by simp [hl])
      · rw [← hl]; exact hstop
  case gone => exact ⟨h1, h2, h3, h4, fun _ => h5, by simp [hr]⟩

theorem inv_step {id s} (h : Inv id s) (e : Event) : Inv id (step s e) := by
  unfold step
  cases hp : s.phase with
  | running =>
    exact inv_branch (inv_top h hp) (by unfold top; split <;> exact hp) e
  | closing =>
    obtain ⟨h1, h2, h3, h4, h5, h6⟩ := h
    have h5 := h5 (by simp [hp])
    cases e <;> dsimp only
    case slot =>
      split
      · refine ⟨h1, ?_, ?_, h4, by simp [emit], fun _ => ⟨Relay.sends s.trace, h5, .inl ?_⟩⟩
        · simp only [emit, sends_snoc, inputs_snoc, List.flatMap_append, ← h2]; simp [Relay.sends, inputs, payload]
        · simp only [emit, outputs_snoc, gots_snoc, List.flatMap_append, ← h3]; simp [gots, outputs]
        · simp [emit, sends_snoc, Relay.sends, h1]
      · rename_i ha
        exact ⟨h1, h2, h3, h4, by simp, fun _ => ⟨Relay.sends s.trace, h5, .inr ⟨rfl, by simpa using ha⟩⟩⟩
    case gone => exact ⟨h1, h2, h3, h4, fun _ => h5, by simp [hp]⟩
    all_goals exact ⟨h1, h2, h3, h4, fun _ => h5, h6⟩
  | done => exact h

theorem run_inv (id : Nat) (es : List Event) : Inv id (run id es) := by
  have h0 : Inv id (init id) := ⟨rfl, rfl, rfl, by simp [init], by simp [init, Relay.sends], by simp [init]⟩
  unfold run
  generalize init id = s at h0
  induction es generalizing s with
  | nil => exact h0
  | cons e t ih => exact ih _ (inv_step h0 e)

theorem run_snoc (id : Nat) (es : List Event) (e : Event) : run id (es ++ [e]) = step (run id es) e := by
  simp [run]

theorem slot_nil {s : St} (h : s.link = []) : branch s .slot = s := by simp [branch, h]

theorem slot_cons {s : St} {f : Frame} {l : List Frame} (h : s.link = f :: l) (ha : s.alive = true) :
    branch s .slot = emit (.sent f) { s with link := l } := by simp [branch, h, ha]

theorem slot_dead {s : St} {f : Frame} {l : List Frame} (h : s.link = f :: l) (ha : s.alive = false) :
    branch s .slot = { s with phase := .closing } := by simp [branch, h, ha]

/-! ## C19 -/

/-- **C19** At every moment of every schedule: the data messages sent for the connection concatenate to a beginning of
    the bytes read from it; the bytes written to it are a beginning of the concatenated data messages received; and
    every message sent carries the stream's id. -/
theorem C19_bytes_preserved (id : Nat) (es : List Event) :
    (sends (run id es).trace).flatMap payload <+: inputs (run id es).trace ∧
    outputs (run id es).trace <+: (gots (run id es).trace).flatMap payload ∧
    (∀ f ∈ sends (run id es).trace, f.sockMap = id) := by
  have h := run_inv id es
  refine ⟨⟨_, by rw [← List.append_assoc]; exact h.up⟩, ⟨_, h.down⟩, ?_⟩
  have hd : ∀ f, IsData id f → f.sockMap = id := by rintro f ⟨d, rfl⟩; rfl
  by_cases hp : (run id es).phase = .done
  · obtain ⟨ds, h1, h2 | ⟨h2, _⟩⟩ := h.done hp
    · intro f hf
      rw [h2, List.mem_append, List.mem_singleton] at hf
      rcases hf with hf | rfl
      · exact hd f (h1 f hf)
      · rfl
    · rw [h2]; intro f hf; exact hd f (h1 f hf)
  · intro f hf; exact hd f (h.sends hp f hf)

example : let t := (run 7 [.read [1, 2], .recv (some (.data 7 [9, 8])), .slot, .read [3], .wrote 1, .slot, .wrote 5,
      .readEnd, .slot]).trace
    sends t = [.data 7 [1, 2], .data 7 [3], .close 7 []] ∧ outputs t = [9, 8] ∧ inputs t = [1, 2, 3] := by
  decide

/-! ## C20 -/

/-- **C20** At every moment the messages sent are data messages, followed by at most one close, which is sent exactly
    when the relay is over (unless the tunnel end no longer takes messages). -/
theorem C20_one_close (id : Nat) (es : List Event) :
    ∃ ds, (∀ f ∈ ds, IsData id f) ∧
      if (run id es).phase = .done then
        sends (run id es).trace = ds ++ [.close id []] ∨ (sends (run id es).trace = ds ∧ (run id es).alive = false)
      else sends (run id es).trace = ds := by
  have h := run_inv id es
  split
  · rename_i hp; exact h.done hp
  · rename_i hp; exact ⟨_, h.sends hp, rfl⟩

/-- **C20** However the loop is left (end of input, error, close or end of the incoming messages, tunnel gone), the
    next thing handed over to a living tunnel is the close, and nothing follows it. -/
theorem C20_close_is_sent_and_last (id : Nat) (es es' : List Event) (hc : (run id es).phase = .closing)
    (ha : (run id es).alive = true) :
    sends (run id (es ++ .slot :: es')).trace = sends (run id es).trace ++ [.close id []] := by
  have hid := (run_inv id es).ident
  have hstay : ∀ (es' : List Event) (s : St), s.phase = .done → es'.foldl step s = s := by
    intro es'
    induction es' with
    | nil => intro s _; rfl
    | cons e t ih =>
      intro s hs
      have : step s e = s := by simp [step, hs]
      rw [List.foldl_cons, this, ih s hs]
  have h1 : run id (es ++ .slot :: es') = es'.foldl step (step (run id es) .slot) := by simp [run]
  have h2 : step (run id es) .slot = emit (.sent (.close id [])) { run id es with phase := .done } := by
    simp [step, hc, ha, hid]
  rw [h1, h2, hstay _ _ rfl]
  simp [emit, sends]

/-- all the ways to leave the loop -/
theorem C20_ways_to_end (id : Nat) (es : List Event) (hr : (run id es).phase = .running) (e : Event)
    (he : e = .readEnd ∨ e = .recv none ∨ (∃ i r, e = .recv (some (.close i r))) ∨
      (∃ i d, e = .recv (some (.create i d))) ∨ (e = .writeErr ∧ outputs (run id es).trace
        ≠ (gots (run id es).trace).flatMap payload)) :
    (run id (es ++ [e])).phase = .closing := by
  have hs : run id (es ++ [e]) = branch (top (run id es)) e := by rw [run_snoc]; simp [step, hr]
  have hw : (top (run id es)).write = (run id es).write := by unfold top; split <;> rfl
  rw [hs]
  rcases he with rfl | rfl | ⟨i, r, rfl⟩ | ⟨i, r, rfl⟩ | ⟨rfl, hne⟩
  · rfl
  · rfl
  · rfl
  · rfl
  · have h := (run_inv id es).down
    have : (run id es).write ≠ [] := by intro hc; rw [hc, List.append_nil] at h; exact hne h
    simp [branch, hw, this]

example : (run 7 [.read [1], .slot, .recv (some (.close 7 []))]).phase = .closing := by decide

/-! ## C21 -/

/-- after the loop nothing but the close is sent, and nothing is written -/
theorem over_step {s : St} (h : s.phase ≠ .running) (e : Event) : (step s e).phase ≠ .running ∧
    (sends (step s e).trace).flatMap payload = (sends s.trace).flatMap payload ∧
    outputs (step s e).trace = outputs s.trace ∧ inputs (step s e).trace = inputs s.trace ∧
    gots (step s e).trace = gots s.trace := by
  unfold step
  cases hp : s.phase with
  | running => exact absurd hp h
  | done => exact ⟨by simp [hp], rfl, rfl, rfl, rfl⟩
  | closing =>
    cases e <;> dsimp only <;> first
      | exact ⟨by simp [hp], rfl, rfl, rfl, rfl⟩
      | skip
    split
    · refine ⟨by simp [emit], ?_, ?_, ?_, ?_⟩
      · simp only [emit, sends_snoc, List.flatMap_append]; simp [sends, payload]
      · simp only [emit, outputs_snoc]; simp [outputs]
      · simp only [emit, inputs_snoc]; simp [inputs]
      · simp only [emit, gots_snoc]; simp [gots]
    · exact ⟨by simp, rfl, rfl, rfl, rfl⟩

theorem over_run (es : List Event) : ∀ s : St, s.phase ≠ .running →
    (sends (es.foldl step s).trace).flatMap payload = (sends s.trace).flatMap payload ∧
    outputs (es.foldl step s).trace = outputs s.trace ∧ inputs (es.foldl step s).trace = inputs s.trace ∧
    gots (es.foldl step s).trace = gots s.trace := by
  induction es with
  | nil => intro s _; exact ⟨rfl, rfl, rfl, rfl⟩
  | cons e es ih =>
    intro s h
    obtain ⟨h1, h2, h3, h4, h5⟩ := over_step h e
    obtain ⟨i2, i3, i4, i5⟩ := ih _ h1
    exact ⟨i2.trans h2, i3.trans h3, i4.trans h4, i5.trans h5⟩

theorem top_same (s : St) : (top s).trace = s.trace ∧ (top s).phase = s.phase ∧ (top s).write = s.write ∧
    (top s).alive = s.alive := by
  unfold top; split <;> exact ⟨rfl, rfl, rfl, rfl⟩

/-- **C21** fails upwards, in every case: when the local side half-closes, the bytes that were read and not yet sent are
    never sent, whatever the tunnel does afterwards. -/
theorem C21_half_close_loses_input_fails (id : Nat) (es es' : List Event) (hr : (run id es).phase = .running)
    (hb : (sends (run id es).trace).flatMap payload ≠ inputs (run id es).trace) :
    (sends (run id (es ++ .readEnd :: es')).trace).flatMap payload = (sends (run id es).trace).flatMap payload ∧
    inputs (run id (es ++ .readEnd :: es')).trace = inputs (run id es).trace ∧
    (sends (run id (es ++ .readEnd :: es')).trace).flatMap payload ≠ inputs (run id (es ++ .readEnd :: es')).trace := by
  have e1 : run id (es ++ .readEnd :: es') = es'.foldl step (step (run id es) .readEnd) := by simp [run]
  have e2 : step (run id es) .readEnd = { top (run id es) with phase := .closing } := by simp [step, hr, branch]
  have ht := (top_same (run id es)).1
  obtain ⟨h1, _, h3, _⟩ := over_run es' (step (run id es) .readEnd) (by rw [e2]; simp)
  rw [← e1, e2] at h1 h3
  simp only [ht] at h1 h3
  exact ⟨h1, h3, by rw [h1, h3]; exact hb⟩

/-- **C21** fails downwards, in every case: when the close arrives, the bytes that were received and not yet written are
    never written, whatever the local side does afterwards. -/
theorem C21_close_loses_output_fails (id : Nat) (es es' : List Event) (r : Text) (hr : (run id es).phase = .running)
    (hb : outputs (run id es).trace ≠ (gots (run id es).trace).flatMap payload) :
    outputs (run id (es ++ .recv (some (.close id r)) :: es')).trace = outputs (run id es).trace ∧
    (gots (run id (es ++ .recv (some (.close id r)) :: es')).trace).flatMap payload
      = (gots (run id es).trace).flatMap payload ∧
    outputs (run id (es ++ .recv (some (.close id r)) :: es')).trace
      ≠ (gots (run id (es ++ .recv (some (.close id r)) :: es')).trace).flatMap payload := by
  have e1 : run id (es ++ .recv (some (.close id r)) :: es')
      = es'.foldl step (step (run id es) (.recv (some (.close id r)))) := by simp [run]
  have e2 : step (run id es) (.recv (some (.close id r)))
      = { emit (.got (.close id r)) (top (run id es)) with phase := .closing } := by simp [step, hr, branch]
  have ht := (top_same (run id es)).1
  obtain ⟨_, h2, _, h4⟩ := over_run es' (step (run id es) (.recv (some (.close id r)))) (by rw [e2]; simp)
  rw [← e1, e2] at h2 h4
  simp only [emit, ht, outputs_snoc, gots_snoc] at h2 h4
  have h2' : outputs (run id (es ++ .recv (some (.close id r)) :: es')).trace = outputs (run id es).trace := by
    rw [h2]; simp [outputs]
  have h4' : (gots (run id (es ++ .recv (some (.close id r)) :: es')).trace).flatMap payload
      = (gots (run id es).trace).flatMap payload := by rw [h4]; simp [gots, payload]
  exact ⟨h2', h4', by rw [h2', h4']; exact hb⟩

example :
    let s := run 7 [.read [1, 2, 3], .readEnd, .slot, .slot, .slot]
    s.phase = .done ∧ s.alive = true ∧ inputs s.trace = [1, 2, 3] ∧ sends s.trace = [.close 7 []] := by decide

example :
    let s := run 7 [.recv (some (.data 7 [1, 2, 3])), .recv (some (.close 7 [])), .wrote 3, .slot, .wrote 3]
    s.phase = .done ∧ s.alive = true ∧ gots s.trace = [.data 7 [1, 2, 3], .close 7 []] ∧ outputs s.trace = [] := by
  decide

/-- number of chunks read so far -/
def chunks (t : List Obs) : Nat := (t.filter fun | .input _ => true | _ => false).length

theorem link_short (id : Nat) (es : List Event) :
    (run id es).link.length + (if (run id es).read = [] then 0 else 1) ≤ chunks (run id es).trace := by
  have key : ∀ (s : St) (e : Event), s.link.length + (if s.read = [] then 0 else 1) ≤ chunks s.trace →
      (step s e).link.length + (if (step s e).read = [] then 0 else 1) ≤ chunks (step s e).trace := by
    intro s e h
    have hsn : ∀ t o, chunks (t ++ [o]) = chunks t + chunks [o] := by intro t o; simp [chunks]
    unfold step
    cases hp : s.phase with
    | running =>
      have ht : (top s).read = [] ∧ (top s).link.length ≤ chunks (top s).trace := by
        unfold top
        split
        · rename_i hr; simp [hr] at h; exact ⟨hr, h⟩
        · rename_i hr; simp [hr] at h; simpa using h
      generalize top s = s at ht
      obtain ⟨h1, h2⟩ := ht
      by_cases hes : e = .slot
      · subst hes
        cases hl : s.link with
        | nil => rw [slot_nil hl]; simpa [h1] using h2
        | cons f l =>
          have h3 := h2
          rw [hl] at h3; simp at h3
          cases ha : s.alive with
          | true => rw [slot_cons hl ha]; simp [emit, hsn, h1]; omega
          | false => rw [slot_dead hl ha]; simpa [h1] using h2
      cases e <;> simp only [branch]
      case read bs =>
        split
        · simpa [h1] using h2
        · rename_i hb
          simp only [emit, hsn, h1, List.nil_append, hb, if_false]
          simp [chunks] at *; omega
      case wrote n => split <;> simp [emit, hsn, h1, h2, chunks] at * <;> omega
      case writeErr => split <;> simpa [h1] using h2
      case recv f =>
        cases f with
        | none => simpa [h1] using h2
        | some f => cases f <;> simp [emit, hsn, h1] <;> omega
      case slot => exact absurd rfl hes
      all_goals simpa [h1] using h2
    | closing =>
      cases e <;> dsimp only
      case slot =>
        split
        · simp only [emit, hsn]; exact Nat.le_trans h (Nat.le_add_right _ _)
        · exact h
      all_goals exact h
    | done => exact h
  have h0 : (init id).link.length + (if (init id).read = [] then 0 else 1) ≤ chunks (init id).trace := by
    simp [init]
  unfold run
  generalize init id = s at h0
  induction es generalizing s with
  | nil => exact h0
  | cons e t ih => exact ih _ (key _ _ h0)

/-- **C21**, partial (upwards): if the tunnel takes as many messages as chunks were read before the local side
    half-closes, then every byte read has been sent when the relay ends. Missing: without that time the remaining
    chunks are lost, see `C21_half_close_loses_input_fails`. -/
theorem C21_sent_when_tunnel_keeps_up_partial (id : Nat) (es : List Event) (n : Nat)
    (hr : (run id es).phase = .running) (ha : (run id es).alive = true) (hn : chunks (run id es).trace ≤ n) :
    let s := run id (es ++ List.replicate n .slot ++ [.readEnd])
    s.phase = .closing ∧ (sends s.trace).flatMap payload = inputs s.trace := by
  have key : ∀ (n : Nat) (s : St), s.phase = .running → s.alive = true →
      s.link.length + (if s.read = [] then 0 else 1) ≤ n →
      ((List.replicate n Event.slot).foldl step s).phase = .running ∧
      ((List.replicate n Event.slot).foldl step s).link = [] ∧
      ((List.replicate n Event.slot).foldl step s).read = [] := by
    intro n
    induction n with
    | zero =>
      intro s h1 h2 h3
      have hl : s.link = [] := by
        cases h : s.link with
        | nil => rfl
        | cons a l => rw [h] at h3; simp at h3
      have hrd : s.read = [] := by
        by_contra hc; simp [hc] at h3
      exact ⟨h1, hl, hrd⟩
    | succ n ih =>
      intro s h1 h2 h3
      rw [List.replicate_succ, List.foldl_cons]
      have ht : (top s).read = [] ∧ (top s).link.length ≤ n + 1 ∧ (top s).phase = .running ∧ (top s).alive = true := by
        unfold top
        split
        · rename_i hrd; simp [hrd] at h3; exact ⟨hrd, h3, h1, h2⟩
        · rename_i hrd; simp [hrd] at h3; exact ⟨rfl, by simp; omega, h1, h2⟩
      have hst : step s .slot = branch (top s) .slot := by simp [step, h1]
      rw [hst]
      generalize top s = u at ht
      obtain ⟨t1, t2, t3, t4⟩ := ht
      cases hl : u.link with
      | nil => rw [slot_nil hl]; exact ih u t3 t4 (by simp [hl, t1])
      | cons f l =>
        rw [slot_cons hl t4]
        rw [hl] at t2
        simp at t2
        exact ih _ t3 t4 (by simp [emit, t1, t2])
  have hk := key n (run id es) hr ha (Nat.le_trans (link_short id es) hn)
  have hrun : (List.replicate n Event.slot).foldl step (run id es) = run id (es ++ List.replicate n .slot) := by
    simp [run]
  rw [hrun] at hk
  have hfin : run id (es ++ List.replicate n .slot ++ [.readEnd])
      = { run id (es ++ List.replicate n .slot) with phase := .closing } := by
    have : run id (es ++ List.replicate n .slot ++ [.readEnd])
        = step (run id (es ++ List.replicate n .slot)) .readEnd := by simp [run]
    rw [this]
    simp [step, hk.1, top, hk.2.2, branch]
  intro s
  have hs : s = { run id (es ++ List.replicate n .slot) with phase := .closing } := hfin
  rw [hs]
  refine ⟨rfl, ?_⟩
  have := (run_inv id (es ++ List.replicate n .slot)).up
  rw [hk.2.1, hk.2.2] at this
  simpa using this

/-- **C21**, partial (downwards): if the local connection accepts all outstanding bytes before the close is processed,
    everything received has been written. Missing: see `C21_close_loses_output_fails`. -/
theorem C21_written_when_local_keeps_up_partial (id : Nat) (es : List Event) (n : Nat)
    (hr : (run id es).phase = .running) (hn : ((gots (run id es).trace).flatMap payload).length ≤ n) :
    let s := run id (es ++ [.wrote n, .recv (some (.close id []))])
    s.phase = .closing ∧ outputs s.trace = (gots s.trace).flatMap payload := by
  have hd := (run_inv id (es ++ [.wrote n, .recv (some (.close id []))])).down
  have hd0 := (run_inv id es).down
  have hlen : (run id es).write.length ≤ n := by
    have := congrArg List.length hd0; rw [List.length_append] at this; omega
  have e1 : run id (es ++ [.wrote n]) = branch (top (run id es)) (.wrote n) := by
    rw [run_snoc]; simp [step, hr]
  have e2 : (run id (es ++ [.wrote n])).phase = .running ∧ (run id (es ++ [.wrote n])).write = [] := by
    rw [e1]
    have hw : (top (run id es)).write = (run id es).write ∧ (top (run id es)).phase = .running := by
      unfold top; split <;> exact ⟨rfl, hr⟩
    simp only [branch]
    split
    · rename_i hc; exact ⟨hw.2, hc⟩
    · exact ⟨hw.2, by simp [emit, hw.1, hlen]⟩
  have e3 : run id (es ++ [.wrote n, .recv (some (.close id []))])
      = branch (top (run id (es ++ [.wrote n]))) (.recv (some (.close id []))) := by
    have : es ++ [.wrote n, .recv (some (.close id []))] = (es ++ [.wrote n]) ++ [.recv (some (.close id []))] := by simp
    rw [this, run_snoc]; simp [step, e2.1]
  intro s
  have hw : (run id (es ++ [.wrote n, .recv (some (.close id []))])).write = [] := by
    rw [e3]
    have : (top (run id (es ++ [.wrote n]))).write = [] := by unfold top; split <;> exact e2.2
    simpa [branch, emit] using this
  refine ⟨by show (run id _).phase = _; rw [e3]; rfl, ?_⟩
  rw [hw, List.append_nil] at hd
  exact hd

example : (run 7 [.read [1], .recv (some (.data 7 [5]))]).phase = .running := by decide

/-! ## C154 -/

/-- the pieces read from the local connection -/
def pieces (t : List Obs) : List Bytes := t.filterMap fun | .input bs => some bs | _ => none

theorem pieces_snoc (t o) : pieces (t ++ [o]) = pieces t ++ pieces [o] := by simp [pieces]

/-- **C154** fails towards the tunnel: a relay goes on reading while the tunnel takes nothing, in every state and for
    every sequence of pieces; all that was read is kept. -/
theorem C154_reads_on_fails (id : Nat) (es : List Event) (hr : (run id es).phase = .running) (ps : List Bytes)
    (hp : ∀ p ∈ ps, p ≠ []) :
    (run id (es ++ ps.map .read)).phase = .running ∧
    sends (run id (es ++ ps.map .read)).trace = sends (run id es).trace ∧
    inputs (run id (es ++ ps.map .read)).trace = inputs (run id es).trace ++ ps.flatten := by
  induction ps using List.reverseRecOn with
  | nil => simpa using hr
  | append_singleton ps p ih =>
    obtain ⟨h1, h2, h3⟩ := ih (fun x hx => hp x (by simp [hx]))
    have e : run id (es ++ (ps ++ [p]).map .read) = step (run id (es ++ ps.map .read)) (.read p) := by
      rw [List.map_append, ← List.append_assoc, List.map_singleton, run_snoc]
    have hpe : p ≠ [] := hp p (by simp)
    have ht := top_same (run id (es ++ ps.map .read))
    have e2 : step (run id (es ++ ps.map .read)) (.read p) = emit (.input p)
        { top (run id (es ++ ps.map .read)) with read := (top (run id (es ++ ps.map .read))).read ++ p } := by
      simp [step, h1, branch, hpe]
    rw [e, e2]
    refine ⟨by show (top _).phase = _; rw [ht.2.1, h1], ?_, ?_⟩
    · simp only [emit, sends_snoc, ht.1, h2]; simp [sends]
    · simp only [emit, inputs_snoc, ht.1, h3]; simp [inputs]

/-- **C154** fails towards the local connection: a relay goes on taking messages while the local side takes nothing, in
    every state and for every sequence of messages; all their bytes are kept. -/
theorem C154_takes_on_fails (id : Nat) (es : List Event) (hr : (run id es).phase = .running) (ds : List Bytes) :
    (run id (es ++ ds.map fun d => .recv (some (.data id d)))).phase = .running ∧
    outputs (run id (es ++ ds.map fun d => .recv (some (.data id d)))).trace = outputs (run id es).trace ∧
    (gots (run id (es ++ ds.map fun d => .recv (some (.data id d)))).trace).flatMap payload
      = (gots (run id es).trace).flatMap payload ++ ds.flatten := by
  induction ds using List.reverseRecOn with
  | nil => simpa using hr
  | append_singleton ds d ih =>
    obtain ⟨h1, h2, h3⟩ := ih
    have e : run id (es ++ (ds ++ [d]).map fun d => .recv (some (.data id d)))
        = step (run id (es ++ ds.map fun d => .recv (some (.data id d)))) (.recv (some (.data id d))) := by
      rw [List.map_append, ← List.append_assoc, List.map_singleton, run_snoc]
    have ht := top_same (run id (es ++ ds.map fun d => .recv (some (.data id d))))
    rw [e]
    generalize run id (es ++ ds.map fun d => .recv (some (.data id d))) = s at *
    have e2 : step s (.recv (some (.data id d))) = { emit (.got (.data id d)) (top s) with write := (top s).write ++ d } := by
      simp [step, h1, branch, emit]
    rw [e2]
    refine ⟨by show (top _).phase = _; rw [ht.2.1, h1], ?_, ?_⟩
    · simp only [emit, outputs_snoc, ht.1, h2]; simp [outputs]
    · simp only [emit, gots_snoc, ht.1, List.flatMap_append, h3]; simp [gots, payload]

/-- while the relay runs, each message is one piece that was read, in order; the others are kept -/
structure Piecewise (s : St) : Prop where
  kept : (sends s.trace).map payload ++ s.link.map payload ++ (if s.read = [] then [] else [s.read]) = pieces s.trace

theorem piecewise_step {s : St} (h : s.phase = .running → Piecewise s) (e : Event) :
    (step s e).phase = .running → Piecewise (step s e) := by
  intro hr'
  have hr : s.phase = .running := by
    cases hp : s.phase with
    | running => rfl
    | done => simp [step, hp] at hr'
    | closing => exact absurd hr' (over_step (by simp [hp]) e).1
  obtain ⟨hk⟩ := h hr
  have ht : (top s).phase = .running ∧ (top s).read = [] ∧
      (sends (top s).trace).map payload ++ (top s).link.map payload = pieces (top s).trace := by
    unfold top
    split
    · rename_i he; rw [if_pos he] at hk; exact ⟨hr, he, by simpa using hk⟩
    · rename_i he; rw [if_neg he] at hk
      refine ⟨hr, rfl, ?_⟩
      rw [← hk]; simp [payload]
  rw [show step s e = branch (top s) e by simp [step, hr]] at hr' ⊢
  generalize top s = u at *
  obtain ⟨t1, t2, t3⟩ := ht
  cases e <;> simp only [branch] at hr' ⊢
  case read bs =>
    split at hr'
    · simp at hr'
    · rename_i hb
      rw [if_neg hb]
      constructor
      simp only [emit, sends_snoc, pieces_snoc, t2, List.nil_append, if_neg hb, List.map_append, ← t3]
      simp [sends, pieces]
  case readEnd => simp at hr'
  case wrote n =>
    split
    · exact ⟨by simp [t2, t3]⟩
    · constructor
      simp only [emit, sends_snoc, pieces_snoc, t2, List.map_append, ← t3]
      simp [sends, pieces]
  case writeErr =>
    split at hr'
    · rename_i hw; rw [if_pos hw]; exact ⟨by simp [t2, t3]⟩
    · simp at hr'
  case recv f =>
    cases f with
    | none => simp at hr'
    | some f =>
      have hkeep : ∀ w, Piecewise { emit (.got f) u with write := w } := fun w => by
        constructor
        simp only [emit, sends_snoc, pieces_snoc, t2, List.map_append, ← t3]
        simp [sends, pieces]
      cases f <;> dsimp only at hr' ⊢ <;> first
        | (simp at hr')
        | exact hkeep _
  case slot =>
    cases hl : u.link with
    | nil => exact ⟨by simp [t2, t3]⟩
    | cons f l =>
      simp only [hl] at hr' ⊢
      split at hr'
      · rename_i ha
        rw [if_pos ha]
        constructor
        simp only [emit, sends_snoc, pieces_snoc, t2, List.map_append, ← t3, hl]
        simp [sends, pieces]
      · simp at hr'
  case gone => exact ⟨by simp [t2, t3]⟩

theorem run_piecewise (id : Nat) (es : List Event) : (run id es).phase = .running → Piecewise (run id es) := by
  induction es using List.reverseRecOn with
  | nil => intro _; exact ⟨rfl⟩
  | append_singleton es e ih => rw [run_snoc]; exact piecewise_step ih e

/-- **C154**, partial: at every moment the messages sent for a running relay are the first pieces that were read, one
    message for each, unaltered; so when the tunnel is at most `k` messages behind, at most `k` pieces are kept (each of
    at most 20480 bytes, the size of the read buffer). Missing: nothing keeps the number of waiting pieces small, see
    `C154_reads_on_fails`. -/
theorem C154_pieces_partial (id : Nat) (es : List Event) (hr : (run id es).phase = .running) (k : Nat)
    (hk : (pieces (run id es).trace).length ≤ (sends (run id es).trace).length + k)
    (hp : ∀ p ∈ pieces (run id es).trace, p.length ≤ 20480) :
    (sends (run id es).trace).map payload <+: pieces (run id es).trace ∧
    ∃ kept, inputs (run id es).trace = (sends (run id es).trace).flatMap payload ++ kept ∧ kept.length ≤ k * 20480 := by
  have hw := (run_piecewise id es hr).kept
  have hin : ∀ t : List Obs, inputs t = (pieces t).flatten := by
    intro t
    induction t with
    | nil => rfl
    | cons o t ih =>
      cases o <;> simp_all [inputs, pieces]
  obtain ⟨rest, hrest⟩ : (sends (run id es).trace).map payload <+: pieces (run id es).trace :=
    ⟨_, by rw [← hw, List.append_assoc]⟩
  refine ⟨⟨rest, hrest⟩, rest.flatten, ?_, ?_⟩
  · rw [hin, ← hrest, List.flatten_append, List.flatMap_def]
  · have hl : rest.length ≤ k := by rw [← hrest] at hk; simp at hk; omega
    have hp' : ∀ p ∈ rest, p.length ≤ 20480 := fun p h => hp p (by rw [← hrest]; simp [h])
    clear hrest hk hp
    induction rest generalizing k with
    | nil => simp
    | cons p rest ih =>
      cases k with
      | zero => simp at hl
      | succ k =>
        have := ih k (by simpa using hl) (fun x hx => hp' x (by simp [hx]))
        have := hp' p (by simp)
        simp only [List.flatten_cons, List.length_append, Nat.succ_mul]
        omega

example : let s := run 7 [.read [1, 2], .slot, .read [3], .read [4]]
    s.phase = .running ∧ pieces s.trace = [[1, 2], [3], [4]] ∧ sends s.trace = [.data 7 [1, 2]] := by decide

end Wm.Relay
