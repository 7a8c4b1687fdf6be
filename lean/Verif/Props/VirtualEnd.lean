import Verif.Props.Virtual

/-! Property C22, continued: a reader that goes on reading gets all bytes, and is told the end. -/

namespace Wm.Virtual
open Wm Wm.Prot

/-- successive reads with buffers of these sizes -/
def reads (ns : List Nat) : List Event := ns.map Event.read

theorem run_append (id : Nat) (es fs : List Event) : run id (es ++ fs) = fs.foldl step (run id es) := by simp [run]

/-! ### the end -/

/-- the messages taken from the channel contain no end, unless it was reported; the channel is closed for good -/
def EInv (es : List Event) (s : St) : Prop :=
  (∃ c, arrivals s.trace = c ++ s.inbox ∧ ((∀ f ∈ c, isEnd f = false) ∨ .eof ∈ s.trace)) ∧ (.close ∈ es → s.closed = true)

theorem EInv.apart {es : List Event} {s s' : St} (h : EInv es s) (e : Event) (he : e ≠ .close) (u : List Obs)
    (hu : ∀ o ∈ u, Apart o) (ht : s'.trace = s.trace ++ u) (hi : s'.inbox = s.inbox) (hc : s'.closed = s.closed) :
    EInv (es ++ [e]) s' := by
  have h1 : arrivals u = [] := by
    refine List.filterMap_eq_nil_iff.2 fun o ho => ?_
    have := hu o ho; cases o <;> simp_all [Apart]
  obtain ⟨⟨c, h2, h3⟩, h4⟩ := h
  refine ⟨⟨c, ?_, ?_⟩, ?_⟩
  · rw [ht, hi]; simp only [arrivals, List.filterMap_append] at *; rw [h1, List.append_nil]; exact h2
  · rcases h3 with h3 | h3
    · exact .inl h3
    · exact .inr (by rw [ht]; simp [h3])
  · intro hm
    rw [hc]
    refine h4 ?_
    simpa [Ne.symm he] using hm

theorem EInv.step {es : List Event} {s : St} (h : EInv es s) (e : Event) : EInv (es ++ [e]) (Virtual.step s e) := by
  cases e with
  | arrive f =>
    simp only [Virtual.step]
    split
    · rename_i hc; exact ⟨h.1, fun _ => hc⟩
    · obtain ⟨⟨c, h2, h3⟩, h4⟩ := h
      refine ⟨⟨c, ?_, ?_⟩, ?_⟩
      · simp only [emit, arrivals_snoc, h2]; simp [arrivals]
      · rcases h3 with h3 | h3
        · exact .inl h3
        · exact .inr (by simp [emit, h3])
      · intro hm; exact h4 (by simpa using hm)
  | close => exact ⟨h.1, fun _ => rfl⟩
  | write bs o =>
    obtain ⟨u, h1, h2, h3, -, h5⟩ := write_apart bs o s
    exact h.apart _ (by simp) u h2 h1 h3 h5
  | flush o =>
    obtain ⟨u, h1, h2, h3, -, h5⟩ := flush_apart o s
    exact h.apart _ (by simp) u h2 h1 h3 h5
  | read n =>
    simp only [Virtual.step]
    obtain ⟨⟨c, h2, h3⟩, h4⟩ := h
    have hcl : ∀ {s' : St}, s'.closed = s.closed → (.close ∈ es ++ [Event.read n] → s'.closed = true) := by
      intro s' he hm; rw [he]; exact h4 (by simpa using hm)
    cases pollRead_result n s with
    | wait i1 i2 i3 i4 i5 i6 i7 =>
      refine ⟨⟨c ++ s.inbox, ?_, ?_⟩, hcl i6⟩
      · rw [i7, arrivals_snoc, h2, i4]; simp [arrivals]
      · rw [i7]
        rcases h3 with h3 | h3
        · refine .inl fun f hf => ?_
          rcases List.mem_append.1 hf with hf | hf
          · exact h3 f hf
          · exact (i1 f hf).1
        · exact .inr (by simp [h3])
    | bytes c' i1 i2 i3 i4 i5 i6 i7 =>
      refine ⟨⟨c ++ c', ?_, ?_⟩, hcl i5⟩
      · rw [i7, arrivals_snoc, h2, i1]; simp [arrivals]
      · rw [i7]
        rcases h3 with h3 | h3
        · refine .inl fun f hf => ?_
          rcases List.mem_append.1 hf with hf | hf
          · exact h3 f hf
          · exact i2 f hf
        · exact .inr (by simp [h3])
    | endClose c' f i1 i2 i3 i4 i5 i6 =>
      refine ⟨⟨c ++ c' ++ [f], ?_, .inr (by rw [i6]; simp)⟩, hcl i5⟩
      rw [i6, arrivals_snoc, h2, i1]; simp [arrivals]
    | endChan c' i1 i2 i3 i4 i5 i6 i7 =>
      refine ⟨⟨c ++ s.inbox, ?_, .inr (by rw [i7]; simp)⟩, hcl i6⟩
      rw [i7, arrivals_snoc, h2, i2]; simp [arrivals]

theorem run_einv (id : Nat) (es : List Event) : EInv es (run id es) := by
  induction es using List.reverseRecOn with
  | nil => exact ⟨⟨[], rfl, .inl (by simp)⟩, fun h => by cases h⟩
  | append_singleton es e ih => rw [run_snoc]; exact ih.step e

theorem read_trace (n : Nat) (s : St) : ∃ o, (pollRead n s).trace = s.trace ++ [o] := by
  cases pollRead_result n s with
  | wait _ _ _ _ _ _ h => exact ⟨_, h⟩
  | bytes _ _ _ _ _ _ _ h => exact ⟨_, h⟩
  | endClose _ _ _ _ _ _ _ h => exact ⟨_, h⟩
  | endChan _ _ _ _ _ _ _ h => exact ⟨_, h⟩

theorem reads_trace (ns : List Nat) (s : St) : ∃ u, ((reads ns).foldl step s).trace = s.trace ++ u := by
  induction ns generalizing s with
  | nil => exact ⟨[], by simp [reads]⟩
  | cons n ns ih =>
    obtain ⟨o, ho⟩ := read_trace n s
    obtain ⟨u, hu⟩ := ih (pollRead n s)
    exact ⟨o :: u, by
      show ((reads ns).foldl step (pollRead n s)).trace = _
      rw [hu, ho]; simp⟩

/-- a read takes a message, if there is one -/
theorem read_takes (n : Nat) (s : St) (h : s.inbox ≠ []) : (pollRead n s).inbox.length < s.inbox.length := by
  induction hl : s.inbox.length using Nat.strongRecOn generalizing s with
  | _ k ih =>
    rw [pollRead]
    split
    · rename_i hb; exact absurd hb h
    · rename_i f rest hb
      have hk : k = rest.length + 1 := by rw [← hl, hb]; rfl
      have hskip : ∀ s1 : St, s1.inbox = rest → (pollRead n s1).inbox.length < k := by
        intro s1 h1
        by_cases hr : rest = []
        · have h0 : s1.inbox = [] := by rw [h1, hr]
          rw [pollRead]
          split
          · split
            · simp only [emit, h0]; simp; omega
            · split
              · simp only [emit, h0]; simp; omega
              · simp only [copyOut, emit, h0]; simp; omega
          · rename_i hb'; rw [h0] at hb'; cases hb'
        · have := ih rest.length (by omega) s1 (by rw [h1]; exact hr) (by rw [h1])
          omega
      cases f with
      | create i d => simp only [emit]; omega
      | close i d => simp only [emit]; omega
      | data i d =>
        dsimp only
        split
        · exact hskip _ rfl
        · simp only [copyOut, emit]; omega
      | token u p =>
        dsimp only
        split
        · exact hskip _ rfl
        · simp only [copyOut, emit]; omega
      | mapping i ms =>
        dsimp only
        split
        · exact hskip _ rfl
        · simp only [copyOut, emit]; omega

theorem end_told (ns : List Nat) (s : St) (h : s.closed = true ∨ ∃ f ∈ s.inbox, isEnd f = true) (hn : s.inbox.length < ns.length) :
    .eof ∈ ((reads ns).foldl step s).trace := by
  induction ns generalizing s with
  | nil => simp at hn
  | cons n ns ih =>
    show .eof ∈ ((reads ns).foldl step (pollRead n s)).trace
    by_cases he : .eof ∈ (pollRead n s).trace
    · obtain ⟨u, hu⟩ := reads_trace ns (pollRead n s)
      rw [hu]; simp [he]
    · have hi : s.inbox ≠ [] := by
        rintro hi
        refine he ?_
        rcases h with h | ⟨f, hf, _⟩
        · rw [pollRead]
          split
          · rw [if_pos h]; simp [emit]
          · rename_i hb; rw [hi] at hb; cases hb
        · rw [hi] at hf; cases hf
      have hlt := read_takes n s hi
      refine ih (pollRead n s) ?_ (by simp at hn; omega)
      cases pollRead_result n s with
      | wait i1 i2 i3 i4 i5 i6 i7 =>
        rcases h with h | ⟨f, hf, h2⟩
        · rw [h] at i2; cases i2
        · rw [(i1 f hf).1] at h2; cases h2
      | bytes c' i1 i2 i3 i4 i5 i6 i7 =>
        rcases h with h | ⟨f, hf, h2⟩
        · exact .inl (i5.trans h)
        · refine .inr ⟨f, ?_, h2⟩
          rw [i1] at hf
          rcases List.mem_append.1 hf with hf | hf
          · rw [i2 f hf] at h2; cases h2
          · exact hf
      | endClose c' f i1 i2 i3 i4 i5 i6 => rw [i6] at he; simp at he
      | endChan c' i1 i2 i3 i4 i5 i6 i7 => rw [i7] at he; simp at he

/-- **C22** (end) Once a message has arrived that ends the stream, or the tunnel has gone, a reader that goes on reading is told the
    end: at the latest by one read more than messages have arrived. -/
theorem C22_end_told (id : Nat) (es : List Event) (ns : List Nat)
    (h : .close ∈ es ∨ ∃ f ∈ arrivals (run id es).trace, isEnd f = true)
    (hn : (arrivals (run id es).trace).length < ns.length) :
    .eof ∈ (run id (es ++ reads ns)).trace := by
  obtain ⟨⟨c, h2, h3⟩, h4⟩ := run_einv id es
  rw [run_append]
  by_cases he : .eof ∈ (run id es).trace
  · obtain ⟨u, hu⟩ := reads_trace ns (run id es)
    rw [hu]; simp [he]
  · refine end_told ns _ ?_ (by rw [h2] at hn; simp at hn; omega)
    rcases h with h | ⟨f, hf, h5⟩
    · exact .inl (h4 h)
    · refine .inr ⟨f, ?_, h5⟩
      rw [h2] at hf
      rcases List.mem_append.1 hf with hf | hf
      · rw [(h3.resolve_right he) f hf] at h5; cases h5
      · exact hf

example : .eof ∈ (run 5 ([.arrive (.data 5 [1, 2]), .close] ++ reads [1, 1])).trace :=
  C22_end_told 5 [.arrive (.data 5 [1, 2]), .close] [1, 1] (.inl (by simp)) (by decide)

/-! ### the bytes -/

/-- nothing has ended the stream -/
def Unended (es : List Event) : Prop := .close ∉ es ∧ ∀ f, Event.arrive f ∈ es → isEnd f = false

/-- all that arrived was returned or is still there, and nothing that is there ends the stream -/
def OInv (s : St) : Prop :=
  returns s.trace ++ (s.read ++ s.inbox.flatMap payload) = (arrivals s.trace).flatMap payload ∧
  (∀ f ∈ s.inbox, isEnd f = false) ∧ s.closed = false

theorem OInv.read {s : St} (h : OInv s) (n : Nat) : OInv (pollRead n s) := by
  obtain ⟨h1, h2, h3⟩ := h
  cases pollRead_result n s with
  | wait i1 i2 i3 i4 i5 i6 i7 =>
    refine ⟨?_, by simp [i4], by rw [i6, h3]⟩
    have : s.inbox.flatMap payload = [] := List.flatMap_eq_nil_iff.2 fun f hf => (i1 f hf).2
    rw [i7, returns_snoc, arrivals_snoc, i4, i5]
    rw [this, i3] at h1
    simpa [returns, arrivals] using h1
  | bytes c' i1 i2 i3 i4 i5 i6 i7 =>
    refine ⟨?_, fun f hf => h2 f (by rw [i1]; simp [hf]), by rw [i5, h3]⟩
    rw [i7, returns_snoc, arrivals_snoc, i6]
    rw [i1, List.flatMap_append] at h1
    simp only [returns, arrivals, List.flatMap_cons, List.flatMap_nil, List.append_nil, List.filterMap_cons, List.filterMap_nil] at h1 ⊢
    rw [← h1]
    simp only [List.append_assoc]
    rw [← List.append_assoc (List.take _ _), List.take_append_drop]
    simp
  | endClose c' f i1 i2 i3 i4 i5 i6 => exact absurd (h2 f (by rw [i1]; simp)) (by rw [i3]; simp)
  | endChan c' i1 i2 i3 i4 i5 i6 i7 => rw [h3] at i4; cases i4

theorem run_oinv (id : Nat) (es : List Event) (h : Unended es) : OInv (run id es) := by
  induction es using List.reverseRecOn with
  | nil => exact ⟨rfl, by simp [run, init], rfl⟩
  | append_singleton es e ih =>
    have hi := ih ⟨fun hm => h.1 (by simp [hm]), fun f hf => h.2 f (by simp [hf])⟩
    rw [run_snoc]
    have hap : ∀ (s' : St) (u : List Obs), s'.trace = (run id es).trace ++ u → (∀ o ∈ u, Apart o) → s'.inbox = (run id es).inbox →
        s'.read = (run id es).read → s'.closed = (run id es).closed → OInv s' := by
      intro s' u ht hu h3 h4 h5
      have e1 : arrivals u = [] := by
        refine List.filterMap_eq_nil_iff.2 fun o ho => ?_
        have := hu o ho; cases o <;> simp_all [Apart]
      have e2 : returns u = [] := by
        unfold returns; rw [List.flatMap_eq_nil_iff]; intro o ho
        have := hu o ho; cases o <;> simp_all [Apart]
      obtain ⟨i1, i2, i3⟩ := hi
      refine ⟨?_, by rw [h3]; exact i2, by rw [h5]; exact i3⟩
      rw [ht, h3, h4]
      simp only [arrivals, returns, List.filterMap_append, List.flatMap_append] at *
      rw [e1, e2]; simpa using i1
    cases e with
    | arrive f =>
      obtain ⟨i1, i2, i3⟩ := hi
      simp only [step, i3, Bool.false_eq_true, if_false]
      refine ⟨?_, ?_, rfl⟩
      · simp only [emit, arrivals_snoc, returns_snoc, List.flatMap_append]
        rw [← i1]
        simp [returns, arrivals]
      · intro g hg
        rcases List.mem_append.1 hg with hg | hg
        · exact i2 g hg
        · rw [List.mem_singleton.1 hg]; exact h.2 f (by simp)
    | close => exact absurd (by simp) h.1
    | write bs o =>
      obtain ⟨u, h1, h2, h3, h4, h5⟩ := write_apart bs o (run id es)
      exact hap _ u h1 h2 h3 h4 h5
    | flush o =>
      obtain ⟨u, h1, h2, h3, h4, h5⟩ := flush_apart o (run id es)
      exact hap _ u h1 h2 h3 h4 h5
    | read n => exact hi.read n

theorem all_read (ns : List Nat) (hp : ∀ n ∈ ns, 0 < n) (s : St) (h : OInv s)
    (hn : (s.read ++ s.inbox.flatMap payload).length ≤ ns.length) :
    returns ((reads ns).foldl step s).trace = (arrivals s.trace).flatMap payload := by
  induction ns generalizing s with
  | nil =>
    have : s.read ++ s.inbox.flatMap payload = [] := List.eq_nil_of_length_eq_zero (by simpa using hn)
    have h1 := h.1
    rw [this, List.append_nil] at h1
    exact h1
  | cons n ns ih =>
    show returns ((reads ns).foldl step (pollRead n s)).trace = _
    have ho := h.read n
    obtain ⟨h1, h2, h3⟩ := h
    have hn0 := hp n (by simp)
    cases pollRead_result n s with
    | wait i1 i2 i3 i4 i5 i6 i7 =>
      rw [ih (fun m hm => hp m (by simp [hm])) _ ho (by rw [i4, i5]; simp), i7, arrivals_snoc]
      simp [arrivals]
    | bytes c' i1 i2 i3 i4 i5 i6 i7 =>
      rw [ih (fun m hm => hp m (by simp [hm])) _ ho ?_, i7, arrivals_snoc]
      · simp [arrivals]
      · rw [i6]
        rw [i1, List.flatMap_append] at hn
        have : 0 < (s.read ++ c'.flatMap payload).length := List.length_pos_iff.2 i3
        simp only [List.length_append, List.length_drop, List.length_cons] at hn this ⊢
        omega
    | endClose c' f i1 i2 i3 i4 i5 i6 => exact absurd (h2 f (by rw [i1]; simp)) (by rw [i3]; simp)
    | endChan c' i1 i2 i3 i4 i5 i6 i7 => rw [h3] at i4; cases i4

/-- **C22** (completeness) As long as nothing has ended the stream, a reader that goes on reading gets all bytes that arrived: at the
    latest with as many reads as bytes, whatever the sizes of its buffers. -/
theorem C22_all_read (id : Nat) (es : List Event) (ho : Unended es) (ns : List Nat) (hp : ∀ n ∈ ns, 0 < n)
    (hn : ((arrivals (run id es).trace).flatMap payload).length ≤ ns.length) :
    returns (run id (es ++ reads ns)).trace = (arrivals (run id es).trace).flatMap payload := by
  have h := run_oinv id es ho
  rw [run_append]
  refine all_read ns hp _ h ?_
  have := congrArg List.length h.1
  simp only [List.length_append] at this hn ⊢
  omega

example : let es : List Event := [.arrive (.data 5 [1, 2]), .read 1, .arrive (.data 5 [3])]
    Unended es ∧ returns (run 5 (es ++ reads [1, 1, 1])).trace = [1, 2, 3] := by
  refine ⟨⟨by decide, fun f hf => ?_⟩, by decide +kernel⟩
  simp only [List.mem_cons, Event.arrive.injEq, reduceCtorEq, List.not_mem_nil, or_false, false_or] at hf
  rcases hf with rfl | rfl <;> rfl

/-- **C22** fails for the end of input, whenever the last message before the end is longer than the reader's buffer: the reader gets as
    much as fits, then the end; the rest is lost. -/
theorem C22_rest_lost_fails (id : Nat) (d : Bytes) (n m : Nat) (h : n < d.length) :
    (run id [.arrive (.data id d), .arrive (.close id []), .read n, .read m]).trace
      = [.arrived (.data id d), .arrived (.close id []), .returned (d.take n), .eof] ∧ d.take n ≠ d := by
  have hd : d ≠ [] := by rintro rfl; simp at h
  refine ⟨?_, fun e => by have := congrArg List.length e; simp at this; omega⟩
  simp only [run, List.foldl_cons, List.foldl_nil, step, init, emit, List.nil_append, Bool.false_eq_true, if_false]
  rw [pollRead.eq_def (n := n)]
  simp only [List.cons_append, List.nil_append, hd, if_false, copyOut, emit]
  rw [pollRead.eq_def]
  simp [emit]

end Wm.Virtual
