import Verif.Model.Virtual
import Mathlib.Data.List.Induction
/-! Properties C22, C23, C60: a tunnelled stream used as a byte stream. -/
namespace Wm.Virtual
open Wm Wm.Prot

/-! ### Vocabulary -/

/-- messages delivered to the stream -/
def arrivals (t : List Obs) : List Frame := t.filterMap fun | .arrived f => some f | _ => none
/-- bytes returned by reads -/
def returns (t : List Obs) : Bytes := t.flatMap fun | .returned bs => bs | _ => []
/-- bytes offered to writes, counted once for every attempt -/
def offers (t : List Obs) : Bytes := t.flatMap fun | .offered bs => bs | _ => []
/-- bytes the writer was told were accepted -/
def accepts (t : List Obs) : Bytes := t.flatMap fun | .accepted bs => bs | _ => []
/-- messages handed over to the tunnel -/
def sends (t : List Obs) : List Frame := t.filterMap fun | .sent f => some f | _ => none
/-- the payload of a data message -/
def payload : Frame → Bytes
  | .data _ d => d
  | _ => []
/-- the message ends the input -/
def isEnd : Frame → Bool
  | .close .. | .create .. => true
  | _ => false

theorem arrivals_snoc (t o) : arrivals (t ++ [o]) = arrivals t ++ arrivals [o] := by simp [arrivals]
theorem returns_snoc (t o) : returns (t ++ [o]) = returns t ++ returns [o] := by simp [returns]
theorem offers_snoc (t o) : offers (t ++ [o]) = offers t ++ offers [o] := by simp [offers]
theorem accepts_snoc (t o) : accepts (t ++ [o]) = accepts t ++ accepts [o] := by simp [accepts]
theorem sends_snoc (t o) : sends (t ++ [o]) = sends t ++ sends [o] := by simp [sends]

theorem run_snoc (id : Nat) (es : List Event) (e : Event) : run id (es ++ [e]) = step (run id es) e := by
  simp [run]

/-! ### reading -/

/-- The reader invariant: `c` are the messages already taken from the channel. -/
def RInv (s : St) (c : List Frame) : Prop :=
  arrivals s.trace = c ++ s.inbox ∧ returns s.trace ++ s.read = c.flatMap payload

/-- What one `poll_read` does, with the messages `c'` it takes: it ends with exactly one happening. -/
inductive ReadResult (n : Nat) (s s' : St) : Prop where
  | wait : (∀ f ∈ s.inbox, isEnd f = false ∧ payload f = []) → s.closed = false → s.read = [] →
      s'.inbox = [] → s'.read = [] → s'.closed = s.closed → s'.trace = s.trace ++ [.readWait] → ReadResult n s s'
  | bytes (c' : List Frame) : s.inbox = c' ++ s'.inbox → (∀ f ∈ c', isEnd f = false) →
      s.read ++ c'.flatMap payload ≠ [] → (c'.flatMap payload = [] ∨ ∃ f ∈ c', c'.flatMap payload = payload f) →
      s'.closed = s.closed →
      s'.read = (s.read ++ c'.flatMap payload).drop n →
      s'.trace = s.trace ++ [.returned ((s.read ++ c'.flatMap payload).take n)] → ReadResult n s s'
  | endClose (c' : List Frame) (f : Frame) : s.inbox = c' ++ f :: s'.inbox → (∀ g ∈ c', isEnd g = false ∧ payload g = []) →
      isEnd f = true → s'.read = s.read → s'.closed = s.closed → s'.trace = s.trace ++ [.eof] → ReadResult n s s'
  | endChan (c' : List Frame) : s.inbox = c' → s'.inbox = [] → (∀ g ∈ c', isEnd g = false ∧ payload g = []) →
      s.closed = true → s'.read = s.read → s'.closed = s.closed → s'.trace = s.trace ++ [.eof] → ReadResult n s s'

theorem ReadResult.skip {n : Nat} {s s' : St} {f : Frame} {rest : List Frame} (hb : s.inbox = f :: rest)
    (hf : isEnd f = false) (hp : payload f = []) (h : ReadResult n { s with inbox := rest } s') :
    ReadResult n s s' := by
  cases h with
  | wait h1 h2 h3 h4 h5 h6 h7 =>
    refine .wait ?_ h2 h3 h4 h5 h6 h7
    rw [hb]; intro g hg
    rcases List.mem_cons.1 hg with rfl | hg
    · exact ⟨hf, hp⟩
    · exact h1 g hg
  | bytes c' h1 h2 h3 h4 h5 h6 h7 =>
    have e : (f :: c').flatMap payload = c'.flatMap payload := by simp [hp]
    refine .bytes (f :: c') (by rw [hb, List.cons_append]; exact congrArg _ h1) ?_ (by rw [e]; exact h3) ?_ h5
      (by rw [e]; exact h6) (by rw [e]; exact h7)
    · intro g hg
      rcases List.mem_cons.1 hg with rfl | hg
      · exact hf
      · exact h2 g hg
    · rw [e]; rcases h4 with h4 | ⟨g, hg, h4⟩
      · exact .inl h4
      · exact .inr ⟨g, List.mem_cons_of_mem _ hg, h4⟩
  | endClose c' g h1 h2 h3 h4 h5 h6 =>
    refine .endClose (f :: c') g (by rw [hb, List.cons_append]; exact congrArg _ h1) ?_ h3 h4 h5 h6
    intro x hx
    rcases List.mem_cons.1 hx with rfl | hx
    · exact ⟨hf, hp⟩
    · exact h2 x hx
  | endChan c' h1 h2 h3 h4 h5 h6 h7 =>
    refine .endChan (f :: c') (by rw [hb]; exact congrArg _ h1) h2 ?_ h4 h5 h6 h7
    intro x hx
    rcases List.mem_cons.1 hx with rfl | hx
    · exact ⟨hf, hp⟩
    · exact h3 x hx

theorem pollRead_result (n : Nat) : ∀ s : St, ReadResult n s (pollRead n s) := by
  intro s
  induction hl : s.inbox.length using Nat.strongRecOn generalizing s with
  | _ k ih =>
    rw [pollRead]
    split
    · rename_i hb
      split
      · rename_i hc; exact .endChan [] hb hb (by simp) hc rfl rfl rfl
      · rename_i hc
        split
        · rename_i hr; exact .wait (by simp [hb]) (by simpa using hc) hr hb hr rfl rfl
        · rename_i hr
          exact .bytes [] rfl (by simp) (by simpa using hr) (.inl rfl) rfl (by simp [copyOut, emit])
            (by simp [copyOut, emit])
    · rename_i f rest hb
      have hlt : rest.length < k := by rw [← hl, hb]; simp
      have hskip : ∀ s1 : St, s1.inbox = rest → ReadResult n s1 (pollRead n s1) := fun s1 h1 =>
        ih rest.length hlt s1 (by rw [h1])
      cases f with
      | create i d => exact .endClose [] (.create i d) hb (by simp) rfl rfl rfl rfl
      | close i d => exact .endClose [] (.close i d) hb (by simp) rfl rfl rfl rfl
      | data i d =>
        dsimp only
        split
        · rename_i hr
          have hr' : s.read = [] ∧ d = [] := by simpa using hr
          have h2 := hskip { s with inbox := rest, read := s.read ++ d } rfl
          have e : ({ s with inbox := rest, read := s.read ++ d } : St) = { s with inbox := rest } := by
            simp [hr'.2]
          refine ReadResult.skip (f := .data i d) (rest := rest) hb rfl hr'.2 ?_
          rw [e] at h2
          rw [e]; exact h2
        · rename_i hr
          exact .bytes [.data i d] (by simp [hb, copyOut, emit]) (by simp [isEnd]) (by simpa [payload] using hr)
            (.inr ⟨_, List.mem_singleton.2 rfl, by simp⟩) rfl (by simp [copyOut, emit, payload])
            (by simp [copyOut, emit, payload])
      | token u p =>
        dsimp only
        split
        · exact ReadResult.skip (f := .token u p) hb rfl rfl (hskip { s with inbox := rest } rfl)
        · rename_i hr
          exact .bytes [.token u p] (by simp [hb, copyOut, emit]) (by simp [isEnd]) (by simpa [payload] using hr)
            (.inl rfl) rfl (by simp [copyOut, emit, payload]) (by simp [copyOut, emit, payload])
      | mapping i ms =>
        dsimp only
        split
        · exact ReadResult.skip (f := .mapping i ms) hb rfl rfl (hskip { s with inbox := rest } rfl)
        · rename_i hr
          exact .bytes [.mapping i ms] (by simp [hb, copyOut, emit]) (by simp [isEnd]) (by simpa [payload] using hr)
            (.inl rfl) rfl (by simp [copyOut, emit, payload]) (by simp [copyOut, emit, payload])

/-- a happening that does not concern reading -/
def Apart : Obs → Prop
  | .arrived _ | .returned _ | .eof => False
  | _ => True

theorem RInv.apart {s s' : St} {c : List Frame} (h : RInv s c) (u : List Obs) (hu : ∀ o ∈ u, Apart o)
    (ht : s'.trace = s.trace ++ u) (hi : s'.inbox = s.inbox) (hr : s'.read = s.read) : RInv s' c := by
  have h1 : arrivals u = [] := by
    refine List.filterMap_eq_nil_iff.2 fun o ho => ?_
    have := hu o ho; cases o <;> simp_all [Apart]
  have h2 : returns u = [] := by
    unfold returns; rw [List.flatMap_eq_nil_iff]; intro o ho
    have := hu o ho; cases o <;> simp_all [Apart]
  unfold RInv at *
  rw [ht, hi, hr]
  simp only [arrivals, returns, List.filterMap_append, List.flatMap_append] at *
  rw [h1, h2, List.append_nil, List.append_nil]; exact h

theorem write_apart (bs : Bytes) (o : Slot) (s : St) :
    ∃ u, (pollWrite bs o s).trace = s.trace ++ u ∧ (∀ x ∈ u, Apart x) ∧ (pollWrite bs o s).inbox = s.inbox ∧
      (pollWrite bs o s).read = s.read ∧ (pollWrite bs o s).closed = s.closed := by
  cases o
  · exact ⟨[.offered bs, .sent (.data s.id (s.write ++ bs)), .accepted bs], by simp [pollWrite, emit],
      by simp [Apart], rfl, rfl, rfl⟩
  · exact ⟨[.offered bs, .writeWait], by simp [pollWrite, emit], by simp [Apart], rfl, rfl, rfl⟩
  · exact ⟨[.offered bs, .writeWait], by simp [pollWrite, emit], by simp [Apart], rfl, rfl, rfl⟩

theorem flush_apart (o : Slot) (s : St) :
    ∃ u, (pollFlush o s).trace = s.trace ++ u ∧ (∀ x ∈ u, Apart x) ∧ (pollFlush o s).inbox = s.inbox ∧
      (pollFlush o s).read = s.read ∧ (pollFlush o s).closed = s.closed := by
  unfold pollFlush
  split
  · exact ⟨[.flushed], by simp [emit], by simp [Apart], rfl, rfl, rfl⟩
  · cases o
    · exact ⟨[.sent (.data s.id s.write), .flushed], by simp [emit], by simp [Apart], rfl, rfl, rfl⟩
    · exact ⟨[.flushWait], by simp [emit], by simp [Apart], rfl, rfl, rfl⟩
    · exact ⟨[.flushWait], by simp [emit], by simp [Apart], rfl, rfl, rfl⟩

theorem rinv_step {s : St} {c : List Frame} (h : RInv s c) (e : Event) : ∃ c', RInv (step s e) c' := by
  cases e with
  | arrive f =>
    simp only [step]
    split
    · exact ⟨c, h⟩
    · refine ⟨c, ?_, ?_⟩
      · simp only [emit, arrivals_snoc, h.1]; simp [arrivals]
      · simp only [emit, returns_snoc]; simpa [returns] using h.2
  | close => exact ⟨c, h⟩
  | write bs o =>
    obtain ⟨u, h1, h2, h3, h4, _⟩ := write_apart bs o s
    exact ⟨c, h.apart u h2 h1 h3 h4⟩
  | flush o =>
    obtain ⟨u, h1, h2, h3, h4, _⟩ := flush_apart o s
    exact ⟨c, h.apart u h2 h1 h3 h4⟩
  | read n =>
    simp only [step]
    have hn : ∀ l : List Frame, (∀ g ∈ l, isEnd g = false ∧ payload g = []) → l.flatMap payload = [] := by
      intro l hl; rw [List.flatMap_eq_nil_iff]; exact fun g hg => (hl g hg).2
    cases pollRead_result n s with
    | wait h1 h2 h3 h4 h5 h6 h7 =>
      refine ⟨c ++ s.inbox, ?_, ?_⟩
      · rw [h7, arrivals_snoc, h.1, h4]; simp [arrivals]
      · rw [h7, returns_snoc, h5, List.flatMap_append, ← h.2, h3, hn _ h1]; simp [returns]
    | bytes c' h1 h2 h3 h4 h5 h6 h7 =>
      refine ⟨c ++ c', ?_, ?_⟩
      · rw [h7, arrivals_snoc, h.1, h1]; simp [arrivals]
      · rw [h7, returns_snoc, h6, List.flatMap_append, ← h.2]; simp [returns]
    | endClose c' f h1 h2 h3 h4 h5 h6 =>
      have hf : payload f = [] := by cases f <;> simp_all [isEnd, payload]
      refine ⟨c ++ c' ++ [f], ?_, ?_⟩
      · rw [h6, arrivals_snoc, h.1, h1]; simp [arrivals]
      · rw [h6, returns_snoc, h4, List.flatMap_append, List.flatMap_append, ← h.2, hn _ h2]; simp [returns, hf]
    | endChan c' h1 h2 h3 h4 h5 h6 h7 =>
      refine ⟨c ++ s.inbox, ?_, ?_⟩
      · rw [h7, arrivals_snoc, h.1, h2]; simp [arrivals]
      · rw [h7, returns_snoc, h5, List.flatMap_append, ← h.2, hn _ (h1 ▸ h3)]; simp [returns]

theorem run_rinv (id : Nat) (es : List Event) : ∃ c, RInv (run id es) c := by
  induction es using List.reverseRecOn with
  | nil => exact ⟨[], rfl, rfl⟩
  | append_singleton es e ih =>
    obtain ⟨c, hc⟩ := ih
    rw [run_snoc]; exact rinv_step hc e

/-- **C22** (order) Whatever the buffer sizes and arrival times, the bytes returned by reads are a beginning of the
    concatenated payloads of the data messages that arrived. -/
theorem C22_reads_in_order (id : Nat) (es : List Event) :
    returns (run id es).trace <+: (arrivals (run id es).trace).flatMap payload := by
  obtain ⟨c, h1, h2⟩ := run_rinv id es
  rw [h1, List.flatMap_append, ← h2, List.append_assoc]
  exact List.prefix_append _ _

example : let t := (run 5 [.arrive (.data 5 [1, 2, 3]), .read 2, .arrive (.data 5 [4]), .read 2, .read 9]).trace
    returns t = [1, 2, 3, 4] := by decide +kernel

/-- **C22** fails for the end of input: whatever data and then a close arrive, a reader with a smaller buffer gets its first
    bytes and then the end of input; the rest is lost. -/
theorem C22_eof_before_data_fails (id : Nat) (d : Bytes) (r : Text) (n m : Nat) (h : n < d.length) :
    (run id [.arrive (.data id d), .arrive (.close id r), .read n, .read m]).trace
      = [.arrived (.data id d), .arrived (.close id r), .returned (d.take n), .eof] ∧ d.take n ≠ d := by
  have hd : d ≠ [] := by rintro rfl; simp at h
  refine ⟨?_, fun e => ?_⟩
  · simp only [run, List.foldl_cons, List.foldl_nil, step, init, emit, Bool.false_eq_true, if_false, List.nil_append,
      List.singleton_append]
    have h1 : pollRead n ⟨id, [.data id d, .close id r], false, [], [], [.arrived (.data id d), .arrived (.close id r)]⟩ =
        ⟨id, [.close id r], false, d.drop n, [], [.arrived (.data id d), .arrived (.close id r), .returned (d.take n)]⟩ := by
      rw [pollRead]
      simp [hd, copyOut, emit]
    rw [h1]
    rw [pollRead]
    simp [emit]
  · have := congrArg List.length e
    rw [List.length_take] at this
    omega

example : (run 5 [.arrive (.data 5 [1, 2, 3]), .arrive (.close 5 []), .read 1, .read 1]).trace
      = [.arrived (.data 5 [1, 2, 3]), .arrived (.close 5 []), .returned [1], .eof] := by decide +kernel

/-- every read of the schedule offers at least `m` bytes -/
def BigReads (m : Nat) (es : List Event) : Prop := ∀ n, Event.read n ∈ es → m ≤ n

/-- the reader keeps nothing back -/
structure Clear (m : Nat) (s : St) (c : List Frame) : Prop where
  inv : RInv s c
  empty : s.read = []
  live : .eof ∉ s.trace → ∀ f ∈ c, isEnd f = false
  ended : ∀ t1 t2, s.trace = t1 ++ .eof :: t2 → .eof ∉ t1 →
    returns t1 = ((arrivals t1).takeWhile (fun f => !isEnd f)).flatMap payload

theorem takeWhile_all {l : List Frame} (h : ∀ f ∈ l, isEnd f = false) : l.takeWhile (fun f => !isEnd f) = l := by
  induction l with
  | nil => rfl
  | cons f l ih =>
    rw [List.takeWhile_cons, if_pos (by simp [h f (by simp)]), ih (fun g hg => h g (by simp [hg]))]

theorem Clear.ended_snoc {s : St} {u : List Obs} (h : ∀ t1 t2, s.trace = t1 ++ .eof :: t2 → .eof ∉ t1 →
    returns t1 = ((arrivals t1).takeWhile (fun f => !isEnd f)).flatMap payload) (hu : .eof ∉ u) :
    ∀ t1 t2, s.trace ++ u = t1 ++ .eof :: t2 → .eof ∉ t1 →
    returns t1 = ((arrivals t1).takeWhile (fun f => !isEnd f)).flatMap payload := by
  intro t1 t2 e hn
  rcases List.append_eq_append_iff.1 e with ⟨a, e1, e2⟩ | ⟨a, e1, e2⟩
  · exact absurd (by rw [e2]; simp) hu
  · cases a with
    | nil => exact absurd (by rw [List.nil_append] at e2; rw [← e2]; simp) hu
    | cons x a =>
      simp only [List.cons_append, List.cons.injEq] at e2
      obtain ⟨rfl, rfl⟩ := e2
      exact h t1 a e1 hn

/-- **C22**, partial (end of input): if the reader's buffers are at least as large as every arriving data message,
    then at the first end of input it has got exactly the bytes of the messages before the first close. Missing:
    smaller buffers, see `C22_eof_before_data_fails`. -/
theorem C22_eof_after_data_partial (id m : Nat) (es : List Event) (hb : BigReads m es)
    (hm : ∀ f, Event.arrive f ∈ es → (payload f).length ≤ m) (t1 t2 : List Obs)
    (h : (run id es).trace = t1 ++ .eof :: t2) (hfirst : .eof ∉ t1) :
    returns t1 = ((arrivals t1).takeWhile (fun f => !isEnd f)).flatMap payload := by
  suffices hc : (∃ c, Clear m (run id es) c) ∧ ∀ f ∈ arrivals (run id es).trace, (payload f).length ≤ m by
    obtain ⟨⟨c, hc⟩, _⟩ := hc
    exact hc.ended t1 t2 h hfirst
  clear h hfirst t1 t2
  induction es using List.reverseRecOn with
  | nil =>
    exact ⟨⟨[], ⟨rfl, rfl⟩, rfl, by simp, by simp [run, init]⟩, by simp [run, init, arrivals]⟩
  | append_singleton es e ih =>
    obtain ⟨⟨c, hI, hE, hL, hD⟩, hA⟩ := ih (fun n hn => hb n (by simp [hn])) (fun f hf => hm f (by simp [hf]))
    rw [run_snoc]
    generalize run id es = s at *
    cases e with
    | arrive f =>
      simp only [step]
      split
      · exact ⟨⟨c, hI, hE, hL, hD⟩, hA⟩
      · have hI' : RInv (emit (.arrived f) { s with inbox := s.inbox ++ [f] }) c := by
          refine ⟨?_, ?_⟩
          · simp only [emit, arrivals_snoc, hI.1]; simp [arrivals]
          · simp only [emit, returns_snoc]; simpa [returns] using hI.2
        refine ⟨⟨c, hI', hE, ?_, Clear.ended_snoc hD (by simp)⟩, ?_⟩
        · intro hn; exact hL (fun hc => hn (by simp [emit, hc]))
        · intro g hg
          simp only [emit, arrivals_snoc, List.mem_append] at hg
          rcases hg with hg | hg
          · exact hA g hg
          · simp [arrivals] at hg; subst hg; exact hm _ (by simp)
    | close => exact ⟨⟨c, hI, hE, hL, hD⟩, hA⟩
    | write bs o =>
      obtain ⟨u, h1, h2, h3, h4, _⟩ := write_apart bs o s
      have hu : Obs.eof ∉ u := fun hc => (h2 _ hc)
      have h0 : arrivals u = [] := by
        refine List.filterMap_eq_nil_iff.2 fun x hx => ?_
        have := h2 x hx; cases x <;> simp_all [Apart]
      refine ⟨⟨c, hI.apart u h2 h1 h3 h4, h4.trans hE, ?_, ?_⟩, ?_⟩
      · intro hn
        simp only [step] at hn; rw [h1] at hn
        exact hL (fun hc => hn (by simp [hc]))
      · simp only [step]; rw [h1]; exact Clear.ended_snoc hD hu
      · simp only [step]; rw [h1]
        simpa [arrivals, List.filterMap_append, show List.filterMap _ u = [] from h0] using hA
    | flush o =>
      obtain ⟨u, h1, h2, h3, h4, _⟩ := flush_apart o s
      have hu : Obs.eof ∉ u := fun hc => (h2 _ hc)
      have h0 : arrivals u = [] := by
        refine List.filterMap_eq_nil_iff.2 fun x hx => ?_
        have := h2 x hx; cases x <;> simp_all [Apart]
      refine ⟨⟨c, hI.apart u h2 h1 h3 h4, h4.trans hE, ?_, ?_⟩, ?_⟩
      · intro hn
        simp only [step] at hn; rw [h1] at hn
        exact hL (fun hc => hn (by simp [hc]))
      · simp only [step]; rw [h1]; exact Clear.ended_snoc hD hu
      · simp only [step]; rw [h1]
        simpa [arrivals, List.filterMap_append, show List.filterMap _ u = [] from h0] using hA
    | read n =>
      have hn : m ≤ n := hb n (by simp)
      simp only [step]
      have hnil : ∀ l : List Frame, (∀ g ∈ l, isEnd g = false ∧ payload g = []) → l.flatMap payload = [] := by
        intro l hl; rw [List.flatMap_eq_nil_iff]; exact fun g hg => (hl g hg).2
      have hret : returns s.trace = c.flatMap payload := by have := hI.2; rw [hE, List.append_nil] at this; exact this
      have harr : ∀ {s' : St} {o : Obs}, s'.trace = s.trace ++ [o] → (∀ f, o ≠ .arrived f) →
          arrivals s'.trace = arrivals s.trace := by
        intro s' o ht ho
        rw [ht, arrivals_snoc]
        cases o <;> simp_all [arrivals]
      cases pollRead_result n s with
      | wait h1 h2 h3 h4 h5 h6 h7 =>
        refine ⟨⟨c ++ s.inbox, ⟨?_, ?_⟩, h5, ?_, ?_⟩, ?_⟩
        · rw [h7, arrivals_snoc, hI.1, h4]; simp [arrivals]
        · rw [h7, returns_snoc, h5, List.flatMap_append, hret, hnil _ h1]; simp [returns]
        · rw [h7]; intro hc f hf
          rcases List.mem_append.1 hf with hf | hf
          · exact hL (fun x => hc (by simp [x])) f hf
          · exact (h1 f hf).1
        · rw [h7]; exact Clear.ended_snoc hD (by simp)
        · rw [harr h7 (by simp)]; exact hA
      | bytes c' h1 h2 h3 h4 h5 h6 h7 =>
        have hlen : (c'.flatMap payload).length ≤ n := by
          rcases h4 with h4 | ⟨f, hf, h4⟩
          · rw [h4]; exact Nat.zero_le _
          · rw [h4]
            refine Nat.le_trans (hA f ?_) hn
            rw [hI.1, h1]; simp [hf]
        have hd : (pollRead n s).read = [] := by
          rw [h6, hE, List.nil_append]; exact List.drop_eq_nil_of_le hlen
        refine ⟨⟨c ++ c', ⟨?_, ?_⟩, hd, ?_, ?_⟩, ?_⟩
        · rw [h7, arrivals_snoc, hI.1, h1]; simp [arrivals]
        · rw [h7, returns_snoc, hd, List.flatMap_append, hret, hE, List.nil_append,
            List.take_of_length_le hlen]; simp [returns]
        · rw [h7]; intro hc f hf
          rcases List.mem_append.1 hf with hf | hf
          · exact hL (fun x => hc (by simp [x])) f hf
          · exact h2 f hf
        · rw [h7]; exact Clear.ended_snoc hD (by simp)
        · rw [harr h7 (by simp)]; exact hA
      | endClose c' f h1 h2 h3 h4 h5 h6 =>
        have hf : payload f = [] := by cases f <;> simp_all [isEnd, payload]
        refine ⟨⟨c ++ c' ++ [f], ⟨?_, ?_⟩, h4.trans hE, ?_, ?_⟩, ?_⟩
        · rw [h6, arrivals_snoc, hI.1, h1]; simp [arrivals]
        · rw [h6, returns_snoc, h4, hE, List.flatMap_append, List.flatMap_append, hret, hnil _ h2]; simp [returns, hf]
        · rw [h6]; intro hc; simp at hc
        · rw [h6]
          intro t1 t2 e hn1
          by_cases hin : Obs.eof ∈ s.trace
          · obtain ⟨a, b, hab⟩ := List.append_of_mem hin
            rcases List.append_eq_append_iff.1 e with ⟨x, e1, e2⟩ | ⟨x, e1, e2⟩
            · exfalso
              rw [e1] at hn1
              exact hn1 (by simp [hin])
            · cases x with
              | nil => exfalso; rw [List.append_nil] at e1; rw [← e1] at hn1; exact hn1 hin
              | cons y ys =>
                simp only [List.cons_append, List.cons.injEq] at e2
                rw [← e2.1] at e1
                exact hD t1 ys e1 hn1
          · have ht1 : t1 = s.trace := by
              rcases List.append_eq_append_iff.1 e with ⟨x, e1, e2⟩ | ⟨x, e1, e2⟩
              · cases x with
                | nil => simpa using e1
                | cons y ys => simp at e2
              · cases x with
                | nil => simpa using e1.symm
                | cons y ys =>
                  exfalso
                  simp only [List.cons_append, List.cons.injEq] at e2
                  rw [← e2.1] at e1
                  exact hin (by rw [e1]; simp)
            subst ht1
            have hend : ∀ g ∈ c ++ c', isEnd g = false := by
              intro g hg
              rcases List.mem_append.1 hg with hg | hg
              · exact hL hin g hg
              · exact (h2 g hg).1
            have e4 : arrivals s.trace = (c ++ c') ++ f :: (pollRead n s).inbox := by rw [hI.1, h1]; simp
            rw [e4, List.takeWhile_append_of_pos (by intro g hg; simp [hend g hg])]
            simp [h3, hret, hnil _ h2]
        · rw [harr h6 (by simp)]; exact hA
      | endChan c' h1 h2 h3 h4 h5 h6 h7 =>
        refine ⟨⟨c ++ s.inbox, ⟨?_, ?_⟩, h5.trans hE, ?_, ?_⟩, ?_⟩
        · rw [h7, arrivals_snoc, hI.1, h2]; simp [arrivals]
        · rw [h7, returns_snoc, h5, hE, List.flatMap_append, hret, hnil s.inbox (h1 ▸ h3)]; simp [returns]
        · rw [h7]; intro hc; simp at hc
        · rw [h7]
          intro t1 t2 e hn1
          by_cases hin : Obs.eof ∈ s.trace
          · rcases List.append_eq_append_iff.1 e with ⟨x, e1, e2⟩ | ⟨x, e1, e2⟩
            · exfalso
              rw [e1] at hn1
              exact hn1 (by simp [hin])
            · cases x with
              | nil => exfalso; rw [List.append_nil] at e1; rw [← e1] at hn1; exact hn1 hin
              | cons y ys =>
                simp only [List.cons_append, List.cons.injEq] at e2
                rw [← e2.1] at e1
                exact hD t1 ys e1 hn1
          · have ht1 : t1 = s.trace := by
              rcases List.append_eq_append_iff.1 e with ⟨x, e1, e2⟩ | ⟨x, e1, e2⟩
              · cases x with
                | nil => simpa using e1
                | cons y ys => simp at e2
              · cases x with
                | nil => simpa using e1.symm
                | cons y ys =>
                  exfalso
                  simp only [List.cons_append, List.cons.injEq] at e2
                  rw [← e2.1] at e1
                  exact hin (by rw [e1]; simp)
            subst ht1
            have hend : ∀ g ∈ c ++ s.inbox, isEnd g = false := by
              intro g hg
              rcases List.mem_append.1 hg with hg | hg
              · exact hL hin g hg
              · exact ((h1 ▸ h3) g hg).1
            rw [hI.1, takeWhile_all hend, List.flatMap_append, hret, hnil s.inbox (h1 ▸ h3)]; simp
        · rw [harr h7 (by simp)]; exact hA

example : let es : List Event := [.arrive (.data 5 [1, 2]), .read 4, .arrive (.data 5 [3]), .arrive (.close 5 []), .read 4,
      .read 4]
    BigReads 4 es ∧ (run 5 es).trace = [.arrived (.data 5 [1, 2]), .returned [1, 2], .arrived (.data 5 [3]),
      .arrived (.close 5 []), .returned [3], .eof] := by
  refine ⟨?_, by decide +kernel⟩
  intro n hn; simp at hn; omega

/-! ### writing -/

/-- what was handed over plus what is held back is what was offered, attempt by attempt -/
theorem run_winv (id : Nat) (es : List Event) :
    (sends (run id es).trace).flatMap payload ++ (run id es).write = offers (run id es).trace ∧ (run id es).id = id ∧
    (∀ f ∈ sends (run id es).trace, f.sockMap = id) ∧
    (.writeWait ∉ (run id es).trace → (run id es).write = [] ∧ accepts (run id es).trace = offers (run id es).trace) := by
  induction es using List.reverseRecOn with
  | nil => exact ⟨rfl, rfl, by simp [run, init, sends], by simp [run, init, accepts, offers]⟩
  | append_singleton es e ih =>
    rw [run_snoc]
    generalize run id es = s at *
    obtain ⟨h1, h2, h3, h4⟩ := ih
    have hapart : ∀ s' : St, ∀ o : Obs, (match o with | .offered _ | .accepted _ | .sent _ | .writeWait => False | _ => True) →
        s'.trace = s.trace ++ [o] → s'.write = s.write → s'.id = s.id →
        (sends s'.trace).flatMap payload ++ s'.write = offers s'.trace ∧ s'.id = id ∧
        (∀ f ∈ sends s'.trace, f.sockMap = id) ∧
        (.writeWait ∉ s'.trace → s'.write = [] ∧ accepts s'.trace = offers s'.trace) := by
      intro s' o ho ht hw hi
      have e1 : sends s'.trace = sends s.trace := by rw [ht, sends_snoc]; cases o <;> simp_all [sends]
      have e2 : offers s'.trace = offers s.trace := by rw [ht, offers_snoc]; cases o <;> simp_all [offers]
      have e3 : accepts s'.trace = accepts s.trace := by rw [ht, accepts_snoc]; cases o <;> simp_all [accepts]
      rw [e1, e2, e3, hw, hi]
      refine ⟨h1, h2, h3, fun hn => h4 (fun hc => hn (by rw [ht]; simp [hc]))⟩
    cases e with
    | arrive f =>
      simp only [step]
      split
      · exact ⟨h1, h2, h3, h4⟩
      · exact hapart _ (.arrived f) trivial rfl rfl rfl
    | close => exact ⟨h1, h2, h3, h4⟩
    | read n =>
      simp only [step]
      have hw : ∀ s : St, (pollRead n s).write = s.write ∧ (pollRead n s).id = s.id := by
        intro s
        induction hl : s.inbox.length using Nat.strongRecOn generalizing s with
        | _ k ih =>
          rw [pollRead]
          split
          · split
            · exact ⟨rfl, rfl⟩
            · split <;> exact ⟨rfl, rfl⟩
          · rename_i f rest hb
            have hlt : rest.length < k := by rw [← hl, hb]; simp
            cases f <;> dsimp only
            case create => exact ⟨rfl, rfl⟩
            case close => exact ⟨rfl, rfl⟩
            all_goals
              split
              · exact ih rest.length hlt _ rfl
              · exact ⟨rfl, rfl⟩
      cases pollRead_result n s with
      | wait _ _ _ _ _ _ h7 => exact hapart _ _ trivial h7 (hw s).1 (hw s).2
      | bytes _ _ _ _ _ _ _ h7 => exact hapart _ _ trivial h7 (hw s).1 (hw s).2
      | endClose _ _ _ _ _ _ _ h7 => exact hapart _ _ trivial h7 (hw s).1 (hw s).2
      | endChan _ _ _ _ _ _ _ h7 => exact hapart _ _ trivial h7 (hw s).1 (hw s).2
    | write bs o =>
      have hwait : ∀ o, o = Slot.wait ∨ o = Slot.closed →
          (sends (pollWrite bs o s).trace).flatMap payload ++ (pollWrite bs o s).write = offers (pollWrite bs o s).trace ∧
          (pollWrite bs o s).id = id ∧ (∀ f ∈ sends (pollWrite bs o s).trace, f.sockMap = id) ∧
          (.writeWait ∉ (pollWrite bs o s).trace → (pollWrite bs o s).write = [] ∧
            accepts (pollWrite bs o s).trace = offers (pollWrite bs o s).trace) := by
        intro o ho
        have ht : (pollWrite bs o s).trace = s.trace ++ [.offered bs] ++ [.writeWait] := by
          rcases ho with rfl | rfl <;> simp [pollWrite, emit]
        have hw : (pollWrite bs o s).write = s.write ++ bs := by rcases ho with rfl | rfl <;> rfl
        have hi : (pollWrite bs o s).id = s.id := by rcases ho with rfl | rfl <;> rfl
        have es : sends (pollWrite bs o s).trace = sends s.trace := by
          rw [ht, sends_snoc, sends_snoc]; simp [sends]
        refine ⟨?_, hi.trans h2, by rw [es]; exact h3, fun hn => absurd (by rw [ht]; simp) hn⟩
        rw [es, hw, ht, offers_snoc, offers_snoc, ← h1]; simp [offers]
      cases o with
      | wait => exact hwait _ (.inl rfl)
      | closed => exact hwait _ (.inr rfl)
      | ready =>
        simp only [step]
        have ht : (pollWrite bs .ready s).trace
            = s.trace ++ [.offered bs] ++ [.sent (.data s.id (s.write ++ bs))] ++ [.accepted bs] := by
          simp [pollWrite, emit]
        refine ⟨?_, h2, ?_, fun hn => ⟨rfl, ?_⟩⟩
        · show _ ++ [] = _
          rw [ht]; simp only [sends_snoc, offers_snoc, ← h1]; simp [sends, offers, payload]
        · rw [ht]
          simp only [sends_snoc]
          intro f hf
          simp [sends] at hf
          rcases hf with hf | rfl
          · exact h3 f (by simpa [sends] using hf)
          · exact h2
        · have hn' : .writeWait ∉ s.trace := fun hc => hn (by rw [ht]; simp [hc])
          rw [ht]; simp only [accepts_snoc, offers_snoc, (h4 hn').2]; simp [accepts, offers]
    | flush o =>
      simp only [step]
      unfold pollFlush
      split
      · exact hapart _ .flushed trivial rfl rfl rfl
      · rename_i hne
        cases o with
        | wait => exact hapart _ .flushWait trivial rfl rfl rfl
        | closed => exact hapart _ .flushWait trivial rfl rfl rfl
        | ready =>
          dsimp only
          refine ⟨?_, h2, ?_, fun hn => ?_⟩
          · simp only [emit, sends_snoc, offers_snoc, ← h1]; simp [sends, offers, payload]
          · simp only [emit, sends_snoc]
            intro f hf
            simp [sends] at hf
            rcases hf with hf | rfl
            · exact h3 f (by simpa [sends] using hf)
            · exact h2
          · exact absurd (h4 (fun hc => hn (by simp [emit, hc]))).1 hne

/-- **C23**, partial: as long as no write had to wait, the data messages sent concatenate to exactly the bytes the
    writer was told were accepted; they carry the stream's id. Missing: back-pressure, see
    `C23_retry_duplicates_fails`. -/
theorem C23_writes_once_partial (id : Nat) (es : List Event) (hw : .writeWait ∉ (run id es).trace) :
    (sends (run id es).trace).flatMap payload = accepts (run id es).trace ∧
    ∀ f ∈ sends (run id es).trace, f.sockMap = id := by
  obtain ⟨h1, _, h3, h4⟩ := run_winv id es
  obtain ⟨h5, h6⟩ := h4 hw
  rw [h5, List.append_nil] at h1
  exact ⟨h1.trans h6.symm, h3⟩

example : let t := (run 5 [.write [1, 2] .ready, .write [3] .ready, .flush .wait]).trace
    .writeWait ∉ t ∧ sends t = [.data 5 [1, 2], .data 5 [3]] := by decide +kernel

/-- **C23** fails under back-pressure, in every history: what is sent (and still held back) is what was offered
    counted once per attempt, so a write that has to wait `k` times and is then accepted is sent `k + 1` times. -/
theorem C23_retry_duplicates_fails (id k : Nat) (bs : Bytes) :
    let t := (run id (List.replicate k (.write bs .wait) ++ [.write bs .ready])).trace
    accepts t = bs ∧ (sends t).flatMap payload = (List.replicate (k + 1) bs).flatten := by
  have hk : ∀ k, accepts (run id (List.replicate k (.write bs .wait))).trace = [] ∧
      sends (run id (List.replicate k (.write bs .wait))).trace = [] ∧
      (run id (List.replicate k (.write bs .wait))).write = (List.replicate k bs).flatten := by
    intro k
    induction k with
    | zero => exact ⟨rfl, rfl, rfl⟩
    | succ k ih =>
      rw [List.replicate_succ', run_snoc]
      refine ⟨?_, ?_, ?_⟩
      · simp only [step, pollWrite, emit, accepts_snoc, ih.1]; rfl
      · simp only [step, pollWrite, emit, sends_snoc, ih.2.1]; rfl
      · simp only [step, pollWrite, emit, ih.2.2]
        rw [List.replicate_succ']; simp
  obtain ⟨h1, h2, h3⟩ := hk k
  intro t
  have ht : t = (run id (List.replicate k (.write bs .wait))).trace ++ [.offered bs]
      ++ [.sent (.data (run id (List.replicate k (.write bs .wait))).id ((List.replicate k bs).flatten ++ bs))]
      ++ [.accepted bs] := by
    simp only [t, run_snoc, step, pollWrite, emit, h3]
  rw [ht]
  constructor
  · simp only [accepts_snoc, h1]; simp [accepts]
  · simp only [sends_snoc, h2]
    rw [List.replicate_succ']; simp [sends, payload]

/-- **C60** fails: once the tunnel is gone a writer never gets an error, nor a success: whatever happened before, any
    number of further write attempts all answer "wait", and nothing is sent. -/
theorem C60_dead_tunnel_write_fails (id : Nat) (es : List Event) (ws : List Bytes) :
    (run id (es ++ ws.map (.write · .closed))).trace
      = (run id es).trace ++ ws.flatMap (fun bs => [.offered bs, .writeWait]) := by
  induction ws using List.reverseRecOn with
  | nil => simp
  | append_singleton ws w ih =>
    rw [List.map_append, ← List.append_assoc, List.map_singleton, run_snoc]
    simp [step, pollWrite, emit, ih]

end Wm.Virtual
