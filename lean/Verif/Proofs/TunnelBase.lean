import Verif.Spec.Tunnel
import Verif.Proofs.Reader
import Mathlib.Data.List.Induction
/-! Lemmas about traces, the pump and the step function shared by both tunnel ends. -/
namespace Wm.Tunnel
open Wm Wm.Prot

/-! ### trace functions on one more observation -/

theorem gots_snoc (t : List Obs) (o : Obs) :
    gots (t ++ [o]) = gots t ++ (match o with | .got f => [f] | _ => []) := by
  cases o <;> simp [gots]

theorem puts_snoc (h : Nat) (t : List Obs) (o : Obs) :
    puts h (t ++ [o]) = puts h t ++ (match o with | .put k f => if k = h then [f] else [] | _ => []) := by
  cases o <;> simp [puts]
  split <;> simp_all

theorem attempts_snoc (h : Nat) (t : List Obs) (o : Obs) :
    attempts h (t ++ [o]) = attempts h t ++ (match o with
      | .put k f => if k = h then [f] else []
      | .lost k f => if k = h then [f] else []
      | .overflow k f => if k = h then [f] else []
      | _ => []) := by
  cases o <;> simp [attempts] <;> split <;> simp_all

theorem received_snoc (h : Nat) (t : List Obs) (o : Obs) :
    received h (t ++ [o]) = received h t ++ (match o with | .took k f => if k = h then [f] else [] | _ => []) := by
  cases o <;> simp [received]
  split <;> simp_all

theorem submissions_snoc (t : List Obs) (o : Obs) :
    submissions (t ++ [o]) = submissions t ++ (match o with | .submitted f => [f] | _ => []) := by
  cases o <;> simp [submissions]

theorem accepted_snoc (t : List Obs) (o : Obs) :
    accepted (t ++ [o]) = accepted t ++ (match o with | .queued _ f => [f] | _ => []) := by
  cases o <;> simp [accepted]

theorem relayed_snoc (t : List Obs) (o : Obs) :
    relayed (t ++ [o]) = relayed t ++ (match o with | .queued true f => [f] | _ => []) := by
  cases o with
  | queued b f => cases b <;> simp [relayed]
  | _ => simp [relayed]

theorem written_snoc (t : List Obs) (o : Obs) :
    written (t ++ [o]) = written t ++ (match o with | .wrote bs => bs | _ => []) := by
  cases o <;> simp [written]

theorem arrived_snoc (t : List Obs) (o : Obs) :
    arrived (t ++ [o]) = arrived t ++ (match o with | .arrived bs => bs | _ => []) := by
  cases o <;> simp [arrived]

theorem owner_snoc (t : List Obs) (o : Obs) (id : Nat) :
    owner (t ++ [o]) id = (match o with | .reg i h => if i = id then some h else owner t id | _ => owner t id) := by
  cases o <;> simp [owner]

theorem idOf_snoc (t : List Obs) (o : Obs) (h : Nat) :
    idOf (t ++ [o]) h = (match o with | .reg i k => if k = h then some i else idOf t h | _ => idOf t h) := by
  cases o <;> simp [idOf]

theorem dueFrom_snoc (a : List Obs → Frame → Bool) (h : Nat) (t : List Obs) (o : Obs) :
    ∀ past, dueFrom a h past (t ++ [o]) = dueFrom a h past t ++ dueNow a h (past ++ t) o := by
  induction t with
  | nil => intro past; simp [dueFrom]
  | cons x t ih => intro past; simp [dueFrom, ih, List.append_assoc]

theorem due_snoc (a : List Obs → Frame → Bool) (h : Nat) (t : List Obs) (o : Obs) :
    due a h (t ++ [o]) = due a h t ++ dueNow a h t o := by
  simp [due, dueFrom_snoc]

theorem owner_mem {t : List Obs} {id h : Nat} : owner t id = some h → Obs.reg id h ∈ t := by
  induction t using List.reverseRecOn with
  | nil => simp [owner]
  | append_singleton t o ih =>
    rw [owner_snoc]
    cases o <;> simp only [List.mem_append, List.mem_singleton, reduceCtorEq, or_false]
    case reg i k =>
      split
      · rename_i e; subst e; intro hk; simp at hk; subst hk; exact .inr rfl
      · intro hk; exact .inl (ih hk)
    all_goals exact fun hk => ih hk

theorem idOf_mem {t : List Obs} {id h : Nat} : idOf t h = some id → Obs.reg id h ∈ t := by
  induction t using List.reverseRecOn with
  | nil => simp [idOf]
  | append_singleton t o ih =>
    rw [idOf_snoc]
    cases o <;> simp only [List.mem_append, List.mem_singleton, reduceCtorEq, or_false]
    case reg i k =>
      split
      · rename_i e; subst e; intro hk; simp at hk; subst hk; exact .inr rfl
      · intro hk; exact .inl (ih hk)
    all_goals exact fun hk => ih hk

/-! ### pump -/

theorem pump_inv {σ : Type} (H : σ → Frame → σ × Bool) (P Q : σ → Prop) (hPQ : ∀ s, P s → Q s)
    (h : ∀ s f, P s → Q (H s f).1 ∧ ((H s f).2 = false → P (H s f).1)) :
    ∀ (buf : Bytes) (s : σ), P s → Q (pump H s buf).1 ∧ ((pump H s buf).2.2 ≠ .stopped → P (pump H s buf).1) := by
  intro buf
  induction hn : buf.length using Nat.strongRecOn generalizing buf with
  | _ n ih =>
    intro s hs
    rcases hd : decodeFrame buf with ⟨r, b⟩
    cases r with
    | ok o =>
      cases o with
      | none => rw [pump_none H s hd]; exact ⟨hPQ _ hs, fun _ => hs⟩
      | some f =>
        rw [pump_some H s hd]
        have h1 := h s f hs
        cases hb : (H s f).2 with
        | true => simp only [if_true]; exact ⟨h1.1, fun e => absurd rfl e⟩
        | false =>
          simp only [Bool.false_eq_true, if_false]
          have hl := decodeFrame_shrinks hd
          exact ih b.length (by omega) b rfl _ (h1.2 hb)
    | err e => rw [pump_err H s hd]; exact ⟨hPQ _ hs, fun _ => hs⟩
    | panic => rw [pump_panic H s hd]; exact ⟨hPQ _ hs, fun _ => hs⟩

/-- the loop is ready for the next message -/
def Live (s : St) : Prop := s.phase = .running ∧ s.readyShutdown = false ∧ s.pending = none

/-- the loop is waiting in its `select!` -/
def Idle (s : St) : Prop := s.phase = .running ∧ s.pending = none

theorem resume_inv (H : St → Frame → St × Bool) (I : St → Prop)
    (hH : ∀ s f, I s → Live s → I (H s f).1 ∧ ((H s f).2 = false → Live (H s f).1))
    (hread : ∀ s b, I s → I { s with readBuf := b })
    (hfin : ∀ s p, I s → Idle s → p ≠ .running → I (finish p s)) (s : St) (hs : I s) : I (resume H s) := by
  unfold resume
  split
  · rename_i hl
    have hp := pump_inv H (fun s => I s ∧ Live s) I (fun s h => h.1)
      (fun s f h => ⟨(hH s f h.1 h.2).1, fun e => ⟨(hH s f h.1 h.2).1, (hH s f h.1 h.2).2 e⟩⟩) s.readBuf s ⟨hs, hl⟩
    dsimp only
    cases he : (pump H s s.readBuf).2.2 with
    | more => exact hread _ _ hp.1
    | stopped => exact hread _ _ hp.1
    | err e =>
      have h2 := hp.2 (by simp [he])
      exact hfin _ _ (hread _ _ hp.1) ⟨h2.2.1, h2.2.2.2⟩ (by simp)
    | panic =>
      have h2 := hp.2 (by simp [he])
      exact hfin _ _ (hread _ _ hp.1) ⟨h2.2.1, h2.2.2.2⟩ (by simp)
  · exact hs

/-- Obligations for an invariant of the step machine, apart from the handling of a message. -/
structure Kept (I : St → Prop) : Prop where
  buf : ∀ s b, I s → I { s with readBuf := b }
  read : ∀ s bs, I s → Idle s → I (emit (.arrived bs) { s with readBuf := s.readBuf ++ bs })
  fin : ∀ s p, I s → Idle s → p ≠ .running → I (finish p s)
  lost : ∀ s, I s → Idle s → I (finish .ended (closeAll (emit .connLost s)))
  submit : ∀ s f, I s → s.phase = .running → s.outq.length < outCap →
    I (emit (.submitted f) { s with outq := s.outq ++ [f] })
  take : ∀ s h f q, I s → (s.chan h).q = f :: q → (s.chan h).rx = true →
    I (emit (.took h f) (setChan h { s.chan h with q := q } s))
  drop : ∀ s h, I s → (s.chan h).rx = true →
    I (emit (.rxGone h) (setChan h { s.chan h with q := [], rx := false } s))
  retry : ∀ s h f, I s → s.pending = some (h, f) → I (sendAwait h f { s with pending := none }).1
  work : ∀ s id d, I s → Idle s → I (enqueue (.create id d) (register id s))
  recv : ∀ s f q, I s → Idle s → s.outq = f :: q → I (enqueue f { s with outq := q } true)
  wrote : ∀ s n, I s → Idle s → s.writeBuf ≠ [] → (s.writeBuf.drop n ≠ [] ∨ s.readyShutdown = false) →
    I (emit (.wrote (s.writeBuf.take n)) { s with writeBuf := s.writeBuf.drop n })
  drained : ∀ s n, I s → Idle s → s.writeBuf.drop n = [] → s.readyShutdown = true →
    I (finish .ended (emit (.wrote (s.writeBuf.take n)) { s with writeBuf := s.writeBuf.drop n }))

/-- Obligations for an invariant of the step machine. -/
structure Preserved (H : St → Frame → St × Bool) (we : St → St) (I : St → Prop) : Prop extends Kept I where
  handle : ∀ s f, I s → Live s → I (H s f).1 ∧ ((H s f).2 = false → Live (H s f).1)
  writeErr : ∀ s, I s → Idle s → I (we s)

theorem Kept.and {I J : St → Prop} (a : Kept I) (b : Kept J) : Kept (fun s => I s ∧ J s) where
  buf s x h := ⟨a.buf s x h.1, b.buf s x h.2⟩
  read s x h hi := ⟨a.read s x h.1 hi, b.read s x h.2 hi⟩
  fin s p h hi hp := ⟨a.fin s p h.1 hi hp, b.fin s p h.2 hi hp⟩
  lost s h hi := ⟨a.lost s h.1 hi, b.lost s h.2 hi⟩
  submit s f h hi hl := ⟨a.submit s f h.1 hi hl, b.submit s f h.2 hi hl⟩
  take s k f q h hq hr := ⟨a.take s k f q h.1 hq hr, b.take s k f q h.2 hq hr⟩
  drop s k h hr := ⟨a.drop s k h.1 hr, b.drop s k h.2 hr⟩
  retry s k f h hp := ⟨a.retry s k f h.1 hp, b.retry s k f h.2 hp⟩
  work s id d h hi := ⟨a.work s id d h.1 hi, b.work s id d h.2 hi⟩
  recv s f q h hi hq := ⟨a.recv s f q h.1 hi hq, b.recv s f q h.2 hi hq⟩
  wrote s n h hi hw hd := ⟨a.wrote s n h.1 hi hw hd, b.wrote s n h.2 hi hw hd⟩
  drained s n h hi hw hd := ⟨a.drained s n h.1 hi hw hd, b.drained s n h.2 hi hw hd⟩

/-- the client only logs a write error and goes on -/
theorem Kept.preserved {H : St → Frame → St × Bool} {I : St → Prop} (a : Kept I)
    (hH : ∀ s f, I s → Live s → I (H s f).1 ∧ ((H s f).2 = false → Live (H s f).1)) :
    Preserved H (fun s => resume H s) I where
  toKept := a
  handle := hH
  writeErr s h _ := resume_inv H I hH a.buf a.fin s h

/-- the server panics on a write error -/
theorem Kept.preserved' {H : St → Frame → St × Bool} {I : St → Prop} (a : Kept I)
    (hH : ∀ s f, I s → Live s → I (H s f).1 ∧ ((H s f).2 = false → Live (H s f).1)) :
    Preserved H (finish .panicked) I where
  toKept := a
  handle := hH
  writeErr s h hi := a.fin s _ h hi (by simp)

theorem resumePending_inv {H : St → Frame → St × Bool} {we : St → St} {I : St → Prop} (P : Preserved H we I)
    (s : St) (hs : I s) : I (resumePending H s) := by
  unfold resumePending
  split
  · exact hs
  · rename_i h f hp
    dsimp only
    have h1 := P.retry s h f hs hp
    split
    · exact h1
    · exact resume_inv H I P.handle P.buf P.fin _ h1

theorem step_inv {H : St → Frame → St × Bool} {we : St → St} {I : St → Prop} (P : Preserved H we I)
    (s : St) (e : Event) (hs : I s) : I (step H we s e) := by
  have hres := resume_inv H I P.handle P.buf P.fin
  cases e <;> simp only [step]
  case submit f =>
    split
    · rename_i h; exact P.submit s f hs h.1 h.2
    · exact hs
  case take h =>
    split
    · exact hs
    · rename_i f q hq
      split
      · rename_i hrx; exact resumePending_inv P _ (P.take s h f q hs hq hrx)
      · exact hs
  case dropRx h =>
    split
    · rename_i hrx; exact resumePending_inv P _ (P.drop s h hs hrx)
    · exact hs
  case work id d =>
    split
    · rename_i h; exact hres _ (P.work s id d hs h)
    · exact hs
  case recv =>
    split
    · rename_i h
      split
      · exact hs
      · rename_i f q hq; exact hres _ (P.recv s f q hs h hq)
    · exact hs
  case read bs =>
    split
    · rename_i h; exact hres _ (P.read s _ hs h)
    · exact hs
  case readEnd =>
    split
    · rename_i h; exact P.lost s hs h
    · exact hs
  case wrote n =>
    split
    · rename_i h
      split
      · exact hs
      · rename_i hw
        split
        · rename_i hd; exact P.drained s n hs h hd.1 hd.2
        · rename_i hd
          refine hres _ (P.wrote s n hs h hw ?_)
          by_cases hb : s.writeBuf.drop n = []
          · right
            cases hr : s.readyShutdown with
            | false => rfl
            | true => exact absurd ⟨hb, hr⟩ hd
          · exact .inl hb
    · exact hs
  case writeErr =>
    split
    · rename_i h
      split
      · exact hs
      · exact P.writeErr s hs h
    · exact hs

theorem run_inv {H : St → Frame → St × Bool} {we : St → St} {I : St → Prop} (P : Preserved H we I)
    (es : List Event) : ∀ s, I s → I (es.foldl (step H we) s) := by
  induction es with
  | nil => intro s hs; exact hs
  | cons e t ih => intro s hs; exact ih _ (step_inv P s e hs)

end Wm.Tunnel
