import Verif.Proofs.TunnelAnswer
/-! Consequences of the tunnel invariants used by the property theorems. -/
namespace Wm.Tunnel
open Wm Wm.Prot

/-! ### the trace only grows -/

theorem grown {t : List Obs} {s s' : St} (u : List Obs) (h : t <+: s.trace) (e : s'.trace = s.trace ++ u) :
    t <+: s'.trace := by rw [e]; exact h.trans (List.prefix_append _ _)

theorem trySend_grows {t : List Obs} {s : St} (k : Nat) (f : Frame) (h : t <+: s.trace) :
    t <+: (trySend k f s).trace := by
  obtain ⟨⟨u, e, _⟩, _⟩ := Ext.trySend k f s
  exact grown u h e

theorem Grow.kept {t : List Obs} : Kept (fun s => t <+: s.trace) where
  buf s b h := h
  read s bs h _ := grown [.arrived bs] h rfl
  fin s p h _ _ := grown _ h (finish_trace p s)
  lost s h _ := by
    have h1 : t <+: (emit .connLost s).trace := grown [.connLost] h rfl
    obtain ⟨⟨u, e, _⟩, _⟩ := Ext.closeFold (emit .connLost s).map (emit .connLost s)
    have h2 : t <+: (closeAll (emit .connLost s)).trace := grown u h1 e
    exact grown _ h2 (finish_trace _ _)
  submit s f h _ _ := grown [.submitted f] h rfl
  take s k f q h _ _ := grown [.took k f] h rfl
  drop s k h _ := grown [.rxGone k] h rfl
  retry s k f h _ := by
    obtain ⟨⟨u, e, _⟩, _⟩ := Ext.sendAwait k f { s with pending := none }
    exact grown u (s := { s with pending := none }) h e
  work s id d h _ := by
    obtain ⟨⟨u, e, _⟩, _⟩ := Ext.register id s
    have h1 : t <+: (register id s).trace := grown u h e
    exact grown [.queued false (.create id d)] h1 rfl
  recv s f q h _ _ := grown [.queued true f] h rfl
  wrote s n h _ _ _ := grown [.wrote (s.writeBuf.take n)] h rfl
  drained s n h _ _ _ := by
    have h1 : t <+: (emit (.wrote (s.writeBuf.take n)) { s with writeBuf := s.writeBuf.drop n }).trace :=
      grown [.wrote (s.writeBuf.take n)] h rfl
    exact grown _ h1 (finish_trace _ _)

theorem looks_grows {H : St → Frame → St × Bool} (hH : Looks H) {t : List Obs} (s : St) (f : Frame)
    (h : t <+: s.trace) : t <+: (H s f).1.trace := by
  obtain ⟨⟨⟨u, e, _⟩, _⟩, _⟩ := hH s f
  exact grown u (s := emit (.got f) s) (grown [.got f] h rfl) e

theorem server_preserved (cfg : Cfg) (t : List Obs) :
    Preserved (serverHandle cfg) (finish .panicked) (fun s => SInv cfg s ∧ t <+: s.trace) := by
  have hK : Kept (fun s => SInv cfg s ∧ t <+: s.trace) :=
    ((Flow.kept.and Guard.kept).and (HInv.kept.and BInv.kept)).and Grow.kept
  refine Kept.preserved' hK fun s f h hl => ?_
  have h1 := serverHandle_inv cfg s f h.1 hl
  exact ⟨⟨h1.1, looks_grows (serverHandle_looks cfg) s f h.2⟩, h1.2⟩

theorem client_preserved (cfg : Cfg) (p q : List Frame) (t : List Obs) :
    Preserved (clientHandle cfg) (fun s => resume (clientHandle cfg) s) (fun s => CInv p q s ∧ t <+: s.trace) := by
  have hK : Kept (fun s => CInv p q s ∧ t <+: s.trace) := (Flow.kept.and (HInv.kept.and BInv.kept)).and Grow.kept
  refine Kept.preserved hK fun s f h hl => ?_
  have h1 := clientHandle_inv cfg p q s f h.1 hl
  exact ⟨⟨h1.1, looks_grows (clientHandle_looks cfg) s f h.2⟩, h1.2⟩

/-! ### a blocked loop waits for a full channel -/

def Full (s : St) : Prop :=
  ∀ k f, s.pending = some (k, f) → (s.chan k).rx = true ∧ streamCap ≤ (s.chan k).q.length

theorem Full.idle {s : St} (h : s.pending = none) : Full s := by intro k f e; rw [h] at e; cases e

theorem Full.sendAwait {s : St} (h : s.pending = none) (k : Nat) (f : Frame) :
    Full (sendAwait k f s).1 ∧ ((sendAwait k f s).2 = false → (sendAwait k f s).1.pending = none) := by
  unfold Tunnel.sendAwait
  split
  · exact ⟨Full.idle h, fun _ => h⟩
  · rename_i hr
    split
    · exact ⟨Full.idle h, fun _ => h⟩
    · rename_i hl
      refine ⟨?_, by simp⟩
      intro k' f' e
      simp at e
      obtain ⟨rfl, rfl⟩ := e
      exact ⟨by simpa using hr, by simpa using hl⟩

/-- what `Full` needs of a message handler -/
def Blocks (H : St → Frame → St × Bool) : Prop :=
  ∀ s f, s.pending = none → Full (H s f).1 ∧ ((H s f).2 = false → (H s f).1.pending = none)

theorem serverHandle_blocks (cfg : Cfg) : Blocks (serverHandle cfg) := by
  intro s f h
  have h1 : (emit (.got f) s).pending = none := h
  unfold serverHandle
  dsimp only
  split
  · exact ⟨Full.idle h1, fun _ => h1⟩
  · split
    · exact ⟨Full.idle h1, fun _ => h1⟩
    · cases f with
      | create id d =>
        have : (register id (emit (.got (.create id d)) s)).pending = none := (register_pending _ _).trans h1
        exact ⟨Full.idle this, fun _ => this⟩
      | close id r =>
        dsimp only
        split
        · exact Full.sendAwait h1 _ _
        · exact ⟨Full.idle h1, fun _ => h1⟩
      | data id r =>
        dsimp only
        split
        · exact Full.sendAwait h1 _ _
        · exact ⟨Full.idle h1, fun _ => h1⟩
      | mapping id r => exact ⟨Full.idle h1, fun _ => h1⟩
      | token id r => exact ⟨Full.idle h1, fun _ => h1⟩

theorem clientHandle_blocks (cfg : Cfg) : Blocks (clientHandle cfg) := by
  intro s f h
  have h1 : (emit (.got f) s).pending = none := h
  suffices hp : (clientHandle cfg s f).1.pending = none from ⟨Full.idle hp, fun _ => hp⟩
  unfold clientHandle
  dsimp only
  cases f with
  | create id d =>
    dsimp only
    have h2 : (register id (emit (.got (.create id d)) s)).pending = none := (register_pending _ _).trans h1
    split
    · unfold selfSend; split <;> exact h1
    · split
      · exact h2
      · split <;> exact h2
  | close id r =>
    dsimp only
    split
    · exact h1
    · split
      · exact (trySend_pending _ _ _).trans h1
      · exact h1
  | data id r =>
    dsimp only
    split
    · exact (trySend_pending _ _ _).trans h1
    · exact h1
  | mapping id r => exact h1
  | token id r => exact (finish_pending _ _).trans h1

theorem resume_full {H : St → Frame → St × Bool} (hH : Blocks H) (s : St) (h : Full s) : Full (resume H s) := by
  unfold resume
  split
  · rename_i hl
    have hp := pump_inv H (fun s => s.pending = none) Full (fun s h => Full.idle h) hH s.readBuf s hl.2.2
    dsimp only
    cases he : (pump H s s.readBuf).2.2 with
    | more => exact hp.1
    | stopped => exact hp.1
    | err e => exact Full.idle ((finish_pending _ _).trans (hp.2 (by simp [he])))
    | panic => exact Full.idle ((finish_pending _ _).trans (hp.2 (by simp [he])))
  · exact h

theorem resumePending_full {H : St → Frame → St × Bool} (hH : Blocks H) (s : St) : Full (resumePending H s) := by
  unfold resumePending
  split
  · rename_i h; exact Full.idle h
  · rename_i k f h
    dsimp only
    have h1 := Full.sendAwait (s := { s with pending := none }) rfl k f
    split
    · exact h1.1
    · exact resume_full hH _ h1.1

theorem step_full {H : St → Frame → St × Bool} (hH : Blocks H) {we : St → St}
    (hwe : ∀ s, s.pending = none → Full (we s)) (s : St) (e : Event) (hs : Full s) : Full (step H we s e) := by
  cases e <;> simp only [step]
  case submit f => split <;> exact hs
  case take h =>
    split
    · exact hs
    · split
      · exact resumePending_full hH _
      · exact hs
  case dropRx h =>
    split
    · exact resumePending_full hH _
    · exact hs
  case work id d =>
    split
    · rename_i h; exact resume_full hH _ (Full.idle ((register_pending _ _).trans h.2))
    · exact hs
  case recv =>
    split
    · rename_i h
      split
      · exact hs
      · exact resume_full hH _ (Full.idle h.2)
    · exact hs
  case read bs =>
    split
    · rename_i h; exact resume_full hH _ (Full.idle h.2)
    · exact hs
  case readEnd =>
    split
    · rename_i h; exact Full.idle ((finish_pending _ _).trans ((closeAll_pending _).trans h.2))
    · exact hs
  case wrote n =>
    split
    · rename_i h
      split
      · exact hs
      · split
        · exact Full.idle ((finish_pending _ _).trans h.2)
        · exact resume_full hH _ (Full.idle h.2)
    · exact hs
  case writeErr =>
    split
    · rename_i h
      split
      · exact hs
      · exact hwe s h.2
    · exact hs

theorem server_full (cfg : Cfg) (es : List Event) : Full (serverRun cfg es) := by
  have : Full (serverInit cfg) := Full.idle rfl
  unfold serverRun
  generalize serverInit cfg = s at this
  induction es generalizing s with
  | nil => exact this
  | cons e t ih =>
    exact ih _ (step_full (serverHandle_blocks cfg) (fun s h => Full.idle ((finish_pending _ _).trans h)) s e this)

theorem client_full (cfg : Cfg) (q : List Frame) (es : List Event) : Full (clientRun cfg q es) := by
  have : Full (clientInit cfg q) := Full.idle (Fresh.init cfg q).pending
  unfold clientRun
  generalize clientInit cfg q = s at this
  induction es generalizing s with
  | nil => exact this
  | cons e t ih =>
    exact ih _ (step_full (clientHandle_blocks cfg) (fun s h => resume_full (clientHandle_blocks cfg) s (Full.idle h))
      s e this)

/-! ### delivery -/

theorem puts_eq_attempts {h : Nat} {t : List Obs} (hl : ∀ f, .lost h f ∉ t) (ho : ∀ f, .overflow h f ∉ t) :
    puts h t = attempts h t := by
  induction t with
  | nil => rfl
  | cons o t ih =>
    have ih := ih (fun f hf => hl f (List.mem_cons_of_mem _ hf)) (fun f hf => ho f (List.mem_cons_of_mem _ hf))
    unfold puts attempts at *
    rw [List.filterMap_cons, List.filterMap_cons, ih]
    cases o <;> try rfl
    case lost k f =>
      have e : k ≠ h := fun e => hl f (by simp [e])
      simp [e]
    case overflow k f =>
      have e : k ≠ h := fun e => ho f (by simp [e])
      simp [e]

/-- The messages waiting for stream `h`. -/
def waiting (h : Nat) (s : St) : List Frame := (s.chan h).q ++ owed h s.pending.toList

theorem received_waiting {acc s h} (hF : Flow acc s) (hH : HInv s) {id : Nat} (hreg : .reg id h ∈ s.trace)
    (hg : .rxGone h ∉ s.trace) (ho : ∀ f, .overflow h f ∉ s.trace) :
    (s.chan h).rx = true ∧ received h s.trace ++ waiting h s = due acc h s.trace := by
  have hn := (hH.regs _ _ hreg).2
  have hrx : (s.chan h).rx = true := by
    cases hr : (s.chan h).rx with
    | true => rfl
    | false => exact absurd ((hF.1.gone h hr).2 hn) hg
  refine ⟨hrx, ?_⟩
  have hl : ∀ f, .lost h f ∉ s.trace := fun f hf => hg (hF.1.lost h f hf)
  rw [waiting, ← List.append_assoc, (hF.1.open_ h hrx).1, puts_eq_attempts hl ho]
  exact hF.1.flow h

theorem received_mono {t t' : List Obs} (h : Nat) (e : t <+: t') : received h t <+: received h t' := by
  obtain ⟨u, rfl⟩ := e
  simp [received, List.filterMap_append]

/-- a take hands over the next waiting message -/
theorem take_next {H : St → Frame → St × Bool} {we : St → St} {I : St → Prop}
    (P : ∀ t, Preserved H we (fun s => I s ∧ t <+: s.trace)) {s : St} {h : Nat} (hI : I s) (hf : Full s)
    (hrx : (s.chan h).rx = true) :
    received h s.trace ++ (waiting h s).take 1 <+: received h (step H we s (.take h)).trace := by
  simp only [step]
  cases hq : (s.chan h).q with
  | nil =>
    have hw : waiting h s = [] := by
      rw [waiting, hq]
      cases hp : s.pending with
      | none => rfl
      | some x =>
        obtain ⟨k, f⟩ := x
        have := (hf k f hp).2
        by_cases e : k = h
        · subst e; rw [hq] at this; simp [streamCap] at this
        · simp [e]
    simp [hw]
  | cons f q =>
    dsimp only
    simp only [hrx, if_true]
    have h1 := (P s.trace).take s h f q ⟨hI, List.prefix_refl _⟩ hq hrx
    have h2 := resumePending_inv (P (s.trace ++ [.took h f])) _ ⟨h1.1, List.prefix_refl _⟩
    have h3 := received_mono h h2.2
    simp only [hrx] at h3
    refine List.IsPrefix.trans ?_ h3
    simp [waiting, hq, received_snoc]

theorem mem_dueFrom {acc h f} : ∀ (t past : List Obs), f ∈ dueFrom acc h past t →
    ∃ t1 o t2, t = t1 ++ o :: t2 ∧ f ∈ dueNow acc h (past ++ t1) o := by
  intro t
  induction t with
  | nil => intro past hf; simp [dueFrom] at hf
  | cons o t ih =>
    intro past hf
    simp only [dueFrom, List.mem_append] at hf
    rcases hf with hf | hf
    · exact ⟨[], o, t, rfl, by simpa using hf⟩
    · obtain ⟨t1, x, t2, rfl, hx⟩ := ih _ hf
      exact ⟨o :: t1, x, t2, rfl, by simpa using hx⟩

theorem mem_due {acc h f t} (hf : f ∈ due acc h t) :
    (∃ t1 t2, t = t1 ++ .got f :: t2 ∧ acc t1 f = true ∧ owner t1 f.sockMap = some h) ∨
    (∃ t1 t2 i, t = t1 ++ .connLost :: t2 ∧ f = .close i [] ∧ owner t1 i = some h) := by
  obtain ⟨t1, o, t2, e, hm⟩ := mem_dueFrom t [] hf
  rw [List.nil_append] at hm
  cases o <;> simp only [dueNow, List.not_mem_nil] at hm
  case got g =>
    split at hm
    · rename_i hc
      simp at hm; subst hm
      exact .inl ⟨t1, t2, e, hc.1, hc.2⟩
    · simp at hm
  case connLost =>
    split at hm
    · rename_i i hi
      split at hm
      · rename_i ho
        simp at hm
        exact .inr ⟨t1, t2, i, e, hm, ho⟩
      · simp at hm
    · simp at hm

theorem puts_sublist (h : Nat) (t : List Obs) : ∀ f ∈ puts h t, f ∈ attempts h t := by
  intro f hf
  simp only [puts, attempts, List.mem_filterMap] at hf ⊢
  obtain ⟨o, ho, he⟩ := hf
  refine ⟨o, ho, ?_⟩
  cases o <;> simp_all

theorem routed {acc s h f} (hF : Flow acc s) (hf : f ∈ attempts h s.trace) :
    (∃ t1 t2, s.trace = t1 ++ .got f :: t2 ∧ acc t1 f = true ∧ owner t1 f.sockMap = some h) ∨
    (∃ t1 t2 i, s.trace = t1 ++ .connLost :: t2 ∧ f = .close i [] ∧ owner t1 i = some h) :=
  mem_due ((hF.1.flow h) ▸ List.mem_append_left _ hf)

theorem own_id {acc s h f} (hF : Flow acc s) (hH : HInv s) (hf : f ∈ received h s.trace) :
    idOf s.trace h = some f.sockMap := by
  have hp : received h s.trace <+: puts h s.trace := by
    cases hr : (s.chan h).rx with
    | true => exact ⟨_, (hF.1.open_ h hr).1⟩
    | false => exact (hF.1.gone h hr).1
  have ha := puts_sublist h _ f (hp.subset hf)
  rcases routed hF ha with ⟨t1, t2, e, _, ho⟩ | ⟨t1, t2, i, e, rfl, ho⟩
  · exact (hH.regs _ _ (by rw [e]; exact List.mem_append_left _ (owner_mem ho))).1
  · exact (hH.regs _ _ (by rw [e]; exact List.mem_append_left _ (owner_mem ho))).1

/-! ### one refusal -/

/-- close messages queued by the loop itself -/
def refusals (t : List Obs) : List Frame :=
  t.filterMap fun | .queued false (.close i r) => some (.close i r) | _ => none

theorem refusals_append (a b : List Obs) : refusals (a ++ b) = refusals a ++ refusals b := by simp [refusals]

def RInv (s : St) : Prop := refusals s.trace = if s.readyShutdown then [.close 0 notVerify] else []

theorem RInv.grow {s s'} (h : RInv s) (u : List Obs) (ht : s'.trace = s.trace ++ u)
    (hr : s'.readyShutdown = s.readyShutdown) (hu : refusals u = [] := by rfl) : RInv s' := by
  unfold RInv at *
  rw [ht, hr, refusals_append, hu, List.append_nil]; exact h

theorem hangupFold_ready (m : List (Nat × Nat)) : ∀ s : St,
    (m.foldl (fun s x => hangup x.2 s) s).readyShutdown = s.readyShutdown := by
  induction m with
  | nil => intro s; rfl
  | cons x m ih => intro s; exact (ih _).trans rfl

theorem RInv.finish {s} (h : RInv s) (p : Phase) : RInv (finish p s) := by
  refine h.grow _ (finish_trace p s) (hangupFold_ready _ _) ?_
  generalize s.map = m
  induction m with
  | nil => rfl
  | cons x m ih => simpa [refusals] using ih

theorem RInv.trySend {s} (h : RInv s) (k : Nat) (f : Frame) : RInv (trySend k f s) := by
  unfold Tunnel.trySend
  split
  · exact h.grow [.lost k f] rfl rfl
  · split
    · exact h.grow [.put k f] rfl rfl
    · exact h.grow [.overflow k f] rfl rfl

theorem RInv.closeFold (m : List (Nat × Nat)) : ∀ s, RInv s →
    RInv (m.foldl (fun s x => Tunnel.trySend x.2 (.close x.1 []) s) s) := by
  induction m with
  | nil => intro s h; exact h
  | cons x m ih => intro s h; exact ih _ (h.trySend _ _)

theorem RInv.sendAwait {s} (h : RInv s) (k : Nat) (f : Frame) : RInv (sendAwait k f s).1 := by
  unfold Tunnel.sendAwait
  split
  · exact h.grow [.lost k f] rfl rfl
  · split
    · exact h.grow [.put k f] rfl rfl
    · exact h.grow [] (by simp) rfl

theorem RInv.register {s} (h : RInv s) (id : Nat) : RInv (register id s) := by
  refine h.grow _ ((register_trace id s).trans (List.append_assoc ..)) (register_ready id s) ?_
  cases lookup id s.map <;> rfl

theorem RInv.kept : Kept RInv where
  buf s b h := h
  read s bs h _ := h.grow [.arrived bs] rfl rfl
  fin s ph h _ _ := h.finish ph
  lost s h _ := by
    have h1 : RInv (emit .connLost s) := h.grow [.connLost] rfl rfl
    exact RInv.finish (RInv.closeFold _ _ h1) _
  submit s f h _ _ := h.grow [.submitted f] rfl rfl
  take s k f q h _ _ := h.grow [.took k f] rfl rfl
  drop s k h _ := h.grow [.rxGone k] rfl rfl
  retry s k f h _ := RInv.sendAwait (s := { s with pending := none }) h k f
  work s id d h _ := (h.register id).grow [.queued false (.create id d)] rfl rfl
  recv s f q h _ _ := h.grow [.queued true f] rfl rfl
  wrote s n h _ _ _ := h.grow [.wrote (s.writeBuf.take n)] rfl rfl
  drained s n h _ _ _ := by
    have h1 : RInv (emit (.wrote (s.writeBuf.take n)) { s with writeBuf := s.writeBuf.drop n }) :=
      h.grow [.wrote (s.writeBuf.take n)] rfl rfl
    exact h1.finish _

theorem serverHandle_refusal (cfg : Cfg) (s : St) (f : Frame) (h : RInv s) (hl : Live s) :
    RInv (serverHandle cfg s f).1 := by
  have h1 : RInv (emit (.got f) s) := h.grow [.got f] rfl rfl
  unfold serverHandle
  dsimp only
  split
  · exact h1
  · split
    · unfold RInv at h ⊢
      rw [hl.2.1] at h
      simp only [enqueue, emit, refusals_append, if_true]
      simp only [Bool.false_eq_true, if_false] at h
      rw [h]; rfl
    · cases f with
      | create id d => exact (h1.register id).grow [.opened id _ (.proxy none)] rfl rfl
      | close id r =>
        dsimp only
        split
        · exact h1.sendAwait _ _
        · exact h1
      | data id r =>
        dsimp only
        split
        · exact h1.sendAwait _ _
        · exact h1
      | mapping id r => exact h1.grow [.setMap r] rfl rfl
      | token id r => exact h1

theorem server_refusal (cfg : Cfg) (es : List Event) : RInv (serverRun cfg es) := by
  have hK : Kept (fun s => SInv cfg s ∧ RInv s) :=
    ((Flow.kept.and Guard.kept).and (HInv.kept.and BInv.kept)).and RInv.kept
  refine (run_inv (Kept.preserved' hK fun s f h hl => ?_) es (serverInit cfg) ⟨server_inv cfg [], rfl⟩).2
  have h1 := serverHandle_inv cfg s f h.1 hl
  exact ⟨⟨h1.1, serverHandle_refusal cfg s f h.2 hl⟩, h1.2⟩

end Wm.Tunnel

namespace Wm.Tunnel
open Wm Wm.Prot

theorem complete_wire {f : Frame} (hf : Fits f) (r : Bytes) : Complete (wire f ++ r) := by
  have hl := wire_length hf.1
  have h3 : 3 ≤ (wire f).length := by omega
  unfold Complete
  rw [← announced_prefix (List.prefix_append _ _) h3, announced_wire hf.1, List.length_append]
  omega

theorem looked_at {fs part s} (hS : Stream fs part) (h : AtIdle fs part s)
    (ha : arrived s.trace <+: fs.flatMap wire ++ part) :
    gots s.trace <+: fs.map asReceived ∧
      (arrived s.trace = fs.flatMap wire ++ part → Live s → gots s.trace = fs.map asReceived) := by
  obtain ⟨c, rest, rfl, hg, hr⟩ := h.1 ha
  refine ⟨by rw [hg]; simp, fun he hl => ?_⟩
  have hc := h.2 ha hl
  rw [hg]
  cases rest with
  | nil => simp
  | cons f rest =>
    exfalso
    rw [he] at hr
    simp only [List.flatMap_append, List.append_assoc, List.append_cancel_left_eq, List.flatMap_cons] at hr
    exact hc (hr ▸ complete_wire (hS.fits f (by simp)) _)

end Wm.Tunnel

namespace Wm.Tunnel
open Wm Wm.Prot

theorem clientHandle_pending (cfg : Cfg) (s : St) (f : Frame) (h : s.pending = none) :
    (clientHandle cfg s f).1.pending = none := by
  have h1 : (emit (.got f) s).pending = none := h
  unfold clientHandle
  dsimp only
  cases f with
  | create id d =>
    dsimp only
    have h2 : (register id (emit (.got (.create id d)) s)).pending = none := (register_pending _ _).trans h1
    split
    · unfold selfSend; split <;> exact h1
    · split
      · exact h2
      · split <;> exact h2
  | close id r =>
    dsimp only
    split
    · exact h1
    · split
      · exact (trySend_pending _ _ _).trans h1
      · exact h1
  | data id r =>
    dsimp only
    split
    · exact (trySend_pending _ _ _).trans h1
    · exact h1
  | mapping id r => exact h1
  | token id r => exact (finish_pending _ _).trans h1

theorem clientResume_pending (cfg : Cfg) (s : St) (h : s.pending = none) :
    (resume (clientHandle cfg) s).pending = none := by
  unfold resume
  split
  · rename_i hl
    have hp := (pump_inv (clientHandle cfg) (fun s => s.pending = none) (fun s => s.pending = none) (fun _ h => h)
      (fun s f h => ⟨clientHandle_pending cfg s f h, fun _ => clientHandle_pending cfg s f h⟩) s.readBuf s hl.2.2).1
    dsimp only
    cases (pump (clientHandle cfg) s s.readBuf).2.2 with
    | more => exact hp
    | stopped => exact hp
    | err e => exact (finish_pending _ _).trans hp
    | panic => exact (finish_pending _ _).trans hp
  · exact h

/-- a client never waits for a slow stream -/
theorem client_never_waits (cfg : Cfg) (q : List Frame) (es : List Event) : (clientRun cfg q es).pending = none := by
  have h0 : (clientInit cfg q).pending = none := (Fresh.init cfg q).pending
  unfold clientRun
  generalize clientInit cfg q = s at h0
  induction es generalizing s with
  | nil => exact h0
  | cons e t ih =>
    refine ih _ ?_
    unfold clientStep
    have hR : ∀ s, s.pending = none → (resume (clientHandle cfg) s).pending = none := clientResume_pending cfg
    have hRP : ∀ s, s.pending = none → (resumePending (clientHandle cfg) s).pending = none := by
      intro s h; unfold resumePending; rw [h]; exact h
    cases e <;> simp only [step]
    case submit f => split <;> exact h0
    case take h =>
      split
      · exact h0
      · split
        · exact hRP _ h0
        · exact h0
    case dropRx h =>
      split
      · exact hRP _ h0
      · exact h0
    case work id d =>
      split
      · exact hR _ ((register_pending _ _).trans h0)
      · exact h0
    case recv =>
      split
      · split
        · exact h0
        · exact hR _ h0
      · exact h0
    case read bs =>
      split
      · exact hR _ h0
      · exact h0
    case readEnd =>
      split
      · exact (finish_pending _ _).trans ((closeAll_pending _).trans h0)
      · exact h0
    case wrote n =>
      split
      · split
        · exact h0
        · split
          · exact (finish_pending _ _).trans h0
          · exact hR _ h0
      · exact h0
    case writeErr =>
      split
      · split
        · exact h0
        · exact hR _ h0
      · exact h0

end Wm.Tunnel
