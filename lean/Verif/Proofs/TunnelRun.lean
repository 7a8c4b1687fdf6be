import Verif.Proofs.TunnelInv
/-! The message handlers keep all invariants; invariants of every reachable state of both ends. -/
namespace Wm.Tunnel
open Wm Wm.Prot

theorem sendAwait_live {k f s} (h : Live s) (hb : (sendAwait k f s).2 = false) : Live (sendAwait k f s).1 := by
  unfold sendAwait at hb ⊢
  split at hb
  · rename_i hr; simp only [hr, if_true]; exact h
  · rename_i hr
    split at hb
    · rename_i hl; simp only [hr, hl, if_true]; exact h
    · simp at hb

theorem trySend_live {k f s} (h : Live s) : Live (trySend k f s) :=
  ⟨(trySend_phase k f s).trans h.1, (trySend_ready k f s).trans h.2.1, (trySend_pending k f s).trans h.2.2⟩

theorem register_live {id s} (h : Live s) : Live (register id s) :=
  ⟨(register_phase id s).trans h.1, (register_ready id s).trans h.2.1, (register_pending id s).trans h.2.2⟩

/-- all invariants of a server end -/
def SInv (cfg : Cfg) (s : St) : Prop := (Flow (serverAccepts cfg) s ∧ Guard cfg s) ∧ (HInv s ∧ BInv [] [] s)

theorem Guard.gotServed {cfg s} (h : Guard cfg s) (f : Frame) (hl : LoggedIn cfg s.trace)
    (hp : s.pending = none) : Guard cfg (emit (.got f) s) := by
  refine ⟨?_, ?_, by simpa [emit] using h.noOver, ?_, h.open_, ?_⟩
  · show s.verify = _
    rw [h.verify]
    simp only [emit, hl, hl.mono, decide_true]
  · exact h.served.snoc (fun x => x.elim)
  · intro hp'; exact absurd hp hp'
  · intro hu
    right; left
    rcases h.first hu with ⟨h1, h2⟩ | ⟨g, gs, h1, h2, h3⟩ | ⟨g, h1, ⟨t1, t2, e, g1, g2⟩, h3, h4⟩
    · exfalso
      rcases hl with hl | ⟨g, hg, _⟩
      · exact hl hu
      · rw [h1] at hg; simp at hg
    · exact ⟨g, gs ++ [f], by simp [emit, gots_snoc, h1], h2, h3⟩
    · exfalso
      rcases hl with hl | ⟨x, hx, hlx⟩
      · exact hl hu
      · rw [e] at hx
        have : gots (t1 ++ .got g :: .queued false (.close 0 notVerify) :: t2) = gots t1 ++ g :: gots t2 := by
          simp [gots]
        rw [this, g1, g2] at hx
        simp at hx
        exact h1 (hx ▸ hlx)

theorem serverHandle_inv (cfg : Cfg) (s : St) (f : Frame) (h : SInv cfg s) (hl : Live s) :
    SInv cfg (serverHandle cfg s f).1 ∧ ((serverHandle cfg s f).2 = false → Live (serverHandle cfg s f).1) := by
  obtain ⟨⟨hF, hG⟩, hH, hB⟩ := h
  obtain ⟨hph, hrs, hpe⟩ := hl
  have hD := (hF.plain hpe).got f hph
  have hH1 : HInv (emit (.got f) s) := hH.grow [.got f] rfl rfl rfl rfl
  have hB1 : BInv [] [] (emit (.got f) s) := hB.note (.got f) trivial rfl rfl rfl
  have hL1 : Live (emit (.got f) s) := ⟨hph, hrs, hpe⟩
  have hv := hG.verify
  unfold serverHandle
  dsimp only
  split
  · -- login
    rename_i hlog
    cases f with
    | token u p =>
      simp only [loginNow, emit, Bool.and_eq_true, Bool.not_eq_true'] at hlog
      have hisl := (isCheckSucc_iff cfg u p).1 hlog.2
      have hnl : ¬ LoggedIn cfg s.trace := by
        rw [hlog.1] at hv; simpa using hv.symm
      have hpr : Protected cfg := by
        by_contra hc; exact hnl (.inl hc)
      refine ⟨⟨⟨?_, ?_⟩, ?_, ?_⟩, fun _ => hL1⟩
      · refine Flow.of (DInv.congr (s := emit (.got (.token u p)) s) ?_ rfl rfl rfl id rfl) hpe
        simpa [serverAccepts] using hD
      · have hl' : LoggedIn cfg (s.trace ++ [.got (.token u p)]) :=
          .inr ⟨.token u p, by simp [gots_snoc], hisl⟩
        refine ⟨?_, ?_, by simpa [emit] using hG.noOver, ?_, hG.open_, ?_⟩
        · simp only [emit, hl', decide_true]
        · exact hG.served.snoc (fun x => x.elim)
        · intro _; exact hl'
        · intro hu
          rcases hG.first hu with ⟨h1, h2⟩ | ⟨g, gs, h1, h2, h3⟩ | ⟨g, h1, _, h3, h4⟩
          · right; left
            exact ⟨.token u p, [], by simp [emit, gots_snoc, h1], hisl, h2⟩
          · exact absurd (.inr ⟨g, by simp [h1], h2⟩) hnl
          · rw [hrs] at h3; cases h3
      · exact hH1.grow [] (by simp) rfl rfl rfl
      · exact hB1.congr rfl rfl rfl
    | create id d => simp [loginNow] at hlog
    | close id d => simp [loginNow] at hlog
    | data id d => simp [loginNow] at hlog
    | mapping id d => simp [loginNow] at hlog
  · rename_i hlog
    split
    · -- refused
      rename_i hver
      have hver' : s.verify = false := by simpa [emit] using hver
      have hnl : ¬ LoggedIn cfg s.trace := by
        rw [hver'] at hv; simpa using hv.symm
      have hpr : Protected cfg := by
        by_contra hc; exact hnl (.inl hc)
      have hni : ¬ IsLogin cfg f := by
        rintro ⟨u, p, rfl, h1⟩
        apply hlog
        simp only [loginNow, emit, hver', Bool.not_false, Bool.true_and]
        exact (isCheckSucc_iff cfg u p).2 ⟨u, p, rfl, h1⟩
      have hg0 : gots s.trace = [] := by
        rcases hG.first hpr with ⟨h1, h2⟩ | ⟨g, gs, h1, h2, h3⟩ | ⟨g, h1, _, h3, h4⟩
        · exact h1
        · exact absurd (.inr ⟨g, by simp [h1], h2⟩) hnl
        · rw [hrs] at h3; cases h3
      have hnl' : ¬ LoggedIn cfg (s.trace ++ [.got f] ++ [.queued false (.close 0 notVerify)]) := by
        rintro (hc | ⟨x, hx, hlx⟩)
        · exact hc hpr
        · rw [gots_snoc, gots_snoc, hg0] at hx; simp at hx; exact hni (hx ▸ hlx)
      have hacc : serverAccepts cfg s.trace f = false := by
        cases f <;> simp [serverAccepts, hnl]
      simp only [hacc, Bool.false_eq_true, if_false] at hD
      refine ⟨⟨⟨?_, ?_⟩, ?_, ?_⟩, fun hc => by cases hc⟩
      · exact Flow.of (hD.quiet' (.queued false (.close 0 notVerify)) trivial rfl rfl rfl rfl rfl) hpe
      · refine ⟨?_, ?_, by simpa [enqueue, emit] using hG.noOver, ?_, ?_, ?_⟩
        · simp only [enqueue, emit, hver', hnl', decide_false]
        · refine ServedOk.snoc (ServedOk.snoc hG.served (fun x => x.elim)) (fun x => x.elim)
        · intro hp; exact absurd hpe hp
        · intro hu; exact absurd hpr hu
        · intro _
          right; right
          refine ⟨f, hni, ⟨s.trace, [], by simp [enqueue, emit], hg0, rfl⟩, rfl, fun _ => ?_⟩
          simp only [enqueue, emit, encode_append]
          simp [wire, Frame.encode, encodeClose, put, Enc.andThen, writeShortString, Header.encode]
          split <;> simp [putU24]
      · exact hH1.grow [.queued false (.close 0 notVerify)] rfl rfl rfl rfl
      · exact (hB1.enqueue (.close 0 notVerify)).congr rfl rfl rfl
    · -- logged in
      rename_i hver
      have hver' : s.verify = true := by simpa [emit] using hver
      have hll : LoggedIn cfg s.trace := by rw [hver'] at hv; simpa using hv.symm
      have hG1 := hG.gotServed f hll hpe
      have hll1 : LoggedIn cfg (emit (.got f) s).trace := hll.mono _
      have hdeliver : ∀ id, id = f.sockMap → serverAccepts cfg s.trace f = true →
          SInv cfg (match lookup id (emit (.got f) s).map with
            | some h => sendAwait h f (emit (.got f) s)
            | none => (emit (.got f) s, false)).1 ∧
          ((match lookup id (emit (.got f) s).map with
            | some h => sendAwait h f (emit (.got f) s)
            | none => (emit (.got f) s, false)).2 = false →
           Live (match lookup id (emit (.got f) s).map with
            | some h => sendAwait h f (emit (.got f) s)
            | none => (emit (.got f) s, false)).1) := by
        rintro id rfl hacc
        simp only [hacc, if_true] at hD
        have hmap : (emit (.got f) s).map = s.map := rfl
        rw [hmap]
        cases hlk : lookup f.sockMap s.map with
        | none =>
          rw [hlk] at hD
          exact ⟨⟨⟨Flow.of hD hpe, hG1⟩, hH1, hB1⟩, fun _ => hL1⟩
        | some k =>
          rw [hlk] at hD
          have hk := ((hF.plain hpe).mapId _ (lookup_mem hlk)).2
          exact ⟨⟨⟨Flow.sendAwait hD hpe hk, hG1.sendAwait k f hll1⟩, hH1.sendAwait k f, hB1.sendAwait k f⟩,
            sendAwait_live hL1⟩
      cases f with
      | create id d =>
        have hD1 : DInv (serverAccepts cfg) [] (emit (.got (.create id d)) s) := by simpa [serverAccepts] using hD
        have hD2 := hD1.register id
        refine ⟨⟨⟨Flow.of (hD2.note s.next (by simp; exact Nat.lt_succ_self _) (.inr ⟨id, _, rfl⟩)) ?_, ?_⟩, ?_, ?_⟩,
          fun _ => register_live hL1⟩
        · show (register id (emit (.got (.create id d)) s)).pending = none
          simp [emit, hpe]
        · exact (hG1.register id).grow _ (by simp)
            (fun _ _ => by rw [register_trace, List.append_assoc]; exact hll1.mono _)
            rfl rfl rfl (.inl rfl) rfl (fun _ _ x => x)
        · exact (hH1.register id hph).grow [_] rfl rfl rfl rfl
        · exact (hB1.register id).note (.opened id s.next (.proxy none)) trivial rfl rfl rfl
      | close id d => exact hdeliver id rfl (by simp [serverAccepts, hll])
      | data id d => exact hdeliver id rfl (by simp [serverAccepts, hll])
      | mapping id ms =>
        have hD1 : DInv (serverAccepts cfg) [] (emit (.got (.mapping id ms)) s) := by simpa [serverAccepts] using hD
        refine ⟨⟨⟨Flow.of (hD1.quiet' (.setMap ms) trivial rfl rfl rfl rfl rfl) hpe, ?_⟩, ?_, ?_⟩, fun _ => hL1⟩
        · exact hG1.grow (.setMap ms) (by simp) (fun _ _ => hll1) rfl rfl rfl (.inl rfl) rfl (fun _ _ x => x)
        · exact hH1.grow [.setMap ms] rfl rfl rfl rfl
        · exact hB1.note (.setMap ms) trivial rfl rfl rfl
      | token u p =>
        have hD1 : DInv (serverAccepts cfg) [] (emit (.got (.token u p)) s) := by simpa [serverAccepts] using hD
        exact ⟨⟨⟨Flow.of hD1 hpe, hG1⟩, hH1, hB1⟩, fun _ => hL1⟩

theorem DInv.init {acc s} (hm : s.map = []) (hc : s.chan = fun _ => emptyChan) (hn : s.next = 0)
    (ht : ∀ o ∈ s.trace, ∃ b f, o = .queued b f) : DInv acc [] s := by
  have hq : ∀ (t : List Obs), (∀ o ∈ t, ∃ b f, o = .queued b f) → (∀ id, owner t id = none) ∧
      (∀ k, attempts k t = []) ∧ (∀ k, puts k t = []) ∧ (∀ k, received k t = []) ∧ (∀ k, due acc k t = []) := by
    intro t
    induction t using List.reverseRecOn with
    | nil => intro _; simp [owner, attempts, puts, received, due, dueFrom]
    | append_singleton t o ih =>
      intro ho
      obtain ⟨b, f, rfl⟩ := ho o (by simp)
      have := ih (fun x hx => ho x (by simp [hx]))
      simp only [owner_snoc, attempts_snoc, puts_snoc, received_snoc, due_snoc, dueNow, List.append_nil]
      exact this
  obtain ⟨h1, h2, h3, h4, h5⟩ := hq _ ht
  refine ⟨?_, ?_, ?_, ?_, ?_, ?_, ?_, ?_⟩
  · intro _ id; rw [hm, h1]; rfl
  · simp [hm]
  · simp [hm]
  · intro k; simp [h2, h5]
  · intro k hk; simp [hc, emptyChan] at hk
  · intro k _; simp [h3, h4, hn]
  · intro k _
    refine ⟨by simp [hc, emptyChan], fun o ho => ?_⟩
    obtain ⟨b, f, rfl⟩ := ht o ho
    simp [Names]
  · intro k f hk; obtain ⟨b, g, e⟩ := ht _ hk; cases e

theorem server_inv (cfg : Cfg) (es : List Event) : SInv cfg (serverRun cfg es) := by
  have hK : Kept (SInv cfg) := (Flow.kept.and Guard.kept).and (HInv.kept.and BInv.kept)
  refine run_inv (Kept.preserved' hK (serverHandle_inv cfg)) es _ ?_
  refine ⟨⟨Flow.of (DInv.init rfl rfl rfl (by simp [serverInit])) rfl, ?_⟩, ?_, ?_⟩
  · refine ⟨?_, ?_, by simp [serverInit], ?_, fun _ => rfl, fun _ => .inl ⟨rfl, rfl⟩⟩
    · rcases cfg with ⟨_ | u, _ | p, ms⟩ <;> simp [serverInit, LoggedIn, gots, Protected]
    · intro t1 o t2 e; simp [serverInit] at e
    · intro h; exact absurd rfl h
  · exact ⟨by simp [serverInit], by simp [serverInit], .inl rfl, by simp [serverInit]⟩
  · exact ⟨by simp [serverInit, written, accepted], by simp [serverInit, relayed, submissions], by simp⟩

/-! ### client -/

def CInv (pre outq0 : List Frame) (s : St) : Prop := Flow clientAccepts s ∧ (HInv s ∧ BInv pre outq0 s)

theorem clientHandle_inv (cfg : Cfg) (pre outq0 : List Frame) (s : St) (f : Frame) (h : CInv pre outq0 s) (hl : Live s) :
    CInv pre outq0 (clientHandle cfg s f).1 ∧ ((clientHandle cfg s f).2 = false → Live (clientHandle cfg s f).1) := by
  obtain ⟨hF, hH, hB⟩ := h
  obtain ⟨hph, hrs, hpe⟩ := hl
  have hD := (hF.plain hpe).got f hph
  have hH1 : HInv (emit (.got f) s) := hH.grow [.got f] rfl rfl rfl rfl
  have hB1 : BInv pre outq0 (emit (.got f) s) := hB.note (.got f) trivial rfl rfl rfl
  have hL1 : Live (emit (.got f) s) := ⟨hph, hrs, hpe⟩
  have hdeliver : ∀ id, id = f.sockMap → clientAccepts s.trace f = true →
      CInv pre outq0 (match lookup id (emit (.got f) s).map with
        | some h => (trySend h f (emit (.got f) s), false)
        | none => (emit (.got f) s, false)).1 ∧
      ((match lookup id (emit (.got f) s).map with
        | some h => (trySend h f (emit (.got f) s), false)
        | none => (emit (.got f) s, false)).2 = false →
       Live (match lookup id (emit (.got f) s).map with
        | some h => (trySend h f (emit (.got f) s), false)
        | none => (emit (.got f) s, false)).1) := by
    rintro id rfl hacc
    simp only [hacc, if_true] at hD
    have hmap : (emit (.got f) s).map = s.map := rfl
    rw [hmap]
    cases hlk : lookup f.sockMap s.map with
    | none =>
      rw [hlk] at hD
      exact ⟨⟨Flow.of hD hpe, hH1, hB1⟩, fun _ => hL1⟩
    | some k =>
      rw [hlk] at hD
      have hk := ((hF.plain hpe).mapId _ (lookup_mem hlk)).2
      exact ⟨⟨Flow.of (hD.trySend hk) ((trySend_pending ..).trans hpe), hH1.trySend k f, hB1.trySend k f⟩,
        fun _ => trySend_live hL1⟩
  unfold clientHandle
  dsimp only
  cases f with
  | create id dom =>
    have hD1 : DInv clientAccepts [] (emit (.got (.create id dom)) s) := by simpa [clientAccepts] using hD
    dsimp only
    split
    · unfold selfSend
      split
      · exact ⟨⟨Flow.of (hD1.quiet' (.submitted (.close id [])) trivial rfl rfl rfl rfl rfl) hpe,
          hH1.grow [.submitted (.close id [])] rfl rfl rfl rfl, hB1.submit _⟩, fun _ => hL1⟩
      · refine ⟨⟨Flow.of (hD1.congr rfl rfl rfl (by simp) rfl) hpe, ?_, hB1.congr rfl rfl rfl⟩, fun hc => by cases hc⟩
        exact ⟨hH1.cover, hH1.keys, .inr (.inl rfl), hH1.regs⟩
    · rename_i m hm
      have hD2 := hD1.register id
      have hH2 := hH1.register id hph
      have hB2 := hB1.register id
      have hL2 := register_live (id := id) hL1
      have hn : (emit (.got (.create id dom)) s).next < (register id (emit (.got (.create id dom)) s)).next := by simp
      split
      · exact ⟨⟨Flow.of (hD2.note _ hn (.inr ⟨id, _, rfl⟩)) hL2.2.2, hH2.grow [_] rfl rfl rfl rfl,
          hB2.note (.opened id s.next (.proxy (some m.headers))) trivial rfl rfl rfl⟩, fun _ => hL2⟩
      · split
        · refine ⟨⟨Flow.of (DInv.drop hD2 ?_ true) hL2.2.2, hH2.grow [_] rfl rfl rfl rfl,
            hB2.note (.rxGone s.next) trivial rfl rfl rfl⟩, fun _ => hL2⟩
          unfold register
          cases lookup id (emit (.got (.create id dom)) s).map <;> simp [emit, setChan]
        · exact ⟨⟨Flow.of (hD2.note _ hn (.inr ⟨id, _, rfl⟩)) hL2.2.2, hH2.grow [_] rfl rfl rfl rfl,
            hB2.note (.opened id s.next (.connect _)) trivial rfl rfl rfl⟩, fun _ => hL2⟩
  | data id d => exact hdeliver id rfl rfl
  | close id d =>
    dsimp only
    split
    · rename_i e
      subst e
      exact ⟨⟨Flow.of (by simpa [clientAccepts] using hD) hpe, hH1, hB1⟩, fun _ => hL1⟩
    · rename_i e
      exact hdeliver id rfl (by simp [clientAccepts, e])
  | mapping id ms =>
    exact ⟨⟨Flow.of (by simpa [clientAccepts] using hD) hpe, hH1, hB1⟩, fun _ => hL1⟩
  | token u p =>
    have hD1 : DInv clientAccepts [] (emit (.got (.token u p)) s) := by simpa [clientAccepts] using hD
    refine ⟨⟨Flow.of (hD1.finish _ (by simp)) ?_, hH1.finish _, hB1.finish _⟩, fun hc => by cases hc⟩
    rw [finish_pending]; exact hpe

/-- a state of a client that has done nothing but queue messages -/
structure Fresh (outq0 : List Frame) (s : St) : Prop where
  map : s.map = []
  chan : s.chan = fun _ => emptyChan
  next : s.next = 0
  trace : ∀ o ∈ s.trace, ∃ f, o = .queued false f
  outq : s.outq = outq0
  bytes : s.writeBuf = (accepted s.trace).flatMap wire
  pending : s.pending = none
  ready : s.readyShutdown = false

theorem Fresh.introduce {q s} (h : Fresh q s) (f : Frame) : Fresh q (introduce f s) := by
  unfold Tunnel.introduce
  split
  · split
    · refine ⟨h.map, h.chan, h.next, ?_, h.outq, ?_, h.pending, h.ready⟩
      · intro o ho
        simp only [enqueue, emit, List.mem_append, List.mem_singleton] at ho
        rcases ho with ho | rfl
        · exact h.trace o ho
        · exact ⟨f, rfl⟩
      · simp [enqueue, emit, accepted_snoc, encode_append, h.bytes]
    · exact ⟨h.map, h.chan, h.next, h.trace, h.outq, h.bytes, h.pending, h.ready⟩
    · exact ⟨h.map, h.chan, h.next, h.trace, h.outq, h.bytes, h.pending, h.ready⟩
  · exact h

theorem Fresh.blank (q : List Frame) : Fresh q (clientBlank q) :=
  ⟨rfl, rfl, rfl, by simp [clientBlank], rfl, by simp [clientBlank, accepted], rfl, rfl⟩

theorem Fresh.init (cfg : Cfg) (q : List Frame) : Fresh q (clientInit cfg q) := by
  unfold clientInit
  dsimp only
  split
  · split
    · exact (Fresh.blank q).introduce _
    · exact Fresh.blank q
  · split
    · exact ((Fresh.blank q).introduce _).introduce _
    · exact (Fresh.blank q).introduce _

theorem Fresh.silent {t : List Obs} (h : ∀ o ∈ t, ∃ f, o = .queued false f) :
    written t = [] ∧ relayed t = [] ∧ submissions t = [] := by
  refine ⟨?_, ?_, ?_⟩
  · unfold written; rw [List.flatMap_eq_nil_iff]; intro o ho; obtain ⟨f, rfl⟩ := h o ho; rfl
  all_goals
    refine List.filterMap_eq_nil_iff.2 fun o ho => ?_
    obtain ⟨f, rfl⟩ := h o ho; rfl

theorem Fresh.cinv {q s} (h : Fresh q s) : CInv (accepted s.trace) q s := by
  refine ⟨Flow.of (DInv.init h.map h.chan h.next (fun o ho => ?_)) h.pending, ?_, ?_⟩
  · obtain ⟨f, rfl⟩ := h.trace o ho; exact ⟨_, _, rfl⟩
  · refine ⟨by simp [h.next], by simp [h.map], .inr (.inr h.map), fun i k hk => ?_⟩
    obtain ⟨f, e⟩ := h.trace _ hk; cases e
  · obtain ⟨h1, h2, h3⟩ := Fresh.silent h.trace
    exact ⟨by rw [h1, h.bytes]; rfl, by rw [h2, h3, h.outq]; simp, List.prefix_refl _⟩

theorem client_inv (cfg : Cfg) (outq0 : List Frame) (es : List Event) :
    CInv (accepted (clientInit cfg outq0).trace) outq0 (clientRun cfg outq0 es) := by
  have hK : Kept (CInv (accepted (clientInit cfg outq0).trace) outq0) := Flow.kept.and (HInv.kept.and BInv.kept)
  exact run_inv (Kept.preserved hK (clientHandle_inv cfg _ _)) es _ (Fresh.init cfg outq0).cinv

end Wm.Tunnel
