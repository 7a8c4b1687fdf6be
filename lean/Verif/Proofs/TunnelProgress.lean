import Verif.Proofs.TunnelMore
/-! Progress of a tunnel end: what one branch of its loop achieves. -/
namespace Wm.Tunnel
open Wm Wm.Prot

theorem written_mono {t t' : List Obs} (e : t <+: t') : written t <+: written t' := by
  obtain ⟨u, rfl⟩ := e
  simp [written]

theorem relayed_mono {t t' : List Obs} (e : t <+: t') : relayed t <+: relayed t' := by
  obtain ⟨u, rfl⟩ := e
  simp [relayed, List.filterMap_append]

theorem accepted_mono {t t' : List Obs} (e : t <+: t') : accepted t <+: accepted t' := by
  obtain ⟨u, rfl⟩ := e
  simp [accepted, List.filterMap_append]

section
variable {H : St → Frame → St × Bool} {we : St → St} {I : St → Prop}

theorem resume_grows (P : ∀ t, Preserved H we (fun s => I s ∧ t <+: s.trace)) (s : St) (hI : I s) :
    s.trace <+: (resume H s).trace :=
  (resume_inv H _ (P s.trace).handle (P s.trace).buf (P s.trace).fin s ⟨hI, List.prefix_refl _⟩).2

theorem step_grows (P : ∀ t, Preserved H we (fun s => I s ∧ t <+: s.trace)) (s : St) (e : Event) (hI : I s) :
    s.trace <+: (step H we s e).trace :=
  (step_inv (P s.trace) s e ⟨hI, List.prefix_refl _⟩).2

/-- a write takes the next bytes of the outgoing buffer -/
theorem write_next (P : ∀ t, Preserved H we (fun s => I s ∧ t <+: s.trace)) {s : St} (hI : I s) (hi : Idle s) (n : Nat) :
    written s.trace ++ s.writeBuf.take n <+: written (step H we s (.wrote n)).trace := by
  have hc : s.phase = .running ∧ s.pending = none := hi
  simp only [step]
  rw [if_pos hc]
  by_cases hw : s.writeBuf = []
  · simp [hw]
  · simp only [hw, if_false]
    split
    · rename_i hd
      rw [finish_trace]
      simp [emit, written]
    · rename_i hd
      have h1 : I (emit (.wrote (s.writeBuf.take n)) { s with writeBuf := s.writeBuf.drop n }) := by
        refine ((P []).wrote s n ⟨hI, List.nil_prefix⟩ hi hw ?_).1
        by_cases hb : s.writeBuf.drop n = []
        · right
          cases hr : s.readyShutdown with
          | false => rfl
          | true => exact absurd ⟨hb, hr⟩ hd
        · exact .inl hb
      have h2 := written_mono (resume_grows P _ h1)
      refine List.IsPrefix.trans ?_ h2
      simp [emit, written]

/-- a receive accepts the next submitted message -/
theorem recv_next (P : ∀ t, Preserved H we (fun s => I s ∧ t <+: s.trace)) {s : St} (hI : I s) (hi : Idle s) :
    relayed s.trace ++ s.outq.take 1 <+: relayed (step H we s .recv).trace := by
  have hc : s.phase = .running ∧ s.pending = none := hi
  simp only [step]
  rw [if_pos hc]
  cases hq : s.outq with
  | nil => simp
  | cons f q =>
    dsimp only
    have h1 : I (enqueue f { s with outq := q } true) := ((P []).recv s f q ⟨hI, List.nil_prefix⟩ hi hq).1
    refine List.IsPrefix.trans ?_ (relayed_mono (resume_grows P _ h1))
    simp [enqueue, emit, relayed]

/-- a new local stream is registered and announced to the peer -/
theorem work_next (P : ∀ t, Preserved H we (fun s => I s ∧ t <+: s.trace)) {s : St} (hI : I s) (hi : Idle s)
    (id : Nat) (d : Option Text) :
    ∃ pre k r, (step H we s (.work id d)).trace = s.trace ++ pre ++ .reg id k :: .queued false (.create id d) :: r ∧
      (pre = [] ∨ ∃ old, pre = [.hangup old]) := by
  simp only [step, hi.1, hi.2, and_self, if_true]
  have h1 : I (enqueue (.create id d) (register id s)) := ((P []).work s id d ⟨hI, List.nil_prefix⟩ hi).1
  obtain ⟨r, hr⟩ := resume_grows P _ h1
  have ht : (enqueue (.create id d) (register id s)).trace =
      (register id s).trace ++ [.queued false (.create id d)] := rfl
  rw [ht, register_trace] at hr
  cases hl : lookup id s.map with
  | none => exact ⟨[], s.next, r, by rw [← hr]; simp [hl], .inl rfl⟩
  | some old => exact ⟨[.hangup old], s.next, r, by rw [← hr]; simp [hl], .inr ⟨old, rfl⟩⟩
end

theorem closeFold_trace (m : List (Nat × Nat)) : ∀ s : St, ∃ u,
    (m.foldl (fun s x => trySend x.2 (.close x.1 []) s) s).trace = s.trace ++ u ∧
    ∀ j, attempts j u = owed j (m.map fun x => (x.2, Frame.close x.1 [])) := by
  induction m with
  | nil => intro s; exact ⟨[], by simp, fun j => rfl⟩
  | cons p m ih =>
    intro s
    obtain ⟨u, e, hu⟩ := ih (trySend p.2 (.close p.1 []) s)
    have h1 : ∃ o, (trySend p.2 (.close p.1 []) s).trace = s.trace ++ [o] ∧
        (o = .lost p.2 (.close p.1 []) ∨ o = .put p.2 (.close p.1 []) ∨ o = .overflow p.2 (.close p.1 [])) := by
      unfold trySend
      split
      · exact ⟨_, rfl, .inl rfl⟩
      · split
        · exact ⟨_, rfl, .inr (.inl rfl)⟩
        · exact ⟨_, rfl, .inr (.inr rfl)⟩
    obtain ⟨o, e1, ho⟩ := h1
    refine ⟨o :: u, by rw [List.foldl_cons, e, e1]; simp, fun j => ?_⟩
    rw [List.map_cons, owed_cons, ← hu j]
    have : attempts j (o :: u) = attempts j [o] ++ attempts j u := by
      rw [← List.singleton_append]; unfold attempts; rw [List.filterMap_append]
    rw [this]
    congr 1
    rcases ho with rfl | rfl | rfl <;> by_cases e : p.2 = j <;> simp [attempts, e]

theorem trySend_chan {k j : Nat} (f : Frame) (s : St) (h : k ≠ j) : (trySend k f s).chan j = s.chan j := by
  unfold trySend
  split
  · rfl
  · split
    · simp [putChan, emit, setChan, Ne.symm h]
    · rfl

theorem trySend_grows' (k : Nat) (f : Frame) (s : St) : s.trace <+: (trySend k f s).trace :=
  trySend_grows k f (List.prefix_refl _)

theorem closeFold_put (m : List (Nat × Nat)) (id h : Nat) : ∀ s : St, (m.map (·.2)).Nodup → (id, h) ∈ m →
    (s.chan h).rx = true → (s.chan h).q.length < streamCap →
    ∃ u, (m.foldl (fun s x => trySend x.2 (.close x.1 []) s) s).trace = s.trace ++ u ∧ .put h (.close id []) ∈ u := by
  induction m with
  | nil => intro s _ hm; simp at hm
  | cons p m ih =>
    intro s hn hm hr hq
    simp only [List.map_cons, List.nodup_cons] at hn
    rw [List.foldl_cons]
    by_cases e : p = (id, h)
    · subst e
      obtain ⟨u, eu, _⟩ := closeFold_trace m (trySend h (.close id []) s)
      refine ⟨.put h (.close id []) :: u, ?_, by simp⟩
      rw [eu]
      simp [trySend, hr, hq, putChan, emit, setChan]
    · have hm' : (id, h) ∈ m := by simpa [Ne.symm e] using hm
      have hne : p.2 ≠ h := fun x => hn.1 (by rw [x]; exact List.mem_map_of_mem (f := (·.2)) hm')
      have hc := trySend_chan (.close p.1 []) s hne
      obtain ⟨u, eu, hu⟩ := ih (trySend p.2 (.close p.1 []) s) hn.2 hm' (by rw [hc]; exact hr) (by rw [hc]; exact hq)
      obtain ⟨v, ev⟩ := trySend_grows' p.2 (.close p.1 []) s
      exact ⟨v ++ u, by rw [eu, ← ev]; simp, by simp [hu]⟩

theorem handles_nodup {m : List (Nat × Nat)} {f : Nat → Option Nat} (hk : (m.map (·.1)).Nodup)
    (hf : ∀ p ∈ m, f p.2 = some p.1) : (m.map (·.2)).Nodup := by
  induction m with
  | nil => simp
  | cons p m ih =>
    simp only [List.map_cons, List.nodup_cons] at hk ⊢
    refine ⟨fun hc => ?_, ih hk.2 (fun q hq => hf q (by simp [hq]))⟩
    obtain ⟨q, hq, e⟩ := List.mem_map.1 hc
    have h1 := hf q (by simp [hq])
    have h2 := hf p (by simp)
    rw [e, h2] at h1
    have : p.1 = q.1 := by simpa using h1
    exact hk.1 (this ▸ List.mem_map_of_mem (f := (·.1)) hq)

/-- when the connection is lost, the stream owning an id is handed exactly one close; it gets it if it has room -/
theorem lost_next {acc} {H : St → Frame → St × Bool} {we : St → St} {s : St} (hF : Flow acc s) (hi : Idle s)
    {id h : Nat} (ho : owner s.trace id = some h) :
    ∃ u, (step H we s .readEnd).trace = s.trace ++ .connLost :: u ∧ attempts h u = [.close id []] ∧
      (.rxGone h ∉ s.trace → (puts h s.trace).length < (received h s.trace).length + streamCap →
        .put h (.close id []) ∈ u) := by
  have hD := hF.plain hi.2
  have hl : lookup id s.map = some h := by rw [hD.mapOwner hi.1, ho]
  have hm := lookup_mem hl
  simp only [step, hi.1, hi.2, and_self, if_true]
  obtain ⟨u, eu, hu⟩ := closeFold_trace s.map (emit .connLost s)
  have hca : (closeAll (emit .connLost s)).trace = (emit .connLost s).trace ++ u := eu
  rw [finish_trace, hca]
  refine ⟨u ++ (closeAll (emit .connLost s)).map.map (fun x => .hangup x.2), by simp [emit], ?_, ?_⟩
  · have : attempts h (u ++ (closeAll (emit .connLost s)).map.map (fun x => Obs.hangup x.2)) = attempts h u := by
      unfold attempts
      rw [List.filterMap_append]
      simp
    rw [this, hu h, owed_map s.map h (idOf s.trace h) hD.keys (fun p hp e => e ▸ (hD.mapId p hp).1),
      (hD.mapId _ hm).1]
    simp [hl]
  · intro hg hc
    have hrx : (s.chan h).rx = true := by
      cases hr : (s.chan h).rx with
      | true => rfl
      | false => exact absurd ((hD.gone h hr).2 (hD.mapId _ hm).2) hg
    have hq := (hD.open_ h hrx).1
    have hq' : (s.chan h).q.length < streamCap := by
      have := congrArg List.length hq
      rw [List.length_append] at this
      omega
    obtain ⟨u', eu', hu'⟩ := closeFold_put s.map id h (emit .connLost s)
      (handles_nodup hD.keys (fun p hp => (hD.mapId p hp).1)) hm hrx hq'
    have : u = u' := List.append_cancel_left (eu.symm.trans eu')
    subst this
    simp [hu']

/-! ### the queues are bounded -/

/-- no stream's queue and not the outgoing queue exceeds its capacity -/
structure Bounded (s : St) : Prop where
  streams : ∀ h, (s.chan h).q.length ≤ streamCap
  out : s.outq.length ≤ outCap

theorem Bounded.of {s s' : St} (h : Bounded s) (hc : s'.chan = s.chan) (ho : s'.outq = s.outq) : Bounded s' :=
  ⟨by rw [hc]; exact h.streams, by rw [ho]; exact h.out⟩

theorem Bounded.setChan {s} (h : Bounded s) (k : Nat) (c : Chan) (hc : c.q.length ≤ streamCap) :
    Bounded (setChan k c s) := by
  refine ⟨fun j => ?_, h.out⟩
  unfold Tunnel.setChan
  dsimp only
  split
  · exact hc
  · exact h.streams j

theorem Bounded.emit {s} (h : Bounded s) (o : Obs) : Bounded (emit o s) := h.of rfl rfl

theorem Bounded.hangup {s} (h : Bounded s) (k : Nat) : Bounded (hangup k s) :=
  (h.setChan k { s.chan k with tx := false } (h.streams k)).emit _

theorem Bounded.hangupFold (m : List (Nat × Nat)) : ∀ s, Bounded s →
    Bounded (m.foldl (fun s x => Tunnel.hangup x.2 s) s) := by
  induction m with
  | nil => intro s h; exact h
  | cons p m ih => intro s h; exact ih _ (h.hangup p.2)

theorem Bounded.finish {s} (h : Bounded s) (p : Phase) : Bounded (finish p s) :=
  (Bounded.hangupFold s.map s h).of rfl rfl

theorem Bounded.putChan {s} (h : Bounded s) (k : Nat) (f : Frame) (hq : (s.chan k).q.length < streamCap) :
    Bounded (putChan k f s) :=
  (h.setChan k _ (by simp; omega)).emit _

theorem Bounded.trySend {s} (h : Bounded s) (k : Nat) (f : Frame) : Bounded (trySend k f s) := by
  unfold Tunnel.trySend
  split
  · exact h.emit _
  · split
    · rename_i hq; exact h.putChan k f hq
    · exact h.emit _

theorem Bounded.closeFold (m : List (Nat × Nat)) : ∀ s, Bounded s →
    Bounded (m.foldl (fun s x => Tunnel.trySend x.2 (.close x.1 []) s) s) := by
  induction m with
  | nil => intro s h; exact h
  | cons p m ih => intro s h; exact ih _ (h.trySend p.2 _)

theorem Bounded.sendAwait {s} (h : Bounded s) (k : Nat) (f : Frame) : Bounded (sendAwait k f s).1 := by
  unfold Tunnel.sendAwait
  split
  · exact h.emit _
  · split
    · rename_i hq; exact h.putChan k f hq
    · exact h.of rfl rfl

theorem Bounded.register {s} (h : Bounded s) (id : Nat) : Bounded (register id s) := by
  unfold Tunnel.register
  dsimp only
  have : Bounded (match lookup id s.map with | some old => Tunnel.hangup old s | none => s) := by
    split
    · exact h.hangup _
    · exact h
  refine Bounded.emit ?_ _
  exact (this.setChan s.next ⟨[], true, true⟩ (by simp [streamCap])).of rfl rfl

theorem Bounded.kept : Kept Bounded where
  buf s b h := h.of rfl rfl
  read s bs h _ := h.of rfl rfl
  fin s p h _ _ := h.finish p
  lost s h _ := (Bounded.closeFold s.map _ (h.emit .connLost)).finish _
  submit s f h _ hl := ⟨h.streams, by simp [Tunnel.emit]; omega⟩
  take s k f q h hq _ := (h.setChan k _ (by have := h.streams k; rw [hq] at this; simp at this ⊢; omega)).emit _
  drop s k h _ := (h.setChan k _ (by simp)).emit _
  retry s k f h _ := Bounded.sendAwait (s := { s with pending := none }) (h.of rfl rfl) k f
  work s id d h _ := (h.register id).of rfl rfl
  recv s f q h _ hq := ⟨h.streams, by have := h.out; rw [hq] at this; simp [enqueue, Tunnel.emit] at this ⊢; omega⟩
  wrote s n h _ _ _ := h.of rfl rfl
  drained s n h _ _ _ :=
    Bounded.finish (s := Tunnel.emit (.wrote (s.writeBuf.take n)) { s with writeBuf := s.writeBuf.drop n }) (h.of rfl rfl) _

theorem serverHandle_bounded (cfg : Cfg) (s : St) (f : Frame) (h : Bounded s) : Bounded (serverHandle cfg s f).1 := by
  unfold serverHandle
  dsimp only
  have h1 := h.emit (.got f)
  split
  · exact h1.of rfl rfl
  · split
    · exact h1.of rfl rfl
    · have hd : ∀ id, Bounded (match lookup id (emit (.got f) s).map with
            | some h => sendAwait h f (emit (.got f) s)
            | none => (emit (.got f) s, false)).1 := by
        intro id
        split
        · exact h1.sendAwait _ _
        · exact h1
      cases f with
      | create id d => exact (h1.register id).emit _
      | close id d => exact hd id
      | data id d => exact hd id
      | mapping id ms => exact h1.of rfl rfl
      | token u p => exact h1

theorem clientHandle_bounded (cfg : Cfg) (s : St) (f : Frame) (h : Bounded s) : Bounded (clientHandle cfg s f).1 := by
  unfold clientHandle
  dsimp only
  have h1 := h.emit (.got f)
  have hd : ∀ id, Bounded (match lookup id (emit (.got f) s).map with
        | some h => (trySend h f (emit (.got f) s), false)
        | none => (emit (.got f) s, false)).1 := by
    intro id
    split
    · exact h1.trySend _ _
    · exact h1
  cases f with
  | create id dom =>
    dsimp only
    split
    · unfold selfSend
      split
      · rename_i hl; exact ⟨h1.streams, by simp [emit] at hl ⊢; omega⟩
      · exact h1.of rfl rfl
    · split
      · exact (h1.register id).emit _
      · split
        · exact ((h1.register id).setChan _ _ (by simp)).emit _
        · exact (h1.register id).emit _
  | data id d => exact hd id
  | close id d =>
    dsimp only
    split
    · exact h1
    · exact hd id
  | mapping id ms => exact h1
  | token u p => exact h1.finish _

theorem server_bounded (cfg : Cfg) (es : List Event) : SInv cfg (serverRun cfg es) ∧ Bounded (serverRun cfg es) := by
  have hK : Kept (fun s => SInv cfg s ∧ Bounded s) :=
    ((Flow.kept.and Guard.kept).and (HInv.kept.and BInv.kept)).and Bounded.kept
  refine run_inv (Kept.preserved' hK (fun s f h hl => ?_)) es _ ⟨server_inv cfg [], ?_⟩
  · have := serverHandle_inv cfg s f h.1 hl
    exact ⟨⟨this.1, serverHandle_bounded cfg s f h.2⟩, this.2⟩
  · exact ⟨fun _ => by simp [serverInit, emptyChan], by simp [serverInit]⟩

theorem client_bounded (cfg : Cfg) (q : List Frame) (hq : q.length ≤ outCap) (es : List Event) :
    Bounded (clientRun cfg q es) := by
  have hK : Kept (fun s => CInv (accepted (clientInit cfg q).trace) q s ∧ Bounded s) :=
    (Flow.kept.and (HInv.kept.and BInv.kept)).and Bounded.kept
  refine (run_inv (Kept.preserved hK (fun s f h hl => ?_)) es _ ⟨(Fresh.init cfg q).cinv, ?_⟩).2
  · have := clientHandle_inv cfg _ q s f h.1 hl
    exact ⟨⟨this.1, clientHandle_bounded cfg s f h.2⟩, this.2⟩
  · have hf := Fresh.init cfg q
    exact ⟨fun _ => by rw [hf.chan]; simp [emptyChan], by rw [hf.outq]; exact hq⟩

end Wm.Tunnel
