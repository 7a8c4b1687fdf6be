import Verif.Proofs.TunnelDue
import Mathlib.Data.List.Nodup
/-! What a tunnel end holds on to: entries of streams (C142) and bytes not yet decoded (C143). -/
namespace Wm.Tunnel
open Wm Wm.Prot

/-! ### entries -/

structure KeepInv (s : St) : Prop where
  keys : (s.map.map (·.1)).Nodup
  vals : (s.map.map (·.2)).Nodup
  low : ∀ p ∈ s.map, p.2 < s.next
  lowHang : ∀ h, .hangup h ∈ s.trace → h < s.next
  held : s.phase = .running → ∀ p ∈ s.map, .hangup p.2 ∉ s.trace

theorem KeepInv.grow {s s'} (h : KeepInv s) (o : List Obs) (ht : s'.trace = s.trace ++ o) (hm : s'.map = s.map)
    (hn : s'.next = s.next) (hp : s'.phase = .running → s.phase = .running) (ho : ∀ k, .hangup k ∉ o := by simp) : KeepInv s' := by
  refine ⟨by rw [hm]; exact h.keys, by rw [hm]; exact h.vals, by rw [hm, hn]; exact h.low, ?_, ?_⟩
  · intro k hk
    rw [ht, List.mem_append] at hk
    rw [hn]
    rcases hk with hk | hk
    · exact h.lowHang k hk
    · exact absurd hk (ho k)
  · intro hr p hpm hk
    rw [hm] at hpm
    rw [ht, List.mem_append] at hk
    rcases hk with hk | hk
    · exact h.held (hp hr) p hpm hk
    · exact absurd hk (ho _)

theorem KeepInv.finish {s} (h : KeepInv s) (p : Phase) : KeepInv (finish p s) := by
  refine ⟨by simp [Tunnel.finish], by simp [Tunnel.finish], by simp [Tunnel.finish], ?_, by simp [Tunnel.finish]⟩
  intro k hk
  rw [finish_next]
  rw [finish_trace, List.mem_append] at hk
  rcases hk with hk | hk
  · exact h.lowHang k hk
  · obtain ⟨x, hx, he⟩ := List.mem_map.1 hk
    cases he
    exact h.low x hx

theorem KeepInv.trySend {s} (h : KeepInv s) (k : Nat) (f : Frame) : KeepInv (trySend k f s) := by
  unfold Tunnel.trySend
  split
  · exact h.grow [.lost k f] rfl rfl rfl id
  · split
    · exact h.grow [.put k f] rfl rfl rfl id
    · exact h.grow [.overflow k f] rfl rfl rfl id

theorem KeepInv.closeFold (m : List (Nat × Nat)) : ∀ s, KeepInv s →
    KeepInv (m.foldl (fun s x => Tunnel.trySend x.2 (.close x.1 []) s) s) := by
  induction m with
  | nil => intro s h; exact h
  | cons x m ih => intro s h; exact ih _ (h.trySend _ _)

theorem KeepInv.sendAwait {s} (h : KeepInv s) (k : Nat) (f : Frame) : KeepInv (sendAwait k f s).1 := by
  unfold Tunnel.sendAwait
  split
  · exact h.grow [.lost k f] rfl rfl rfl id
  · split
    · exact h.grow [.put k f] rfl rfl rfl id
    · exact h.grow [] (by simp) rfl rfl id

theorem pair_of_val {m : List (Nat × Nat)} (hn : (m.map (·.2)).Nodup) {a b : Nat × Nat} (ha : a ∈ m) (hb : b ∈ m)
    (e : a.2 = b.2) : a = b := List.inj_on_of_nodup_map hn ha hb e

theorem KeepInv.register {s} (h : KeepInv s) (id : Nat) (hr : s.phase = .running) : KeepInv (register id s) := by
  refine ⟨?_, ?_, ?_, ?_, ?_⟩
  · rw [register_map, List.map_cons, List.nodup_cons]
    exact ⟨by simp, h.keys.sublist (List.Sublist.map _ List.filter_sublist)⟩
  · rw [register_map, List.map_cons, List.nodup_cons]
    refine ⟨?_, h.vals.sublist (List.Sublist.map _ List.filter_sublist)⟩
    intro hm
    obtain ⟨x, hx, he⟩ := List.mem_map.1 hm
    have := h.low x (List.mem_filter.1 hx).1
    simp only at he
    omega
  · intro p hp
    rw [register_map, List.mem_cons] at hp
    rw [register_next]
    rcases hp with rfl | hp
    · simp
    · have := h.low p (List.mem_filter.1 hp).1
      omega
  · intro k hk
    rw [register_trace] at hk
    rw [register_next]
    simp only [List.mem_append, List.mem_singleton, reduceCtorEq, or_false] at hk
    rcases hk with hk | hk
    · have := h.lowHang k hk; omega
    · cases hl : lookup id s.map with
      | none => rw [hl] at hk; simp at hk
      | some old =>
        rw [hl] at hk
        simp only [List.mem_singleton, Obs.hangup.injEq] at hk
        subst hk
        have := h.low _ (lookup_mem hl)
        simp only at this
        omega
  · intro _ p hp hk
    rw [register_map, List.mem_cons] at hp
    rw [register_trace] at hk
    simp only [List.mem_append, List.mem_singleton, reduceCtorEq, or_false] at hk
    rcases hp with rfl | hp
    · rcases hk with hk | hk
      · have := h.lowHang _ hk; simp at this
      · cases hl : lookup id s.map with
        | none => rw [hl] at hk; simp at hk
        | some old =>
          rw [hl] at hk
          simp only [List.mem_singleton, Obs.hangup.injEq] at hk
          have := h.low _ (lookup_mem hl)
          simp only at this
          omega
    · obtain ⟨hp1, hp2⟩ := List.mem_filter.1 hp
      rcases hk with hk | hk
      · exact h.held hr p hp1 hk
      · cases hl : lookup id s.map with
        | none => rw [hl] at hk; simp at hk
        | some old =>
          rw [hl] at hk
          simp only [List.mem_singleton, Obs.hangup.injEq] at hk
          have := pair_of_val h.vals hp1 (lookup_mem hl) hk
          subst this
          simp at hp2

theorem KeepInv.kept : Kept KeepInv where
  buf s b h := h.grow [] (by simp) rfl rfl id
  read s bs h _ := h.grow [.arrived bs] rfl rfl rfl id
  fin s ph h _ _ := h.finish ph
  lost s h _ := by
    refine KeepInv.finish ?_ _
    have h1 : KeepInv (emit .connLost s) := h.grow [.connLost] rfl rfl rfl id
    exact KeepInv.closeFold _ _ h1
  submit s f h _ _ := h.grow [.submitted f] rfl rfl rfl id
  take s k f q h _ _ := h.grow [.took k f] rfl rfl rfl id
  drop s k h _ := h.grow [.rxGone k] rfl rfl rfl id
  retry s k f h _ := KeepInv.sendAwait (s := { s with pending := none }) (h.grow [] (by simp) rfl rfl id) k f
  work s id d h hi := (h.register id hi.1).grow [.queued false (.create id d)] rfl rfl rfl (fun x => x)
  recv s f q h _ hq := h.grow [.queued true f] rfl rfl rfl id
  wrote s n h _ _ _ := h.grow [.wrote (s.writeBuf.take n)] rfl rfl rfl id
  drained s n h _ _ _ := by
    have h1 : KeepInv (emit (.wrote (s.writeBuf.take n)) { s with writeBuf := s.writeBuf.drop n }) :=
      h.grow [.wrote (s.writeBuf.take n)] rfl rfl rfl id
    exact h1.finish _

theorem KeepInv.serverHandle (cfg : Cfg) (s : St) (f : Frame) (h : KeepInv s) (hl : Live s) : KeepInv (serverHandle cfg s f).1 := by
  have hg : KeepInv (emit (.got f) s) := h.grow [.got f] rfl rfl rfl id
  unfold Tunnel.serverHandle
  dsimp only
  split
  · exact hg.grow [] (by simp) rfl rfl id
  · split
    · exact hg.grow [.queued false (.close 0 notVerify)] rfl rfl rfl id
    · cases f with
      | create id d => exact (hg.register id hl.1).grow [.opened id _ _] rfl rfl rfl (fun x => x)
      | close id d =>
        dsimp only
        split
        · exact hg.sendAwait _ _
        · exact hg
      | data id d =>
        dsimp only
        split
        · exact hg.sendAwait _ _
        · exact hg
      | mapping id ms => exact hg.grow [.setMap ms] rfl rfl rfl (fun x => x)
      | token u p => exact hg

theorem KeepInv.clientHandle (cfg : Cfg) (s : St) (f : Frame) (h : KeepInv s) (hl : Live s) : KeepInv (clientHandle cfg s f).1 := by
  have hg : KeepInv (emit (.got f) s) := h.grow [.got f] rfl rfl rfl id
  unfold Tunnel.clientHandle
  dsimp only
  cases f with
  | create id d =>
    dsimp only
    split
    · unfold selfSend
      split
      · exact hg.grow [.submitted (.close id [])] rfl rfl rfl (fun x => x)
      · exact hg.grow [] (by simp) rfl rfl (fun x => by cases x)
    · have hr := hg.register id hl.1
      split
      · exact hr.grow [.opened id _ _] rfl rfl rfl (fun x => x)
      · split
        · exact hr.grow [.rxGone _] rfl rfl rfl (fun x => x)
        · exact hr.grow [.opened id _ _] rfl rfl rfl (fun x => x)
  | close id d =>
    dsimp only
    split
    · exact hg
    · split
      · exact hg.trySend _ _
      · exact hg
  | data id d =>
    dsimp only
    split
    · exact hg.trySend _ _
    · exact hg
  | mapping id ms => exact hg
  | token u p => exact hg.finish _

theorem KeepInv.blank (s : St) (hm : s.map = []) (ht : ∀ h, .hangup h ∉ s.trace) : KeepInv s :=
  ⟨by simp [hm], by simp [hm], by simp [hm], fun h hh => absurd hh (ht h), by simp [hm]⟩

theorem server_held (cfg : Cfg) (es : List Event) : KeepInv (serverRun cfg es) := by
  have hK : Kept (fun s => SInv cfg s ∧ KeepInv s) :=
    ((Flow.kept.and Guard.kept).and (HInv.kept.and BInv.kept)).and KeepInv.kept
  have hP : Preserved (serverHandle cfg) (finish .panicked) (fun s => SInv cfg s ∧ KeepInv s) := by
    refine Kept.preserved' hK fun s f h hl => ?_
    have h1 := serverHandle_inv cfg s f h.1 hl
    exact ⟨⟨h1.1, KeepInv.serverHandle cfg s f h.2 hl⟩, h1.2⟩
  exact (run_inv hP es _ ⟨server_inv cfg [], KeepInv.blank _ rfl (fun h => by show _ ∉ ([] : List Obs); simp)⟩).2

theorem client_held (cfg : Cfg) (q : List Frame) (es : List Event) : KeepInv (clientRun cfg q es) := by
  have hK : Kept (fun s => CInv (accepted (clientInit cfg q).trace) q s ∧ KeepInv s) :=
    (Flow.kept.and (HInv.kept.and BInv.kept)).and KeepInv.kept
  have h0 := Fresh.init cfg q
  refine (run_inv (Kept.preserved hK fun s f h hl => ?_) es _ ⟨h0.cinv, KeepInv.blank _ h0.map fun h hh => ?_⟩).2
  · have h1 := clientHandle_inv cfg _ _ s f h.1 hl
    exact ⟨⟨h1.1, KeepInv.clientHandle cfg s f h.2 hl⟩, h1.2⟩
  · obtain ⟨f, hf⟩ := h0.trace _ hh
    cases hf

/-! ### bytes not yet decoded -/

theorem announced_lt (b : Bytes) : announced b < 2 ^ 24 := by
  unfold announced
  split
  · rename_i a b c _
    have := a.toNat_lt
    have := b.toNat_lt
    have := c.toNat_lt
    omega
  · decide

theorem incomplete_small {b : Bytes} (h : ¬ Complete b) : b.length < 2 ^ 24 + 12 := by
  have := announced_lt b
  unfold Complete at h
  omega

/-- a handler that stops the decode loop leaves the end unable to go on with it -/
def Halts (H : St → Frame → St × Bool) : Prop := ∀ s f, (H s f).2 = true → ¬ Live (H s f).1

theorem decodeFrame_le (b : Bytes) : (decodeFrame b).2.length ≤ b.length := by
  by_cases h : Complete b
  · rw [decodeFrame_complete b h]; simp
  · rw [decodeFrame_incomplete b h]; exact Nat.le_refl _

theorem pump_rest {H : St → Frame → St × Bool} (hH : Halts H) (s : St) (buf : Bytes) :
    (pump H s buf).2.1.length ≤ buf.length ∧ ((pump H s buf).2.2 = .more → ¬ Complete (pump H s buf).2.1) ∧
    ((pump H s buf).2.2 = .stopped → ¬ Live (pump H s buf).1) := by
  induction hn : buf.length using Nat.strongRecOn generalizing s buf with
  | ind n ih =>
    subst hn
    by_cases hc : Complete buf
    · cases hd : decodeFrame buf with
      | mk r b =>
        have hle := decodeFrame_le buf
        rw [hd] at hle
        cases r with
        | ok o =>
          cases o with
          | none => exact absurd hc (by
              intro hc
              have := decodeFrame_complete buf hc
              rw [hd] at this
              have h1 := congrArg Prod.fst this
              dsimp only at h1
              revert h1
              cases parseHeaderByLen (List.drop 3 buf) (announced buf) with
              | ok x =>
                intro h1
                change Res.ok none = (parseFrame x.1 x.2).bind _ at h1
                cases hp : parseFrame x.1 x.2 with
                | ok f => rw [hp] at h1; exact nomatch h1
                | err e => rw [hp] at h1; exact nomatch h1
                | panic => rw [hp] at h1; exact nomatch h1
              | err e => intro h1; exact nomatch h1
              | panic => intro h1; exact nomatch h1)
          | some f =>
            have hlt := decodeFrame_shrinks hd
            rw [pump_some H s hd]
            split
            · rename_i hs
              exact ⟨hle, by simp, fun _ => hH s f hs⟩
            · have := ih b.length hlt (H s f).1 b rfl
              exact ⟨by omega, this.2⟩
        | err e => rw [pump_err H s hd]; exact ⟨hle, by simp, by simp⟩
        | panic => rw [pump_panic H s hd]; exact ⟨hle, by simp, by simp⟩
    · rw [pump_incomplete H s hc]
      exact ⟨Nat.le_refl _, fun _ => hc, by simp⟩

theorem finish_readBuf (p : Phase) (s : St) : (finish p s).readBuf = s.readBuf := by
  have : ∀ (m : List (Nat × Nat)) (s : St), (m.foldl (fun s x => hangup x.2 s) s).readBuf = s.readBuf := by
    intro m
    induction m with
    | nil => intro s; rfl
    | cons x m ih => intro s; exact (ih _).trans rfl
  exact this s.map s

theorem resume_rest {H : St → Frame → St × Bool} (hH : Halts H) (s : St) :
    (resume H s).readBuf.length ≤ s.readBuf.length ∧ (Live (resume H s) → ¬ Complete (resume H s).readBuf) := by
  unfold resume
  split
  · rename_i hl
    have hp := pump_rest hH s s.readBuf
    cases hr : pump H s s.readBuf with
    | mk s' r =>
      obtain ⟨b, e⟩ := r
      rw [hr] at hp
      cases e with
      | more => exact ⟨hp.1, fun _ => hp.2.1 rfl⟩
      | stopped => exact ⟨hp.1, fun hl => absurd hl (hp.2.2 rfl)⟩
      | err e => exact ⟨by show (finish _ _).readBuf.length ≤ _; rw [finish_readBuf]; exact hp.1, fun hl => by cases hl.1⟩
      | panic => exact ⟨by show (finish _ _).readBuf.length ≤ _; rw [finish_readBuf]; exact hp.1, fun hl => by cases hl.1⟩
  · rename_i hl
    exact ⟨Nat.le_refl _, fun h => absurd h hl⟩

/-- the decode loop has been run as far as it goes, and never was more than one read behind -/
structure Fed (s : St) : Prop where
  done : Live s → ¬ Complete s.readBuf
  bound : s.phase = .running → s.readyShutdown = false → s.readBuf.length < 2 ^ 24 + 12 + 4096

theorem Fed.congr {s s' : St} (h : Fed s) (hb : s'.readBuf = s.readBuf) (hp : s'.phase = s.phase)
    (hr : s'.readyShutdown = s.readyShutdown) (hpe : s'.pending = none → s.pending = none) : Fed s' :=
  ⟨fun hl => by rw [hb]; exact h.done ⟨hp ▸ hl.1, hr ▸ hl.2.1, hpe hl.2.2⟩,
    fun h1 h2 => by rw [hb]; exact h.bound (hp ▸ h1) (hr ▸ h2)⟩

theorem Fed.resume {H : St → Frame → St × Bool} (hH : Halts H) {s : St}
    (h : s.phase = .running → s.readyShutdown = false → s.readBuf.length < 2 ^ 24 + 12 + 4096) : Fed (resume H s) := by
  have hr := resume_rest hH s
  refine ⟨hr.2, fun h1 h2 => ?_⟩
  by_cases hl : s.phase = .running ∧ s.readyShutdown = false ∧ s.pending = none
  · have := h hl.1 hl.2.1
    omega
  · have he : Tunnel.resume H s = s := by unfold Tunnel.resume; rw [if_neg hl]
    rw [he] at h1 h2 ⊢
    exact h h1 h2

theorem Fed.over {s : St} (h : s.phase ≠ .running) : Fed s := ⟨fun hl => absurd hl.1 h, fun h1 => absurd h1 h⟩

theorem Fed.resumePending {H : St → Frame → St × Bool} (hH : Halts H) {s : St} (h : Fed s) : Fed (resumePending H s) := by
  unfold Tunnel.resumePending
  split
  · exact h
  · rename_i k f hp
    dsimp only
    unfold sendAwait
    split
    · exact Fed.resume hH h.bound
    · split
      · exact Fed.resume hH h.bound
      · exact h.congr rfl rfl rfl (fun x => by cases x)

theorem Fed.step {H : St → Frame → St × Bool} (hH : Halts H) {we : St → St}
    (hwe : ∀ s, Fed s → Fed (we s)) {s : St} (h : Fed s) (e : Event) (he : ∀ bs, e = .read bs → bs.length ≤ 4096) :
    Fed (step H we s e) := by
  cases e with
  | submit f =>
    simp only [Tunnel.step]
    split
    · exact h.congr rfl rfl rfl id
    · exact h
  | take k =>
    simp only [Tunnel.step]
    split
    · exact h
    · split
      · exact Fed.resumePending hH (h.congr rfl rfl rfl id)
      · exact h
  | dropRx k =>
    simp only [Tunnel.step]
    split
    · exact Fed.resumePending hH (h.congr rfl rfl rfl id)
    · exact h
  | work id d =>
    simp only [Tunnel.step]
    split
    · refine Fed.resume hH fun h1 h2 => ?_
      have e1 : (enqueue (.create id d) (register id s)).readBuf = s.readBuf := by
        unfold register enqueue; cases lookup id s.map <;> rfl
      have e2 : (enqueue (.create id d) (register id s)).phase = s.phase := by
        unfold register enqueue; cases lookup id s.map <;> rfl
      have e3 : (enqueue (.create id d) (register id s)).readyShutdown = s.readyShutdown := by
        unfold register enqueue; cases lookup id s.map <;> rfl
      rw [e1]
      exact h.bound (e2 ▸ h1) (e3 ▸ h2)
    · exact h
  | recv =>
    simp only [Tunnel.step]
    split
    · split
      · exact h
      · exact Fed.resume hH h.bound
    · exact h
  | read bs =>
    simp only [Tunnel.step]
    split
    · rename_i hc
      refine Fed.resume hH fun h1 h2 => ?_
      have hs := incomplete_small (h.done ⟨hc.1, h2, hc.2⟩)
      have := he bs rfl
      show (s.readBuf ++ bs).length < _
      rw [List.length_append]
      omega
    · exact h
  | readEnd =>
    simp only [Tunnel.step]
    split
    · exact Fed.over (by simp)
    · exact h
  | wrote n =>
    simp only [Tunnel.step]
    split
    · split
      · exact h
      · split
        · exact Fed.over (by simp)
        · exact Fed.resume hH h.bound
    · exact h
  | writeErr =>
    simp only [Tunnel.step]
    split
    · split
      · exact h
      · exact hwe s h
    · exact h

theorem sendAwait_halts (k : Nat) (f : Frame) (s : St) : (sendAwait k f s).2 = true → ¬ Live (sendAwait k f s).1 := by
  unfold sendAwait
  split
  · simp
  · split
    · simp
    · exact fun _ hl => by cases hl.2.2

theorem serverHandle_halts (cfg : Cfg) : Halts (serverHandle cfg) := by
  intro s f
  unfold serverHandle
  dsimp only
  split
  · simp
  · split
    · exact fun _ hl => by cases hl.2.1
    · cases f with
      | create id d => simp
      | close id d => dsimp only; split <;> first | exact sendAwait_halts _ _ _ | simp
      | data id d => dsimp only; split <;> first | exact sendAwait_halts _ _ _ | simp
      | mapping id ms => simp
      | token u p => simp

theorem clientHandle_halts (cfg : Cfg) : Halts (clientHandle cfg) := by
  intro s f
  unfold clientHandle
  dsimp only
  cases f with
  | create id d =>
    dsimp only
    split
    · unfold selfSend
      split
      · simp
      · exact fun _ hl => by cases hl.1
    · split
      · simp
      · split <;> simp
  | close id d =>
    dsimp only
    split
    · simp
    · split <;> simp
  | data id d => dsimp only; split <;> simp
  | mapping id ms => simp
  | token u p => exact fun _ hl => by cases hl.1

/-! ### a client is never about to shut down -/

theorem sendAwait_ready (k f) (s : St) : (sendAwait k f s).1.readyShutdown = s.readyShutdown := by
  unfold sendAwait; split
  · rfl
  · split <;> rfl

theorem finish_ready (p) (s : St) : (finish p s).readyShutdown = s.readyShutdown := by
  have : ∀ (m : List (Nat × Nat)) (s : St), (m.foldl (fun s x => hangup x.2 s) s).readyShutdown = s.readyShutdown := by
    intro m
    induction m with
    | nil => intro s; rfl
    | cons x m ih => intro s; exact (ih _).trans rfl
  exact this s.map s

theorem closeAll_ready (s : St) : (closeAll s).readyShutdown = s.readyShutdown := by
  have : ∀ (m : List (Nat × Nat)) (s : St),
      (m.foldl (fun s x => trySend x.2 (.close x.1 []) s) s).readyShutdown = s.readyShutdown := by
    intro m
    induction m with
    | nil => intro s; rfl
    | cons x m ih => intro s; exact (ih _).trans (trySend_ready _ _ _)
  exact this s.map s

theorem open_kept : Kept (fun s => s.readyShutdown = false) where
  buf _ _ h := h
  read _ _ h _ := h
  fin s p h _ _ := (finish_ready p s).trans h
  lost s h _ := ((finish_ready _ _).trans (closeAll_ready _)).trans h
  submit _ _ h _ _ := h
  take _ _ _ _ h _ _ := h
  drop _ _ h _ := h
  retry s k f h _ := (sendAwait_ready k f _).trans h
  work s id d h _ := (register_ready id s).trans h
  recv _ _ _ h _ _ := h
  wrote _ _ h _ _ _ := h
  drained s n h _ _ _ := (finish_ready _ _).trans h

theorem clientHandle_ready (cfg : Cfg) (s : St) (f : Frame) (h : s.readyShutdown = false) :
    (clientHandle cfg s f).1.readyShutdown = false := by
  unfold clientHandle
  dsimp only
  cases f with
  | create id d =>
    dsimp only
    split
    · unfold selfSend
      split <;> exact h
    · split
      · exact (register_ready id _).trans h
      · split <;> exact (register_ready id _).trans h
  | close id d =>
    dsimp only
    split
    · exact h
    · split
      · exact (trySend_ready _ _ _).trans h
      · exact h
  | data id d =>
    dsimp only
    split
    · exact (trySend_ready _ _ _).trans h
    · exact h
  | mapping id ms => exact h
  | token u p => exact (finish_ready _ _).trans h

theorem client_not_ready (cfg : Cfg) (q : List Frame) (es : List Event) : (clientRun cfg q es).readyShutdown = false := by
  have hK : Kept (fun s => CInv (accepted (clientInit cfg q).trace) q s ∧ s.readyShutdown = false) :=
    (Flow.kept.and (HInv.kept.and BInv.kept)).and open_kept
  have h0 := Fresh.init cfg q
  refine (run_inv (Kept.preserved hK fun s f h hl => ?_) es _ ⟨h0.cinv, h0.ready⟩).2
  have h1 := clientHandle_inv cfg _ _ s f h.1 hl
  exact ⟨⟨h1.1, clientHandle_ready cfg s f h.2⟩, h1.2⟩

/-- the pieces that are read have at most 4096 bytes (center_server.rs:108-109, center_client.rs:133-134) -/
def Pieces (es : List Event) : Prop := ∀ bs, .read bs ∈ es → bs.length ≤ 4096

theorem fed_run {H : St → Frame → St × Bool} (hH : Halts H) {we : St → St} (hwe : ∀ s, Fed s → Fed (we s))
    (es : List Event) (hes : Pieces es) : ∀ s, Fed s → Fed (es.foldl (step H we) s) := by
  induction es with
  | nil => exact fun s h => h
  | cons e es ih =>
    intro s h
    exact ih (fun bs hb => hes bs (List.mem_cons_of_mem _ hb)) _
      (h.step hH hwe e fun bs hb => hes bs (by rw [hb]; exact List.mem_cons_self))

theorem server_fed (cfg : Cfg) (es : List Event) (hes : Pieces es) : Fed (serverRun cfg es) := by
  refine fed_run (serverHandle_halts cfg) (fun s _ => Fed.over (by simp)) es hes _ ⟨fun _ => ?_, fun _ _ => ?_⟩
  · show ¬ Complete []
    unfold Complete; decide
  · show ([] : Bytes).length < _
    decide

theorem client_fed (cfg : Cfg) (q : List Frame) (es : List Event) (hes : Pieces es) : Fed (clientRun cfg q es) := by
  have hb : ∀ s : St, s.readBuf = [] → ∀ f, (introduce f s).readBuf = [] := by
    intro s hs f
    unfold introduce
    split
    · split <;> exact hs
    · exact hs
  have h0 : (clientInit cfg q).readBuf = [] := by
    unfold clientInit
    dsimp only
    have h1 : (match cfg.username, cfg.password with
      | some u, some p => introduce (.token u p) (clientBlank q)
      | _, _ => clientBlank q).readBuf = [] := by
      split
      · exact hb _ rfl _
      · rfl
    split
    · exact h1
    · exact hb _ h1 _
  refine fed_run (clientHandle_halts cfg) (fun s h => Fed.resume (clientHandle_halts cfg) h.bound) es hes _
    ⟨fun _ => ?_, fun _ _ => ?_⟩
  · rw [h0]; unfold Complete; decide
  · rw [h0]; decide

end Wm.Tunnel
