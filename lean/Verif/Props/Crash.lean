import Verif.Props.Tunnel
import Verif.Props.Codec
import Verif.Proofs.TunnelHeld
import Verif.Proofs.TunnelInput
import Mathlib.Data.List.Induction
/-! Property C210: what happens to an end of the tunnel when its connection fails or its peer misbehaves. -/
namespace Wm.Tunnel
open Wm Wm.Prot
open scoped List

/-! ### Proofs -/

/-- some bytes that arrived begin a message that crashes the decoder -/
def Poison (s : St) : Prop := ∃ buf, buf <:+ arrived s.trace ∧ (decodeFrame buf).1 = .panic

/-- what is not yet decoded is the end of what arrived, and a crash was caused by some message -/
def Sane (s : St) : Prop := s.readBuf <:+ arrived s.trace ∧ (s.phase = .panicked → Poison s)

theorem Ext.arrived {s s' : St} (e : Ext s s') : Tunnel.arrived s'.trace = Tunnel.arrived s.trace := by
  obtain ⟨⟨u, e1, e2, e3⟩, -⟩ := e
  rw [e1, arrived_append, e3, List.append_nil]

theorem Sane.ext {s s' : St} (h : Sane s) (e : Ext s s') (hp : s'.phase = .panicked → s.phase = .panicked) : Sane s' := by
  unfold Sane Poison at *
  rw [e.arrived, e.2]
  exact ⟨h.1, fun x => h.2 (hp x)⟩

theorem sendAwait_phase (k : Nat) (f : Frame) (s : St) : (sendAwait k f s).1.phase = s.phase := by
  unfold sendAwait
  repeat' split
  all_goals rfl

theorem serverHandle_phase (cfg : Cfg) (s : St) (f : Frame) : (serverHandle cfg s f).1.phase = s.phase := by
  unfold serverHandle
  dsimp only
  repeat' split
  all_goals first
    | rfl
    | exact register_phase _ _
    | exact sendAwait_phase _ _ _

theorem decodeFrame_suffix (b : Bytes) : (decodeFrame b).2 <:+ b := by
  by_cases h : Complete b
  · rw [decodeFrame_complete b h]; exact List.drop_suffix _ _
  · rw [decodeFrame_incomplete b h]; exact List.suffix_refl _

theorem pump_sane (cfg : Cfg) (s : St) (buf : Bytes) :
    (pump (serverHandle cfg) s buf).2.1 <:+ buf ∧ (pump (serverHandle cfg) s buf).1.phase = s.phase ∧
    arrived (pump (serverHandle cfg) s buf).1.trace = arrived s.trace ∧
    ((pump (serverHandle cfg) s buf).2.2 = .panic → ∃ b, b <:+ buf ∧ (decodeFrame b).1 = .panic) := by
  induction hn : buf.length using Nat.strongRecOn generalizing s buf with
  | ind n ih =>
    subst hn
    cases hd : decodeFrame buf with
    | mk r b =>
      have hle := decodeFrame_suffix buf
      rw [hd] at hle
      cases r with
      | ok o =>
        cases o with
        | none => rw [pump_none _ s hd]; exact ⟨hle, rfl, rfl, by simp⟩
        | some f =>
          have hlt := decodeFrame_shrinks hd
          have ha : arrived (serverHandle cfg s f).1.trace = arrived s.trace := by
            rw [(serverHandle_looks cfg s f).1.arrived]
            simp [emit, arrived_snoc]
          rw [pump_some _ s hd]
          split
          · exact ⟨hle, serverHandle_phase cfg s f, ha, by simp⟩
          · obtain ⟨h1, h2, h3, h4⟩ := ih b.length hlt (serverHandle cfg s f).1 b rfl
            refine ⟨h1.trans hle, h2.trans (serverHandle_phase cfg s f), h3.trans ha, fun hp => ?_⟩
            obtain ⟨x, hx, hx2⟩ := h4 hp
            exact ⟨x, hx.trans hle, hx2⟩
      | err e => rw [pump_err _ s hd]; exact ⟨hle, rfl, rfl, by simp⟩
      | panic => rw [pump_panic _ s hd]; exact ⟨hle, rfl, rfl, fun _ => ⟨buf, List.suffix_refl _, by rw [hd]⟩⟩

theorem resume_sane (cfg : Cfg) (s : St) (h : Sane s) : Sane (resume (serverHandle cfg) s) := by
  unfold resume
  split
  · rename_i hl
    obtain ⟨h1, h2, h3, h4⟩ := pump_sane cfg s s.readBuf
    have base : Sane { (pump (serverHandle cfg) s s.readBuf).1 with readBuf := (pump (serverHandle cfg) s s.readBuf).2.1 } := by
      refine ⟨?_, fun hp => ?_⟩
      · show _ <:+ arrived (pump (serverHandle cfg) s s.readBuf).1.trace
        rw [h3]; exact h1.trans h.1
      · have : (pump (serverHandle cfg) s s.readBuf).1.phase = .panicked := hp
        rw [h2, hl.1] at this; cases this
    dsimp only
    cases he : (pump (serverHandle cfg) s s.readBuf).2.2 with
    | more => exact base
    | stopped => exact base
    | err e => exact base.ext (Ext.finish _ _) (fun hp => by cases hp)
    | panic =>
      refine ⟨?_, fun _ => ?_⟩
      · rw [(Ext.finish _ _).arrived, (Ext.finish _ _).2]; exact base.1
      · obtain ⟨b, hb, hb2⟩ := h4 he
        refine ⟨b, ?_, hb2⟩
        rw [(Ext.finish _ _).arrived]
        show _ <:+ arrived (pump (serverHandle cfg) s s.readBuf).1.trace
        rw [h3]; exact hb.trans h.1
  · exact h

theorem resumePending_sane (cfg : Cfg) (s : St) (h : Sane s) : Sane (resumePending (serverHandle cfg) s) := by
  unfold resumePending
  split
  · exact h
  · rename_i k f _
    have h1 : Sane (sendAwait k f { s with pending := none }).1 :=
      Sane.ext (s := s) h (Ext.trans (b := { s with pending := none }) ⟨⟨[], by simp, rfl, rfl⟩, rfl⟩ (Ext.sendAwait _ _ _))
        (fun hp => by rw [sendAwait_phase] at hp; exact hp)
    dsimp only
    split
    · exact h1
    · exact resume_sane cfg _ h1

theorem step_sane (cfg : Cfg) (s : St) (e : Event)
    (he : e = .writeErr → ¬ (s.phase = .running ∧ s.pending = none ∧ s.writeBuf ≠ [])) (h : Sane s) :
    Sane (serverStep cfg s e) := by
  unfold serverStep
  cases e <;> simp only [step]
  case submit f =>
    split
    · exact h.ext (Ext.one (.submitted f) rfl rfl rfl rfl) id
    · exact h
  case take k =>
    split
    · exact h
    · rename_i f q hq
      split
      · exact resumePending_sane cfg _ (h.ext (Ext.one (.took k f) rfl rfl rfl rfl) id)
      · exact h
  case dropRx k =>
    split
    · exact resumePending_sane cfg _ (h.ext (Ext.one (.rxGone k) rfl rfl rfl rfl) id)
    · exact h
  case work id d =>
    split
    · refine resume_sane cfg _ (h.ext ((Ext.register id s).trans (Ext.enqueue _ _ _)) (fun hp => ?_))
      have : (register id s).phase = .panicked := hp
      rwa [register_phase] at this
    · exact h
  case recv =>
    split
    · split
      · exact h
      · rename_i f q hq
        exact resume_sane cfg _ (h.ext
          (Ext.trans (b := { s with outq := q }) ⟨⟨[], by simp, rfl, rfl⟩, rfl⟩ (Ext.enqueue f true _)) id)
    · exact h
  case read bs =>
    split
    · rename_i hr
      refine resume_sane cfg _ ⟨?_, fun hp => ?_⟩
      · simp only [emit, arrived_snoc]
        obtain ⟨t, ht⟩ := h.1
        exact ⟨t, by rw [← List.append_assoc, ht]⟩
      · have : s.phase = .panicked := hp
        rw [hr.1] at this; cases this
    · exact h
  case readEnd =>
    split
    · refine h.ext ?_ (fun hp => by cases hp)
      exact ((Ext.one .connLost rfl rfl rfl rfl : Ext s (emit .connLost s)).trans (Ext.closeFold _ _)).trans (Ext.finish _ _)
    · exact h
  case wrote n =>
    split
    · split
      · exact h
      · have h1 : Ext s (emit (.wrote (s.writeBuf.take n)) { s with writeBuf := s.writeBuf.drop n }) :=
          Ext.one (.wrote (s.writeBuf.take n)) rfl rfl rfl rfl
        split
        · exact h.ext (h1.trans (Ext.finish _ _)) (fun hp => by cases hp)
        · exact resume_sane cfg _ (h.ext h1 id)
    · exact h
  case writeErr =>
    split
    · rename_i hr
      split
      · exact h
      · rename_i hw; exact absurd ⟨hr.1, hr.2, hw⟩ (he rfl)
    · exact h

theorem serverRun_snoc (cfg : Cfg) (es : List Event) (e : Event) :
    serverRun cfg (es ++ [e]) = serverStep cfg (serverRun cfg es) e := by simp [serverRun]

theorem clientRun_snoc (cfg : Cfg) (q : List Frame) (es : List Event) (e : Event) :
    clientRun cfg q (es ++ [e]) = clientStep cfg (clientRun cfg q es) e := by simp [clientRun]

theorem server_sane (cfg : Cfg) (es : List Event)
    (h : ∀ es1 es2, es = es1 ++ .writeErr :: es2 →
      ¬ ((serverRun cfg es1).phase = .running ∧ (serverRun cfg es1).pending = none ∧ (serverRun cfg es1).writeBuf ≠ [])) :
    Sane (serverRun cfg es) := by
  induction es using List.reverseRecOn with
  | nil => exact ⟨List.suffix_refl _, fun hp => by cases hp⟩
  | append_singleton es e ih =>
    rw [serverRun_snoc]
    refine step_sane cfg _ e (fun he => ?_) (ih (fun es1 es2 hs => h es1 (es2 ++ [e]) (by rw [hs]; simp)))
    subst he
    exact h es [] rfl

/-! ### C210 -/

/-- **C210** (what holds) The server's end crashes for two causes only: writing to the connection failed while there was
    something to write, or among the bytes that arrived there is a message of an unknown kind or an open request without a
    body at the end (the messages that crash the decoder, C09). -/
theorem C210_server_partial (cfg : Cfg) (es : List Event) (h : (serverRun cfg es).phase = .panicked) :
    (∃ es1 es2, es = es1 ++ .writeErr :: es2 ∧ (serverRun cfg es1).phase = .running ∧ (serverRun cfg es1).pending = none ∧
      (serverRun cfg es1).writeBuf ≠ []) ∨
    ∃ bs, bs <:+ arrived (serverRun cfg es).trace ∧ Complete bs ∧ (5 ≤ kindByte bs ∨ (kindByte bs = 1 ∧ bs.length = 12)) := by
  by_cases hw : ∃ es1 es2, es = es1 ++ .writeErr :: es2 ∧ (serverRun cfg es1).phase = .running ∧
      (serverRun cfg es1).pending = none ∧ (serverRun cfg es1).writeBuf ≠ []
  · exact Or.inl hw
  · right
    obtain ⟨bs, h1, h2⟩ := (server_sane cfg es (fun es1 es2 hs hx => hw ⟨es1, es2, hs, hx⟩)).2 h
    obtain ⟨h3, h4⟩ := (C09_panic_iff_partial bs).1 h2
    exact ⟨bs, h1, h3, h4⟩

theorem over_stays (cfg : Cfg) (s : St) (es : List Event) (hp : s.pending = none) (h : s.phase ≠ .running) :
    (es.foldl (serverStep cfg) s).phase = s.phase := by
  induction es generalizing s with
  | nil => rfl
  | cons e es ih =>
    have key : (serverStep cfg s e).phase = s.phase ∧ (serverStep cfg s e).pending = none := by
      have hr : ∀ x : St, x.pending = none → resumePending (serverHandle cfg) x = x := by
        intro x hx; unfold resumePending; rw [hx]
      unfold serverStep
      cases e <;> simp only [step]
      case submit f => rw [if_neg (fun x => h x.1)]; exact ⟨rfl, hp⟩
      case take k =>
        split
        · exact ⟨rfl, hp⟩
        · split
          · rw [hr _ (by exact hp)]; exact ⟨rfl, hp⟩
          · exact ⟨rfl, hp⟩
      case dropRx k =>
        split
        · rw [hr _ (by exact hp)]; exact ⟨rfl, hp⟩
        · exact ⟨rfl, hp⟩
      all_goals rw [if_neg (fun x => h x.1)]; exact ⟨rfl, hp⟩
    rw [List.foldl_cons, ih _ key.2 (by rw [key.1]; exact h), key.1]

/-- **C210** fails at the server, always: when writing to the connection fails while the end has something to write, the
    end crashes (`todo!()`), whatever happened before, and nothing more happens to it. -/
theorem C210_server_write_fails (cfg : Cfg) (es es' : List Event) (hr : (serverRun cfg es).phase = .running)
    (hp : (serverRun cfg es).pending = none) (hw : (serverRun cfg es).writeBuf ≠ []) :
    (serverRun cfg (es ++ .writeErr :: es')).phase = .panicked := by
  have e : serverRun cfg (es ++ .writeErr :: es') = es'.foldl (serverStep cfg) (serverStep cfg (serverRun cfg es) .writeErr) := by
    simp [serverRun]
  have e1 : serverStep cfg (serverRun cfg es) .writeErr = finish .panicked (serverRun cfg es) := by
    show (if _ then (if _ then _ else _) else _) = _
    rw [if_pos ⟨hr, hp⟩, if_neg hw]
  have hpf : (finish .panicked (serverRun cfg es)).pending = none := by
    have : ∀ (m : List (Nat × Nat)) (s : St), (m.foldl (fun s x => hangup x.2 s) s).pending = s.pending := by
      intro m
      induction m with
      | nil => intro s; rfl
      | cons x m ih => intro s; exact (ih _).trans rfl
    exact (this _ _).trans hp
  rw [e, e1, over_stays cfg _ es' hpf (by simp [finish])]
  rfl

/-- **C210** fails at the client, always: that writing to the connection fails changes nothing. However often it fails, the
    client's end is as it was: it does not end, it closes no stream, makes no new connection, and goes on to take what its
    streams write, which can never arrive. (Only a failing read ends it, C18.) -/
theorem C210_client_unnoticed_fails (cfg : Cfg) (q : List Frame) (es : List Event) (n : Nat)
    (hes : ∀ bs, .read bs ∈ es → bs.length ≤ 4096) :
    clientRun cfg q (es ++ List.replicate n .writeErr) = clientRun cfg q es := by
  have one : clientStep cfg (clientRun cfg q es) .writeErr = clientRun cfg q es := by
    show (if _ then (if _ then _ else _) else _) = _
    split
    · split
      · rfl
      · dsimp only
        unfold resume
        split
        · rename_i hl
          rw [pump_incomplete _ _ ((client_fed cfg q es hes).done hl)]
        · rfl
    · rfl
  induction n with
  | zero => simp
  | succ n ih => rw [List.replicate_succ', ← List.append_assoc, clientRun_snoc, ih, one]

example : (serverRun ⟨none, none, []⟩ [.work 2 none, .writeErr]).phase = .panicked :=
  C210_server_write_fails _ [.work 2 none] [] (by decide +kernel) (by decide +kernel) (by decide +kernel)

example : clientRun ⟨some "a".toList, some "b".toList, []⟩ [] (List.replicate 3 .writeErr) =
    clientRun ⟨some "a".toList, some "b".toList, []⟩ [] [] :=
  C210_client_unnoticed_fails _ [] [] 3 (by simp)

example : (clientRun ⟨some "a".toList, some "b".toList, []⟩ [] []).writeBuf ≠ [] := by decide +kernel

end Wm.Tunnel
