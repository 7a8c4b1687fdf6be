import Verif.Proofs.TunnelHeld
import Verif.Props.TunnelProgress
/-! What a tunnel end keeps in memory: of past streams (C142), of bytes from and for the peer (C143). -/
namespace Wm.Tunnel
open Wm Wm.Prot

/-! ## C142 -/

theorem held_owner {acc : List Obs → Frame → Bool} {debt : List (Nat × Frame)} {s : St} (hD : DInv acc debt s) (hH : HInv s)
    (hr : s.phase = .running) {i h : Nat} (hreg : .reg i h ∈ s.trace) (hh : .hangup h ∉ s.trace) : owner s.trace i = some h := by
  obtain ⟨h1, h2⟩ := hH.regs i h hreg
  rcases hH.cover h h2 with ⟨id, hm⟩ | hc
  · have h3 := (hD.mapId _ hm).1
    rw [h1] at h3
    cases h3
    rw [← hD.mapOwner hr, lookup_of_mem hH.keys hm]
  · exact absurd hc hh

/-- **C142** (server), partial: of the streams that have used one id only the last is kept: the table of
    the streams has one entry for an id, and all but the last have lost their channel. (Of every stream nothing is kept when the
    connection has ended, see C18.) Missing: streams that have ended, see `C142_server_fails`. -/
theorem C142_server_one_per_id_partial (cfg : Cfg) (es : List Event) (hr : (serverRun cfg es).phase = .running) :
    ((serverRun cfg es).map.map (·.1)).Nodup ∧
    ∀ i h, .reg i h ∈ (serverRun cfg es).trace → .hangup h ∉ (serverRun cfg es).trace →
      owner (serverRun cfg es).trace i = some h :=
  ⟨(server_inv cfg es).2.1.keys, fun _ _ hreg hh => held_owner (server_inv cfg es).1.1.1 (server_inv cfg es).2.1 hr hreg hh⟩

/-- **C142** (client), partial: likewise. -/
theorem C142_client_one_per_id_partial (cfg : Cfg) (q : List Frame) (es : List Event)
    (hr : (clientRun cfg q es).phase = .running) :
    ((clientRun cfg q es).map.map (·.1)).Nodup ∧
    ∀ i h, .reg i h ∈ (clientRun cfg q es).trace → .hangup h ∉ (clientRun cfg q es).trace →
      owner (clientRun cfg q es).trace i = some h :=
  ⟨(client_inv cfg q es).2.1.keys, fun _ _ hreg hh => held_owner (client_inv cfg q es).1.1 (client_inv cfg q es).2.1 hr hreg hh⟩

theorem owner_held {acc : List Obs → Frame → Bool} {debt : List (Nat × Frame)} {s : St} (hD : DInv acc debt s) (hK : KeepInv s)
    (hr : s.phase = .running) {i h : Nat} (ho : owner s.trace i = some h) : .hangup h ∉ s.trace := by
  rw [← hD.mapOwner hr] at ho
  exact hK.held hr _ (lookup_mem ho)

/-- **C142** fails at the server: as long as the connection lasts, the last stream under an id is kept, whatever has happened to it —
    be it closed by either side, and its task long gone. -/
theorem C142_server_fails (cfg : Cfg) (es : List Event) (hr : (serverRun cfg es).phase = .running) (i h : Nat)
    (ho : owner (serverRun cfg es).trace i = some h) : .hangup h ∉ (serverRun cfg es).trace :=
  owner_held (server_inv cfg es).1.1.1 (server_held cfg es) hr ho

/-- **C142** fails at the client likewise. -/
theorem C142_client_fails (cfg : Cfg) (q : List Frame) (es : List Event) (hr : (clientRun cfg q es).phase = .running) (i h : Nat)
    (ho : owner (clientRun cfg q es).trace i = some h) : .hangup h ∉ (clientRun cfg q es).trace :=
  owner_held (client_inv cfg q es).1.1 (client_held cfg q es) hr ho

/-- `n` streams, opened one after the other by this end, each of which ends before the next is opened; ids as they are handed out
    by a server (C05) -/
def oneByOne (n : Nat) : List Event := (List.range n).flatMap fun k => [.work (2 * k + 2) none, .dropRx k]

structure Piled (n : Nat) (s : St) : Prop where
  live : Live s
  buf : s.readBuf = []
  next : s.next = n
  ids : ∀ p ∈ s.map, p.1 < 2 * n + 2
  hang : ∀ k, .hangup k ∉ s.trace
  regs : ∀ k < n, .reg (2 * k + 2) k ∈ s.trace ∧ .rxGone k ∈ s.trace

theorem resume_empty {H : St → Frame → St × Bool} (s : St) (hc : Live s → ¬ Complete s.readBuf) : resume H s = s := by
  unfold resume
  split
  · rename_i hl
    rw [pump_incomplete H s (hc hl)]
  · rfl

theorem nil_incomplete : ¬ Complete ([] : Bytes) := by unfold Complete; decide

theorem Piled.next_ {n : Nat} {s : St} (h : Piled n s) (H : St → Frame → St × Bool) (we : St → St) :
    Piled (n + 1) (step H we (step H we s (.work (2 * n + 2) none)) (.dropRx n)) := by
  have hl : lookup (2 * n + 2) s.map = none := by
    cases hl : lookup (2 * n + 2) s.map with
    | none => rfl
    | some k => have := h.ids _ (lookup_mem hl); simp at this
  obtain ⟨⟨l1, l2, l3⟩, hb, hn, hi, hh, hg⟩ := h
  have hw : step H we s (.work (2 * n + 2) none) = enqueue (.create (2 * n + 2) none) (register (2 * n + 2) s) := by
    simp only [step]
    rw [if_pos ⟨l1, l3⟩]
    refine resume_empty _ fun _ => ?_
    have : (enqueue (.create (2 * n + 2) none) (register (2 * n + 2) s)).readBuf = s.readBuf := by
      unfold register enqueue; rw [hl]; rfl
    rw [this, hb]
    exact nil_incomplete
  rw [hw]
  have hreg : register (2 * n + 2) s = emit (.reg (2 * n + 2) s.next)
      { setChan s.next ⟨[], true, true⟩ s with
        map := (2 * n + 2, s.next) :: s.map.filter (fun p => p.1 ≠ 2 * n + 2)
        next := s.next + 1 } := by
    unfold register; rw [hl]
  rw [hreg]
  simp only [step, enqueue, emit, setChan, hn, if_true]
  rw [show ∀ s : St, s.pending = none → resumePending H s = s from fun s hs => by unfold resumePending; rw [hs]]
  · refine ⟨⟨l1, l2, l3⟩, hb, rfl, ?_, ?_, ?_⟩
    · intro p hp
      rcases List.mem_cons.1 hp with rfl | hp
      · dsimp only; omega
      · have := hi p (List.mem_filter.1 hp).1
        omega
    · intro k hk
      simp [hh k] at hk
    · intro k hk
      by_cases e : k = n
      · subst e; simp
      · have := hg k (by omega)
        simp [this.1, this.2]
  · exact l3

theorem piled (H : St → Frame → St × Bool) (we : St → St) (s : St) (h : Piled 0 s) (n : Nat) :
    Piled n ((oneByOne n).foldl (step H we) s) := by
  induction n with
  | zero => exact h
  | succ n ih =>
    have he : oneByOne (n + 1) = oneByOne n ++ [.work (2 * n + 2) none, .dropRx n] := by
      unfold oneByOne; rw [List.range_succ, List.flatMap_append]; rfl
    rw [he, List.foldl_append]
    exact ih.next_ H we

/-- **C142** fails without bound: after any number of streams that were opened and have ended one after the other, all of them are
    still kept. -/
theorem C142_unbounded_fails (cfg : Cfg) (n : Nat) :
    (serverRun cfg (oneByOne n)).phase = .running ∧
    ∀ k < n, .reg (2 * k + 2) k ∈ (serverRun cfg (oneByOne n)).trace ∧ .rxGone k ∈ (serverRun cfg (oneByOne n)).trace ∧
      .hangup k ∉ (serverRun cfg (oneByOne n)).trace := by
  have h0 : Piled 0 (serverInit cfg) :=
    
    { live := ⟨rfl, rfl, rfl⟩
      buf := rfl
      next := rfl
      ids := fun p hp => nomatch hp
      hang := fun k hk => nomatch hk
      regs := fun k hk => by omega }
  have h := piled (serverHandle cfg) (finish .panicked) _ h0 n
  exact ⟨h.live.1, fun k hk => ⟨(h.regs k hk).1, (h.regs k hk).2, h.hang k⟩⟩

/-! ## C143 -/

/-- **C143** (server), partial: of a peer that is logged in, or has not said anything yet, less is kept than one message of the
    greatest size and one more piece of input. Missing: refused peers, see `C143_refused_fails`, and output, see `C143_server_output_fails`. -/
theorem C143_server_input_partial (cfg : Cfg) (es : List Event) (hes : Pieces es) (hr : (serverRun cfg es).phase = .running)
    (hl : LoggedIn cfg (serverRun cfg es).trace ∨ gots (serverRun cfg es).trace = []) :
    (serverRun cfg es).readBuf.length < (2 ^ 24 + 12) + 4096 := by
  have hG := (server_inv cfg es).1.2
  refine (server_fed cfg es hes).bound hr ?_
  by_cases hp : Protected cfg
  · rcases hG.first hp with h1 | ⟨f, fs, h1, h2, h3⟩ | ⟨f, h1, ⟨t1, t2, e, g1, g2⟩, h3, _⟩
    · exact h1.2
    · exact h3
    · exfalso
      have hg : gots (serverRun cfg es).trace = [f] := by
        rw [e, gots_append, g1]
        simp only [gots] at g2 ⊢
        simp [g2]
      rcases hl with hl | hl
      · rcases hl with hl | ⟨g, hg', hlog⟩
        · exact hl hp
        · rw [hg, List.mem_singleton] at hg'
          exact h1 (hg' ▸ hlog)
      · rw [hg] at hl; cases hl
  · exact hG.open_ hp

/-- **C143** (client), partial: of a server, less is kept than one message of the greatest size. -/
theorem C143_client_input_partial (cfg : Cfg) (q : List Frame) (es : List Event) (hes : Pieces es)
    (hr : (clientRun cfg q es).phase = .running) : (clientRun cfg q es).readBuf.length < 2 ^ 24 + 12 :=
  incomplete_small ((client_fed cfg q es hes).done ⟨hr, client_not_ready cfg q es, client_never_waits cfg q es⟩)

/-- **C143** fails for a peer that was refused: until it takes the notice of its refusal, everything that it sends is kept, however
    much that is. (While input is there the loop reads it, rather than sending the notice.) -/
theorem C143_refused_fails (cfg : Cfg) (hp : Protected cfg) (es : List Event) (f : Frame) (fs : List Frame)
    (hg : gots (serverRun cfg es).trace = f :: fs) (hf : ¬ IsLogin cfg f) (hr : (serverRun cfg es).phase = .running)
    (pieces : List Bytes) :
    (serverRun cfg (es ++ pieces.map .read)).phase = .running ∧
    (serverRun cfg (es ++ pieces.map .read)).readBuf = (serverRun cfg es).readBuf ++ pieces.flatten := by
  have hG := (server_inv cfg es).1.2
  have hready : (serverRun cfg es).readyShutdown = true ∧ (serverRun cfg es).pending = none := by
    rcases hG.first hp with h1 | ⟨y, fs, h1, h2, h3⟩ | ⟨y, h1, ⟨t1, t2, e, g1, g2⟩, h3, _⟩
    · rw [h1.1] at hg; cases hg
    · rw [h1] at hg
      cases hg
      exact absurd h2 hf
    · refine ⟨h3, ?_⟩
      by_contra hn
      have hy : gots (serverRun cfg es).trace = [y] := by
        rw [e, gots_append, g1]
        simp only [gots] at g2 ⊢
        simp [g2]
      rcases hG.pend hn with hl | ⟨g, hg', hlog⟩
      · exact hl hp
      · rw [hy, List.mem_singleton] at hg'
        exact h1 (hg' ▸ hlog)
  have key : ∀ (pieces : List Bytes) (s : St), s.phase = .running → s.readyShutdown = true → s.pending = none →
      ((pieces.map Event.read).foldl (serverStep cfg) s).phase = .running ∧
      ((pieces.map Event.read).foldl (serverStep cfg) s).readBuf = s.readBuf ++ pieces.flatten := by
    intro pieces
    induction pieces with
    | nil => intro s h1 _ _; exact ⟨h1, by simp⟩
    | cons b bs ih =>
      intro s h1 h2 h3
      have hs : serverStep cfg s (.read b) = emit (.arrived b) { s with readBuf := s.readBuf ++ b } := by
        simp only [serverStep, step]
        rw [if_pos ⟨h1, h3⟩]
        unfold resume
        rw [if_neg]
        rintro ⟨_, hb, _⟩
        have hb' : s.readyShutdown = false := hb
        rw [h2] at hb'
        cases hb'
      rw [List.map_cons, List.foldl_cons, hs]
      have := ih (emit (.arrived b) { s with readBuf := s.readBuf ++ b }) h1 h2 h3
      refine ⟨this.1, this.2.trans ?_⟩
      simp [emit]
  unfold serverRun
  rw [List.foldl_append]
  exact key pieces _ hr hready.1 hready.2

/-- `n` times: a stream of this end hands over a message, and the loop takes it -/
def pouring (f : Frame) (n : Nat) : List Event := (List.replicate n [Event.submit f, Event.recv]).flatten

theorem pour {H : St → Frame → St × Bool} {we : St → St} (f : Frame) (n : Nat) : ∀ (s : St), Idle s → s.outq = [] →
    (Live s → ¬ Complete s.readBuf) →
    ((pouring f n).foldl (step H we) s).phase = .running ∧
    written ((pouring f n).foldl (step H we) s).trace = written s.trace ∧
    accepted ((pouring f n).foldl (step H we) s).trace = accepted s.trace ++ List.replicate n f := by
  induction n with
  | zero => intro s hi _ _; exact ⟨hi.1, rfl, by simp [pouring]⟩
  | succ n ih =>
    intro s hi hq hc
    have h1 : step H we s (.submit f) = emit (.submitted f) { s with outq := s.outq ++ [f] } := by
      simp only [step]; rw [if_pos ⟨hi.1, by rw [hq]; decide⟩]
    have h2 : step H we (emit (.submitted f) { s with outq := s.outq ++ [f] }) .recv
        = enqueue f { emit (.submitted f) { s with outq := s.outq ++ [f] } with outq := [] } true := by
      simp only [step, emit, hq, List.nil_append]
      rw [if_pos ⟨hi.1, hi.2⟩]
      exact resume_empty _ hc
    have he : pouring f (n + 1) = [.submit f, .recv] ++ pouring f n := by simp [pouring, List.replicate_succ]
    rw [he, List.foldl_append, List.foldl_cons, List.foldl_cons, List.foldl_nil, h1, h2]
    have := ih (enqueue f { emit (.submitted f) { s with outq := s.outq ++ [f] } with outq := [] } true) hi rfl hc
    refine ⟨this.1, this.2.1.trans ?_, this.2.2.trans ?_⟩
    · show written ((s.trace ++ [.submitted f]) ++ [.queued true f]) = _
      rw [written_snoc, written_snoc]
      simp
    · show accepted ((s.trace ++ [.submitted f]) ++ [.queued true f]) ++ _ = _
      rw [accepted_snoc, accepted_snoc]
      simp [List.replicate_succ]

/-- **C143** fails for output: from every state with nothing waiting to be handed over, a peer that takes nothing makes an end
    keep as many more messages as its own streams have, without bound; the streams are not slowed down. Here for the server. -/
theorem C143_server_output_fails (cfg : Cfg) (es : List Event) (hes : Pieces es) (hi : Idle (serverRun cfg es))
    (hq : relayed (serverRun cfg es).trace = submissions (serverRun cfg es).trace) (f : Frame) (n : Nat) :
    (serverRun cfg (es ++ pouring f n)).phase = .running ∧
    written (serverRun cfg (es ++ pouring f n)).trace = written (serverRun cfg es).trace ∧
    accepted (serverRun cfg (es ++ pouring f n)).trace = accepted (serverRun cfg es).trace ++ List.replicate n f := by
  have hb := (server_inv cfg es).2.2.relay
  rw [hq, List.nil_append] at hb
  have hq' : (serverRun cfg es).outq = [] := List.append_right_eq_self.1 hb
  have h := pour (H := serverHandle cfg) (we := finish .panicked) f n _ hi hq' (server_fed cfg es hes).done
  unfold serverRun at h ⊢
  rw [List.foldl_append]
  exact h

/-- **C143** fails for the client likewise. -/
theorem C143_client_output_fails (cfg : Cfg) (q : List Frame) (es : List Event) (hes : Pieces es)
    (hr : (clientRun cfg q es).phase = .running)
    (hq : relayed (clientRun cfg q es).trace = q ++ submissions (clientRun cfg q es).trace) (f : Frame) (n : Nat) :
    (clientRun cfg q (es ++ pouring f n)).phase = .running ∧
    written (clientRun cfg q (es ++ pouring f n)).trace = written (clientRun cfg q es).trace ∧
    accepted (clientRun cfg q (es ++ pouring f n)).trace = accepted (clientRun cfg q es).trace ++ List.replicate n f := by
  have hb := (client_inv cfg q es).2.2.relay
  rw [hq] at hb
  have hq' : (clientRun cfg q es).outq = [] := List.append_right_eq_self.1 hb
  have h := pour (H := clientHandle cfg) (we := fun s => resume (clientHandle cfg) s) f n _ ⟨hr, client_never_waits cfg q es⟩ hq'
    (client_fed cfg q es hes).done
  unfold clientRun at h ⊢
  rw [List.foldl_append]
  exact h

/-! ### Examples -/

/-- a server with a stream of its own that has ended, and one of the peer; both are kept -/
example : let es := [Event.work 2 none, .dropRx 0, .read (wire (.create 3 none)), .read [1, 2]]
    let s := serverRun ⟨none, none, []⟩ es
    Pieces es ∧ s.phase = .running ∧ owner s.trace 2 = some 0 ∧ .rxGone 0 ∈ s.trace ∧ .hangup 0 ∉ s.trace ∧
    owner s.trace 3 = some 1 ∧ LoggedIn ⟨none, none, []⟩ s.trace ∧ s.readBuf = [1, 2] ∧ relayed s.trace = submissions s.trace ∧
    s.pending = none := by
  refine ⟨?_, by decide +kernel, by decide +kernel, by decide +kernel, by decide +kernel, by decide +kernel, by decide +kernel,
    by decide +kernel, by decide +kernel, by decide +kernel⟩
  intro bs hb
  simp only [List.mem_cons, reduceCtorEq, Event.read.injEq, false_or, List.not_mem_nil, or_false] at hb
  rcases hb with rfl | rfl <;> decide +kernel

/-- an id used again: the first stream is released -/
example : let s := serverRun ⟨none, none, []⟩ [.read (wire (.create 3 none)), .read (wire (.create 3 none))]
    s.phase = .running ∧ .hangup 0 ∈ s.trace ∧ .reg 3 1 ∈ s.trace ∧ .hangup 1 ∉ s.trace := by
  refine ⟨by decide +kernel, by decide +kernel, by decide +kernel, by decide +kernel⟩

/-- a refused peer -/
example : let s := serverRun ⟨some "u".toList, none, []⟩ [.read (wire (.create 3 none))]
    gots s.trace = [.create 3 none] ∧ ¬ IsLogin ⟨some "u".toList, none, []⟩ (.create 3 none) ∧ s.phase = .running := by
  refine ⟨by decide +kernel, by decide +kernel, by decide +kernel⟩

/-- a client with a stream of the server -/
example : let s := clientRun ⟨none, none, []⟩ [] [.work 1 none, .dropRx 0, .read [0]]
    s.phase = .running ∧ owner s.trace 1 = some 0 ∧ .hangup 0 ∉ s.trace ∧ relayed s.trace = submissions s.trace ∧
    s.readBuf = [0] := by
  refine ⟨by decide +kernel, by decide +kernel, by decide +kernel, by decide +kernel, by decide +kernel⟩

end Wm.Tunnel
