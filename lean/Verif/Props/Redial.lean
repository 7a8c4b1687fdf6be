import Verif.Model.Redial
import Verif.Props.Tunnel
import Verif.Props.Codec
import Verif.Proofs.TunnelMore
import Verif.Proofs.TunnelHeld
/-! Property C181: a client whose connection to the server was lost comes back. -/
namespace Wm.Redial
open Wm Wm.Prot
open scoped List
open Wm.Tunnel (gots written arrived introduction clientRun clientHandle At AtIdle Stream)

/-! ### Proofs about one connection -/

/-- nothing but a token ends the task abnormally, and only an open request that no mapping answers blocks it -/
def Blamed (cfg : Tunnel.Cfg) (s : Tunnel.St) : Prop :=
  (s.phase = .panicked → ∃ u p, .token u p ∈ gots s.trace) ∧
  (s.phase = .stuck → ∃ i d, .create i d ∈ gots s.trace ∧ Tunnel.findMapping cfg.mappings (d.getD []) = none)

theorem Blamed.of_running {cfg s} (h : s.phase = .running) : Blamed cfg s :=
  ⟨(fun h' => by rw [h] at h'; cases h'), fun h' => by rw [h] at h'; cases h'⟩

theorem finish_phase (p : Tunnel.Phase) (s : Tunnel.St) : (Tunnel.finish p s).phase = p := rfl

theorem handle_blamed (cfg : Tunnel.Cfg) (s : Tunnel.St) (f : Frame) (h : s.phase = .running) :
    Blamed cfg (clientHandle cfg s f).1 ∧ ((clientHandle cfg s f).2 = false → (clientHandle cfg s f).1.phase = .running) := by
  have hreg : ∀ (s : Tunnel.St) i, s.phase = .running → (Tunnel.register i s).phase = .running := by
    intro s i h
    unfold Tunnel.register
    dsimp only
    split <;> exact h
  have htry : ∀ (s : Tunnel.St) k g, s.phase = .running → (Tunnel.trySend k g s).phase = .running := by
    intro s k g h
    unfold Tunnel.trySend
    repeat' split
    all_goals exact h
  have ok : ∀ t : Tunnel.St × Bool, t.1.phase = .running → Blamed cfg t.1 ∧ (t.2 = false → t.1.phase = .running) :=
    fun t ht => ⟨.of_running ht, fun _ => ht⟩
  unfold clientHandle
  dsimp only
  cases f with
  | create i d =>
    dsimp only
    cases hm : Tunnel.findMapping cfg.mappings (d.getD []) with
    | none =>
      dsimp only
      unfold Tunnel.selfSend
      split
      · exact ok _ h
      · refine ⟨⟨(fun h' => by cases h'), fun _ => ⟨i, d, ?_, hm⟩⟩, fun h' => by cases h'⟩
        simp [Tunnel.emit, Tunnel.gots_snoc]
    | some m =>
      dsimp only
      have := hreg (Tunnel.emit (.got (.create i d)) s) i h
      repeat' split
      all_goals exact ok _ this
  | data i b =>
    dsimp only
    split
    · exact ok _ (htry _ _ _ h)
    · exact ok _ h
  | close i r =>
    dsimp only
    split
    · exact ok _ h
    · split
      · exact ok _ (htry _ _ _ h)
      · exact ok _ h
  | mapping i ms => exact ok _ h
  | token u p =>
    refine ⟨⟨fun _ => ⟨u, p, ?_⟩, fun h' => by cases h'⟩, fun h' => by cases h'⟩
    obtain ⟨⟨v, e1, e2, -⟩, -⟩ := Tunnel.Ext.finish .panicked (Tunnel.emit (.got (.token u p)) s)
    dsimp only
    rw [e1, Tunnel.gots_append]
    simp [Tunnel.emit, Tunnel.gots_snoc]

def Told (cfg : Tunnel.Cfg) (fs : List Frame) (s : Tunnel.St) : Prop := arrived s.trace <+: fs.flatMap wire → Blamed cfg s

theorem resume_told {cfg : Tunnel.Cfg} {fs} (hS : Stream fs []) (s : Tunnel.St) (h : At fs [] s) (hb : Told cfg fs s) :
    Told cfg fs (Tunnel.resume (clientHandle cfg) s) := by
  unfold Tunnel.resume
  split
  · rename_i hl
    intro ha
    have hsame := Tunnel.pump_inv (clientHandle cfg) (fun x => arrived x.trace = arrived s.trace)
      (fun x => arrived x.trace = arrived s.trace) (fun _ h => h) (fun x f hx => by
        have : arrived (clientHandle cfg x f).1.trace = arrived s.trace := by
          obtain ⟨⟨⟨u, e1, e2, e3⟩, er⟩, hst⟩ := Tunnel.clientHandle_looks cfg x f
          rw [e1, Tunnel.arrived_append, e3]; simp [Tunnel.emit, Tunnel.arrived_snoc, hx]
        exact ⟨this, fun _ => this⟩) s.readBuf s rfl
    have hp := (Tunnel.pump_inv (clientHandle cfg) (fun x => x.phase = .running) (Blamed cfg)
      (fun _ h => .of_running h) (handle_blamed cfg) s.readBuf s hl.1).1
    have ha' : arrived s.trace <+: fs.flatMap wire := by
      have hf : ∀ (x : Tunnel.St) p, arrived x.trace = arrived s.trace → arrived (Tunnel.finish p x).trace = arrived s.trace := by
        intro x p hx
        obtain ⟨⟨u, e1, e2, e3⟩, _⟩ := Tunnel.Ext.finish p x
        rw [e1, Tunnel.arrived_append, e3, hx, List.append_nil]
      dsimp only at ha
      revert ha
      cases (pump (clientHandle cfg) s s.readBuf).2.2 with
      | more => intro ha; dsimp only at ha; rwa [hsame.1] at ha
      | stopped => intro ha; dsimp only at ha; rwa [hsame.1] at ha
      | err e =>
        intro ha
        have he := hf { (pump (clientHandle cfg) s s.readBuf).1 with readBuf := (pump (clientHandle cfg) s s.readBuf).2.1 }
          (.failed e) hsame.1
        rw [← he]; exact ha
      | panic =>
        intro ha
        have he := hf { (pump (clientHandle cfg) s s.readBuf).1 with readBuf := (pump (clientHandle cfg) s s.readBuf).2.1 }
          .panicked hsame.1
        rw [← he]; exact ha
    obtain ⟨c, rest, e1, e2, e3⟩ := h (by simpa using ha')
    obtain ⟨r, hr⟩ := ha'
    rw [e1, e3] at hr
    have hr' : s.readBuf ++ r = rest.flatMap wire ++ [] := by
      simp only [List.flatMap_append, List.append_assoc] at hr
      simpa using List.append_cancel_left hr
    obtain ⟨d1, d2, q, f1, f2, f3, f4⟩ :=
      split_prefix rest (fun f hf => hS.fits f (by simp [e1, hf])) hS.part _ _ hr'
    obtain ⟨c1, c2, g1, g2, g3, g4, g5⟩ :=
      Tunnel.pump_at (Tunnel.clientHandle_looks cfg) d1 (fun f hf => hS.fits f (by simp [e1, f1, hf])) q f3 s
    rw [← f2] at g2 g3 g4 g5
    dsimp only
    rcases g5 with ⟨g5, -⟩ | ⟨g5, -⟩
    · rw [g5]; exact hp
    · rw [g5]; exact hp
  · exact hb

theorem Told.ext {cfg fs} {s s' : Tunnel.St} (h : Told cfg fs s) (e : Tunnel.Ext s s') (hp : s'.phase = s.phase) :
    Told cfg fs s' := by
  obtain ⟨⟨u, e1, e2, e3⟩, er⟩ := e
  unfold Told Blamed at *
  rw [e1, Tunnel.arrived_append, e3, List.append_nil, Tunnel.gots_append, e2, List.append_nil, hp]
  exact h

theorem Told.over {cfg fs} {s : Tunnel.St} (h : s.phase = .ended) : Told cfg fs s :=
  fun _ => ⟨(fun h' => by rw [h] at h'; cases h'), fun h' => by rw [h] at h'; cases h'⟩

theorem step_told {cfg : Tunnel.Cfg} {fs} (hS : Stream fs []) (s : Tunnel.St) (e : Tunnel.Event) (hs : AtIdle fs [] s)
    (hp : s.pending = none) (hb : Told cfg fs s) : Told cfg fs (Tunnel.clientStep cfg s e) := by
  unfold Tunnel.clientStep
  cases e <;> simp only [Tunnel.step]
  case submit f =>
    split
    · exact hb.ext (Tunnel.Ext.one (.submitted f) rfl rfl rfl rfl) rfl
    · exact hb
  case take h =>
    split
    · exact hb
    · rename_i f q hq
      split
      · have e1 : ∀ x : Tunnel.St, x.pending = none → Tunnel.resumePending (clientHandle cfg) x = x := by
          intro x hx; unfold Tunnel.resumePending; rw [hx]
        rw [e1 _ (show (Tunnel.emit _ (Tunnel.setChan _ _ s)).pending = none from hp)]
        exact hb.ext (Tunnel.Ext.one (.took h f) rfl rfl rfl rfl) rfl
      · exact hb
  case dropRx h =>
    split
    · have e1 : ∀ x : Tunnel.St, x.pending = none → Tunnel.resumePending (clientHandle cfg) x = x := by
        intro x hx; unfold Tunnel.resumePending; rw [hx]
      rw [e1 _ (show (Tunnel.emit _ (Tunnel.setChan _ _ s)).pending = none from hp)]
      exact hb.ext (Tunnel.Ext.one (.rxGone h) rfl rfl rfl rfl) rfl
    · exact hb
  case work id d =>
    split
    · rename_i hr
      have he : Tunnel.Ext s (Tunnel.enqueue (.create id d) (Tunnel.register id s)) :=
        (Tunnel.Ext.register id s).trans (Tunnel.Ext.enqueue _ _ _)
      refine resume_told hS _ (hs.1.ext he) (hb.ext he ?_)
      unfold Tunnel.register
      dsimp only
      split <;> rfl
    · exact hb
  case recv =>
    split
    · split
      · exact hb
      · rename_i f q hq
        have he : Tunnel.Ext s (Tunnel.enqueue f { s with outq := q } true) :=
          Tunnel.Ext.trans (b := { s with outq := q }) ⟨⟨[], by simp, rfl, rfl⟩, rfl⟩ (Tunnel.Ext.enqueue _ _ _)
        exact resume_told hS _ (hs.1.ext he) (hb.ext he rfl)
    · exact hb
  case read bs =>
    split
    · rename_i hr
      refine resume_told hS _ ?_ (fun _ => .of_running hr.1)
      intro ha
      simp only [Tunnel.emit, Tunnel.arrived_snoc] at ha
      obtain ⟨c, rest, e1, e2, e3⟩ := hs.1 ((List.prefix_append _ _).trans ha)
      refine ⟨c, rest, e1, ?_, ?_⟩
      · simp only [Tunnel.emit, Tunnel.gots_snoc, List.append_nil]; exact e2
      · simp only [Tunnel.emit, Tunnel.arrived_snoc]; rw [e3]; simp
    · exact hb
  case readEnd =>
    split
    · exact Told.over rfl
    · exact hb
  case wrote n =>
    split
    · split
      · exact hb
      · have h1 : Tunnel.Ext s (Tunnel.emit (.wrote (s.writeBuf.take n)) { s with writeBuf := s.writeBuf.drop n }) :=
          Tunnel.Ext.one (.wrote (s.writeBuf.take n)) rfl rfl rfl rfl
        split
        · exact Told.over rfl
        · exact resume_told hS _ (hs.1.ext h1) (hb.ext h1 rfl)
    · exact hb
  case writeErr =>
    split
    · split
      · exact hb
      · exact resume_told hS _ hs.1 hb
    · exact hb


theorem client_told {cfg : Tunnel.Cfg} {fs} (hS : Stream fs []) (q : List Frame) (h0 : (Tunnel.clientInit cfg q).phase = .running)
    (es : List Tunnel.Event) : Told cfg fs (clientRun cfg q es) := by
  induction es using List.reverseRecOn with
  | nil => exact fun _ => .of_running h0
  | append_singleton es e ih =>
    have : clientRun cfg q (es ++ [e]) = Tunnel.clientStep cfg (clientRun cfg q es) e := by simp [clientRun]
    rw [this]
    exact step_told hS _ e (Tunnel.client_at hS cfg q es) (Tunnel.client_never_waits cfg q es) ih

theorem init_running {cfg : Tunnel.Cfg} (h : ∀ f ∈ introduction cfg, Fits f) (q : List Frame) :
    (Tunnel.clientInit cfg q).phase = .running := by
  have hi : ∀ f (s : Tunnel.St), BodyFits f → s.phase = .running → (Tunnel.introduce f s).phase = .running := by
    intro f s hf hs
    unfold Tunnel.introduce
    rw [if_pos hs, encode_fits f hf s.writeBuf]
    exact hs
  unfold Tunnel.clientInit
  dsimp only
  unfold introduction at h
  have h1 : (match cfg.username, cfg.password with
      | some u, some p => Tunnel.introduce (.token u p) (Tunnel.clientBlank q)
      | _, _ => Tunnel.clientBlank q).phase = .running := by
    split
    · rename_i u p hu hp
      rw [hu, hp] at h
      exact hi _ _ (h _ (by simp)).1 rfl
    · rfl
  split
  · exact h1
  · rename_i hm
    exact hi _ _ (h _ (by rw [if_neg hm]; simp)).1 h1

/-! ### What is required -/

/-- how the time between two attempts looks: a second passes, then the client tries to connect -/
def oneSecond : List Act := List.replicate 1000 .ms ++ [.dialed]

/-- the server behaves on this connection: it sends whole messages that can be represented, no tokens, and asks only for
    services that the client offers -/
def Proper (cfg : Tunnel.Cfg) (t : List Tunnel.Obs) : Prop :=
  ∃ fs : List Frame, (∀ f ∈ fs, Fits f) ∧ arrived t <+: fs.flatMap wire ∧ (∀ u p, .token u p ∉ fs) ∧
    ∀ i d, .create i d ∈ fs → ∃ m ∈ cfg.mappings, m.domain = d.getD [] ∨ m.name = d.getD []

/-! ### Proof -/

def Away (x : Act) : Prop := x = .lost ∨ x = .refused

/-- after each loss and each failure a second passes, then the client tries again -/
def Timely (t : List Act) : Prop :=
  ∀ a x b, t = a ++ x :: b → Away x → (∃ k < 1000, b = List.replicate k .ms) ∨ oneSecond <+: b

/-- the last thing that happened is `x`, `k` milliseconds ago -/
def Last (t : List Act) (x : Act) (k : Nat) : Prop := x ≠ .ms ∧ ∃ a, t = a ++ x :: List.replicate k .ms

def lastOf (t : List Act) : Option Act := (t.reverse.dropWhile (· == .ms)).head?
def since (t : List Act) : Nat := (t.reverse.takeWhile (· == .ms)).length

theorem drop_ms (k : Nat) (l : List Act) :
    (List.replicate k Act.ms ++ l).dropWhile (· == .ms) = l.dropWhile (· == .ms) ∧
    ((List.replicate k Act.ms ++ l).takeWhile (· == .ms)).length = k + (l.takeWhile (· == .ms)).length := by
  induction k with
  | zero => simp
  | succ k ih => rw [List.replicate_succ]; simp [ih]; omega

theorem Last.eq {t x k} (h : Last t x k) : lastOf t = some x ∧ since t = k := by
  obtain ⟨hx, a, rfl⟩ := h
  have hr : (a ++ x :: List.replicate k Act.ms).reverse = List.replicate k .ms ++ x :: a.reverse := by simp
  have hx' : (x == Act.ms) = false := by simpa using hx
  unfold lastOf since
  rw [hr, (drop_ms _ _).1, (drop_ms _ _).2]
  simp [List.dropWhile_cons, List.takeWhile_cons, hx']

theorem Last.uniq {t x k y j} (h : Last t x k) (h' : Last t y j) : x = y ∧ k = j := by
  have a := h.eq
  have b := h'.eq
  rw [a.1] at b; rw [a.2] at b
  exact ⟨Option.some.inj b.1, b.2⟩

theorem Last.tick {t x k} (h : Last t x k) : Last (t ++ [.ms]) x (k + 1) := by
  obtain ⟨hx, a, rfl⟩ := h
  refine ⟨hx, a, ?_⟩
  rw [List.append_assoc, List.cons_append, ← List.replicate_succ']

theorem Last.new (t : List Act) {x} (hx : x ≠ .ms) : Last (t ++ [x]) x 0 := ⟨hx, t, by simp⟩

/-- something else happens -/
theorem Timely.other {t x k} (h : Timely t) (hl : Last t x k) (hx : ¬ Away x) (y : Act) : Timely (t ++ [y]) := by
  intro a z b hab hz
  rcases List.eq_nil_or_concat b with rfl | ⟨b', y', rfl⟩
  · exact .inl ⟨0, by decide, rfl⟩
  · rw [List.concat_eq_append, ← List.cons_append, ← List.append_assoc] at hab
    obtain ⟨h1, h2⟩ := List.append_inj' hab rfl
    cases h2
    rcases h a z b' h1 hz with ⟨j, hj, rfl⟩ | hp
    · have hzm : z ≠ .ms := by rcases hz with rfl | rfl <;> decide
      have := hl.uniq ⟨hzm, a, h1⟩
      exact absurd (this.1 ▸ hz) hx
    · exact .inr (hp.trans (by simp))

/-- a millisecond of the pause passes -/
theorem Timely.tick {t x k} (h : Timely t) (hl : Last t x k) (hk : k + 1 < 1000) : Timely (t ++ [.ms]) := by
  intro a z b hab hz
  rcases List.eq_nil_or_concat b with rfl | ⟨b', y', rfl⟩
  · exact .inl ⟨0, by decide, rfl⟩
  · rw [List.concat_eq_append, ← List.cons_append, ← List.append_assoc] at hab
    obtain ⟨h1, h2⟩ := List.append_inj' hab rfl
    cases h2
    rcases h a z b' h1 hz with ⟨j, hj, rfl⟩ | hp
    · have hzm : z ≠ .ms := by rcases hz with rfl | rfl <;> decide
      have := hl.uniq ⟨hzm, a, h1⟩
      exact .inl ⟨j + 1, by omega, by rw [List.concat_eq_append, ← List.replicate_succ']⟩
    · exact .inr (hp.trans (by simp))

/-- the pause is over -/
theorem Timely.dial {t x} (h : Timely t) (hl : Last t x 999) : Timely (t ++ [.ms, .dialed]) := by
  intro a z b hab hz
  have hzm : z ≠ .ms := by rcases hz with rfl | rfl <;> decide
  rcases List.append_eq_append_iff.1 hab with ⟨a', ha, hb⟩ | ⟨a', ha, hb⟩
  · -- the split is within the new part
    exfalso
    rcases a' with _ | ⟨y, _ | ⟨y', a'⟩⟩
    · simp at hb; exact hzm hb.1.symm
    · simp at hb; rcases hz with rfl | rfl <;> simp at hb
    · simp at hb
  · cases a' with
    | nil => simp at hb; exact absurd hb.1 hzm
    | cons y b' =>
      simp only [List.cons_append, List.cons.injEq] at hb
      obtain ⟨rfl, rfl⟩ := hb
      rcases h a z b' ha hz with ⟨j, hj, rfl⟩ | hp
      · have := (hl.uniq ⟨hzm, a, ha⟩).2
        subst this
        right
        refine ⟨[], ?_⟩
        rw [List.append_nil]
        show List.replicate (999 + 1) Act.ms ++ [.dialed] = _
        rw [List.replicate_succ', List.append_assoc]
        rfl
      · exact .inr (hp.trans (by simp))

structure Inv (cfg : Tunnel.Cfg) (s : St) : Prop where
  timely : Timely s.trace
  place : match s.at_ with
    | .serving t => (∃ k, Last s.trace .connected k) ∧ (∃ q es, t = clientRun cfg q es) ∧
        (t.phase = .running ∨ t.phase = .stuck)
    | .sleeping n _ => ∃ x k, Away x ∧ Last s.trace x k ∧ n + k = 1000 ∧ 0 < n
    | .dialing _ => ∃ k, Last s.trace .dialed k
    | .gone t => (∃ k, Last s.trace .connected k) ∧ (∃ q es, t = clientRun cfg q es) ∧ t.phase = .panicked

theorem Inv.settle {cfg : Tunnel.Cfg} {s : St} {t : Tunnel.St} (ht : Timely s.trace) (hl : ∃ k, Last s.trace .connected k)
    (hr : ∃ q es, t = clientRun cfg q es) : Inv cfg (settle s t) := by
  unfold Redial.settle
  obtain ⟨k, hk⟩ := hl
  split
  · rename_i hp; exact ⟨ht, ⟨k, hk⟩, hr, .inl hp⟩
  · rename_i hp; exact ⟨ht, ⟨k, hk⟩, hr, .inr hp⟩
  · exact ⟨ht.other hk (by simp [Away]) _, .lost, 0, .inl rfl, Last.new _ (by decide), rfl, by decide⟩
  · exact ⟨ht.other hk (by simp [Away]) _, .lost, 0, .inl rfl, Last.new _ (by decide), rfl, by decide⟩
  · rename_i hp; exact ⟨ht, ⟨k, hk⟩, hr, hp⟩

theorem Inv.init (cfg : Tunnel.Cfg) : Inv cfg (init cfg) := by
  refine Inv.settle (s := ⟨.dialing [], [.connected]⟩) ?_ ⟨0, by decide, [], rfl⟩ ⟨[], [], rfl⟩
  intro a x b hab hx
  cases a with
  | nil =>
    cases hab
    rcases hx with h | h <;> cases h
  | cons y a => simp at hab

theorem Inv.step {cfg : Tunnel.Cfg} {s : St} (h : Inv cfg s) (e : Event) : Inv cfg (Redial.step cfg s e) := by
  obtain ⟨ht, hp⟩ := h
  obtain ⟨p, tr⟩ := s
  cases e with
  | tun e =>
    cases p with
    | serving t =>
      obtain ⟨hk, ⟨q, es, rfl⟩, -⟩ := hp
      exact Inv.settle ht hk ⟨q, es ++ [e], by simp [clientRun]⟩
    | _ => exact ⟨ht, hp⟩
  | tick =>
    cases p with
    | serving t =>
      obtain ⟨⟨k, hk⟩, h2⟩ := hp
      exact ⟨ht.other hk (by simp [Away]) _, ⟨k + 1, hk.tick⟩, h2⟩
    | dialing q =>
      obtain ⟨k, hk⟩ := hp
      exact ⟨ht.other hk (by simp [Away]) _, k + 1, hk.tick⟩
    | gone t =>
      obtain ⟨⟨k, hk⟩, h2⟩ := hp
      exact ⟨ht.other hk (by simp [Away]) _, ⟨k + 1, hk.tick⟩, h2⟩
    | sleeping n q =>
      obtain ⟨x, k, hx, hk, hn, hn0⟩ := hp
      dsimp only [Redial.step]
      split
      · have : k = 999 := by omega
        subst this
        refine ⟨ht.dial hk, 0, ?_⟩
        show Last (tr ++ [.ms, .dialed]) .dialed 0
        have := Last.new (tr ++ [.ms]) (x := .dialed) (by decide)
        simpa using this
      · exact ⟨ht.tick hk (by omega), x, k + 1, hx, hk.tick, by omega, by omega⟩
  | answered ok =>
    cases p with
    | dialing q =>
      obtain ⟨k, hk⟩ := hp
      dsimp only [Redial.step]
      split
      · exact Inv.settle (ht.other hk (by simp [Away]) _) ⟨0, Last.new _ (by decide)⟩ ⟨q, [], rfl⟩
      · exact ⟨ht.other hk (by simp [Away]) _, .refused, 0, .inr rfl, Last.new _ (by decide), rfl, by decide⟩
    | _ => exact ⟨ht, hp⟩
  | submit f =>
    cases p with
    | sleeping n q =>
      dsimp only [Redial.step]
      split
      · exact ⟨ht, hp⟩
      · exact ⟨ht, hp⟩
    | dialing q =>
      dsimp only [Redial.step]
      split
      · exact ⟨ht, hp⟩
      · exact ⟨ht, hp⟩
    | _ => exact ⟨ht, hp⟩

theorem Inv.run (cfg : Tunnel.Cfg) (es : List Event) : Inv cfg (run cfg es) := by
  unfold Redial.run
  generalize hs : Redial.init cfg = s
  have h : Inv cfg s := hs ▸ Inv.init cfg
  clear hs
  induction es generalizing s with
  | nil => exact h
  | cons e es ih => exact ih _ (h.step e)

theorem settle_ms (s : St) (t : Tunnel.St) : (settle s t).trace.count .ms = s.trace.count .ms := by
  unfold settle
  split <;> simp

/-! ### Statements -/

/-- **C181** (timing): after each loss of the connection, and after each attempt to connect that failed, the client starts
    to connect again when exactly one second has passed - whatever happened before, and whatever happens meanwhile. (All
    time that passes is in the record. Whether the server is contacted then, see `C181_contact_partial`.) -/
theorem C181_timely (cfg : Tunnel.Cfg) (es : List Event) :
    (∀ before x later, (run cfg es).trace = before ++ x :: later → x = .lost ∨ x = .refused →
      (∃ k < 1000, later = List.replicate k .ms) ∨ oneSecond <+: later) ∧
    (run cfg es).trace.count .ms = es.count .tick := by
  refine ⟨(Inv.run cfg es).timely, ?_⟩
  induction es using List.reverseRecOn with
  | nil =>
    show (init cfg).trace.count .ms = 0
    unfold init
    rw [settle_ms]; rfl
  | append_singleton es e ih =>
    have : run cfg (es ++ [e]) = step cfg (run cfg es) e := by simp [run]
    rw [this, List.count_append, ← ih]
    obtain ⟨p, tr⟩ := run cfg es
    cases e with
    | tun e => cases p <;> simp [step, settle_ms]
    | tick =>
      cases p <;> simp [step]
      split <;> simp [List.count_cons]
    | answered ok =>
      cases p <;> simp [step]
      split <;> simp [settle_ms]
    | submit f =>
      cases p <;> simp [step]
      all_goals split <;> rfl

/-- **C181** (connecting): an attempt to connect ends as it is answered: either there is a new connection, on which the
    client serves and has its introduction ready, or the failure is noted (and `C181_timely` says when the next attempt is
    made). -/
theorem C181_connects (cfg : Tunnel.Cfg) (hi : ∀ f ∈ introduction cfg, Fits f) (es : List Event) (a k)
    (h : (run cfg es).trace = a ++ .dialed :: List.replicate k .ms) :
    (run cfg (es ++ [.answered false])).trace = (run cfg es).trace ++ [.refused] ∧
    (run cfg (es ++ [.answered true])).trace = (run cfg es).trace ++ [.connected] ∧
    ∃ s, (run cfg (es ++ [.answered true])).at_ = .serving s ∧ s.phase = .running ∧
      s.writeBuf = (introduction cfg).flatMap wire := by
  have hl : Last (run cfg es).trace .dialed k := ⟨by decide, a, h⟩
  have hsnoc : ∀ e, run cfg (es ++ [e]) = step cfg (run cfg es) e := by simp [run]
  rw [hsnoc, hsnoc]
  obtain ⟨-, hp⟩ := Inv.run cfg es
  cases hat : (run cfg es).at_ with
  | serving t =>
    rw [hat] at hp
    obtain ⟨⟨j, hj⟩, -⟩ := hp
    have := (hl.uniq hj).1; cases this
  | sleeping n q =>
    rw [hat] at hp
    obtain ⟨x, j, hx, hj, -⟩ := hp
    have := (hl.uniq hj).1; subst this
    rcases hx with h | h <;> cases h
  | gone t =>
    rw [hat] at hp
    obtain ⟨⟨j, hj⟩, -⟩ := hp
    have := (hl.uniq hj).1; cases this
  | dialing q =>
    have h0 := init_running hi q
    have hb := (Tunnel.Fresh.init cfg q).cinv.2.2.bytes
    refine ⟨by simp [step, hat], ?_, ?_⟩
    · simp [step, hat, settle, h0]
    · refine ⟨Tunnel.clientInit cfg q, by simp [step, hat, settle, h0], h0, ?_⟩
      rw [Tunnel.clientInit_accepted cfg q h0] at hb
      rw [← hb]
      have : written (Tunnel.clientInit cfg q).trace = [] := by
        unfold written
        rw [List.flatMap_eq_nil_iff]
        intro o ho
        obtain ⟨f, rfl⟩ := (Tunnel.Fresh.init cfg q).trace o ho
        rfl
      rw [this]; simp

/-- **C181** (introduction): on every connection, the first bytes that are written are the client's introduction. -/
theorem C181_introduces (cfg : Tunnel.Cfg) (es : List Event) (s) (h : (run cfg es).at_ = .serving s) :
    written s.trace <+: (introduction cfg).flatMap wire ∨ (introduction cfg).flatMap wire <+: written s.trace := by
  obtain ⟨-, hp⟩ := Inv.run cfg es
  rw [h] at hp
  obtain ⟨-, ⟨q, es', rfl⟩, -⟩ := hp
  exact Tunnel.C16_introduction_first cfg q es'

/-- **C181** (losing), partial: while a connection lasts, on which the server behaves, the client serves it, and when it is
    closed or breaks, the loss is noted (and `C181_timely` says when the client tries to connect). Missing: when the server
    does not behave the client may never connect again, see `C181_crash_fails` and `C181_stuck_fails`. -/
theorem C181_loses_partial (cfg : Tunnel.Cfg) (hi : ∀ f ∈ introduction cfg, Fits f) (es : List Event) (a k)
    (h : (run cfg es).trace = a ++ .connected :: List.replicate k .ms) :
    ∃ s, ((run cfg es).at_ = .serving s ∨ (run cfg es).at_ = .gone s) ∧
      (Proper cfg s.trace → (run cfg es).at_ = .serving s ∧ s.phase = .running ∧
        (run cfg (es ++ [.tun .readEnd])).trace = (run cfg es).trace ++ [.lost]) := by
  have hl : Last (run cfg es).trace .connected k := ⟨by decide, a, h⟩
  have hsnoc : ∀ e, run cfg (es ++ [e]) = step cfg (run cfg es) e := by simp [run]
  rw [hsnoc]
  have sound : ∀ q es', Proper cfg (clientRun cfg q es').trace →
      (clientRun cfg q es').phase ≠ .panicked ∧ (clientRun cfg q es').phase ≠ .stuck := by
    intro q es' ⟨fs, h1, h2, h3, h4⟩
    have hS : Stream fs [] := ⟨h1, fun p hp => by rw [List.prefix_nil.1 hp]; simp [Complete]⟩
    obtain ⟨b1, b2⟩ := client_told hS q (init_running hi q) es' h2
    obtain ⟨c, rest, e1, e2, -⟩ := (Tunnel.client_at hS cfg q es').1 (by simpa using h2)
    rw [e2] at b1 b2
    constructor
    · intro hp
      obtain ⟨u, p, hm⟩ := b1 hp
      obtain ⟨f, hf, hfe⟩ := List.mem_map.1 hm
      have : f = .token u p := by
        unfold asReceived at hfe
        split at hfe
        · cases hfe
        · cases hfe
        · exact hfe
      subst this
      exact h3 u p (by rw [e1]; simp [hf])
    · intro hp
      obtain ⟨i, d, hm, hn⟩ := b2 hp
      obtain ⟨f, hf, hfe⟩ := List.mem_map.1 hm
      have : ∃ d', f = .create i d' ∧ d'.getD [] = d.getD [] := by
        unfold asReceived at hfe
        split at hfe
        · cases hfe; exact ⟨_, rfl, rfl⟩
        · cases hfe
        · exact ⟨d, hfe, rfl⟩
      obtain ⟨d', rfl, hd⟩ := this
      obtain ⟨m, hm1, hm2⟩ := h4 i d' (by rw [e1]; simp [hf])
      have := (Tunnel.findMapping_spec cfg.mappings (d.getD [])).1.1 hn m hm1
      rw [hd] at hm2
      rcases hm2 with h | h
      · exact this.1 h
      · exact this.2 h
  obtain ⟨-, hp⟩ := Inv.run cfg es
  cases hat : (run cfg es).at_ with
  | serving t =>
    rw [hat] at hp
    obtain ⟨-, ⟨q, es', rfl⟩, hph⟩ := hp
    refine ⟨_, .inl rfl, fun hpr => ?_⟩
    have hs := sound q es' hpr
    have hrun : (clientRun cfg q es').phase = .running := by
      rcases hph with h | h
      · exact h
      · exact absurd h hs.2
    refine ⟨rfl, hrun, ?_⟩
    have : (Tunnel.clientStep cfg (clientRun cfg q es') .readEnd).phase = .ended := by
      unfold Tunnel.clientStep
      simp only [Tunnel.step]
      rw [if_pos ⟨hrun, Tunnel.client_never_waits cfg q es'⟩]
      rfl
    simp [step, hat, settle, this]
  | gone t =>
    rw [hat] at hp
    obtain ⟨-, ⟨q, es', rfl⟩, hph⟩ := hp
    exact ⟨_, .inr rfl, fun hpr => absurd hph (sound q es' hpr).1⟩
  | sleeping n q =>
    rw [hat] at hp
    obtain ⟨x, j, hx, hj, -⟩ := hp
    have := (hl.uniq hj).1; subst this
    rcases hx with h | h <;> cases h
  | dialing q =>
    rw [hat] at hp
    obtain ⟨j, hj⟩ := hp
    have := (hl.uniq hj).1; cases this

theorem gone_stays (cfg : Tunnel.Cfg) (es : List Event) (s : St) (t) (h : s.at_ = .gone t) :
    (es.foldl (step cfg) s).trace.count .dialed = s.trace.count .dialed := by
  induction es generalizing s with
  | nil => rfl
  | cons e es ih =>
    rw [List.foldl_cons]
    cases e with
    | tick => rw [ih _ (by simp [step, h])]; simp [step, h]
    | _ => rw [ih _ (by simp [step, h])]; simp [step, h]

/-- **C181** fails: when the server sends a token, or a message that the client cannot decode without crashing (one of an
    unknown kind, see `C09_panic_iff_partial`), the client never connects again - whatever happens afterwards. The messages
    that arrived before can be anything: for every state of the connection in which all messages so far were handled. -/
theorem C181_crash_fails (cfg : Tunnel.Cfg) (es es' : List Event) (s) (h : (run cfg es).at_ = .serving s)
    (hr : s.phase = .running) (he : s.readBuf = []) (bs : Bytes)
    (hb : (decodeFrame bs).1 = .panic ∨ ∃ u p, (decodeFrame bs).1 = .ok (some (.token u p))) :
    (run cfg (es ++ .tun (.read bs) :: es')).trace.count .dialed = (run cfg es).trace.count .dialed := by
  have hp : s.pending = none ∧ s.readyShutdown = false := by
    obtain ⟨-, hp⟩ := Inv.run cfg es
    rw [h] at hp
    obtain ⟨-, ⟨q, es', rfl⟩, -⟩ := hp
    exact ⟨Tunnel.client_never_waits cfg q es', Tunnel.client_not_ready cfg q es'⟩
  have hph : (Tunnel.clientStep cfg s (.read bs)).phase = .panicked := by
    unfold Tunnel.clientStep
    simp only [Tunnel.step]
    rw [if_pos ⟨hr, hp.1⟩]
    unfold Tunnel.resume
    rw [if_pos ⟨hr, hp.2, hp.1⟩]
    simp only [Tunnel.emit, he, List.nil_append]
    cases hd : decodeFrame bs with
    | mk x rest =>
      rw [hd] at hb
      rcases hb with hb | ⟨u, p, hb⟩
      · simp only at hb; subst hb; rw [pump_panic _ _ hd]; rfl
      · simp only at hb; subst hb; rw [pump_some _ _ hd]; rfl
  rw [run, List.foldl_append, List.foldl_cons, ← run]
  rw [gone_stays cfg es' _ (Tunnel.clientStep cfg s (.read bs)) (by simp [step, h, settle, hph])]
  simp [step, h, settle, hph]

theorem stuck_stays (cfg : Tunnel.Cfg) (es : List Event) (s : St) (t : Tunnel.St) (h : s.at_ = .serving t)
    (hs : t.phase = .stuck) (hp : t.pending = none) :
    (es.foldl (step cfg) s).trace.count .dialed = s.trace.count .dialed := by
  induction es generalizing s t with
  | nil => rfl
  | cons e es ih =>
    rw [List.foldl_cons]
    cases e with
    | tick => rw [ih _ t (by simp [step, h]) hs hp]; simp [step, h]
    | submit f => rw [ih _ t (by simp [step, h]) hs hp]; simp [step, h]
    | answered ok => rw [ih _ t (by simp [step, h]) hs hp]; simp [step, h]
    | tun e =>
      have key : (Tunnel.clientStep cfg t e).phase = .stuck ∧ (Tunnel.clientStep cfg t e).pending = none := by
        have e1 : ∀ x : Tunnel.St, x.pending = none → Tunnel.resumePending (clientHandle cfg) x = x := by
          intro x hx; unfold Tunnel.resumePending; rw [hx]
        unfold Tunnel.clientStep
        cases e <;> simp only [Tunnel.step, hs, reduceCtorEq, false_and, if_false]
        case take k =>
          split
          · exact ⟨hs, hp⟩
          · split
            · rw [e1 _ (show (Tunnel.emit _ (Tunnel.setChan _ _ t)).pending = none from hp)]; exact ⟨hs, hp⟩
            · exact ⟨hs, hp⟩
        case dropRx k =>
          split
          · rw [e1 _ (show (Tunnel.emit _ (Tunnel.setChan _ _ t)).pending = none from hp)]; exact ⟨hs, hp⟩
          · exact ⟨hs, hp⟩
        all_goals exact ⟨trivial, hp⟩
      rw [ih _ (Tunnel.clientStep cfg t e) (by simp [step, h, settle, key.1]) key.1 key.2]
      simp [step, h, settle, key.1]

/-- **C181** fails: when the server asks for a service that the client does not offer, while the client's queue of messages
    to be sent is full, the client does not even notice that its connection is lost, and never connects again. -/
theorem C181_stuck_fails (cfg : Tunnel.Cfg) (es es' : List Event) (s) (h : (run cfg es).at_ = .serving s)
    (hr : s.phase = .running) (he : s.readBuf = []) (hq : s.outq.length = 100) (bs : Bytes) (i d)
    (hb : (decodeFrame bs).1 = .ok (some (.create i d)))
    (hm : ∀ m ∈ cfg.mappings, m.domain ≠ d.getD [] ∧ m.name ≠ d.getD []) :
    (run cfg (es ++ .tun (.read bs) :: es')).trace.count .dialed = (run cfg es).trace.count .dialed := by
  have hp : s.pending = none ∧ s.readyShutdown = false := by
    obtain ⟨-, hp⟩ := Inv.run cfg es
    rw [h] at hp
    obtain ⟨-, ⟨q, es', rfl⟩, -⟩ := hp
    exact ⟨Tunnel.client_never_waits cfg q es', Tunnel.client_not_ready cfg q es'⟩
  have hph : (Tunnel.clientStep cfg s (.read bs)).phase = .stuck ∧ (Tunnel.clientStep cfg s (.read bs)).pending = none := by
    unfold Tunnel.clientStep
    simp only [Tunnel.step]
    rw [if_pos ⟨hr, hp.1⟩]
    unfold Tunnel.resume
    rw [if_pos ⟨hr, hp.2, hp.1⟩]
    simp only [Tunnel.emit, he, List.nil_append]
    have hn := (Tunnel.findMapping_spec cfg.mappings (d.getD [])).1.2 hm
    cases hd : decodeFrame bs with
    | mk x rest =>
      rw [hd] at hb
      simp only at hb; subst hb
      rw [pump_some _ _ hd]
      simp [clientHandle, hn, Tunnel.selfSend, Tunnel.emit, hq, Tunnel.outCap, hp.1]
  rw [run, List.foldl_append, List.foldl_cons, ← run]
  rw [stuck_stays cfg es' _ (Tunnel.clientStep cfg s (.read bs)) (by simp [step, h, settle, hph.1]) hph.1 hph.2]
  simp [step, h, settle, hph.1]

/-! ### Examples -/

/-- a client that offers one service -/
def one : Tunnel.Cfg := ⟨none, none, [⟨"web".toList, "tcp".toList, some ⟨.v4 2130706433, 80⟩, "web".toList, []⟩]⟩

theorem sleeps (cfg : Tunnel.Cfg) (q : List Frame) (n : Nat) (tr : List Act) :
    (List.replicate (n + 1) Event.tick).foldl (step cfg) ⟨.sleeping (n + 1) q, tr⟩ =
      ⟨.dialing q, tr ++ List.replicate (n + 1) .ms ++ [.dialed]⟩ := by
  induction n generalizing tr with
  | zero => simp [step]
  | succ n ih =>
    rw [List.replicate_succ, List.foldl_cons]
    have : step cfg ⟨.sleeping (n + 1 + 1) q, tr⟩ .tick = ⟨.sleeping (n + 1) q, tr ++ [.ms]⟩ := by simp [step]
    rw [this, ih, List.replicate_succ (n := n + 1)]
    simp

/-- the connection is lost, the second attempt to connect succeeds -/
example : (run one ([.tun (.wrote 1000), .tun .readEnd] ++ List.replicate (999 + 1) .tick ++ [.answered false] ++
      List.replicate (999 + 1) .tick ++ [.answered true])).trace =
    [.connected, .lost] ++ List.replicate (999 + 1) .ms ++ [.dialed, .refused] ++ List.replicate (999 + 1) .ms ++
      [.dialed, .connected] := by
  have h1 : (run one [.tun (.wrote 1000), .tun .readEnd]).trace = [.connected, .lost] := by decide +kernel
  have h2 : ∃ q, (run one [.tun (.wrote 1000), .tun .readEnd]).at_ = .sleeping (999 + 1) q := by
    have : (match (run one [.tun (.wrote 1000), .tun .readEnd]).at_ with | .sleeping n _ => n == 1000 | _ => false) = true := by
      decide +kernel
    split at this
    · rename_i n q hq; exact ⟨q, by rw [hq]; simp at this; rw [this]⟩
    · cases this
  obtain ⟨q, h2⟩ := h2
  have h3 : run one [.tun (.wrote 1000), .tun .readEnd] = ⟨.sleeping (999 + 1) q, [.connected, .lost]⟩ := by
    cases h : run one [.tun (.wrote 1000), .tun .readEnd] with
    | mk p t => rw [h] at h1 h2; simp only at h1 h2; rw [h1, h2]
  have h4 : (Tunnel.clientInit one q).phase = .running := init_running (by
    intro f hf
    have : f = .mapping 0 one.mappings := by simpa [introduction, one] using hf
    subst this
    refine ⟨⟨by decide +kernel, by decide, ?_⟩, by unfold IdFits; decide⟩
    intro m hm
    have : m = ⟨"web".toList, "tcp".toList, some ⟨.v4 2130706433, 80⟩, "web".toList, []⟩ := by simpa [one] using hm
    subst this
    refine ⟨by unfold Short; decide, by unfold Short; decide, by unfold Short; decide, by decide, ?_⟩
    intro x hx; simp at hx) q
  unfold run
  simp only [List.foldl_append, List.foldl_cons, List.foldl_nil]
  rw [show step one (step one (init one) (.tun (.wrote 1000))) (.tun .readEnd) = _ from h3, sleeps]
  simp only [step]
  rw [if_neg (by decide)]
  rw [show pause = 999 + 1 from rfl, sleeps]
  simp only [if_true, settle, h4]
  simp only [List.append_assoc, List.cons_append, List.nil_append]

/-- the hypotheses of `C181_loses_partial` and `C181_crash_fails` are met: the server asks for the service, then sends a token -/
example : let r := run one [.tun (.wrote 1000), .tun (.read (wire (.create 2 (some "web".toList)))), .tick]
    r.trace = [.connected] ++ List.replicate 1 .ms ∧
    (∃ s, r.at_ = .serving s ∧ s.phase = .running ∧ s.readBuf = [] ∧ Proper one s.trace) ∧
    (decodeFrame (wire (.token [] []))).1 = .ok (some (.token [] [])) := by
  intro r
  refine ⟨by decide +kernel, ?_, by decide +kernel⟩
  have : (match r.at_ with
    | .serving s => s.phase == .running && s.readBuf == [] && arrived s.trace == wire (.create 2 (some "web".toList))
    | _ => false) = true := by decide +kernel
  split at this
  · rename_i s hs
    simp only [Bool.and_eq_true, beq_iff_eq] at this
    refine ⟨s, hs, this.1.1, this.1.2, [.create 2 (some "web".toList)], ?_, by rw [this.2]; simp, by simp, ?_⟩
    · intro f hf
      simp at hf
      subst hf
      exact ⟨by intro s hs; cases hs; unfold Short; decide +kernel, by unfold IdFits; decide⟩
    · intro i d hd
      simp at hd
      obtain ⟨rfl, rfl⟩ := hd
      exact ⟨_, List.mem_singleton.2 rfl, .inl (by decide +kernel)⟩
  · cases this

/-- the hypotheses of `C181_stuck_fails` are met when the client has a hundred messages to send -/
example : let r := run one (List.replicate 100 (.tun (.submit (.data 3 [1]))))
    (∃ s, r.at_ = .serving s ∧ s.phase = .running ∧ s.readBuf = [] ∧ s.outq.length = 100) ∧
    (decodeFrame (wire (.create 2 (some "ftp".toList)))).1 = .ok (some (.create 2 (some "ftp".toList))) ∧
    ∀ m ∈ one.mappings, m.domain ≠ "ftp".toList ∧ m.name ≠ "ftp".toList := by
  intro r
  refine ⟨?_, by decide +kernel, by decide +kernel⟩
  have : (match r.at_ with
    | .serving s => s.phase == .running && s.readBuf == [] && s.outq.length == 100
    | _ => false) = true := by decide +kernel
  split at this
  · rename_i s hs
    simp only [Bool.and_eq_true, beq_iff_eq] at this
    exact ⟨s, hs, this.1.1, this.1.2, this.2⟩
  · cases this

end Wm.Redial
