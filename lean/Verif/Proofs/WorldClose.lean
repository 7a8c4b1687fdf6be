import Verif.Props.World
/-! The end-to-end composition: the end of a connection. -/
namespace Wm.Tunnel
open Wm Wm.Prot

/-! ### an end that is over stays so -/

theorem sendAwait_phase' (k f) (s : St) : (sendAwait k f s).1.phase = s.phase := by
  unfold sendAwait
  split
  · rfl
  · split <;> rfl

theorem resume_over {H : St → Frame → St × Bool} {s : St} (h : s.phase ≠ .running) : (resume H s).phase ≠ .running := by
  unfold resume; rw [if_neg (by simp [h])]; exact h

theorem resumePending_over {H : St → Frame → St × Bool} {s : St} (h : s.phase ≠ .running) :
    (resumePending H s).phase ≠ .running := by
  unfold resumePending
  split
  · exact h
  · rename_i k f _
    have h1 : (sendAwait k f { s with pending := none }).1.phase ≠ .running := by rw [sendAwait_phase']; exact h
    dsimp only
    split
    · exact h1
    · exact resume_over h1

theorem step_over {H : St → Frame → St × Bool} {we : St → St} {s : St} (e : Event) (h : s.phase ≠ .running) :
    (step H we s e).phase ≠ .running := by
  cases e <;> simp only [step]
  case submit f => rw [if_neg (by simp [h])]; exact h
  case take k =>
    split
    · exact h
    · split
      · exact resumePending_over h
      · exact h
  case dropRx k =>
    split
    · exact resumePending_over h
    · exact h
  all_goals rw [if_neg (by simp [h])]; exact h

/-- an end at work has not lost its connection -/
theorem step_whole {H : St → Frame → St × Bool} {we : St → St} {s : St} (e : Event) (u : List Obs)
    (ht : (step H we s e).trace = s.trace ++ heads s e ++ u) (hu : InnerL u)
    (h : s.phase = .running → .connLost ∉ s.trace) : (step H we s e).phase = .running → .connLost ∉ (step H we s e).trace := by
  intro hr hm
  have hs : s.phase = .running := by
    apply Classical.byContradiction
    intro hn; exact step_over e hn hr
  rw [ht, List.mem_append, List.mem_append] at hm
  rcases hm with (hm | hm) | hm
  · exact h hs hm
  · cases e <;> simp only [heads] at hm
    case readEnd =>
      by_cases hc : s.phase = .running ∧ s.pending = none
      · simp only [step, if_pos hc] at hr
        simp at hr
      · rw [if_neg hc] at hm; cases hm
    case submit f => split at hm <;> simp at hm
    case take k =>
      split at hm
      · simp at hm
      · split at hm <;> simp at hm
    case dropRx k => split at hm <;> simp at hm
    case work id d =>
      split at hm
      · cases hl : lookup id s.map <;> simp [hl] at hm
      · simp at hm
    case recv =>
      split at hm
      · split at hm <;> simp at hm
      · simp at hm
    case read bs => split at hm <;> simp at hm
    case wrote n =>
      split at hm
      · split at hm <;> simp at hm
      · simp at hm
    case writeErr => simp at hm
  · exact hu.plain _ hm

theorem server_whole (cfg : Cfg) (es : List Event) :
    (serverRun cfg es).phase = .running → .connLost ∉ (serverRun cfg es).trace := by
  induction es using List.reverseRecOn with
  | nil => intro _ hm; simp [serverRun, serverInit] at hm
  | append_singleton es e ih =>
    simp only [serverRun, List.foldl_append, List.foldl_cons, List.foldl_nil] at ih ⊢
    obtain ⟨u, e1, e2, _⟩ := serverStep_heads cfg (es.foldl (serverStep cfg) (serverInit cfg)) e
    exact step_whole e u e1 e2 ih

theorem client_whole (cfg : Cfg) (q : List Frame) (es : List Event) :
    (clientRun cfg q es).phase = .running → .connLost ∉ (clientRun cfg q es).trace := by
  induction es using List.reverseRecOn with
  | nil =>
    intro _ hm
    obtain ⟨f, hf⟩ := (Fresh.init cfg q).trace _ hm
    cases hf
  | append_singleton es e ih =>
    simp only [clientRun, List.foldl_append, List.foldl_cons, List.foldl_nil] at ih ⊢
    obtain ⟨u, e1, e2, _⟩ := clientStep_heads cfg (es.foldl (clientStep cfg) (clientInit cfg q)) e
    exact step_whole e u e1 e2 ih

/-! ### a server at work has discarded nothing -/

def NoOver (s : St) : Prop := s.phase = .running → ∀ k f, .overflow k f ∉ s.trace

theorem NoOver.more {s s' : St} (h : NoOver s) (hp : s'.phase = s.phase) (u : List Obs) (ht : s'.trace = s.trace ++ u)
    (hu : ∀ k f, .overflow k f ∉ u) : NoOver s' := by
  intro hr k f hm
  rw [ht, List.mem_append] at hm
  rcases hm with hm | hm
  · exact h (hp ▸ hr) k f hm
  · exact hu k f hm

theorem NoOver.over {s : St} (h : s.phase ≠ .running) : NoOver s := fun hr => absurd hr h

theorem NoOver.sendAwait {s : St} (h : NoOver s) (k f) : NoOver (sendAwait k f s).1 := by
  unfold Tunnel.sendAwait
  split
  · exact h.more rfl [.lost k _] rfl (by simp)
  · split
    · exact h.more rfl [.put k _] rfl (by simp)
    · exact h

theorem NoOver.register {s : St} (h : NoOver s) (id) : NoOver (register id s) := by
  refine h.more (by simp) (((match lookup id s.map with | some old => [.hangup old] | none => []) ++ [.reg id s.next])) ?_ ?_
  · rw [register_trace]; cases lookup id s.map <;> simp
  · cases lookup id s.map <;> simp

theorem NoOver.kept : Kept NoOver where
  buf s b h := h
  read s bs h _ := h.more rfl [.arrived bs] rfl (by simp)
  fin s p h _ hp := NoOver.over (by simpa using hp)
  lost s h _ := NoOver.over (by simp)
  submit s f h _ _ := h.more rfl [.submitted f] rfl (by simp)
  take s k f q h _ _ := h.more rfl [.took k f] rfl (by simp)
  drop s k h _ := h.more rfl [.rxGone k] rfl (by simp)
  retry s k f h _ := NoOver.sendAwait (s := { s with pending := none }) h k f
  work s id d h _ := (h.register id).more rfl [.queued false (.create id d)] rfl (by simp)
  recv s f q h _ _ := h.more rfl [.queued true f] rfl (by simp)
  wrote s n h _ _ _ := h.more rfl [.wrote (s.writeBuf.take n)] rfl (by simp)
  drained s n h _ _ _ := NoOver.over (by simp)

theorem NoOver.handle (cfg : Cfg) (s : St) (f : Frame) (h : NoOver s) : NoOver (serverHandle cfg s f).1 := by
  have hg : NoOver (emit (.got f) s) := h.more rfl [.got f] rfl (by simp)
  unfold serverHandle
  dsimp only
  split
  · exact hg
  · split
    · exact hg.more rfl [.queued false (.close 0 notVerify)] rfl (by simp)
    · cases f with
      | create id d => exact (hg.register id).more rfl [.opened id _ _] rfl (by simp)
      | close id d =>
        dsimp only
        split
        · exact hg.sendAwait _ _
        · exact hg
      | data id d =>
        dsimp only
        split
        · exact hg.sendAwait _ _
        · exact hg
      | mapping id ms => exact hg.more rfl [.setMap ms] rfl (by simp)
      | token u p => exact hg

theorem server_noOver (cfg : Cfg) (es : List Event) : NoOver (serverRun cfg es) := by
  have hK : Kept (fun s => SInv cfg s ∧ NoOver s) :=
    ((Flow.kept.and Guard.kept).and (HInv.kept.and BInv.kept)).and NoOver.kept
  have hP : Preserved (serverHandle cfg) (finish .panicked) (fun s => SInv cfg s ∧ NoOver s) := by
    refine Kept.preserved' hK fun s f h hl => ?_
    have h1 := serverHandle_inv cfg s f h.1 hl
    exact ⟨⟨h1.1, NoOver.handle cfg s f h.2⟩, h1.2⟩
  exact (run_inv hP es _ ⟨server_inv cfg [], fun _ k f hm => nomatch hm⟩).2

/-! ### messages looked at after the registration are due, and are received in the end -/

theorem dueFrom_of_got (acc : List Obs → Frame → Bool) (h : Nat) (f : Frame) : ∀ (t past : List Obs),
    owner past f.sockMap = some h → regCount f.sockMap t = 0 → f ∈ gots t →
    (∀ a b, t = a ++ .got f :: b → acc (past ++ a) f = true) → f ∈ dueFrom acc h past t := by
  intro t
  induction t with
  | nil => intro past _ _ hf; simp [gots] at hf
  | cons o t ih =>
    intro past ho hr hf ha
    have hr' : regCount f.sockMap [o] = 0 ∧ regCount f.sockMap t = 0 := by
      have : regCount f.sockMap (o :: t) = regCount f.sockMap [o] + regCount f.sockMap t := by
        rw [← regCount_append]; rfl
      omega
    rw [dueFrom, List.mem_append]
    rw [gots_cons, List.mem_append] at hf
    rcases hf with hf | hf
    · left
      cases o <;> simp [gots] at hf
      subst hf
      have := ha [] t rfl
      rw [List.append_nil] at this
      simp [dueNow, this, ho]
    · right
      refine ih (past ++ [o]) (by rw [owner_other hr'.1]; exact ho) hr'.2 hf fun a b e => ?_
      have := ha (o :: a) b (by rw [e]; rfl)
      simpa using this

theorem due_of_got (acc : List Obs → Frame → Bool) (k : Nat) (f : Frame) (t1 rest : List Obs) (h1 : f ∉ gots t1)
    (h2 : regCount f.sockMap rest = 0) (hf : f ∈ gots (t1 ++ .reg f.sockMap k :: rest))
    (ha : ∀ a b, t1 ++ .reg f.sockMap k :: rest = a ++ .got f :: b → acc a f = true) :
    f ∈ due acc k (t1 ++ .reg f.sockMap k :: rest) := by
  have e : gots (.reg f.sockMap k :: rest) = gots rest := rfl
  rw [gots_append', e, List.mem_append] at hf
  rw [due_append, dueFrom]
  refine List.mem_append.2 (.inr (List.mem_append.2 (.inr ?_)))
  refine dueFrom_of_got acc k f rest (t1 ++ [.reg f.sockMap k]) (by rw [owner_snoc]; simp) h2 (hf.resolve_left h1) ?_
  intro a b e
  exact ha _ b (by rw [e]; simp)

theorem mem_puts {k : Nat} {f : Frame} {t : List Obs} (hl : ∀ f, .lost k f ∉ t) (ho : .overflow k f ∉ t)
    (hf : f ∈ attempts k t) : f ∈ puts k t := by
  obtain ⟨o, hm, he⟩ := List.mem_filterMap.1 hf
  cases o <;> simp at he
  case put j g => obtain ⟨rfl, rfl⟩ := he; exact List.mem_filterMap.2 ⟨_, hm, by simp⟩
  case lost j g => obtain ⟨rfl, rfl⟩ := he; exact absurd hm (hl _)
  case overflow j g => obtain ⟨rfl, rfl⟩ := he; exact absurd hm ho

theorem mem_kept {acc : List Obs → Frame → Bool} {s : St} (hF : Flow acc s) {k : Nat} {f : Frame}
    (hp : s.pending = none) (hr : (s.chan k).rx = true) (ho : .overflow k f ∉ s.trace)
    (hf : f ∈ due acc k s.trace) : f ∈ puts k s.trace := by
  have h1 := hF.1.open_ k hr
  have h2 := hF.1.flow k
  rw [hp] at h2
  refine mem_puts (fun g hg => h1.2 (hF.1.lost k g hg)) ho ?_
  rw [← h2] at hf
  simpa using hf

theorem server_mem_kept (cfg : Cfg) (es : List Event) (f : Frame) (k : Nat) (t1 rest : List Obs)
    (hk : (∃ i d, f = .data i d) ∨ ∃ i d, f = .close i d)
    (ht : (serverRun cfg es).trace = t1 ++ .reg f.sockMap k :: rest) (h1 : f ∉ gots t1)
    (h2 : regCount f.sockMap rest = 0) (hl : Live (serverRun cfg es)) (hr : ((serverRun cfg es).chan k).rx = true)
    (hf : f ∈ gots (serverRun cfg es).trace) : f ∈ puts k (serverRun cfg es).trace := by
  have hI := server_inv cfg es
  refine mem_kept hI.1.1 hl.2.2 hr (server_noOver cfg es hl.1 k f) ?_
  have hall : (∀ a b, (serverRun cfg es).trace = a ++ .got f :: b → serverAccepts cfg a f = true) →
      f ∈ due (serverAccepts cfg) k (serverRun cfg es).trace := by
    intro ha
    rw [ht] at ha hf ⊢
    exact due_of_got (serverAccepts cfg) k f t1 rest h1 h2 hf ha
  refine hall fun a b e => ?_
  have hlog : LoggedIn cfg a := by
    by_cases hp : Protected cfg
    · rcases hI.1.2.first hp with ⟨hg, _⟩ | ⟨g, fs, hg, hgl, _⟩ | ⟨g, hg, _, hs, _⟩
      · rw [hg] at hf; cases hf
      · rw [e, gots_append', gots_cons] at hg
        cases hga : gots a with
        | nil =>
          rw [hga] at hg
          simp [gots] at hg
          obtain ⟨u, p, e, _⟩ := hgl
          rw [← hg.1] at e
          rcases hk with ⟨i, d, rfl⟩ | ⟨i, d, rfl⟩ <;> cases e
        | cons x xs =>
          rw [hga] at hg
          simp only [List.cons_append, List.cons.injEq] at hg
          exact .inr ⟨x, by rw [hga]; simp, by rw [hg.1]; exact hgl⟩
      · rw [hl.2.1] at hs; cases hs
    · exact .inl hp
  rcases hk with ⟨i, d, rfl⟩ | ⟨i, d, rfl⟩ <;> simpa [serverAccepts] using hlog

theorem server_mem_all (cfg : Cfg) (es : List Event) (f : Frame) (k : Nat) (t1 rest : List Obs)
    (hk : (∃ i d, f = .data i d) ∨ ∃ i d, f = .close i d)
    (ht : (serverRun cfg es).trace = t1 ++ .reg f.sockMap k :: rest) (h1 : f ∉ gots t1)
    (h2 : regCount f.sockMap rest = 0) (hl : Live (serverRun cfg es)) (hr : ((serverRun cfg es).chan k).rx = true)
    (hq : ((serverRun cfg es).chan k).q = []) (hf : f ∈ gots (serverRun cfg es).trace) :
    f ∈ received k (serverRun cfg es).trace := by
  have h := ((server_inv cfg es).1.1.1.open_ k hr).1
  rw [hq, List.append_nil] at h
  rw [h]
  exact server_mem_kept cfg es f k t1 rest hk ht h1 h2 hl hr hf

theorem client_mem_kept (cfg : Cfg) (q : List Frame) (es : List Event) (f : Frame) (k : Nat) (t1 rest : List Obs)
    (hk : ∀ a, clientAccepts a f = true)
    (ht : (clientRun cfg q es).trace = t1 ++ .reg f.sockMap k :: rest) (h1 : f ∉ gots t1)
    (h2 : regCount f.sockMap rest = 0) (ho : .overflow k f ∉ (clientRun cfg q es).trace)
    (hl : Live (clientRun cfg q es)) (hr : ((clientRun cfg q es).chan k).rx = true)
    (hf : f ∈ gots (clientRun cfg q es).trace) : f ∈ puts k (clientRun cfg q es).trace := by
  refine mem_kept (client_inv cfg q es).1 hl.2.2 hr ho ?_
  rw [ht] at hf ⊢
  exact due_of_got clientAccepts k f t1 rest h1 h2 hf fun a _ _ => hk a

theorem client_mem_all (cfg : Cfg) (q : List Frame) (es : List Event) (f : Frame) (k : Nat) (t1 rest : List Obs)
    (hk : ∀ a, clientAccepts a f = true)
    (ht : (clientRun cfg q es).trace = t1 ++ .reg f.sockMap k :: rest) (h1 : f ∉ gots t1)
    (h2 : regCount f.sockMap rest = 0) (ho : .overflow k f ∉ (clientRun cfg q es).trace)
    (hl : Live (clientRun cfg q es)) (hr : ((clientRun cfg q es).chan k).rx = true)
    (hq : ((clientRun cfg q es).chan k).q = []) (hf : f ∈ gots (clientRun cfg q es).trace) :
    f ∈ received k (clientRun cfg q es).trace := by
  have h := ((client_inv cfg q es).1.1.open_ k hr).1
  rw [hq, List.append_nil] at h
  rw [h]
  exact client_mem_kept cfg q es f k t1 rest hk ht h1 h2 ho hl hr hf

end Wm.Tunnel

namespace Wm.World
open Wm Wm.Prot
open scoped List
open Wm.Tunnel (datas creates regCount openCount gots received submissions accepted relayed Announced heads)

variable {T : Tunnel.St → Tunnel.Event → Tunnel.St}

/-! ### relays -/

theorem relay_sent_close {r : Relay.St} (h : IsRun r) (hd : r.phase = .done) (ha : r.alive = true) :
    .close r.id [] ∈ Relay.sends r.trace := by
  obtain ⟨es, he⟩ := h
  have hi := Relay.run_inv r.id es
  rw [← he] at hi
  obtain ⟨ds, _, h2 | ⟨_, h2⟩⟩ := hi.done hd
  · rw [h2]; simp
  · rw [ha] at h2; cases h2

theorem relay_close_done {r : Relay.St} (h : IsRun r) {i t} (hc : .close i t ∈ Relay.sends r.trace) : r.phase = .done := by
  obtain ⟨es, he⟩ := h
  have hi := Relay.run_inv r.id es
  rw [← he] at hi
  apply Classical.byContradiction
  intro hp
  obtain ⟨d, e⟩ := hi.sends hp _ hc
  cases e

theorem relay_got_close {r : Relay.St} (h : IsRun r) : ∀ {i t}, .close i t ∈ Relay.gots r.trace → r.phase ≠ .running := by
  obtain ⟨es, he⟩ := h
  rw [he]
  generalize r.id = id
  clear he
  induction es using List.reverseRecOn with
  | nil => intro i t hm; simp [Relay.run, Relay.init, Relay.gots] at hm
  | append_singleton es e ih =>
    rw [Relay.run_snoc]
    generalize Relay.run id es = s at ih ⊢
    intro i t
    have ht := top_trace s
    unfold Relay.step
    cases hp : s.phase with
    | running =>
      have hno : ∀ i t, .close i t ∉ Relay.gots s.trace := fun i t hm => ih hm hp
      have htp : (Relay.top s).phase = .running := by unfold Relay.top; split <;> exact hp
      cases e <;> simp only [Relay.branch]
      case read bs =>
        split
        · simp
        · simp only [Relay.emit, Relay.gots_snoc, ht]
          intro hm
          rcases List.mem_append.1 hm with hm | hm
          · exact absurd hm (hno _ _)
          · simp [Relay.gots] at hm
      case readEnd => simp
      case wrote n =>
        split
        · rw [ht]; intro hm; exact absurd hm (hno _ _)
        · simp only [Relay.emit, Relay.gots_snoc, ht]
          intro hm
          rcases List.mem_append.1 hm with hm | hm
          · exact absurd hm (hno _ _)
          · simp [Relay.gots] at hm
      case writeErr =>
        split
        · rw [ht]; intro hm; exact absurd hm (hno _ _)
        · simp
      case recv f =>
        cases f with
        | none => simp
        | some f =>
          cases f <;> simp only [Relay.emit, Relay.gots_snoc, ht] <;> intro hm <;>
            first
            | (intro hx; cases hx; done)
            | (rcases List.mem_append.1 hm with hm | hm
               · exact absurd hm (hno _ _)
               · simp [Relay.gots] at hm)
      case slot =>
        split
        · rw [ht]; intro hm; exact absurd hm (hno _ _)
        · split
          · simp only [Relay.emit, Relay.gots_snoc, ht]
            intro hm
            rcases List.mem_append.1 hm with hm | hm
            · exact absurd hm (hno _ _)
            · simp [Relay.gots] at hm
          · simp
      case gone => rw [ht]; intro hm; exact absurd hm (hno _ _)
    | closing =>
      cases e <;> dsimp only
      case slot => split <;> simp [Relay.emit]
      case gone => simp [hp]
      all_goals simp [hp]
    | done => simp [hp]

/-! ### what relays hand over is submitted -/

/-- the relays' messages are among those submitted, and a relay that finds the end gone does so rightly -/
structure Handed (s : Tunnel.St) (rs : List Relay.St) : Prop where
  sends : ∀ r ∈ rs, ∀ f ∈ Relay.sends r.trace, f ∈ submissions s.trace
  alive : ∀ r ∈ rs, r.alive = false → s.phase ≠ .running

theorem One.submissions (hT : Steps T) {s s'} (ho : One T s s') : submissions s.trace <+: submissions s'.trace := by
  rcases ho with rfl | ⟨e, rfl⟩
  · exact List.prefix_refl _
  · obtain ⟨u, e1, _⟩ := hT s e
    rw [e1, List.append_assoc, Tunnel.submissions_append]; exact List.prefix_append _ _

/-- an end that is over stays so -/
def Final (T : Tunnel.St → Tunnel.Event → Tunnel.St) : Prop := ∀ s e, s.phase ≠ .running → (T s e).phase ≠ .running

theorem final_server (cfg) : Final (Tunnel.serverStep cfg) := fun _ e h => Tunnel.step_over e h
theorem final_client (cfg) : Final (Tunnel.clientStep cfg) := fun _ e h => Tunnel.step_over e h

theorem One.over (hF : Final T) {s s'} (ho : One T s s') (h : s.phase ≠ .running) : s'.phase ≠ .running := by
  rcases ho with rfl | ⟨e, rfl⟩
  · exact h
  · exact hF s e h

theorem Handed.one (hT : Steps T) (hF : Final T) {s s' rs} (h : Handed s rs) (ho : One T s s') : Handed s' rs :=
  ⟨fun r hr f hf => (ho.submissions hT).subset (h.sends r hr f hf), fun r hr ha => ho.over hF (h.alive r hr ha)⟩

theorem Handed.add {s rs} (h : Handed s rs) (j) : Handed s (rs ++ [Relay.init j]) := by
  refine ⟨fun r hr f hf => ?_, fun r hr ha => ?_⟩
  · rcases List.mem_append.1 hr with hr | hr
    · exact h.sends r hr f hf
    · rw [List.mem_singleton] at hr; subst hr; simp [Relay.init, Relay.sends] at hf
  · rcases List.mem_append.1 hr with hr | hr
    · exact h.alive r hr ha
    · rw [List.mem_singleton] at hr; subst hr; cases ha

theorem step_alive (r : Relay.St) {e : Relay.Event} (he : e ≠ .gone) : (Relay.step r e).alive = r.alive := by
  unfold Relay.step
  have ha := top_alive r
  cases r.phase with
  | running =>
    cases e <;> simp only [Relay.branch]
    case read bs => split <;> simp [Relay.emit, ha]
    case readEnd => exact ha
    case wrote n => split <;> simp [Relay.emit, ha]
    case writeErr => split <;> simp [ha]
    case recv f =>
      cases f with
      | none => exact ha
      | some f => cases f <;> exact ha
    case slot =>
      split
      · exact ha
      · split <;> simpa [Relay.emit] using ha
    case gone => exact absurd rfl he
  | closing =>
    cases e <;> dsimp only
    case slot => split <;> rfl
    case gone => exact absurd rfl he
  | done => rfl

theorem relayStep_alive (dies s r h e) : (relayStep T dies s r h e).2.alive = r.alive ∨ s.phase ≠ .running := by
  cases e <;> simp only [relayStep]
  case read bs =>
    left; split
    · exact step_alive r (by simp)
    · rfl
  case readEnd => exact .inl (step_alive r (by simp))
  case wrote n => exact .inl (step_alive r (by simp))
  case writeErr => exact .inl (step_alive r (by simp))
  case recv =>
    left
    split
    · cases h with
      | none => dsimp only; split <;> [rfl; exact step_alive r (by simp)]
      | some k =>
        dsimp only
        split
        · split <;> [exact step_alive r (by simp); rfl]
        · split <;> [rfl; exact step_alive r (by simp)]
    · rfl
  case slot =>
    split
    · left
      split
      · split <;> [exact step_alive r (by simp); rfl]
      · rfl
    · rename_i hp; exact .inr hp
  case drop =>
    left
    cases h with
    | none => rfl
    | some k => dsimp only; split <;> rfl

theorem Handed.relay (hT : Steps T) (hF : Final T) {s rs} (h : Handed s rs) (dies hd e) {n : Nat} {r : Relay.St}
    (hn : rs[n]? = some r) (hr : IsRun r) :
    Handed (relayStep T dies s r hd e).1 (rs.set n (relayStep T dies s r hd e).2) := by
  have hone := relayStep_one (T := T) dies s r hd e hr
  have hmem := List.mem_of_getElem? hn
  have h' := h.one hT hF hone
  refine ⟨fun x hx f hf => ?_, fun x hx ha => ?_⟩
  · rcases List.mem_or_eq_of_mem_set hx with hx | rfl
    · exact h'.sends x hx f hf
    · rcases (relayStep_cases T dies s r hd e hr).2 with ⟨_, e2⟩ | ⟨k, g, q, _, _, _, _, e2, _⟩ |
        ⟨g, hph, hcap, e1, e2, _⟩ | ⟨k, _, _, e2⟩
      · rw [e2.1] at hf; exact h'.sends r hmem f hf
      · rw [e2] at hf; exact h'.sends r hmem f hf
      · rw [e2, List.mem_append, List.mem_singleton] at hf
        rcases hf with hf | rfl
        · exact h'.sends r hmem f hf
        · rw [e1]
          obtain ⟨u, e3, _⟩ := hT s (.submit f)
          rw [e3, Tunnel.submissions_append, Tunnel.submissions_append, heads_submit_now f hph hcap]
          simp
      · rw [e2] at hf; exact h'.sends r hmem f hf
  · rcases List.mem_or_eq_of_mem_set hx with hx | rfl
    · exact h'.alive x hx ha
    · rcases relayStep_alive (T := T) dies s r hd e with h1 | h1
      · rw [h1] at ha; exact h'.alive r hmem ha
      · exact hone.over hF h1

/-- at both ends -/
structure Passed (w : St) : Prop where
  server : Handed w.srv (w.visitors.map (·.relay))
  client : Handed w.cli (w.locals.map (·.1))

theorem passed_step (cfg w e) (hb : Base cfg w) (h : Passed w) : Passed (step cfg w e) := by
  have hS := steps_server cfg.server
  have hC := steps_client cfg.client
  have fS := final_server cfg.server
  have fC := final_client cfg.client
  obtain ⟨h1, h2⟩ := h
  cases e <;> simp only [step]
  case accept => exact ⟨h1, h2⟩
  case visit n mode =>
    have hadd : ∀ j, Handed w.srv ((w.visitors ++ [(⟨Relay.init j, none, mode⟩ : Visitor)]).map (·.relay)) := by
      intro j; rw [List.map_append]; exact h1.add j
    split
    · exact ⟨h1, h2⟩
    · split
      · exact ⟨h1, h2⟩
      · split
        · split
          · exact ⟨hadd _, h2⟩
          · exact ⟨h1, h2⟩
        · exact ⟨hadd _, h2⟩
  case work =>
    split
    · exact ⟨h1, h2⟩
    · rename_i n name rest hw
      split
      · exact ⟨h1, h2⟩
      · rename_i v hv
        split
        · refine ⟨?_, h2⟩
          have hm := map_set_same (·.relay) (b := { v with handle := some w.srv.next }) hv rfl
          dsimp only at hm ⊢
          rw [hm]
          exact h1.one hS fS (.inr ⟨_, rfl⟩)
        · exact ⟨h1, h2⟩
  case srv e => exact ⟨h1.one hS fS (loopStep_one _ _ _), h2⟩
  case cli e => exact ⟨h1, h2.one hC fC (loopStep_one _ _ _)⟩
  case otherS e => exact ⟨h1.one hS fS (otherStep_one _ _ _), h2⟩
  case otherC e => exact ⟨h1, h2.one hC fC (otherStep_one _ _ _)⟩
  case vis n e =>
    split
    · exact ⟨h1, h2⟩
    · rename_i v hv
      refine ⟨?_, h2⟩
      rw [List.map_set]
      exact h1.relay hS fS true v.handle e (by rw [List.getElem?_map, hv]; rfl) (hb.visitors v (List.mem_of_getElem? hv))
  case start id k =>
    split
    · refine ⟨h1, ?_⟩
      rw [List.map_append]
      exact h2.add id
    · exact ⟨h1, h2⟩
  case loc n e =>
    split
    · exact ⟨h1, h2⟩
    · rename_i l hl
      refine ⟨h1, ?_⟩
      rw [List.map_set]
      exact h2.relay hC fC false (some l.2) e (by rw [List.getElem?_map, hl]; rfl) (hb.locals l (List.mem_of_getElem? hl))

theorem passed_run (cfg es) : Passed (run cfg es) := by
  induction es using List.reverseRecOn with
  | nil => exact ⟨⟨by simp [run, init], by simp [run, init]⟩, ⟨by simp [run, init], by simp [run, init]⟩⟩
  | append_singleton es e ih => rw [run_snoc]; exact passed_step cfg _ e (base_run cfg es) ih

/-- the close of a relay that is done has been submitted, if its end is still at work -/
theorem Handed.close {s rs} (h : Handed s rs) {r} (hr : r ∈ rs) (hrun : IsRun r) (hd : r.phase = .done)
    (hs : s.phase = .running) : .close r.id [] ∈ submissions s.trace := by
  refine h.sends r hr _ (relay_sent_close hrun hd ?_)
  cases ha : r.alive with
  | true => rfl
  | false => exact absurd hs (h.alive r hr ha)

theorem relayed_accepted {t : List Tunnel.Obs} {f : Frame} (h : f ∈ relayed t) : f ∈ accepted t := by
  obtain ⟨o, ho, he⟩ := List.mem_filterMap.1 h
  split at he
  · cases he; exact List.mem_filterMap.2 ⟨_, ho, rfl⟩
  · cases he

end Wm.World

namespace Wm.World
open Wm Wm.Prot
open scoped List
open Wm.Tunnel (datas creates regCount openCount gots received submissions accepted relayed heads)

variable {T : Tunnel.St → Tunnel.Event → Tunnel.St}

/-! ### what an end accepts for sending -/

/-- submitted messages, open requests, and messages of the reserved id -/
def Mine (s : Tunnel.St) : Prop :=
  ∀ f ∈ accepted s.trace, f ∈ submissions s.trace ∨ f.sockMap = 0 ∨ ∃ j d, f = .create j d

theorem Steps.mine (hT : Steps T) {s e} (h : Mine s) (hq : relayed s.trace ++ s.outq = submissions s.trace) :
    Mine (T s e) := by
  intro f hf
  obtain ⟨u, e1, e2, _⟩ := hT s e
  have hle : ∀ g, g ∈ submissions s.trace → g ∈ submissions (T s e).trace := by
    intro g hg; rw [e1, Tunnel.submissions_append, Tunnel.submissions_append]; simp [hg]
  rw [e1, Tunnel.accepted_append, Tunnel.accepted_append, List.mem_append, List.mem_append] at hf
  rcases hf with (hf | hf) | hf
  · rcases h f hf with h1 | h1
    · exact .inl (hle f h1)
    · exact .inr h1
  · by_cases hw : ∃ j d, e = .work j d
    · obtain ⟨j, d, rfl⟩ := hw
      right; right
      simp only [heads] at hf
      split at hf
      · cases hl : Tunnel.lookup j s.map <;> simp [hl, accepted] at hf <;> exact ⟨_, _, hf⟩
      · simp [accepted] at hf
    · refine .inl (hle f ?_)
      rw [← hq]
      exact List.mem_append.2 (.inr (heads_accepted (fun j d hjd => hw ⟨j, d, hjd⟩) f hf))
  · exact .inr (.inl (by rw [e2.accepted f hf]; rfl))

theorem server_mine {cfg s} (h : ∃ es, s = Tunnel.serverRun cfg es) : Mine s := by
  obtain ⟨es, rfl⟩ := h
  induction es using List.reverseRecOn with
  | nil => intro f hf; simp [Tunnel.serverRun, Tunnel.serverInit, accepted] at hf
  | append_singleton es e ih =>
    have hq := server_outq ⟨es, rfl⟩ (cfg := cfg)
    simp only [Tunnel.serverRun, List.foldl_append, List.foldl_cons, List.foldl_nil] at ih hq ⊢
    exact (steps_server cfg).mine ih hq

theorem client_mine {cfg s} (h : ∃ es, s = Tunnel.clientRun cfg [] es) : Mine s := by
  obtain ⟨es, rfl⟩ := h
  induction es using List.reverseRecOn with
  | nil => intro f hf; exact .inr (.inl (clientInit_zero cfg f hf))
  | append_singleton es e ih =>
    have hq := client_outq ⟨es, rfl⟩ (cfg := cfg)
    simp only [Tunnel.clientRun, List.foldl_append, List.foldl_cons, List.foldl_nil] at ih hq ⊢
    exact (steps_client cfg).mine ih hq

/-! ### why a close was submitted -/

/-- by a relay with this id that is done, or because the end did not open a requested stream -/
def Cause (i : Nat) (s : Tunnel.St) (rs : List Relay.St) : Prop :=
  ∀ t, .close i t ∈ submissions s.trace → (∃ r ∈ rs, r.id = i ∧ r.phase = .done) ∨
    openCount i s.trace + 1 ≤ creates i (gots s.trace)

theorem Cause.quiet (hT : Steps T) {i s rs} (h : Cause i s rs) (ho : openCount i s.trace ≤ creates i (gots s.trace))
    {e} (he : ∀ t, e ≠ .submit (.close i t)) : Cause i (T s e) rs := by
  intro t hm
  obtain ⟨u, e1, e2, _⟩ := hT s e
  have ha := e2.answers i
  have hh := (heads_connects s e).2 i
  have e3 : openCount i (T s e).trace = openCount i s.trace + openCount i u := by
    rw [e1, Tunnel.openCount_append, Tunnel.openCount_append, hh]; omega
  have e4 : creates i (gots (T s e).trace) = creates i (gots s.trace) + creates i (gots u) := by
    rw [e1, Tunnel.gots_append', Tunnel.gots_append', heads_gots, List.append_nil, Tunnel.creates_append]
  rw [e3, e4]
  rw [e1, Tunnel.submissions_append, Tunnel.submissions_append, List.mem_append, List.mem_append] at hm
  rcases hm with (hm | hm) | hm
  · rcases h t hm with h1 | h1
    · exact .inl h1
    · right; omega
  · by_cases hs : ∃ g, e = .submit g
    · obtain ⟨g, rfl⟩ := hs
      rcases heads_submit (s := s) g with h1 | h1
      · rw [h1, List.mem_singleton] at hm; exact absurd (by rw [hm]) (he t)
      · rw [h1] at hm; cases hm
    · rw [heads_sub fun g hg => hs ⟨g, hg⟩] at hm; cases hm
  · right
    obtain ⟨j, hj⟩ := e2.submissions _ hm
    cases hj
    have : 1 ≤ Tunnel.selfCloses i u := by
      obtain ⟨o, ho1, ho2⟩ := List.mem_filterMap.1 hm
      cases o <;> simp at ho2
      subst ho2
      exact List.countP_pos_iff.2 ⟨_, ho1, by simp⟩
    omega

theorem relay_done_step {r : Relay.St} (h : r.phase = .done) (e : Relay.Event) : Relay.step r e = r := by
  unfold Relay.step; rw [h]

theorem relayStep_done (dies s hd e) {r : Relay.St} (h : r.phase = .done) : (relayStep T dies s r hd e).2.phase = .done := by
  cases e <;> simp only [relayStep, relay_done_step h]
  case read bs => split <;> exact h
  case recv => simp [h]
  case slot =>
    split
    · split
      · split <;> exact h
      · exact h
    · split <;> exact h
  case drop =>
    cases hd with
    | none => exact h
    | some k => dsimp only; split <;> exact h
  all_goals exact h

theorem Cause.set {i s} {rs : List Relay.St} (h : Cause i s rs) {n r r'} (hn : rs[n]? = some r) (hid : r'.id = r.id)
    (hd : r.phase = .done → r'.phase = .done) : Cause i s (rs.set n r') := by
  intro t hm
  rcases h t hm with ⟨x, hx, h1, h2⟩ | h1
  · left
    obtain ⟨m, hxm⟩ := List.mem_iff_getElem?.1 hx
    by_cases hnm : n = m
    · subst hnm
      rw [hn] at hxm; cases hxm
      have hlt : n < rs.length := (List.getElem?_eq_some_iff.1 hn).1
      exact ⟨r', List.mem_iff_getElem?.2 ⟨n, List.getElem?_set_self hlt⟩, hid.trans h1, hd h2⟩
    · exact ⟨x, List.mem_iff_getElem?.2 ⟨m, by rw [List.getElem?_set_ne hnm]; exact hxm⟩, h1, h2⟩
  · exact .inr h1

theorem Cause.relay (hT : Steps T) {i s} {rs : List Relay.St} (h : Cause i s rs)
    (ho : openCount i s.trace ≤ creates i (gots s.trace)) (dies hd e) {n : Nat} {r : Relay.St} (hn : rs[n]? = some r)
    (hr : IsRun r) : Cause i (relayStep T dies s r hd e).1 (rs.set n (relayStep T dies s r hd e).2) := by
  obtain ⟨⟨hid, hrun⟩, hc⟩ := relayStep_cases T dies s r hd e hr
  have hdone := relayStep_done (T := T) dies s hd e (r := r)
  rcases hc with ⟨e1, _⟩ | ⟨k, f, q, _, _, _, e1, _⟩ | ⟨f, hph, hcap, e1, e2, _⟩ | ⟨k, _, e1, _⟩
  · rw [e1]; exact h.set hn hid hdone
  · rw [e1]; exact (h.quiet hT ho (by simp)).set hn hid hdone
  · by_cases hf : ∃ t, f = .close i t
    · obtain ⟨t, rfl⟩ := hf
      intro t' _
      left
      have hlt : n < rs.length := (List.getElem?_eq_some_iff.1 hn).1
      have hm : .close i t ∈ Relay.sends (relayStep T dies s r hd e).2.trace := by rw [e2]; simp
      exact ⟨_, List.mem_iff_getElem?.2 ⟨n, List.getElem?_set_self hlt⟩, (sends_id hrun _ hm).symm, relay_close_done hrun hm⟩
    · rw [e1]
      refine (h.quiet hT ho ?_).set hn hid hdone
      rintro t ht
      cases ht
      exact hf ⟨t, rfl⟩
  · rw [e1]; exact (h.quiet hT ho (by simp)).set hn hid hdone

theorem Cause.loop (hT : Steps T) {i s rs} (h : Cause i s rs) (ho : openCount i s.trace ≤ creates i (gots s.trace))
    (inb e) : Cause i (loopStep T s inb e).1 rs := by
  cases e <;> simp only [loopStep]
  case read n =>
    split
    · exact h.quiet hT ho (by simp)
    · exact h
  all_goals exact h.quiet hT ho (by simp)

theorem Cause.other (hT : Steps T) {i s rs} (h : Cause i s rs) (ho : openCount i s.trace ≤ creates i (gots s.trace))
    (mine e) (hi : ∀ f ∈ submitted e, f.sockMap ≠ i) : Cause i (otherStep T s mine e) rs := by
  cases e <;> simp only [otherStep]
  · refine h.quiet hT ho ?_
    rintro t ht
    cases ht
    exact hi (.close i t) (by simp [submitted]) rfl
  · split
    · exact h
    · exact h.quiet hT ho (by simp)
  · split
    · exact h
    · exact h.quiet hT ho (by simp)

theorem Cause.add {i s rs} (h : Cause i s rs) (j) : Cause i s (rs ++ [Relay.init j]) := by
  intro t hm
  rcases h t hm with ⟨r, hr, h1⟩ | h1
  · exact .inl ⟨r, List.mem_append.2 (.inl hr), h1⟩
  · exact .inr h1

structure Causes (i : Nat) (w : St) : Prop where
  opens : openCount i w.srv.trace ≤ creates i (gots w.srv.trace)
  server : Cause i w.srv (w.visitors.map (·.relay))
  client : Cause i w.cli (w.locals.map (·.1))

theorem causes_step (cfg w e i) (hb : Base cfg w) (hh : Hosts w) (ho' : Own i (step cfg w e)) (h : Causes i w) :
    Causes i (step cfg w e) := by
  have hS := steps_server cfg.server
  have hC := steps_client cfg.client
  have h0 : openCount i (step cfg w e).srv.trace ≤ creates i (gots (step cfg w e).srv.trace) := by
    rcases (step_one cfg w e hb).1 with he | ⟨x, he⟩
    · rw [he]; exact h.opens
    · rw [he]; exact hS.hopens i _ _ h.opens
  obtain ⟨hs, h1, h2⟩ := h
  have hc := hh.opens i
  suffices hx : Cause i (step cfg w e).srv ((step cfg w e).visitors.map (·.relay)) ∧
      Cause i (step cfg w e).cli ((step cfg w e).locals.map (·.1)) from ⟨h0, hx.1, hx.2⟩
  clear h0
  cases e <;> simp only [step] at ho' ⊢
  case accept => exact ⟨h1, h2⟩
  case visit n mode =>
    have hadd : ∀ j, Cause i w.srv ((w.visitors ++ [(⟨Relay.init j, none, mode⟩ : Visitor)]).map (·.relay)) := by
      intro j; rw [List.map_append]; exact h1.add j
    split
    · exact ⟨h1, h2⟩
    · split
      · exact ⟨h1, h2⟩
      · split
        · split
          · exact ⟨hadd _, h2⟩
          · exact ⟨h1, h2⟩
        · exact ⟨hadd _, h2⟩
  case work =>
    split
    · exact ⟨h1, h2⟩
    · rename_i n name rest hw
      split
      · exact ⟨h1, h2⟩
      · rename_i v hv
        split
        · refine ⟨?_, h2⟩
          have hm := map_set_same (·.relay) (b := { v with handle := some w.srv.next }) hv rfl
          dsimp only at hm ⊢
          rw [hm]
          exact h1.quiet hS hs (by simp)
        · exact ⟨h1, h2⟩
  case srv e => exact ⟨h1.loop hS hs _ _, h2⟩
  case cli e => exact ⟨h1, h2.loop hC hc _ _⟩
  case otherS e => exact ⟨h1.other hS hs _ e (fun f hf => ho'.server f (List.mem_append.2 (.inr hf))), h2⟩
  case otherC e => exact ⟨h1, h2.other hC hc _ e (fun f hf => ho'.client f (List.mem_append.2 (.inr hf)))⟩
  case vis n e =>
    split
    · exact ⟨h1, h2⟩
    · rename_i v hv
      refine ⟨?_, h2⟩
      rw [List.map_set]
      exact h1.relay hS hs true v.handle e (by rw [List.getElem?_map, hv]; rfl) (hb.visitors v (List.mem_of_getElem? hv))
  case start id k =>
    split
    · refine ⟨h1, ?_⟩
      rw [List.map_append]
      exact h2.add id
    · exact ⟨h1, h2⟩
  case loc n e =>
    split
    · exact ⟨h1, h2⟩
    · rename_i l hl
      refine ⟨h1, ?_⟩
      rw [List.map_set]
      exact h2.relay hC hc false (some l.2) e (by rw [List.getElem?_map, hl]; rfl) (hb.locals l (List.mem_of_getElem? hl))

theorem causes_run (cfg es i) (ho : Own i (run cfg es)) : Causes i (run cfg es) := by
  induction es using List.reverseRecOn with
  | nil =>
    have hf := Tunnel.Fresh.init cfg.client []
    have hs : submissions (Tunnel.clientInit cfg.client []).trace = [] := by
      refine List.filterMap_eq_nil_iff.2 fun o ho => ?_
      obtain ⟨f, rfl⟩ := hf.trace o ho; rfl
    refine ⟨by simp [run, init, Tunnel.serverInit, openCount], ?_, ?_⟩
    · intro t hm; simp [run, init, Tunnel.serverInit, submissions] at hm
    · intro t hm; simp only [run, init, List.foldl_nil, hs] at hm; cases hm
  | append_singleton es e ih =>
    rw [run_snoc] at ho ⊢
    have hb := base_run cfg es
    exact causes_step cfg _ e i hb (hosts_run cfg es) ho (ih (ho.back hb))

/-- ids of visitors are not the reserved one -/
theorem visitor_id {cfg w} (hg : Guests cfg w) (hu : w.used < 2 ^ 23) {v} (hv : v ∈ w.visitors) : v.relay.id ≠ 0 := by
  obtain ⟨k, hk, e⟩ := hg.ids v.relay.id (List.mem_append.2 (.inr (List.mem_map.2 ⟨v, hv, rfl⟩)))
  rw [e, Tunnel.nth_eq _ _ (by simp [Tunnel.serverIds])]
  simp only [Tunnel.serverIds]
  omega

theorem close_asReceived {y : Frame} {i t} (h : asReceived y = .close i t) : y = .close i t := by
  cases y with
  | create j x =>
    cases x with
    | none => simp [asReceived] at h
    | some t => cases t <;> simp [asReceived] at h
  | close j x => exact h
  | _ => simp [asReceived] at h

theorem asReceived_close (i t) : asReceived (.close i t) = .close i t := rfl

end Wm.World
