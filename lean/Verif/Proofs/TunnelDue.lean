import Verif.Proofs.TunnelExt
import Verif.Proofs.TunnelMore
/-! How what a stream receives relates to what the peer sent, stated for the payloads carried under one id. -/
namespace Wm.Tunnel
open Wm Wm.Prot
open scoped List

theorem dueFrom_append (acc : List Obs → Frame → Bool) (h : Nat) (b : List Obs) : ∀ (a past : List Obs),
    dueFrom acc h past (a ++ b) = dueFrom acc h past a ++ dueFrom acc h (past ++ a) b := by
  intro a
  induction a with
  | nil => intro past; simp [dueFrom]
  | cons o a ih => intro past; simp [dueFrom, ih]

theorem due_append (acc : List Obs → Frame → Bool) (h : Nat) (a b : List Obs) :
    due acc h (a ++ b) = due acc h a ++ dueFrom acc h a b := by
  unfold due; rw [dueFrom_append]; rfl

theorem gots_cons (o : Obs) (t : List Obs) : gots (o :: t) = gots [o] ++ gots t := by
  rw [← gots_append']; rfl

theorem datas_dueNow_sub (acc : List Obs → Frame → Bool) (h i : Nat) (past : List Obs) (o : Obs) :
    datas i (dueNow acc h past o) <+ datas i (gots [o]) := by
  cases o <;> simp only [dueNow]
  case got f =>
    split
    · exact List.Sublist.refl _
    · exact List.nil_sublist _
  case connLost =>
    split
    · split <;> exact List.nil_sublist _
    · exact List.nil_sublist _
  all_goals exact List.nil_sublist _

theorem datas_dueFrom_sub (acc : List Obs → Frame → Bool) (h i : Nat) : ∀ (t past : List Obs),
    datas i (dueFrom acc h past t) <+ datas i (gots t) := by
  intro t
  induction t with
  | nil => intro past; exact List.Sublist.refl _
  | cons o t ih =>
    intro past
    rw [gots_cons, dueFrom, datas_append, datas_append]
    exact (datas_dueNow_sub acc h i past o).append (ih _)

theorem owner_other {i : Nat} {past : List Obs} {o : Obs} (h : regCount i [o] = 0) :
    owner (past ++ [o]) i = owner past i := by
  rw [owner_snoc]
  cases o <;> try rfl
  rename_i j k
  by_cases hj : j = i
  · simp [regCount, hj] at h
  · simp [hj]

/-- while `h` owns the id and its messages are to be delivered, they are due -/
theorem datas_dueFrom_eq (acc : List Obs → Frame → Bool) (h i : Nat) : ∀ (t past : List Obs),
    owner past i = some h → regCount i t = 0 →
    (∀ a b d, t = a ++ .got (.data i d) :: b → acc (past ++ a) (.data i d) = true) →
    datas i (dueFrom acc h past t) = datas i (gots t) := by
  intro t
  induction t with
  | nil => intro past _ _ _; rfl
  | cons o t ih =>
    intro past ho hr ha
    have hr' : regCount i [o] = 0 ∧ regCount i t = 0 := by
      have : regCount i (o :: t) = regCount i [o] + regCount i t := by rw [← regCount_append]; rfl
      omega
    rw [gots_cons, dueFrom, datas_append, datas_append, ih (past ++ [o]) (by rw [owner_other hr'.1]; exact ho) hr'.2]
    · congr 1
      cases o <;> simp only [dueNow]
      case got f =>
        cases f
        case data j d =>
          by_cases hj : j = i
          · subst hj
            have := ha [] t d rfl
            rw [List.append_nil] at this
            simp [this, ho, Frame.sockMap, gots]
          · split <;> simp [gots, datas, hj]
        all_goals split <;> rfl
      case connLost =>
        split
        · split <;> rfl
        · rfl
      all_goals rfl
    · intro a b d e
      have := ha (o :: a) b d (by rw [e]; rfl)
      simpa using this

theorem datas_dueFrom_none (acc : List Obs → Frame → Bool) (h i : Nat) : ∀ (t past : List Obs),
    (∀ a b d, t = a ++ .got (.data i d) :: b → acc (past ++ a) (.data i d) = false) →
    datas i (dueFrom acc h past t) = [] := by
  intro t
  induction t with
  | nil => intro past _; rfl
  | cons o t ih =>
    intro past ha
    rw [dueFrom, datas_append, ih (past ++ [o]), List.append_nil]
    · cases o <;> simp only [dueNow]
      case got f =>
        cases f
        case data j d =>
          by_cases hj : j = i
          · subst hj
            have := ha [] t d rfl
            rw [List.append_nil] at this
            simp [this]
          · split <;> simp [datas, hj]
        all_goals split <;> rfl
      case connLost =>
        split
        · split <;> rfl
        · rfl
      all_goals rfl
    · intro a b d e
      have := ha (o :: a) b d (by rw [e]; rfl)
      simpa using this

theorem datas_due_eq (acc : List Obs → Frame → Bool) (i k : Nat) (t1 rest : List Obs) (h1 : datas i (gots t1) = [])
    (h2 : regCount i rest = 0)
    (ha : ∀ a b d, t1 ++ .reg i k :: rest = a ++ .got (.data i d) :: b → acc a (.data i d) = true) :
    datas i (due acc k (t1 ++ .reg i k :: rest)) = datas i (gots (t1 ++ .reg i k :: rest)) := by
  have e1 : datas i (due acc k t1) = [] := by
    have := datas_dueFrom_sub acc k i t1 []
    rw [h1] at this
    exact List.sublist_nil.1 this
  have e2 : gots (.reg i k :: rest) = gots rest := rfl
  rw [due_append, datas_append, e1, gots_append', datas_append, h1, e2, dueFrom, datas_append]
  rw [datas_dueFrom_eq acc k i rest (t1 ++ [Obs.reg i k]) (by rw [owner_snoc]; simp) h2]
  · rfl
  · intro a b d e
    exact ha _ b d (by rw [e]; simp)

theorem puts_sub_attempts (h : Nat) (t : List Obs) : puts h t <+ attempts h t := by
  induction t with
  | nil => exact List.Sublist.refl _
  | cons o t ih =>
    have e1 : puts h (o :: t) = puts h [o] ++ puts h t := by simp [puts, ← List.filterMap_append]
    have e2 : attempts h (o :: t) = attempts h [o] ++ attempts h t := by simp [attempts, ← List.filterMap_append]
    rw [e1, e2]
    refine List.Sublist.append ?_ ih
    cases o <;> first | exact List.Sublist.refl _ | exact List.nil_sublist _

theorem received_sub_due {acc debt s} (h : DInv acc debt s) (k : Nat) : received k s.trace <+ due acc k s.trace := by
  have h1 : received k s.trace <+: puts k s.trace := by
    cases hr : (s.chan k).rx with
    | true => rw [← (h.open_ k hr).1]; exact List.prefix_append _ _
    | false => exact (h.gone k hr).1
  rw [← h.flow k]
  exact (h1.sublist.trans (puts_sub_attempts k _)).trans (List.sublist_append_left _ _)

theorem datas_puts {i k : Nat} {t : List Obs} (hl : ∀ f, .lost k f ∉ t) (ho : ∀ d, .overflow k (.data i d) ∉ t) :
    datas i (puts k t) = datas i (attempts k t) := by
  induction t with
  | nil => rfl
  | cons o t ih =>
    have e1 : puts k (o :: t) = puts k [o] ++ puts k t := by simp [puts, ← List.filterMap_append]
    have e2 : attempts k (o :: t) = attempts k [o] ++ attempts k t := by simp [attempts, ← List.filterMap_append]
    rw [e1, e2, datas_append, datas_append, ih (fun f hf => hl f (List.mem_cons_of_mem _ hf))
      (fun d hf => ho d (List.mem_cons_of_mem _ hf))]
    congr 1
    cases o <;> try rfl
    case lost j f =>
      by_cases hj : j = k
      · subst hj; exact absurd (List.mem_cons_self) (hl f)
      · simp [puts, attempts, hj]
    case overflow j f =>
      by_cases hj : j = k
      · subst hj
        cases f
        case data m d =>
          by_cases hm : m = i
          · subst hm; exact absurd (List.mem_cons_self) (ho d)
          · simp [puts, attempts, datas, hm]
        all_goals simp [puts, attempts, datas]
      · simp [puts, attempts, hj]

/-- Without a data message dropped on a full channel, the data received is a beginning of the data due - also after the
    stream's task has gone. -/
theorem data_prefix {T : St → Event → St} (hT : ∀ s e, ∃ u, (T s e).trace = s.trace ++ heads s e ++ u ∧ InnerL u)
    {acc : List Obs → Frame → Bool} (s0 : St) (h0 : s0.trace = [] ∨ received k s0.trace = [])
    (hD : ∀ es : List Event, Flow acc (es.foldl T s0)) (i : Nat) (es : List Event)
    (ho : ∀ d, .overflow k (.data i d) ∉ (es.foldl T s0).trace) :
    datas i (received k (es.foldl T s0).trace) <+: datas i (due acc k (es.foldl T s0).trace) := by
  induction es using List.reverseRecOn with
  | nil =>
    rcases h0 with h0 | h0
    · simp [h0, received]
    · simp [h0]
  | append_singleton es e ih =>
    rw [List.foldl_append] at ho ⊢
    simp only [List.foldl_cons, List.foldl_nil] at ho ⊢
    generalize hs : es.foldl T s0 = s at ho ih ⊢
    have hF := hD es
    rw [hs] at hF
    obtain ⟨u, e1, e2⟩ := hT s e
    have ho' : ∀ d, .overflow k (.data i d) ∉ s.trace := fun d hm => ho d (by rw [e1]; simp [hm])
    have hle : datas i (due acc k s.trace) <+: datas i (due acc k (T s e).trace) := by
      rw [e1, List.append_assoc, due_append, datas_append]; exact List.prefix_append _ _
    have hsame : received k (heads s e) = [] →
        datas i (received k (T s e).trace) <+: datas i (due acc k (T s e).trace) := by
      intro hn
      rw [e1, received_append, received_append, e2.received, hn, List.append_nil, List.append_nil, ← e1]
      exact (ih ho').trans hle
    cases e
    case take j =>
      by_cases hj : j = k
      · subst hj
        cases hq : (s.chan j).q with
        | nil => exact hsame (by simp [heads, hq, received])
        | cons f q =>
          cases hr : (s.chan j).rx with
          | false => exact hsame (by simp [heads, hq, hr, received])
          | true =>
            have hop := hF.1.open_ j hr
            have hlost : ∀ f, .lost j f ∉ s.trace := fun f hf => hop.2 (hF.1.lost j f hf)
            have h2 : received j (T s (.take j)).trace <+: puts j s.trace := by
              rw [e1, received_append, received_append, e2.received, List.append_nil, ← hop.1, hq]
              have : received j (heads s (.take j)) = [f] := by simp [heads, hq, hr, received]
              rw [this]
              exact ⟨q, by simp⟩
            obtain ⟨z, hz⟩ := h2
            refine List.IsPrefix.trans ⟨datas i z ++ datas i (owed j s.pending.toList), ?_⟩ hle
            rw [← List.append_assoc, ← datas_append, hz, datas_puts hlost ho', ← datas_append, hF.1.flow j]
      · exact hsame (heads_received (by simpa using hj))
    all_goals exact hsame (heads_received (by simp))

/-! ### a server drops only final closes on full channels -/

def OverClose (s : St) : Prop := ∀ k f, .overflow k f ∈ s.trace → ∃ i, f = .close i []

theorem OverClose.more {s s' : St} (h : OverClose s) (u : List Obs) (ht : s'.trace = s.trace ++ u)
    (hu : ∀ k f, .overflow k f ∈ u → ∃ i, f = .close i []) : OverClose s' := by
  intro k f hm
  rw [ht, List.mem_append] at hm
  rcases hm with hm | hm
  · exact h k f hm
  · exact hu k f hm

theorem OverClose.trySend {s : St} (h : OverClose s) (k i : Nat) : OverClose (trySend k (.close i []) s) := by
  unfold Tunnel.trySend
  split
  · exact h.more [.lost k _] rfl (by simp)
  · split
    · exact h.more [.put k _] rfl (by simp)
    · exact h.more [.overflow k (.close i [])] rfl (by simp)

theorem OverClose.sendAwait {s : St} (h : OverClose s) (k f) : OverClose (sendAwait k f s).1 := by
  unfold Tunnel.sendAwait
  split
  · exact h.more [.lost k _] rfl (by simp)
  · split
    · exact h.more [.put k _] rfl (by simp)
    · exact h

theorem OverClose.finish {s : St} (h : OverClose s) (p) : OverClose (finish p s) :=
  h.more _ (finish_trace p s) (by simp)

theorem OverClose.closeFold (m : List (Nat × Nat)) : ∀ s : St, OverClose s →
    OverClose (m.foldl (fun s x => Tunnel.trySend x.2 (.close x.1 []) s) s) := by
  induction m with
  | nil => intro s h; exact h
  | cons x m ih => intro s h; exact ih _ (h.trySend _ _)

theorem OverClose.register {s : St} (h : OverClose s) (id) : OverClose (register id s) := by
  refine h.more (((match lookup id s.map with | some old => [.hangup old] | none => []) ++ [.reg id s.next])) ?_ ?_
  · rw [register_trace]; cases lookup id s.map <;> simp
  · cases lookup id s.map <;> simp

theorem OverClose.kept : Kept OverClose where
  buf s b h := h
  read s bs h _ := h.more [.arrived bs] rfl (by simp)
  fin s p h _ _ := h.finish p
  lost s h _ := by
    have h1 : OverClose (emit .connLost s) := h.more [.connLost] rfl (by simp)
    exact (OverClose.closeFold _ _ h1).finish _
  submit s f h _ _ := h.more [.submitted f] rfl (by simp)
  take s k f q h _ _ := h.more [.took k f] rfl (by simp)
  drop s k h _ := h.more [.rxGone k] rfl (by simp)
  retry s k f h _ := OverClose.sendAwait (s := { s with pending := none }) h k f
  work s id d h _ := (h.register id).more [.queued false (.create id d)] rfl (by simp)
  recv s f q h _ _ := h.more [.queued true f] rfl (by simp)
  wrote s n h _ _ _ := h.more [.wrote (s.writeBuf.take n)] rfl (by simp)
  drained s n h _ _ _ := by
    have h1 : OverClose (emit (.wrote (s.writeBuf.take n)) { s with writeBuf := s.writeBuf.drop n }) :=
      h.more [.wrote (s.writeBuf.take n)] rfl (by simp)
    exact h1.finish _

theorem OverClose.handle (cfg : Cfg) (s : St) (f : Frame) (h : OverClose s) : OverClose (serverHandle cfg s f).1 := by
  have hg : OverClose (emit (.got f) s) := h.more [.got f] rfl (by simp)
  unfold serverHandle
  dsimp only
  split
  · exact hg
  · split
    · exact hg.more [.queued false (.close 0 notVerify)] rfl (by simp)
    · cases f with
      | create id d => exact (hg.register id).more [.opened id _ _] rfl (by simp)
      | close id d =>
        dsimp only
        split
        · exact hg.sendAwait _ _
        · exact hg
      | data id d =>
        dsimp only
        split
        · exact hg.sendAwait _ _
        · exact hg
      | mapping id ms => exact hg.more [.setMap ms] rfl (by simp)
      | token u p => exact hg

theorem server_overClose (cfg : Cfg) (es : List Event) : OverClose (serverRun cfg es) := by
  have hK : Kept (fun s => SInv cfg s ∧ OverClose s) :=
    ((Flow.kept.and Guard.kept).and (HInv.kept.and BInv.kept)).and OverClose.kept
  have hP : Preserved (serverHandle cfg) (finish .panicked) (fun s => SInv cfg s ∧ OverClose s) := by
    refine Kept.preserved' hK fun s f h hl => ?_
    have h1 := serverHandle_inv cfg s f h.1 hl
    exact ⟨⟨h1.1, OverClose.handle cfg s f h.2⟩, h1.2⟩
  exact (run_inv hP es _ ⟨server_inv cfg [], fun k f hm => nomatch hm⟩).2

/-! ### the two ends -/

/-- data a server's stream has received is a beginning of the data looked at under its id, if none of it arrived before
    the stream was registered and no other stream took over the id -/
theorem server_data_prefix (cfg : Cfg) (es : List Event) (i k : Nat) (t1 rest : List Obs)
    (ht : (serverRun cfg es).trace = t1 ++ .reg i k :: rest) (h1 : datas i (gots t1) = []) (h2 : regCount i rest = 0) :
    datas i (received k (serverRun cfg es).trace) <+: datas i (gots (serverRun cfg es).trace) := by
  have hI := server_inv cfg es
  have h3 : datas i (received k (serverRun cfg es).trace) <+:
      datas i (due (serverAccepts cfg) k (serverRun cfg es).trace) := by
    refine data_prefix (k := k) (fun s e => ?_) (serverInit cfg) (.inl rfl) (fun es => (server_inv cfg es).1.1) i es ?_
    · obtain ⟨u, e1, e2, _⟩ := serverStep_heads cfg s e; exact ⟨u, e1, e2⟩
    · intro d hm
      obtain ⟨j, e⟩ := server_overClose cfg es _ _ hm; cases e
  refine h3.trans ?_
  have hall : (∀ a b d, (serverRun cfg es).trace = a ++ .got (.data i d) :: b →
      serverAccepts cfg a (.data i d) = true) → datas i (due (serverAccepts cfg) k (serverRun cfg es).trace) =
      datas i (gots (serverRun cfg es).trace) := by
    intro ha
    rw [ht] at ha ⊢
    exact datas_due_eq (serverAccepts cfg) i k t1 rest h1 h2 ha
  by_cases hp : Protected cfg
  · rcases hI.1.2.first hp with ⟨hg, _⟩ | ⟨f, fs, hg, hf, _⟩ | ⟨f, hf, ⟨u1, u2, e, g1, g2⟩, _⟩
    · have := datas_dueFrom_sub (serverAccepts cfg) k i (serverRun cfg es).trace []
      rw [hg] at this ⊢
      rw [show datas i (due (serverAccepts cfg) k (serverRun cfg es).trace) = [] from List.sublist_nil.1 this]
      exact List.nil_prefix
    · refine (hall ?_) ▸ List.prefix_refl _
      intro a b d e
      simp only [serverAccepts, decide_eq_true_eq]
      rw [e, gots_append', gots_cons] at hg
      cases hga : gots a with
      | nil =>
        rw [hga] at hg
        simp [gots] at hg
        obtain ⟨u, p, e, _⟩ := hf
        rw [← hg.1] at e; cases e
      | cons g gs =>
        rw [hga] at hg
        simp only [List.cons_append, List.cons.injEq] at hg
        exact .inr ⟨g, by rw [hga]; simp, by rw [hg.1]; exact hf⟩
    · have hg : gots (serverRun cfg es).trace = [f] := by
        rw [e, gots_append', g1]; simpa [gots] using g2
      have := datas_dueFrom_none (serverAccepts cfg) k i (serverRun cfg es).trace [] (fun a b d e => by
        simp only [serverAccepts, List.nil_append, decide_eq_false_iff_not]
        rintro (hn | ⟨g, hg1, hg2⟩)
        · exact hn hp
        · have : g ∈ gots (serverRun cfg es).trace := by rw [e, gots_append']; simp [hg1]
          rw [hg] at this
          simp at this; subst this; exact hf hg2)
      rw [show datas i (due (serverAccepts cfg) k (serverRun cfg es).trace) = [] from this]
      exact List.nil_prefix
  · refine (hall ?_) ▸ List.prefix_refl _
    intro a b d _
    simp only [serverAccepts, decide_eq_true_eq]
    exact .inl hp

/-- what is put into a stream's channel is what is due to it, unless something is dropped -/
theorem data_kept {acc : List Obs → Frame → Bool} {s : St} (hF : Flow acc s) {i k : Nat} (hp : s.pending = none)
    (hr : (s.chan k).rx = true) (ho : ∀ d, .overflow k (.data i d) ∉ s.trace) :
    datas i (puts k s.trace) = datas i (due acc k s.trace) := by
  have h1 := hF.1.open_ k hr
  have h2 := hF.1.flow k
  rw [hp] at h2
  rw [datas_puts (fun f hf => h1.2 (hF.1.lost k f hf)) ho, ← h2]
  simp

/-- an open, drained channel: everything due has been received -/
theorem data_drained {acc : List Obs → Frame → Bool} {s : St} (hF : Flow acc s) {i k : Nat} (hp : s.pending = none)
    (hr : (s.chan k).rx = true) (hq : (s.chan k).q = []) (ho : ∀ d, .overflow k (.data i d) ∉ s.trace) :
    datas i (received k s.trace) = datas i (due acc k s.trace) := by
  have h1 := hF.1.open_ k hr
  rw [hq, List.append_nil] at h1
  rw [h1.1, data_kept hF hp hr ho]

theorem server_data_kept (cfg : Cfg) (es : List Event) (i k : Nat) (t1 rest : List Obs)
    (ht : (serverRun cfg es).trace = t1 ++ .reg i k :: rest) (h1 : datas i (gots t1) = []) (h2 : regCount i rest = 0)
    (hl : Live (serverRun cfg es)) (hr : ((serverRun cfg es).chan k).rx = true) :
    datas i (puts k (serverRun cfg es).trace) = datas i (gots (serverRun cfg es).trace) := by
  have hI := server_inv cfg es
  rw [data_kept hI.1.1 hl.2.2 hr (fun d hm => by
    obtain ⟨j, e⟩ := server_overClose cfg es _ _ hm; cases e)]
  have hall : (∀ a b d, (serverRun cfg es).trace = a ++ .got (.data i d) :: b →
      serverAccepts cfg a (.data i d) = true) → datas i (due (serverAccepts cfg) k (serverRun cfg es).trace) =
      datas i (gots (serverRun cfg es).trace) := by
    intro ha
    rw [ht] at ha ⊢
    exact datas_due_eq (serverAccepts cfg) i k t1 rest h1 h2 ha
  refine hall fun a b d e => ?_
  simp only [serverAccepts, decide_eq_true_eq]
  by_cases hp : Protected cfg
  · rcases hI.1.2.first hp with ⟨hg, _⟩ | ⟨f, fs, hg, hf, _⟩ | ⟨f, hf, _, hs, _⟩
    · rw [e, gots_append', gots_cons] at hg
      simp [gots] at hg
    · rw [e, gots_append', gots_cons] at hg
      cases hga : gots a with
      | nil =>
        rw [hga] at hg
        simp [gots] at hg
        obtain ⟨u, p, e, _⟩ := hf
        rw [← hg.1] at e; cases e
      | cons g gs =>
        rw [hga] at hg
        simp only [List.cons_append, List.cons.injEq] at hg
        exact .inr ⟨g, by rw [hga]; simp, by rw [hg.1]; exact hf⟩
    · rw [hl.2.1] at hs; cases hs
  · exact .inl hp

theorem server_data_all (cfg : Cfg) (es : List Event) (i k : Nat) (t1 rest : List Obs)
    (ht : (serverRun cfg es).trace = t1 ++ .reg i k :: rest) (h1 : datas i (gots t1) = []) (h2 : regCount i rest = 0)
    (hl : Live (serverRun cfg es)) (hr : ((serverRun cfg es).chan k).rx = true)
    (hq : ((serverRun cfg es).chan k).q = []) :
    datas i (received k (serverRun cfg es).trace) = datas i (gots (serverRun cfg es).trace) := by
  have h := ((server_inv cfg es).1.1.1.open_ k hr).1
  rw [hq, List.append_nil] at h
  rw [h, server_data_kept cfg es i k t1 rest ht h1 h2 hl hr]

theorem client_data_kept (cfg : Cfg) (q : List Frame) (es : List Event) (i k : Nat) (t1 rest : List Obs)
    (ht : (clientRun cfg q es).trace = t1 ++ .reg i k :: rest) (h1 : datas i (gots t1) = []) (h2 : regCount i rest = 0)
    (ho : ∀ d, .overflow k (.data i d) ∉ (clientRun cfg q es).trace) (hl : Live (clientRun cfg q es))
    (hr : ((clientRun cfg q es).chan k).rx = true) :
    datas i (puts k (clientRun cfg q es).trace) = datas i (gots (clientRun cfg q es).trace) := by
  rw [data_kept (client_inv cfg q es).1 hl.2.2 hr ho]
  rw [ht]
  exact datas_due_eq clientAccepts i k t1 rest h1 h2 (fun _ _ _ _ => rfl)

theorem client_data_all (cfg : Cfg) (q : List Frame) (es : List Event) (i k : Nat) (t1 rest : List Obs)
    (ht : (clientRun cfg q es).trace = t1 ++ .reg i k :: rest) (h1 : datas i (gots t1) = []) (h2 : regCount i rest = 0)
    (ho : ∀ d, .overflow k (.data i d) ∉ (clientRun cfg q es).trace) (hl : Live (clientRun cfg q es))
    (hr : ((clientRun cfg q es).chan k).rx = true) (hq : ((clientRun cfg q es).chan k).q = []) :
    datas i (received k (clientRun cfg q es).trace) = datas i (gots (clientRun cfg q es).trace) := by
  rw [data_drained (client_inv cfg q es).1 hl.2.2 hr hq ho]
  rw [ht]
  exact datas_due_eq clientAccepts i k t1 rest h1 h2 (fun _ _ _ _ => rfl)

/-- likewise for a client's stream, if no data message was dropped -/
theorem client_data_prefix (cfg : Cfg) (q : List Frame) (es : List Event) (i k : Nat) (t1 rest : List Obs)
    (ht : (clientRun cfg q es).trace = t1 ++ .reg i k :: rest) (h1 : datas i (gots t1) = []) (h2 : regCount i rest = 0)
    (ho : ∀ d, .overflow k (.data i d) ∉ (clientRun cfg q es).trace) :
    datas i (received k (clientRun cfg q es).trace) <+: datas i (gots (clientRun cfg q es).trace) := by
  have h3 : datas i (received k (clientRun cfg q es).trace) <+:
      datas i (due clientAccepts k (clientRun cfg q es).trace) := by
    refine data_prefix (k := k) (fun s e => ?_) (clientInit cfg q) (.inr ?_) (fun es => (client_inv cfg q es).1) i es ho
    · obtain ⟨u, e1, e2, _⟩ := clientStep_heads cfg s e; exact ⟨u, e1, e2⟩
    · refine List.filterMap_eq_nil_iff.2 fun o ho => ?_
      obtain ⟨f, rfl⟩ := (Fresh.init cfg q).trace o ho; rfl
  rw [ht] at h3 ⊢
  rwa [datas_due_eq clientAccepts i k t1 rest h1 h2 (fun _ _ _ _ => rfl)] at h3

end Wm.Tunnel
