import Verif.Proofs.WorldEnd
/-! The end-to-end composition: one visitor and one local connection per id. -/
namespace Wm.World
open Wm Wm.Prot
open scoped List
open Wm.Tunnel (datas creates regCount openCount gots received submissions accepted relayed written arrived InnerL heads heads_received)

variable {T : Tunnel.St → Tunnel.Event → Tunnel.St}

theorem openCount_connects (i : Nat) (t : List Tunnel.Obs) :
    ((connects t).filter (fun p => p.1 == i)).length ≤ openCount i t := by
  induction t with
  | nil => simp [connects]
  | cons o t ih =>
    have e1 : connects (o :: t) = connects [o] ++ connects t := by rw [← connects_append]; rfl
    have e2 : openCount i (o :: t) = openCount i [o] + openCount i t := by rw [← Tunnel.openCount_append]; rfl
    rw [e1, e2, List.filter_append, List.length_append]
    refine Nat.add_le_add ?_ ih
    cases o <;> try exact Nat.zero_le _
    rename_i j h how
    cases how with
    | proxy _ => exact Nat.zero_le _
    | connect a => by_cases hj : j = i <;> simp [connects, openCount, hj]

theorem two_le_length {α : Type} {l : List α} {a b : α} (ha : a ∈ l) (hb : b ∈ l) (h : a ≠ b) : 2 ≤ l.length := by
  cases l with
  | nil => cases ha
  | cons x l =>
    cases l with
    | nil => simp at ha hb; exact absurd (ha.trans hb.symm) h
    | cons y l => simp

/-- two streams connected under one id would have needed two open requests -/
theorem connects_unique {i h h' : Nat} {t : List Tunnel.Obs} (ho : openCount i t ≤ 1) (h1 : (i, h) ∈ connects t)
    (h2 : (i, h') ∈ connects t) : h = h' := by
  by_cases he : h = h'
  · exact he
  · have := two_le_length (List.mem_filter.2 ⟨h1, by simp⟩ : (i, h) ∈ (connects t).filter (fun p => p.1 == i))
      (List.mem_filter.2 ⟨h2, by simp⟩) (by simpa using he)
    have := openCount_connects i t
    omega

theorem connects_open {i h : Nat} {t : List Tunnel.Obs} (h1 : (i, h) ∈ connects t) : 1 ≤ openCount i t := by
  have h2 : (i, h) ∈ (connects t).filter (fun p => p.1 == i) := List.mem_filter.2 ⟨h1, by simp⟩
  have := openCount_connects i t
  have := List.length_pos_of_mem h2
  omega

/-- at most one stream is opened for an id of a visitor -/
theorem open_once {cfg w i} (hb : Base cfg w) (hf : Fit w) (hh : Hosts w) (hs : Side cfg i w) :
    openCount i w.cli.trace ≤ creates i (accepted w.srv.trace) ∧ openCount i w.cli.trace ≤ 1 := by
  have h1 := hh.opens i
  have h2 := seen_client_creates hb hf i
  have h3 := hs.one
  omega

theorem uniq_locals {cfg w i} (hb : Base cfg w) (hf : Fit w) (hh : Hosts w) (hs : Side cfg i w) :
    Uniq i (w.locals.map (·.1)) := by
  intro n m r r' hn hm hr hr'
  rw [List.getElem?_map] at hn hm
  cases hvn : w.locals[n]? with
  | none => rw [hvn] at hn; cases hn
  | some v =>
    cases hvm : w.locals[m]? with
    | none => rw [hvm] at hm; cases hm
    | some v' =>
      rw [hvn] at hn; rw [hvm] at hm
      simp only [Option.map_some, Option.some.injEq] at hn hm
      subst hn; subst hm
      have c1 := hh.conn v (List.mem_of_getElem? hvn)
      have c2 := hh.conn v' (List.mem_of_getElem? hvm)
      rw [hr] at c1; rw [hr'] at c2
      have heq := connects_unique (open_once hb hf hh hs).2 c1 c2
      have g1 : (w.locals.map (·.2))[n]? = some v.2 := by rw [List.getElem?_map, hvn]; rfl
      have g2 : (w.locals.map (·.2))[m]? = some v'.2 := by rw [List.getElem?_map, hvm]; rfl
      obtain ⟨l1, f1⟩ := List.getElem?_eq_some_iff.1 g1
      obtain ⟨l2, f2⟩ := List.getElem?_eq_some_iff.1 g2
      exact (hh.nodup.getElem_inj_iff).1 (by rw [f1, f2, heq])

/-- what an end has submitted or accepted under the id has been asked for -/
def Asked (i : Nat) (s : Tunnel.St) : Prop :=
  i ≠ 0 → ∀ f, f ∈ submissions s.trace ∨ f ∈ accepted s.trace → f.sockMap = i → 1 ≤ creates i (gots s.trace)

theorem heads_accepted {s : Tunnel.St} {e : Tunnel.Event} (hw : ∀ j d, e ≠ .work j d) :
    ∀ f ∈ accepted (heads s e), f ∈ s.outq := by
  cases e <;> simp only [heads]
  case work j d => exact absurd rfl (hw j d)
  case submit f => split <;> simp [accepted]
  case take j =>
    split
    · simp [accepted]
    · split <;> simp [accepted]
  case dropRx h => split <;> simp [accepted]
  case recv =>
    split
    · split <;> simp_all [accepted]
    · simp [accepted]
  case readEnd => split <;> simp [accepted]
  case read => split <;> simp [accepted]
  case wrote n =>
    split
    · split <;> simp [accepted]
    · simp [accepted]
  case writeErr => simp [accepted]

theorem Steps.asked (hT : Steps T) {i s e} (h : Asked i s) (hq : relayed s.trace ++ s.outq = submissions s.trace)
    (hw : ∀ j d, e ≠ .work j d) (hs : ∀ f, e = .submit f → f.sockMap = i → 1 ≤ creates i (gots s.trace)) :
    Asked i (T s e) := by
  intro hi f hf hfi
  obtain ⟨u, e1, e2, _⟩ := hT s e
  have hle : creates i (gots s.trace) ≤ creates i (gots (T s e).trace) := by
    rw [e1, Tunnel.gots_append', Tunnel.gots_append', Tunnel.creates_append, Tunnel.creates_append]; omega
  rw [e1, Tunnel.submissions_append, Tunnel.submissions_append, Tunnel.accepted_append, Tunnel.accepted_append] at hf
  simp only [List.mem_append] at hf
  rcases hf with ((hf | hf) | hf) | ((hf | hf) | hf)
  · exact Nat.le_trans (h hi f (.inl hf) hfi) hle
  · refine Nat.le_trans ?_ hle
    by_cases he : ∃ g, e = .submit g
    · obtain ⟨g, rfl⟩ := he
      rcases heads_submit (s := s) g with h1 | h1
      · rw [h1, List.mem_singleton] at hf; subst hf; exact hs f rfl hfi
      · rw [h1] at hf; cases hf
    · rw [heads_sub fun g hg => he ⟨g, hg⟩] at hf; cases hf
  · have : Tunnel.Obs.submitted f ∈ u := by
      obtain ⟨o, ho, hof⟩ := List.mem_filterMap.1 hf
      cases o <;> simp at hof
      subst hof; exact ho
    obtain ⟨j, d, rfl, hg⟩ := e2.subs f this
    have hji : j = i := hfi
    subst hji
    have : 1 ≤ creates j (gots u) := List.countP_pos_iff.2 ⟨.create j d, List.mem_filterMap.2 ⟨_, hg, rfl⟩, by simp⟩
    rw [e1, Tunnel.gots_append', Tunnel.creates_append]
    omega
  · exact Nat.le_trans (h hi f (.inr hf) hfi) hle
  · exact Nat.le_trans (h hi f (.inl (by rw [← hq]; exact List.mem_append.2 (.inr (heads_accepted hw f hf)))) hfi) hle
  · rw [e2.accepted f hf] at hfi
    exact absurd hfi.symm hi

theorem Asked.loop (hT : Steps T) {i s} (h : Asked i s) (hq : relayed s.trace ++ s.outq = submissions s.trace)
    (inb e) : Asked i (loopStep T s inb e).1 := by
  cases e <;> simp only [loopStep]
  case read n =>
    split
    · exact hT.asked h hq (by simp) (by simp)
    · exact h
  all_goals exact hT.asked h hq (by simp) (by simp)

theorem Asked.other (hT : Steps T) {i s} (h : Asked i s) (hq : relayed s.trace ++ s.outq = submissions s.trace)
    (mine e) (hi : ∀ f ∈ submitted e, f.sockMap ≠ i) : Asked i (otherStep T s mine e) := by
  cases e <;> simp only [otherStep]
  · refine hT.asked h hq (by simp) ?_
    rintro g hg hgi
    cases hg
    exact absurd hgi (hi _ (by simp [submitted]))
  · split
    · exact h
    · exact hT.asked h hq (by simp) (by simp)
  · split
    · exact h
    · exact hT.asked h hq (by simp) (by simp)

theorem Asked.relay (hT : Steps T) {i s} (h : Asked i s) (hq : relayed s.trace ++ s.outq = submissions s.trace)
    (dies hd e) {r : Relay.St} (hr : IsRun r) (ho : r.id = i → 1 ≤ creates i (gots s.trace)) :
    Asked i (relayStep T dies s r hd e).1 := by
  obtain ⟨⟨hid, hrun⟩, hc⟩ := relayStep_cases T dies s r hd e hr
  rcases hc with ⟨e1, _⟩ | ⟨k, f, q, _, _, _, e1, _⟩ | ⟨f, _, _, e1, e2, _⟩ | ⟨k, _, e1, _⟩
  · rw [e1]; exact h
  · rw [e1]; exact hT.asked h hq (by simp) (by simp)
  · rw [e1]
    refine hT.asked h hq (by simp) ?_
    rintro g hg hgi
    cases hg
    have := sends_id hrun f (by rw [e2]; simp)
    exact ho (by rw [← hid, ← this, hgi])
  · rw [e1]; exact hT.asked h hq (by simp) (by simp)

structure Far (i : Nat) (w : St) : Prop where
  sub : Sub i w.cli (w.locals.map (·.1)) w.otherC
  noCreate : creates i (accepted w.cli.trace) = 0
  asked : Asked i w.cli

/-- the client introduces itself with messages of the reserved id -/
theorem clientInit_zero (cfg) : ∀ f ∈ accepted (Tunnel.clientInit cfg []).trace, f.sockMap = 0 := by
  have hi : ∀ (f : Frame) (s : Tunnel.St), f.sockMap = 0 → (∀ g ∈ accepted s.trace, g.sockMap = 0) →
      ∀ g ∈ accepted (Tunnel.introduce f s).trace, g.sockMap = 0 := by
    intro f s hf h g
    unfold Tunnel.introduce
    split
    · split
      · simp only [Tunnel.enqueue, Tunnel.emit, Tunnel.accepted_append, List.mem_append]
        rintro (hg | hg)
        · exact h g hg
        · have : g = f := by simpa [accepted] using hg
          rw [this]; exact hf
      · exact h g
      · exact h g
    · exact h g
  have h0 : ∀ g ∈ accepted (Tunnel.clientBlank []).trace, g.sockMap = 0 := by intro g hg; cases hg
  unfold Tunnel.clientInit
  dsimp only
  split <;> split <;> (try apply hi) <;> (try rfl) <;> (try apply hi) <;> first | rfl | exact h0

theorem far_init (cfg i) : Far i (init cfg) := by
  have hf := Tunnel.Fresh.init cfg.client []
  have hs : submissions (Tunnel.clientInit cfg.client []).trace = [] := by
    refine List.filterMap_eq_nil_iff.2 fun o ho => ?_
    obtain ⟨f, rfl⟩ := hf.trace o ho; rfl
  refine ⟨⟨?_, ?_⟩, ?_, ?_⟩
  · simp only [init, hs]; simp
  · simp [init]
  · have hi : ∀ f s, creates i [f] = 0 → creates i (accepted s.trace) = 0 →
        creates i (accepted (Tunnel.introduce f s).trace) = 0 := by
      intro f s hc h
      unfold Tunnel.introduce
      split
      · split
        · simp only [Tunnel.enqueue, Tunnel.emit, Tunnel.accepted_append, Tunnel.creates_append, h]
          simpa [accepted] using hc
        · exact h
        · exact h
      · exact h
    have h0 : creates i (accepted (Tunnel.clientBlank []).trace) = 0 := rfl
    simp only [init]
    unfold Tunnel.clientInit
    dsimp only
    split <;> split <;> (try apply hi) <;> (try rfl) <;> (try apply hi) <;> first | rfl | exact h0
  · intro hi f hf hfi
    rcases hf with hf | hf
    · simp only [init, hs] at hf; cases hf
    · exact absurd ((clientInit_zero cfg.client f hf).symm.trans hfi) (Ne.symm hi)

theorem far_step (cfg w e i) (hb : Base cfg w) (hf : Fit w) (hh : Hosts w) (hs : Side cfg i w)
    (ho' : Own i (step cfg w e)) (h : Far i w) : Far i (step cfg w e) := by
  have hC := steps_client cfg.client
  have ho := ho'.back hb
  have hrs : ∀ r ∈ w.locals.map (·.1), IsRun r := by
    intro r hr; obtain ⟨v, hv, rfl⟩ := List.mem_map.1 hr; exact hb.locals v hv
  have hq := h.sub.outq ho.client hrs (client_outq hb.cli)
  have hun := uniq_locals hb hf hh hs
  cases e <;> simp only [step] at ho' ⊢
  case accept => exact ⟨h.sub, h.noCreate, h.asked⟩
  case visit n mode =>
    split
    · exact h
    · split
      · exact ⟨h.sub, h.noCreate, h.asked⟩
      · split
        · split
          · exact ⟨h.sub, h.noCreate, h.asked⟩
          · exact h
        · exact ⟨h.sub, h.noCreate, h.asked⟩
  case work =>
    split
    · exact h
    · split
      · exact h
      · split
        · exact ⟨h.sub, h.noCreate, h.asked⟩
        · exact h
  case srv e => exact ⟨h.sub, h.noCreate, h.asked⟩
  case cli e => exact ⟨h.sub.loop hC _ _, (creates_loop hC _ _ hq).trans h.noCreate,
    h.asked.loop hC (client_outq hb.cli) _ _⟩
  case otherS e => exact ⟨h.sub, h.noCreate, h.asked⟩
  case otherC e =>
    have hx : ∀ f ∈ submitted e, f.sockMap ≠ i := fun f hf => ho'.client f (List.mem_append.2 (.inr hf))
    exact ⟨h.sub.other hC _ e hx, (creates_other hC _ _ hq).trans h.noCreate,
      h.asked.other hC (client_outq hb.cli) _ e hx⟩
  case vis n e =>
    split
    · exact h
    · exact ⟨h.sub, h.noCreate, h.asked⟩
  case start id k =>
    split
    · rename_i hc
      refine ⟨?_, h.noCreate, h.asked⟩
      rw [List.map_append]
      refine h.sub.add id ho.client hrs ?_
      rintro rfl r hr hri
      obtain ⟨l, hl, rfl⟩ := List.mem_map.1 hr
      have c1 := hh.conn l hl
      rw [hri] at c1
      exact hc.2 (List.mem_map.2 ⟨l, hl, connects_unique (open_once hb hf hh hs).2 c1 hc.1⟩)
    · exact h
  case loc n e =>
    split
    · exact h
    · rename_i l hl
      have hr := hb.locals l (List.mem_of_getElem? hl)
      refine ⟨?_, (creates_relay hC _ _ _ _ hr hq).trans h.noCreate,
        h.asked.relay hC (client_outq hb.cli) _ _ _ hr fun hri => ?_⟩
      rotate_left
      · have c1 := hh.conn l (List.mem_of_getElem? hl)
        rw [hri] at c1
        have := connects_open c1
        have := hh.opens i
        omega
      rw [List.map_set]
      exact h.sub.relay hC false (some l.2) e (by rw [List.getElem?_map, hl]; rfl) hr hun

theorem far_run (cfg es i) (ho : Own i (run cfg es)) (hf : Fit (run cfg es)) : Far i (run cfg es) := by
  induction es using List.reverseRecOn with
  | nil => exact far_init cfg i
  | append_singleton es e ih =>
    rw [run_snoc] at ho hf ⊢
    have hb := base_run cfg es
    exact far_step cfg _ e i hb (hf.back hb) (hosts_run cfg es) (side_run cfg es i (ho.back hb)) ho
      (ih (ho.back hb) (hf.back hb))

/-! ### nothing comes back before the stream is announced -/

/-- data with an id nobody has been connected under -/
theorem no_data_back {cfg w i} (hb : Base cfg w) (hf : Fit w) (hh : Hosts w) (hs : Side cfg i w) (ho : Own i w)
    (h : Far i w) (hz : creates i (accepted w.srv.trace) = 0) : datas i (submissions w.cli.trace) = [] := by
  have hrs : ∀ r ∈ w.locals.map (·.1), IsRun r := by
    intro r hr; obtain ⟨v, hv, rfl⟩ := List.mem_map.1 hr; exact hb.locals v hv
  refine h.sub.none ho.client hrs fun r hr hri => ?_
  obtain ⟨l, hl, rfl⟩ := List.mem_map.1 hr
  have c1 := hh.conn l hl
  rw [hri] at c1
  have := connects_open c1
  have := (open_once hb hf hh hs).1
  omega

theorem heads_datas (i : Nat) (s : Tunnel.St) (e : Tunnel.Event) :
    datas i (accepted (heads s e)) = datas i (relayed (heads s e)) := by
  cases e <;> simp only [heads]
  case submit f => split <;> rfl
  case take j =>
    split
    · rfl
    · split <;> rfl
  case dropRx h => split <;> rfl
  case work id d =>
    split
    · cases Tunnel.lookup id s.map <;> rfl
    · rfl
  case recv =>
    split
    · split <;> rfl
    · rfl
  case readEnd => split <;> rfl
  case read => split <;> rfl
  case wrote n =>
    split
    · split <;> rfl
    · rfl
  case writeErr => rfl

/-- messages of an end's own contain no data -/
theorem Steps.hdatas_accepted (hT : Steps T) (i s e) (h : datas i (accepted s.trace) = datas i (relayed s.trace)) :
    datas i (accepted (T s e).trace) = datas i (relayed (T s e).trace) := by
  obtain ⟨u, e1, e2, _⟩ := hT s e
  have h1 : datas i (accepted u) = [] := Tunnel.datas_closes (fun f hf => by
    rw [e2.accepted f hf]; exact ⟨0, _, rfl⟩)
  have h2 : relayed u = [] := by
    refine List.filterMap_eq_nil_iff.2 fun o ho => ?_
    have := e2.plain o ho
    cases o <;> try rfl
    rename_i b f
    obtain ⟨rfl, _⟩ := this; rfl
  have h3 := heads_datas i s e
  rw [e1, Tunnel.accepted_append, Tunnel.accepted_append, Tunnel.relayed_append, Tunnel.relayed_append]
  simp only [Tunnel.datas_append]
  rw [h1, h2, h3, h]; simp

theorem server_datas_eq {cfg s} (h : ∃ es, s = Tunnel.serverRun cfg es) (i) :
    datas i (accepted s.trace) = datas i (relayed s.trace) := by
  obtain ⟨es, rfl⟩ := h
  induction es using List.reverseRecOn with
  | nil => rfl
  | append_singleton es e ih =>
    simp only [Tunnel.serverRun, List.foldl_append, List.foldl_cons, List.foldl_nil] at ih ⊢
    exact (steps_server cfg).hdatas_accepted i _ e ih

theorem server_datas {cfg s} (h : ∃ es, s = Tunnel.serverRun cfg es) (i) :
    datas i (accepted s.trace) <+: datas i (submissions s.trace) := by
  rw [server_datas_eq h]
  obtain ⟨es, rfl⟩ := h
  exact datas_prefix (Tunnel.C15_server_order cfg es).2

theorem client_datas_eq {cfg s} (h : ∃ es, s = Tunnel.clientRun cfg [] es) (i) :
    datas i (accepted s.trace) = datas i (relayed s.trace) := by
  obtain ⟨es, rfl⟩ := h
  have h1 : datas i (accepted (Tunnel.clientRun cfg [] es).trace) =
      datas i (relayed (Tunnel.clientRun cfg [] es).trace) := by
    induction es using List.reverseRecOn with
    | nil =>
      have hi : ∀ f s, datas i [f] = [] → datas i (accepted s.trace) = datas i (relayed s.trace) →
          datas i (accepted (Tunnel.introduce f s).trace) = datas i (relayed (Tunnel.introduce f s).trace) := by
        intro f s hc h
        unfold Tunnel.introduce
        split
        · split
          · simp only [Tunnel.enqueue, Tunnel.emit, Tunnel.accepted_append, Tunnel.relayed_append,
              Tunnel.datas_append, h]
            have : datas i (accepted [Tunnel.Obs.queued false f]) = [] := hc
            rw [this]; rfl
          · exact h
          · exact h
        · exact h
      have h0 : datas i (accepted (Tunnel.clientBlank []).trace) = datas i (relayed (Tunnel.clientBlank []).trace) := rfl
      simp only [Tunnel.clientRun, List.foldl_nil]
      unfold Tunnel.clientInit
      dsimp only
      split <;> split <;> (try apply hi) <;> (try rfl) <;> (try apply hi) <;> first | rfl | exact h0
    | append_singleton es e ih =>
      simp only [Tunnel.clientRun, List.foldl_append, List.foldl_cons, List.foldl_nil] at ih ⊢
      exact (steps_client cfg).hdatas_accepted i _ e ih
  exact h1

theorem client_datas {cfg s} (h : ∃ es, s = Tunnel.clientRun cfg [] es) (i) :
    datas i (accepted s.trace) <+: datas i (submissions s.trace) := by
  rw [client_datas_eq h]
  obtain ⟨es, rfl⟩ := h
  have := (Tunnel.C15_client_order cfg [] es).2
  exact datas_prefix this

/-- the stream of a visitor: registered once, before anything came back for it -/
def Met (i h : Nat) (t : List Tunnel.Obs) : Prop :=
  ∃ t1 rest, t = t1 ++ .reg i h :: rest ∧ datas i (gots t1) = [] ∧ regCount i rest = 0

/-- moreover, no message at all with this id came before -/
def MetAll (i h : Nat) (t : List Tunnel.Obs) : Prop :=
  ∃ t1 rest, t = t1 ++ .reg i h :: rest ∧ datas i (gots t1) = [] ∧ regCount i rest = 0 ∧
    (i ≠ 0 → ∀ f ∈ gots t1, f.sockMap ≠ i)

theorem MetAll.met {i h t} (hm : MetAll i h t) : Met i h t := by
  obtain ⟨t1, rest, h0, h1, h2, _⟩ := hm
  exact ⟨t1, rest, h0, h1, h2⟩

theorem MetAll.more {i h t} (hm : MetAll i h t) (u : List Tunnel.Obs) (hu : regCount i u = 0) : MetAll i h (t ++ u) := by
  obtain ⟨t1, rest, rfl, h1, h2, h3⟩ := hm
  exact ⟨t1, rest ++ u, by simp, h1, by rw [Tunnel.regCount_append, h2, hu], h3⟩

theorem heads_regs {i : Nat} {s : Tunnel.St} {e : Tunnel.Event} (he : ∀ d, e ≠ .work i d) : regCount i (heads s e) = 0 := by
  cases e <;> simp only [heads]
  case work j d =>
    have hj : j ≠ i := fun h => he d (by rw [h])
    split
    · cases Tunnel.lookup j s.map <;> simp [regCount, hj]
    · rfl
  case submit f => split <;> rfl
  case take j =>
    split
    · rfl
    · split <;> rfl
  case dropRx h => split <;> rfl
  case recv =>
    split
    · split <;> rfl
    · rfl
  case readEnd => split <;> rfl
  case read => split <;> rfl
  case wrote n =>
    split
    · split <;> rfl
    · rfl
  case writeErr => rfl

theorem sockMap_asReceived (f : Frame) : (asReceived f).sockMap = f.sockMap := by
  cases f <;> try rfl
  rename_i j d
  cases d with
  | none => rfl
  | some t => cases t <;> rfl

/-- if the peer asks for no stream with the id, no step registers one -/
theorem Steps.met (hT : Steps T) {i h s e} (hm : MetAll i h s.trace) (hc : creates i (gots (T s e).trace) = 0)
    (he : ∀ d, e ≠ .work i d) : MetAll i h (T s e).trace := by
  obtain ⟨u, e1, e2, _⟩ := hT s e
  have := e2.regs i
  rw [e1, Tunnel.gots_append', Tunnel.creates_append] at hc
  rw [e1, List.append_assoc]
  refine hm.more _ ?_
  rw [Tunnel.regCount_append, heads_regs he]; omega

/-- one step of the end, but no new stream -/
def Calm (T : Tunnel.St → Tunnel.Event → Tunnel.St) (s s' : Tunnel.St) : Prop :=
  s' = s ∨ ∃ e, (∀ j d, e ≠ .work j d) ∧ s' = T s e

theorem loopStep_calm (s inb e) : Calm T s (loopStep T s inb e).1 := by
  cases e <;> simp only [loopStep]
  case read n =>
    split
    · exact .inr ⟨_, by simp, rfl⟩
    · exact .inl rfl
  all_goals exact .inr ⟨_, by simp, rfl⟩

theorem otherStep_calm (s mine e) : Calm T s (otherStep T s mine e) := by
  cases e <;> simp only [otherStep]
  · exact .inr ⟨_, by simp, rfl⟩
  · split
    · exact .inl rfl
    · exact .inr ⟨_, by simp, rfl⟩
  · split
    · exact .inl rfl
    · exact .inr ⟨_, by simp, rfl⟩

theorem relayStep_calm (dies s r h e) (hr : IsRun r) : Calm T s (relayStep T dies s r h e).1 := by
  rcases (relayStep_cases T dies s r h e hr).2 with ⟨e1, _⟩ | ⟨k, f, q, _, _, _, e1, _⟩ | ⟨f, _, _, e1, _⟩ |
    ⟨k, _, e1, _⟩
  · exact .inl e1
  · exact .inr ⟨.take k, by simp, e1⟩
  · exact .inr ⟨.submit f, by simp, e1⟩
  · exact .inr ⟨.dropRx k, by simp, e1⟩

theorem Calm.met (hT : Steps T) {i h s s'} (ho : Calm T s s') (hm : MetAll i h s.trace)
    (hc : creates i (gots s'.trace) = 0) : MetAll i h s'.trace := by
  rcases ho with e | ⟨e, he, e1⟩
  · rw [e]; exact hm
  · rw [e1] at hc ⊢; exact hT.met hm hc (he i)

def Meets (i : Nat) (w : St) : Prop :=
  ∀ v ∈ w.visitors, v.relay.id = i → ∀ h, v.handle = some h → MetAll i h w.srv.trace

theorem meets_step (cfg w e i) (hb : Base cfg w) (hb' : Base cfg (step cfg w e)) (hf' : Fit (step cfg w e))
    (hg : Guests cfg w) (hh : Hosts w) (hs : Side cfg i w) (ho' : Own i (step cfg w e)) (hfar : Far i w)
    (hfar' : Far i (step cfg w e)) (h : Meets i w) : Meets i (step cfg w e) := by
  have hS := steps_server cfg.server
  have ho := ho'.back hb
  have hf := hf'.back hb
  have hc : creates i (gots (step cfg w e).srv.trace) = 0 := by
    have := seen_server_creates hb' hf' i
    have := hfar'.noCreate
    omega
  have hun := uniq_visitors (i := i) hg ho.used
  clear hb' hf' hfar' ho'
  cases e <;> simp only [step] at hc ⊢
  case accept => exact h
  case visit n mode =>
    have hadd : ∀ j, ∀ v ∈ w.visitors ++ [(⟨Relay.init j, none, mode⟩ : Visitor)], v.relay.id = i → ∀ h, v.handle = some h →
        MetAll i h w.srv.trace := by
      intro j v hv hvi k hk
      rcases List.mem_append.1 hv with hv | hv
      · exact h v hv hvi k hk
      · simp at hv; subst hv; cases hk
    split
    · exact h
    · split
      · exact h
      · split
        · split
          · exact hadd _
          · exact h
        · exact hadd _
  case work =>
    cases hw : w.works with
    | nil => exact h
    | cons p rest =>
      obtain ⟨n, name⟩ := p
      rw [hw] at hc
      dsimp only at hc ⊢
      cases hv : w.visitors[n]? with
      | none => exact h
      | some v =>
        rw [hv] at hc
        dsimp only at hc ⊢
        by_cases hidle : w.srv.phase = .running ∧ w.srv.pending = none
        · rw [if_pos hidle] at hc ⊢
          dsimp only at hc
          have hnone : v.handle = none := by
            obtain ⟨v', e1, e2⟩ := hg.works (n, name) (by rw [hw]; simp)
            rw [hv] at e1; cases e1; exact e2
          intro x hx hxi k hk
          dsimp only at hx ⊢
          obtain ⟨m, hm⟩ := List.mem_iff_getElem?.1 hx
          rw [List.getElem?_set] at hm
          split at hm
          · split at hm
            · cases hm
              dsimp only at hxi hk
              cases hk
              -- the visitor's stream is registered now
              have hz : creates i (accepted w.srv.trace) = 0 := by
                refine hs.zero fun y hy hyi => ?_
                obtain ⟨m', hm'⟩ := List.mem_iff_getElem?.1 hy
                have : n = m' := hun n m' v.relay y.relay (by rw [List.getElem?_map, hv]; rfl)
                  (by rw [List.getElem?_map, hm']; rfl) hxi hyi
                subst this; rw [hv] at hm'; cases hm'; exact hnone
              have hd : datas i (gots w.srv.trace) = [] := by
                have h1 := seen_server_datas hb hf i
                have h2 := client_datas hb.cli i
                rw [no_data_back hb hf hh hs ho hfar hz] at h2
                rw [List.prefix_nil.1 h2] at h1
                exact List.prefix_nil.1 h1
              have hq : i ≠ 0 → ∀ f ∈ gots w.srv.trace, f.sockMap ≠ i := by
                intro hi f hf1 hfi
                obtain ⟨g, hg, hgf⟩ := List.mem_map.1 ((seen_server hb hf).subset hf1)
                have h1 := hfar.asked hi g (.inr hg) (by rw [← sockMap_asReceived, hgf]; exact hfi)
                have h2 := seen_client_creates hb hf i
                omega
              obtain ⟨u, e1, e2, _⟩ := hS w.srv (.work v.relay.id (some name))
              have hru : regCount i u = 0 := by
                have := e2.regs i
                rw [e1, Tunnel.gots_append', Tunnel.creates_append] at hc
                omega
              rw [e1]
              simp only [heads, if_pos hidle, hxi]
              refine ⟨w.srv.trace ++ (match Tunnel.lookup i w.srv.map with | some old => [.hangup old] | none => []),
                .queued false (.create i (some name)) :: u, ?_, ?_, ?_, ?_⟩
              · cases Tunnel.lookup i w.srv.map <;> simp
              · rw [Tunnel.gots_append', Tunnel.datas_append, hd]
                cases Tunnel.lookup i w.srv.map <;> rfl
              · have : regCount i (.queued false (.create i (some name)) :: u) = regCount i u := by simp [regCount]
                rw [this, hru]
              · intro hi f hfm
                rw [Tunnel.gots_append', List.mem_append] at hfm
                rcases hfm with hfm | hfm
                · exact hq hi f hfm
                · cases hlk : Tunnel.lookup i w.srv.map <;> rw [hlk] at hfm <;> cases hfm
            · cases hm
          · rename_i hnm
            have hx2 := List.mem_of_getElem? hm
            refine hS.met (h x hx2 hxi k hk) hc ?_
            intro d hd
            cases hd
            exact hnm (hun n m v.relay x.relay (by rw [List.getElem?_map, hv]; rfl)
                  (by rw [List.getElem?_map, hm]; rfl) rfl hxi)
        · rw [if_neg hidle]; exact h
  case srv e => exact fun v hv hvi k hk => (loopStep_calm _ _ _).met hS (h v hv hvi k hk) hc
  case cli e => exact h
  case otherS e => exact fun v hv hvi k hk => (otherStep_calm _ _ _).met hS (h v hv hvi k hk) hc
  case otherC e => exact h
  case vis n e =>
    cases hv : w.visitors[n]? with
    | none => exact h
    | some v =>
      rw [hv] at hc
      dsimp only at hc ⊢
      have hr := hb.visitors v (List.mem_of_getElem? hv)
      have hid := (relayStep_cases (Tunnel.serverStep cfg.server) true w.srv v.relay v.handle e hr).1.1
      intro x hx hxi k hk
      dsimp only at hx ⊢
      refine (relayStep_calm _ _ _ _ _ hr).met hS ?_ hc
      rcases List.mem_or_eq_of_mem_set hx with hx | rfl
      · exact h x hx hxi k hk
      · exact h v (List.mem_of_getElem? hv) (hid ▸ hxi) k hk
  case start id k => split <;> exact h
  case loc n e => split <;> exact h

theorem meets_run (cfg es i) (ho : Own i (run cfg es)) (hf : Fit (run cfg es)) : Meets i (run cfg es) := by
  induction es using List.reverseRecOn with
  | nil => intro v hv; simp [run, init] at hv
  | append_singleton es e ih =>
    have hfar' := far_run cfg (es ++ [e]) i ho hf
    have hb' := base_run cfg (es ++ [e])
    rw [run_snoc] at ho hf hfar' hb' ⊢
    have hb := base_run cfg es
    exact meets_step cfg _ e i hb hb' hf (guests_run cfg es) (hosts_run cfg es) (side_run cfg es i (ho.back hb)) ho
      (far_run cfg es i (ho.back hb) (hf.back hb)) hfar' (ih (ho.back hb) (hf.back hb))

end Wm.World
