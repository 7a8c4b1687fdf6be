import Verif.Props.Control
/-! Properties C99 (handing over after a reload) and C100 (stopping). -/
namespace Wm.Control
open Wm
variable {α : Type}

/-- every service that was started is running or has ended -/
def Settled (s : St α) : Prop := ∀ v ∈ s.svcs, v.phase = .running ∨ v.phase = .ended

/-- the configurations that were loaded: the first and those of the reloads that could be read -/
def loaded (cfg : α) (evs : List (Ev α)) : List α :=
  cfg :: evs.filterMap (fun e => match e with | .reload p => p | _ => none)

/-- only a service on its way to running holds the sender of the previous one -/
def PrevInv (s : St α) : Prop := ∀ v ∈ s.svcs, v.prev ≠ none → v.phase = .starting ∨ v.phase = .bound

theorem mem_upd {s : St α} {k : Nat} {f : Svc α → Svc α} {w : Svc α} (h : w ∈ (upd s k f).svcs) :
    w ∈ s.svcs ∨ ∃ v, s.svcs[k]? = some v ∧ w = f v := by
  obtain ⟨i, hi⟩ := List.mem_iff_getElem?.1 h
  rw [upd, List.getElem?_modify] at hi
  cases hv : s.svcs[i]? with
  | none => simp [hv] at hi
  | some v =>
    rw [hv] at hi
    simp only [Option.map_eq_map, Option.map_some, Option.some.injEq] at hi
    by_cases hk : k = i
    · subst hk; simp at hi; exact .inr ⟨v, hv, hi.symm⟩
    · simp [hk] at hi; exact .inl (hi ▸ List.mem_of_getElem? hv)

theorem PrevInv.upd {s : St α} (h : PrevInv s) (k : Nat) (f : Svc α → Svc α)
    (hf : ∀ v, s.svcs[k]? = some v → (f v).prev ≠ none → (f v).phase = .starting ∨ (f v).phase = .bound) : PrevInv (upd s k f) := by
  intro w hw hp
  rcases mem_upd hw with hw | ⟨v, hv, rfl⟩
  · exact h w hw hp
  · exact hf v hv hp

theorem tell_some (s : St α) (p : Nat) : tell s (some p)
    = if phaseOf s p = some .ended then s else upd s p (fun v => { v with inbox := true }) := rfl

theorem PrevInv.inbox {s : St α} (h : PrevInv s) (k : Nat) : PrevInv (Control.upd s k (fun v => { v with inbox := true })) :=
  h.upd k _ (fun v hv hp => h v (List.mem_of_getElem? hv) hp)

theorem PrevInv.tell {s : St α} (h : PrevInv s) (p : Option Nat) : PrevInv (Control.tell s p) := by
  cases p with
  | none => exact h
  | some p =>
    rw [tell_some]
    split
    · exact h
    · exact h.inbox p

theorem PrevInv.start {s : St α} (h : PrevInv s) (cfg : α) : PrevInv (Control.start s cfg) := by
  intro v hv hp
  rcases List.mem_append.1 hv with hv | hv
  · exact h v hv hp
  · rw [List.mem_singleton.1 hv]; exact .inl rfl

theorem PrevInv.step {s : St α} (h : PrevInv s) (e : Ev α) : PrevInv (Control.step s e) := by
  unfold Control.step
  split
  · exact h
  · cases e with
    | reload p =>
      simp only
      split
      · cases p with
        | none => exact h
        | some cfg => exact h.start cfg
      · exact h
    | stop =>
      simp only
      split
      · unfold stop
        split
        · exact h
        · split
          · exact h
          · exact h.inbox _
      · exact h
    | now => simp only; split <;> exact h
    | ready k =>
      simp only [ready]
      split
      · exact h.upd k _ (fun v _ _ => .inr rfl)
      · exact h
    | fail k =>
      simp only [fail]
      split
      · exact (h.upd k _ (fun v _ hp => absurd rfl hp) : PrevInv (Control.upd s k (fun v => { v with phase := .ended, prev := none })))
      · exact h
    | begin_ k =>
      simp only [begin_]
      split
      · exact h
      · split
        · exact (h.tell _).upd k _ (fun v _ hp => absurd rfl hp)
        · exact h
    | close k =>
      simp only [close]
      split
      · exact h
      · next v hv =>
        split
        · next hc =>
          have hnone : v.prev = none := by
            cases hp : v.prev with
            | none => rfl
            | some q =>
              rcases h v (List.mem_of_getElem? hv) (by simp [hp]) with hq | hq <;> rw [hc.1] at hq <;> cases hq
          exact (h.upd k _ (fun w hw hp => by
            rw [hv] at hw; injection hw with hw; subst hw; exact absurd hnone hp) :
            PrevInv (Control.upd s k (fun v => { v with phase := .ended })))
        · exact h
    | crash k =>
      simp only [crash]
      split
      · next hc =>
        obtain ⟨v, hv, hph⟩ := phaseOf_some hc
        have hnone : v.prev = none := by
          cases hp : v.prev with
          | none => rfl
          | some q =>
            rcases h v (List.mem_of_getElem? hv) (by simp [hp]) with hq | hq <;> rw [hph] at hq <;> cases hq
        exact (h.upd k _ (fun w hw hp => by
          rw [hv] at hw; injection hw with hw; subst hw; exact absurd hnone hp) :
          PrevInv (Control.upd s k (fun v => { v with phase := .ended })))
      · exact h
    | panic k =>
      simp only [panic]
      split
      · exact h.upd k _ (fun v _ hp => absurd rfl hp)
      · exact h
    | abort k => simp only [abort]; split <;> exact h
    | collect =>
      simp only [collect]
      split <;> exact h

theorem PrevInv.run (evs : List (Ev α)) : ∀ {s : St α}, PrevInv s → PrevInv (Control.run s evs) := by
  induction evs with
  | nil => intro s h; exact h
  | cons e evs ih => intro s h; exact ih (h.step e)

theorem PrevInv.init (cfg : α) (b : Bool) : PrevInv (Control.init cfg b) :=
  PrevInv.start (s := ⟨cfg, [], none, 0, 0, b, false, [], []⟩) (by intro v hv; cases hv) cfg

theorem not_held {s : St α} (h : PrevInv s) (hs : Settled s) {k : Nat} (hk : s.current ≠ some k) : held s k = false := by
  unfold held
  have h1 : (s.current == some k) = false := by simpa using hk
  rw [h1, Bool.false_or, List.any_eq_false]
  intro v hv hc
  have hp : v.prev = some k := by simpa using hc
  rcases h v hv (by simp [hp]) with h2 | h2 <;> rcases hs v hv with h3 | h3 <;> rw [h2] at h3 <;> cases h3

theorem old_ends {s : St α} (hp : PrevInv s) (hx : s.exited = false) (hs : Settled s) {k : Nat} {v : Svc α}
    (hv : s.svcs[k]? = some v) (hne : s.current ≠ some k) : phaseOf (step s (.close k)) k = some .ended := by
  have hh := not_held hp hs hne
  unfold step
  rw [hx]
  simp only [Bool.false_eq_true, if_false, close, hv, hh, or_true, and_true]
  rcases hs v (List.mem_of_getElem? hv) with h1 | h1
  · rw [if_pos h1]
    simp [phaseOf, upd, hv]
  · rw [if_neg (by rw [h1]; simp)]
    simp [phaseOf, hv, h1]

/-- the services have the loaded configurations, and the latest is the current one -/
structure Book (s : St α) (cfgs : List α) : Prop where
  cfgs : s.svcs.map (·.cfg) = cfgs
  current : s.current = some (s.svcs.length - 1)
  some : s.svcs ≠ []

theorem cfgs_upd (s : St α) (k : Nat) (f : Svc α → Svc α) (hf : ∀ v, (f v).cfg = v.cfg) :
    (upd s k f).svcs.map (·.cfg) = s.svcs.map (·.cfg) := by
  apply List.ext_getElem?
  intro i
  simp only [upd, List.getElem?_map, List.getElem?_modify]
  cases s.svcs[i]? with
  | none => rfl
  | some v =>
    by_cases hk : k = i
    · simp [hk, hf]
    · simp [hk]

theorem Book.upd {s : St α} {l : List α} (h : Book s l) (k : Nat) (f : Svc α → Svc α) (hf : ∀ v, (f v).cfg = v.cfg) :
    Book (upd s k f) l := by
  have hlen : (Control.upd s k f).svcs.length = s.svcs.length := by simp [Control.upd]
  refine ⟨by rw [cfgs_upd s k f hf]; exact h.cfgs, ?_, ?_⟩
  · rw [hlen]; exact h.current
  · intro hc
    have := h.some
    rw [← List.length_pos_iff] at this
    rw [hc] at hlen
    simp at hlen; omega

theorem Book.start {s : St α} {l : List α} (h : s.svcs.map (·.cfg) = l) (cfg : α) : Book (start s cfg) (l ++ [cfg]) := by
  refine ⟨?_, ?_, ?_⟩ <;> simp [Control.start, h]

theorem Book.tell {s : St α} {l : List α} (h : Book s l) (p : Option Nat) : Book (tell s p) l := by
  cases p with
  | none => exact h
  | some p =>
    rw [tell_some]
    split
    · exact h
    · exact h.upd _ _ (fun _ => rfl)

theorem step_listening (s : St α) (e : Ev α) : (step s e).listening = s.listening := by
  have tl : ∀ p : Option Nat, (tell s p).listening = s.listening := by
    intro p; cases p with
    | none => rfl
    | some p => rw [tell_some]; split <;> rfl
  unfold step
  split
  · rfl
  · cases e with
    | reload p =>
      simp only; split
      · cases p <;> rfl
      · rfl
    | stop =>
      simp only [stop]; split
      · split
        · rfl
        · split <;> rfl
      · rfl
    | now => simp only; split <;> rfl
    | ready k => simp only [ready]; split <;> rfl
    | fail k => simp only [fail]; split <;> rfl
    | begin_ k =>
      simp only [begin_]; split
      · rfl
      · split
        · exact tl _
        · rfl
    | close k =>
      simp only [close]; split
      · rfl
      · split <;> rfl
    | crash k => simp only [crash]; split <;> rfl
    | panic k => simp only [panic]; split <;> rfl
    | abort k => simp only [abort]; split <;> rfl
    | collect => simp only [collect]; split <;> rfl

theorem Book.step {s : St α} {l : List α} (h : Book s l) (hl : s.listening = true) (hx : s.exited = false) (e : Ev α) :
    Book (step s e) (l ++ (match e with | .reload p => p | _ => none).toList) := by
  unfold Control.step
  rw [hx]
  simp only [Bool.false_eq_true, if_false, hl, if_true]
  cases e with
  | reload p =>
    cases p with
    | none => simpa [reload] using (⟨h.cfgs, h.current, h.some⟩ : Book { s with reloadReplies := s.reloadReplies ++ [true] } l)
    | some cfg =>
      have hb := Book.start h.cfgs cfg
      exact ⟨hb.cfgs, hb.current, hb.some⟩
  | stop =>
    simp only [stop, Option.toList_none, List.append_nil]
    split
    · exact h
    · split
      · exact h
      · exact h.upd _ _ (fun _ => rfl)
  | now => simpa [now] using (⟨h.cfgs, h.current, h.some⟩ : Book { s with nowReplies := s.nowReplies ++ [s.option] } l)
  | ready k =>
    simp only [ready, Option.toList_none, List.append_nil]
    split
    · exact h.upd _ _ (fun _ => rfl)
    · exact h
  | fail k =>
    simp only [fail, Option.toList_none, List.append_nil]
    split
    · have := h.upd k (fun v => { v with phase := .ended, prev := none }) (fun _ => rfl)
      exact ⟨this.cfgs, this.current, this.some⟩
    · exact h
  | begin_ k =>
    simp only [begin_, Option.toList_none, List.append_nil]
    split
    · exact h
    · split
      · exact (h.tell _).upd _ _ (fun _ => rfl)
      · exact h
  | close k =>
    simp only [close, Option.toList_none, List.append_nil]
    split
    · exact h
    · split
      · have := h.upd k (fun v => { v with phase := .ended }) (fun _ => rfl)
        exact ⟨this.cfgs, this.current, this.some⟩
      · exact h
  | crash k =>
    simp only [crash, Option.toList_none, List.append_nil]
    split
    · have := h.upd k (fun v => { v with phase := .ended }) (fun _ => rfl)
      exact ⟨this.cfgs, this.current, this.some⟩
    · exact h
  | panic k =>
    simp only [panic, Option.toList_none, List.append_nil]
    split
    · exact h.upd _ _ (fun _ => rfl)
    · exact h
  | abort k =>
    simp only [abort, Option.toList_none, List.append_nil]
    split
    · exact ⟨h.cfgs, h.current, h.some⟩
    · exact h
  | collect =>
    simp only [collect, Option.toList_none, List.append_nil]
    split
    · exact ⟨h.cfgs, h.current, h.some⟩
    · exact h

theorem exited_stays (evs : List (Ev α)) : ∀ {s : St α}, s.exited = true → run s evs = s := by
  induction evs with
  | nil => intro s _; rfl
  | cons e evs ih =>
    intro s h
    have : step s e = s := by unfold step; rw [h]; rfl
    show run (step s e) evs = s
    rw [this]; exact ih h

theorem Book.run (evs : List (Ev α)) : ∀ {s : St α} {l : List α}, Book s l → s.listening = true → (Control.run s evs).exited = false →
    Book (Control.run s evs) (l ++ evs.filterMap (fun e => match e with | .reload p => p | _ => none)) := by
  induction evs with
  | nil => intro s l h _ _; simpa [Control.run] using h
  | cons e evs ih =>
    intro s l h hl hx
    have hx0 : s.exited = false := by
      cases hc : s.exited with
      | false => rfl
      | true => rw [exited_stays _ hc, hc] at hx; exact hx
    have := ih (h.step hl hx0 e) (by rw [step_listening]; exact hl) hx
    have e1 : (e :: evs).filterMap (fun e => match e with | .reload p => p | _ => none)
        = (match e with | .reload p => p | _ => none).toList ++ evs.filterMap (fun e => match e with | .reload p => p | _ => none) := by
      rw [List.filterMap_cons]
      split <;> next h => rw [h]; rfl
    rw [e1, ← List.append_assoc]
    exact this

/-- **C99** (the new service has the new configuration) One service is started for each configuration that was loaded, in
    that order; the one that is told to stop and that the next reload replaces is the last. -/
theorem C99_new_configuration (cfg : α) (evs : List (Ev α)) (hx : (run (init cfg true) evs).exited = false) :
    (run (init cfg true) evs).svcs.map (·.cfg) = loaded cfg evs ∧
      (run (init cfg true) evs).current = some ((loaded cfg evs).length - 1) := by
  have hb : Book (init cfg true) [cfg] := Book.start (s := ⟨cfg, [], none, 0, 0, true, false, [], []⟩) (l := []) rfl cfg
  have h := hb.run evs rfl hx
  have e1 : [cfg] ++ evs.filterMap (fun e => match e with | .reload p => p | _ => none) = loaded cfg evs := rfl
  rw [e1] at h
  refine ⟨h.cfgs, ?_⟩
  rw [h.current, ← h.cfgs, List.length_map]

/-- **C99** (the old service goes) However reloads, failures and panics overlapped: once all started services are running or
    have ended, every service but the latest ends as soon as it looks at its channel. -/
theorem C99_old_ends (cfg : α) (evs : List (Ev α)) (hx : (run (init cfg true) evs).exited = false)
    (hs : Settled (run (init cfg true) evs)) (k : Nat) (hold : k + 1 < (run (init cfg true) evs).svcs.length) :
    phaseOf (step (run (init cfg true) evs) (.close k)) k = some .ended := by
  have hc := C99_new_configuration cfg evs hx
  refine old_ends ((PrevInv.init cfg true).run evs) hx hs (List.getElem?_eq_getElem (by omega)) ?_
  rw [hc.2, ← hc.1, List.length_map]
  intro h; injection h with h; omega

/-- the service has ended or was told to close -/
def Told (s : St α) (k : Nat) : Prop := ∃ v, s.svcs[k]? = some v ∧ (v.phase = .ended ∨ v.inbox = true)

theorem Told.upd {s : St α} {k : Nat} (h : Told s k) (i : Nat) (f : Svc α → Svc α)
    (hf : ∀ v, (v.phase = .ended ∨ v.inbox = true) → ((f v).phase = .ended ∨ (f v).inbox = true)) : Told (Control.upd s i f) k := by
  obtain ⟨v, hv, hp⟩ := h
  by_cases hi : i = k
  · subst hi
    exact ⟨f v, by simp [Control.upd, hv], hf v hp⟩
  · refine ⟨v, ?_, hp⟩
    simp only [Control.upd, List.getElem?_modify, hv]
    simp [hi]

theorem Told.tell {s : St α} {k : Nat} (h : Told s k) (p : Option Nat) : Told (Control.tell s p) k := by
  cases p with
  | none => exact h
  | some p =>
    rw [tell_some]
    split
    · exact h
    · exact h.upd _ _ (fun _ _ => .inr rfl)

theorem Told.step {s : St α} {k : Nat} (h : Told s k) (e : Ev α) (he : ∀ p, e ≠ .reload p) :
    Told (Control.step s e) k ∧ (Control.step s e).current = s.current ∧ (Control.step s e).svcs.length = s.svcs.length := by
  have ended : ∀ i, Told (Control.upd s i (fun v => { v with phase := .ended })) k := fun i => h.upd _ _ (fun _ _ => .inl rfl)
  have ended' : ∀ i, Told (Control.upd s i (fun v => { v with phase := .ended, prev := none })) k :=
    fun i => h.upd _ _ (fun _ _ => .inl rfl)
  have hlen : ∀ (s : St α) i f, (Control.upd s i f).svcs.length = s.svcs.length := by intros; simp [Control.upd]
  unfold Control.step
  split
  · exact ⟨h, rfl, rfl⟩
  · cases e with
    | reload p => exact absurd rfl (he p)
    | stop =>
      simp only [stop]
      split
      · split
        · exact ⟨h, rfl, rfl⟩
        · split
          · exact ⟨h, rfl, rfl⟩
          · exact ⟨h.upd _ _ (fun _ _ => .inr rfl), rfl, hlen _ _ _⟩
      · exact ⟨h, rfl, rfl⟩
    | now => simp only; split <;> exact ⟨h, rfl, rfl⟩
    | ready i =>
      simp only [ready]
      split
      · next hc =>
        refine ⟨?_, rfl, hlen _ _ _⟩
        obtain ⟨v, hv, hp⟩ := h
        obtain ⟨w, hw, hph⟩ := phaseOf_some hc
        by_cases hi : i = k
        · subst hi
          rw [hw] at hv; injection hv with hv; subst hv
          rcases hp with hp | hp
          · rw [hph] at hp; cases hp
          · exact ⟨{ w with phase := .bound }, by simp [Control.upd, hw], .inr hp⟩
        · exact ⟨v, by simp only [Control.upd, List.getElem?_modify, hv]; simp [hi], hp⟩
      · exact ⟨h, rfl, rfl⟩
    | fail i =>
      simp only [fail]
      split
      · exact ⟨ended' i, rfl, hlen _ _ _⟩
      · exact ⟨h, rfl, rfl⟩
    | begin_ i =>
      simp only [begin_]
      split
      · exact ⟨h, rfl, rfl⟩
      · next w hw =>
        split
        · next hb =>
          have htc : ∀ p : Option Nat, (Control.tell s p).current = s.current ∧ (Control.tell s p).svcs.length = s.svcs.length := by
            intro p; cases p with
            | none => exact ⟨rfl, rfl⟩
            | some p =>
              rw [tell_some]; split
              · exact ⟨rfl, rfl⟩
              · exact ⟨rfl, hlen _ _ _⟩
          refine ⟨?_, (htc _).1, by rw [hlen]; exact (htc _).2⟩
          have h' := h.tell w.prev
          -- the service that begins has not ended, so it was told by a message, which stays
          have hph : ∃ w', (Control.tell s w.prev).svcs[i]? = some w' ∧ w'.phase = .bound := by
            cases hp : w.prev with
            | none => exact ⟨w, hw, hb.1⟩
            | some p =>
              rw [tell_some]
              split
              · exact ⟨w, hw, hb.1⟩
              · by_cases hpi : p = i
                · subst hpi; exact ⟨{ w with inbox := true }, by simp [Control.upd, hw], hb.1⟩
                · exact ⟨w, by simp only [Control.upd, List.getElem?_modify, hw]; simp [hpi], hb.1⟩
          obtain ⟨w', hw', hph'⟩ := hph
          obtain ⟨v, hv, hp⟩ := h'
          by_cases hi : i = k
          · subst hi
            rw [hw'] at hv; injection hv with hv; subst hv
            rcases hp with hp | hp
            · rw [hph'] at hp; cases hp
            · exact ⟨{ w' with phase := .running, prev := none }, by simp [Control.upd, hw'], .inr hp⟩
          · exact ⟨v, by simp only [Control.upd, List.getElem?_modify, hv]; simp [hi], hp⟩
        · exact ⟨h, rfl, rfl⟩
    | close i =>
      simp only [close]
      split
      · exact ⟨h, rfl, rfl⟩
      · split
        · exact ⟨ended i, rfl, hlen _ _ _⟩
        · exact ⟨h, rfl, rfl⟩
    | crash i =>
      simp only [crash]
      split
      · exact ⟨ended i, rfl, hlen _ _ _⟩
      · exact ⟨h, rfl, rfl⟩
    | panic i =>
      simp only [panic]
      split
      · exact ⟨ended' i, rfl, hlen _ _ _⟩
      · exact ⟨h, rfl, rfl⟩
    | abort i => simp only [abort]; split <;> exact ⟨h, rfl, rfl⟩
    | collect =>
      simp only [collect]
      split <;> exact ⟨h, rfl, rfl⟩

theorem Told.run (evs : List (Ev α)) : ∀ {s : St α} {k : Nat}, Told s k → (∀ p, Ev.reload p ∉ evs) →
    Told (Control.run s evs) k ∧ (Control.run s evs).current = s.current ∧ (Control.run s evs).svcs.length = s.svcs.length := by
  induction evs with
  | nil => intro s k h _; exact ⟨h, rfl, rfl⟩
  | cons e evs ih =>
    intro s k h hn
    obtain ⟨h1, h2, h3⟩ := h.step e (fun p hp => hn p (hp ▸ List.mem_cons_self))
    obtain ⟨g1, g2, g3⟩ := ih h1 (fun p hp => hn p (List.mem_cons_of_mem _ hp))
    exact ⟨g1, g2.trans h2, g3.trans h3⟩

/-- **C100** After a request to stop, and no reload after it, every service ends as soon as it looks at its channel, once
    all started services are running or have ended: also those that an unfinished reload had left. -/
theorem C100_stop (cfg : α) (evs more : List (Ev α)) (hno : ∀ p, Ev.reload p ∉ more)
    (hx : (run (init cfg true) (evs ++ .stop :: more)).exited = false)
    (hs : Settled (run (init cfg true) (evs ++ .stop :: more))) (k : Nat)
    (hk : k < (run (init cfg true) (evs ++ .stop :: more)).svcs.length) :
    phaseOf (step (run (init cfg true) (evs ++ .stop :: more)) (.close k)) k = some .ended := by
  have hrun : run (init cfg true) (evs ++ .stop :: more) = run (step (run (init cfg true) evs) .stop) more := by
    simp [run, List.foldl_append]
  have hx0 : (run (init cfg true) evs).exited = false := by
    cases hc : (run (init cfg true) evs).exited with
    | false => rfl
    | true =>
      have : run (init cfg true) (evs ++ .stop :: more) = run (run (init cfg true) evs) (.stop :: more) := by
        simp [run, List.foldl_append]
      rw [this, exited_stays _ hc, hc] at hx; exact hx
  have hb : Book (init cfg true) [cfg] := Book.start (s := ⟨cfg, [], none, 0, 0, true, false, [], []⟩) (l := []) rfl cfg
  have hbook := hb.run evs rfl hx0
  have hlis : (run (init cfg true) evs).listening = true := by
    have : ∀ (evs : List (Ev α)) (s : St α), (run s evs).listening = s.listening := by
      intro evs
      induction evs with
      | nil => intro s; rfl
      | cons e evs ih => intro s; exact (ih _).trans (step_listening s e)
    rw [this]; rfl
  by_cases hcur : k + 1 = (run (init cfg true) (evs ++ .stop :: more)).svcs.length
  · -- the current service was told
    have ht : Told (step (run (init cfg true) evs) .stop) ((run (init cfg true) evs).svcs.length - 1) ∧
        (step (run (init cfg true) evs) .stop).svcs.length = (run (init cfg true) evs).svcs.length := by
      generalize run (init cfg true) evs = s at hx0 hbook hlis
      have hpos : 0 < s.svcs.length := List.length_pos_iff.2 hbook.some
      obtain ⟨v, hv⟩ : ∃ v, s.svcs[s.svcs.length - 1]? = some v := ⟨_, List.getElem?_eq_getElem (by omega)⟩
      unfold step
      rw [hx0]
      simp only [Bool.false_eq_true, if_false, hlis, if_true, stop, hbook.current]
      split
      · next hp =>
        obtain ⟨w, hw, hph⟩ := phaseOf_some hp
        exact ⟨⟨w, hw, .inl hph⟩, rfl⟩
      · exact ⟨⟨{ v with inbox := true }, by simp [upd, hv], .inr rfl⟩, by simp [upd]⟩
    obtain ⟨h1, h2, h3⟩ := ht.1.run more hno
    rw [← hrun] at h1 h3
    have hke : (run (init cfg true) evs).svcs.length - 1 = k := by rw [← ht.2, ← h3]; omega
    rw [hke] at h1
    obtain ⟨v, hv, hp⟩ := h1
    generalize run (init cfg true) (evs ++ .stop :: more) = t at *
    unfold step
    rw [hx]
    simp only [Bool.false_eq_true, if_false, close, hv]
    rcases hp with hp | hp
    · rw [if_neg (by rw [hp]; simp)]; simp [phaseOf, hv, hp]
    · rcases hs v (List.mem_of_getElem? hv) with h4 | h4
      · rw [if_pos ⟨h4, .inl hp⟩]; simp [phaseOf, upd, hv]
      · rw [if_neg (by rw [h4]; simp)]; simp [phaseOf, hv, h4]
  · -- the others have nobody to keep them
    exact C99_old_ends cfg _ hx hs k (by omega)

/-! concrete cases: a reload, then the new service takes over; and a request to stop during a reload -/

def handover : List (Ev Nat) := [.ready 0, .begin_ 0, .reload none, .reload (some 7), .ready 1, .begin_ 1]

example : (run (init 5 true) handover).exited = false ∧ Settled (run (init 5 true) handover) ∧
    (run (init 5 true) handover).current = some 1 ∧ loaded 5 handover = [5, 7] := by
  refine ⟨by decide, ?_, by decide, by decide⟩
  show ∀ v ∈ (run (init 5 true) handover).svcs, _
  decide

example : let s := run (init 5 true) ([.ready 0, .begin_ 0, .reload (some 7), .stop, .ready 1, .begin_ 1] : List (Ev Nat))
    s.exited = false ∧ s.svcs.map (fun v => v.phase) = [.running, .running] ∧ s.svcs.map (fun v => v.inbox) = [true, true] := by
  decide

end Wm.Control
