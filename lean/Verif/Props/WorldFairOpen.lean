import Verif.Props.WorldFairUp
import Verif.Props.WorldOpen
/-!
Property C177 for endless schedules: when every part of the tunnel gets its turn again and again, every visitor is connected
to the local service that its mapping names.
-/
namespace Wm.World
open Wm Wm.Prot
open scoped List
open Wm.Tunnel (gots accepted written arrived)

/-! ### What is required -/

/-- Every part on the way of an open request for stream `i` gets its turn again and again: the server's loop takes new
    streams and writes what it has to write - whenever it is again and again not waiting for another task, and when it
    waits, that task gets its turn -, the client's loop reads, and the client's task gets its connection to the local
    service. -/
structure FairOpen (cfg : Cfg) (σ : Nat → Event) (i : Nat) : Prop where
  takesNew : Often (fun t => (after cfg σ t).srv.pending = none) →
    Often fun t => σ t = .work ∧ (after cfg σ t).srv.pending = none
  serverWrites : Often (fun t => (after cfg σ t).srv.pending = none) →
    Often fun t => (∃ j, 0 < j ∧ σ t = .srv (.wrote j)) ∧ (after cfg σ t).srv.pending = none
  makesRoom : ∀ t h f, (after cfg σ t).srv.pending = some (h, f) → ∃ t', t ≤ t' ∧ Clears (after cfg σ t') h (σ t')
  clientReads : Often fun t => ∃ j, 0 < j ∧ σ t = .cli (.read j)
  connected : ∀ t h a, .opened i h (.connect a) ∈ (after cfg σ t).cli.trace → ∃ t', t ≤ t' ∧ σ t' = .start i h

/-! ### Proof -/

theorem relayStep_id (T : Tunnel.St → Tunnel.Event → Tunnel.St) (dies : Bool) (s : Tunnel.St) (r : Relay.St)
    (h : Option Nat) (e : RelayEv) : (relayStep T dies s r h e).2.id = r.id := by
  unfold relayStep
  repeat' split
  all_goals first | rfl | (simp only [Relay.step_id])

theorem visitor_stays {cfg : Cfg} {w : St} {n : Nat} {v : Visitor} (hv : w.visitors[n]? = some v) (e : Event) :
    ∃ v', (step cfg w e).visitors[n]? = some v' ∧ v'.relay.id = v.relay.id ∧ v'.mode = v.mode := by
  have same : ∃ v', w.visitors[n]? = some v' ∧ v'.relay.id = v.relay.id ∧ v'.mode = v.mode := ⟨v, hv, rfl, rfl⟩
  have hlt := (List.getElem?_eq_some_iff.1 hv).1
  have more : ∀ x, ∃ v', (w.visitors ++ [x])[n]? = some v' ∧ v'.relay.id = v.relay.id ∧ v'.mode = v.mode :=
    fun x => ⟨v, by rw [List.getElem?_append_left hlt]; exact hv, rfl, rfl⟩
  cases e with
  | accept => exact same
  | visit j mode =>
    simp only [step]
    split
    · exact same
    · split
      · exact same
      · split
        · split
          · exact more _
          · exact same
        · exact more _
  | work =>
    simp only [step]
    split
    · exact same
    · rename_i j name rest hw
      split
      · exact same
      · rename_i x hx
        split
        · by_cases hj : j = n
          · subst hj
            rw [hv] at hx; cases hx
            exact ⟨_, List.getElem?_set_self hlt, rfl, rfl⟩
          · exact ⟨v, by dsimp only; rw [List.getElem?_set_ne hj]; exact hv, rfl, rfl⟩
        · exact same
  | srv e => exact same
  | cli e => exact same
  | otherS e => exact same
  | otherC e => exact same
  | vis j e =>
    simp only [step]
    split
    · exact same
    · rename_i x hx
      by_cases hj : j = n
      · subst hj
        rw [hv] at hx; cases hx
        exact ⟨_, List.getElem?_set_self hlt, relayStep_id .., rfl⟩
      · exact ⟨v, by dsimp only; rw [List.getElem?_set_ne hj]; exact hv, rfl, rfl⟩
  | start id h =>
    simp only [step]
    split <;> exact same
  | loc j e =>
    simp only [step]
    split <;> exact same

/-- new streams come in at the end, and are taken at the front -/
theorem works_next (cfg : Cfg) (w : St) (e : Event) :
    (∃ more, (step cfg w e).works = w.works ++ more) ∨
    (e = .work ∧ w.srv.pending = none ∧ ∃ p, w.works = p :: (step cfg w e).works) := by
  have same : (∃ more, w.works = w.works ++ more) := ⟨[], by simp⟩
  cases e with
  | visit j mode =>
    left
    simp only [step]
    split
    · exact same
    · split
      · exact same
      · split
        · split
          · exact ⟨_, rfl⟩
          · exact same
        · exact same
  | work =>
    simp only [step]
    split
    · exact .inl same
    · rename_i j name rest hw
      split
      · exact .inl same
      · split
        · rename_i h
          exact .inr ⟨trivial, h.2, (j, name), hw⟩
        · exact .inl same
  | vis j e =>
    simp only [step]
    split <;> exact .inl same
  | start id h =>
    simp only [step]
    split <;> exact .inl same
  | loc j e =>
    simp only [step]
    split <;> exact .inl same
  | _ => exact .inl same

/-- an execution in which the visitor waits to be connected -/
structure Waits (cfg : Cfg) (n i : Nat) (md : Text) (W : Nat → St) (ε : Nat → Event) : Prop where
  calls : ∀ t, Calls cfg n i md (W t)
  next : ∀ t, W (t + 1) = step cfg (W t) (ε t)

variable {cfg : Cfg} {n i : Nat} {md : Text} {W : Nat → St} {ε : Nat → Event}

theorem Waits.lively (h : Waits cfg n i md W ε) : Lively cfg W ε where
  next := h.next
  base := fun t => (h.calls t).base
  fit := fun t => (h.calls t).fit
  srv := fun t => (h.calls t).srv
  cli := fun t => (h.calls t).cli
  srvOpen := fun t => (h.calls t).srvOpen
  srvIdle := fun t => (h.calls t).srvIdle
  cliIdle := fun t => (h.calls t).cliIdle
  arrives := fun t => (h.calls t).arrives
  arrivesC := fun t => (h.calls t).arrivesC

/-- (1) the server's loop takes the visitor's stream -/
theorem Waits.taken (h : Waits cfg n i md W ε) (hE : Often fun t => ε t = .work ∧ (W t).srv.pending = none) (t) :
    ∃ t', t ≤ t' ∧ ∃ d, .create i d ∈ accepted (W t').srv.trace := by
  have hw := h.calls t
  have hd : Due (W t) := by obtain ⟨es, he⟩ := hw.reach; rw [he]; exact due_run cfg es
  obtain ⟨v, hv, hvi, -⟩ := hw.vis
  by_cases hk : v.handle = none
  case neg =>
    obtain ⟨d, h1⟩ := hd.asked v (List.mem_of_getElem? hv) hk
    exact ⟨t, Nat.le_refl _, d, hvi ▸ h1⟩
  have hmem := hd.queued hw.srv n v hv hk
  clear hd hv hvi hk hw
  -- the visitor moves forward by one place each time
  have key : ∀ c t, (∃ pre p post, (W t).works = pre ++ p :: post ∧ p.1 = n ∧ pre.length ≤ c) →
      ∃ t', t ≤ t' ∧ ∃ d, .create i d ∈ accepted (W t').srv.trace := by
    intro c
    induction c with
    | zero =>
      intro t ⟨pre, p, post, h1, h2, h3⟩
      obtain ⟨t', g1, g2, g3⟩ := hE t
      have hp : pre = [] := List.length_eq_zero_iff.1 (Nat.le_zero.1 h3)
      subst hp
      have walk : ∀ d, (∃ d', .create i d' ∈ accepted (W (t + d)).srv.trace) ∨ ∃ post, (W (t + d)).works = p :: post := by
        intro d
        induction d with
        | zero => exact .inr ⟨post, h1⟩
        | succ d ih =>
          rcases ih with ⟨d', hd'⟩ | ⟨q, hq⟩
          · exact .inl ⟨d', (Tunnel.accepted_mono (h.lively.srvTrace (t + d))).subset hd'⟩
          · rcases works_next cfg (W (t + d)) (ε (t + d)) with ⟨more, hm⟩ | ⟨e1, e2, _⟩
            · right
              refine ⟨q ++ more, ?_⟩
              rw [← Nat.add_assoc, h.next, hm, hq]; rfl
            · left
              rw [← Nat.add_assoc, h.next, e1]
              exact ((h.calls (t + d)).work1 e2 hq).2.2.2 h2
      rcases walk (t' - t) with hw | ⟨q, hq⟩
      · rw [Nat.add_sub_cancel' g1] at hw
        exact ⟨t', g1, hw⟩
      · rw [Nat.add_sub_cancel' g1] at hq
        refine ⟨t' + 1, by omega, ?_⟩
        rw [h.next, g2]
        exact ((h.calls t').work1 g3 hq).2.2.2 h2
    | succ c ih =>
      intro t ⟨pre, p, post, h1, h2, h3⟩
      obtain ⟨t', g1, g2, g3⟩ := hE t
      have walk : ∀ d, (∃ u, t ≤ u ∧ ∃ pre p post, (W u).works = pre ++ p :: post ∧ p.1 = n ∧ pre.length ≤ c) ∨
          ∃ post, (W (t + d)).works = pre ++ p :: post := by
        intro d
        induction d with
        | zero => exact .inr ⟨post, h1⟩
        | succ d ihd =>
          rcases ihd with hu | ⟨q, hq⟩
          · exact .inl hu
          · rcases works_next cfg (W (t + d)) (ε (t + d)) with ⟨more, hm⟩ | ⟨e1, e2, x, e3⟩
            · right
              refine ⟨q ++ more, ?_⟩
              rw [← Nat.add_assoc, h.next, hm, hq]; simp
            · cases pre with
              | nil => exact .inl ⟨t, Nat.le_refl _, [], p, post, h1, h2, Nat.zero_le _⟩
              | cons y pre =>
                left
                refine ⟨t + d + 1, by omega, pre, p, q, ?_, h2, by simp at h3; omega⟩
                rw [h.next]
                rw [hq] at e3
                simp at e3
                exact e3.2.symm
      rcases walk (t' - t) with ⟨u, u1, hu⟩ | ⟨q, hq⟩
      · obtain ⟨x, x1, x2⟩ := ih u hu
        exact ⟨x, by omega, x2⟩
      · rw [Nat.add_sub_cancel' g1] at hq
        cases pre with
        | nil =>
          obtain ⟨x, x1, x2⟩ := ih t ⟨[], p, post, h1, h2, Nat.zero_le _⟩
          exact ⟨x, x1, x2⟩
        | cons y pre =>
          have hpop := ((h.calls t').work1 g3 (p := y) (rest := pre ++ p :: q) (by rw [hq]; rfl)).2.1
          obtain ⟨x, x1, x2⟩ := ih (t' + 1) ⟨pre, p, q, by rw [h.next, g2]; exact hpop, h2, by simp at h3; omega⟩
          exact ⟨x, by omega, x2⟩
  obtain ⟨p, hp, hpn⟩ := List.mem_map.1 hmem
  obtain ⟨pre, post, hpp⟩ := List.append_of_mem hp
  exact key pre.length t ⟨pre, p, post, hpp, hpn, Nat.le_refl _⟩

/-- (2) the client opens the stream when it has read the request -/
theorem Waits.opens (h : Waits cfg n i md W ε) {t u} (htu : t ≤ u) (hfree : Free i (W u)) {name m a}
    (hname : pickName (cfg.client.mappings.map bare) md = some name) (hm : Tunnel.LastMatch cfg.client.mappings name m)
    (hout : ∀ h, Tunnel.outcome m i h = .opened i h (.connect a)) {d} (hcr : .create i d ∈ accepted (W t).srv.trace)
    (hw : (accepted (W t).srv.trace).flatMap wire <+: arrived (W u).cli.trace) :
    ∃ h, .opened i h (.connect a) ∈ (W u).cli.trace := by
  have hc := h.calls u
  have hi := hc.cliIdle
  have hacc : accepted (W t).srv.trace <+: accepted (W u).srv.trace :=
    chain_prefix (B := fun t => accepted (W t).srv.trace) (fun t => Tunnel.accepted_mono (h.lively.srvTrace t)) htu
  have hask : d = some name := by
    have hn := hc.normal
    have hnm := hc.noMaps
    obtain ⟨v, hv, hvi, hvm⟩ := hc.vis
    have hcr' := hacc.subset hcr
    obtain ⟨es, he⟩ := hc.reach
    rw [he] at hn hnm hv hcr' hfree
    obtain ⟨x, hx, hxi, nm, e1, e2⟩ := (ask_run cfg es i (hfree.own hn) hn.fit hnm).asked d hcr'
    obtain ⟨j, hj⟩ := List.getElem?_of_mem hx
    have := uniq_visitors (guests_run cfg es) (by have := hn.used; omega) (i := i) j n x.relay v.relay
      (by rw [List.getElem?_map, hj]; rfl) (by rw [List.getElem?_map, hv]; rfl) hxi hvi
    subst this
    rw [hv] at hj; cases hj
    rw [hvm, hname] at e2
    rw [e1, Option.some.injEq]; exact (Option.some.inj e2).symm
  obtain ⟨es, he⟩ := hc.base.cli
  have hat := Tunnel.client_at (nilStream hc.fit.server) cfg.client [] es
  rw [← he] at hat
  have hs := hat.seen ⟨hc.cli, hi.2.1, hi.1⟩ hc.fit.server ((List.prefix_append _ _).trans hc.arrivesC) hacc hw
  have hgot : ∃ d', .create i d' ∈ gots (W u).cli.trace ∧ d'.getD [] = name := by
    rw [hask] at hcr
    cases name with
    | nil => exact ⟨none, hs.subset (List.mem_map.2 ⟨_, hcr, rfl⟩), rfl⟩
    | cons c cs => exact ⟨some (c :: cs), hs.subset (List.mem_map.2 ⟨_, hcr, rfl⟩), rfl⟩
  obtain ⟨d', g1, g2⟩ := hgot
  obtain ⟨o, ho, hoe⟩ := List.mem_filterMap.1 g1
  have hoe' : o = .got (.create i d') := by
    cases o <;> simp at hoe
    rw [hoe]
  subst hoe'
  obtain ⟨t1, t2, ht⟩ := List.append_of_mem ho
  rw [he] at ht ⊢
  obtain ⟨pre, k, r, hr, -⟩ := (Tunnel.C17_open_answered_partial cfg.client [] es i d' t1 t2 ht).2.1 m (by rw [g2]; exact hm)
  refine ⟨k, ?_⟩
  rw [ht, hr, hout k]
  simp

/-- the connection of a stream that has one -/
theorem Calls.has {w : St} (hw : Calls cfg n i md w) {h a} (ho : .opened i h (.connect a) ∈ w.cli.trace)
    (hm : h ∈ w.locals.map (·.2)) : ∃ l ∈ w.locals, l.1.id = i ∧ .opened i l.2 (.connect a) ∈ w.cli.trace := by
  have hcon : (i, h) ∈ connects w.cli.trace := List.mem_filterMap.2 ⟨_, ho, rfl⟩
  obtain ⟨l, hl, hlh⟩ := List.mem_map.1 hm
  refine ⟨l, hl, ?_, by rw [hlh]; exact ho⟩
  have hh : Hosts w := by obtain ⟨es, rfl⟩ := hw.reach; exact hosts_run cfg es
  have h1 := hh.conn l hl
  rw [hlh] at h1
  have hj : Just w.cli.trace := by obtain ⟨es, rfl⟩ := hw.reach; exact just_run cfg es
  have hop : ∀ k, (k, h) ∈ connects w.cli.trace → .reg k h ∈ w.cli.trace := by
    intro k hk
    obtain ⟨o, mo, eo⟩ := List.mem_filterMap.1 hk
    split at eo
    · cases eo; exact hj.opened _ _ _ mo
    · cases eo
  have r1 := hop _ hcon
  have r2 := hop _ h1
  obtain ⟨es, he⟩ := hw.base.cli
  have hI := (Tunnel.client_inv cfg.client [] es).2.1.regs
  rw [← he] at hI
  have e1 := (hI _ _ r1).1
  rw [(hI _ _ r2).1] at e1
  exact Option.some.inj e1

/-! ### Statement -/

/-- **C177** (endless schedules): while the tunnel works, every visitor that has come is connected to the local service that
    its mapping names, at some time, if every part on the way gets its turn again and again - whatever else goes on
    meanwhile. -/
theorem C177_fair (cfg : Cfg) (σ : Nat → Event) (t0 : Nat)
    (hn : ∀ t, t0 ≤ t → Normal cfg (after cfg σ t) ∧ NoLogins (after cfg σ t) ∧ NoMaps (after cfg σ t))
    (hs : ∀ t, t0 ≤ t → (after cfg σ t).srv.phase = .running) (hc : ∀ t, t0 ≤ t → (after cfg σ t).cli.phase = .running)
    (v) (hv : v ∈ (after cfg σ t0).visitors) (hfree : ∀ t, t0 ≤ t → Free v.relay.id (after cfg σ t))
    (hf : FairOpen cfg σ v.relay.id) (wanted m : MappingConfig) (a)
    (hw : LastOfMode cfg.client.mappings v.mode wanted) (hl : Tunnel.LastMatch cfg.client.mappings wanted.name m)
    (hp : m.mode.map Char.toLower ≠ "proxy".toList) (ha : m.localAddr = some a) :
    ∃ t, t0 ≤ t ∧ ∃ l ∈ (after cfg σ t).locals, l.1.id = v.relay.id ∧
      .opened v.relay.id l.2 (.connect a) ∈ (after cfg σ t).cli.trace := by
  obtain ⟨n, hvn⟩ := List.getElem?_of_mem hv
  have hstay : ∀ d, ∃ x, (after cfg σ (t0 + d)).visitors[n]? = some x ∧ x.relay.id = v.relay.id ∧ x.mode = v.mode := by
    intro d
    induction d with
    | zero => exact ⟨v, hvn, rfl, rfl⟩
    | succ d ih =>
      obtain ⟨x, h1, h2, h3⟩ := ih
      obtain ⟨y, y1, y2, y3⟩ := visitor_stays (cfg := cfg) h1 (σ (t0 + d))
      exact ⟨y, by rw [← Nat.add_assoc, after_succ]; exact y1, y2.trans h2, y3.trans h3⟩
  have h : Waits cfg n v.relay.id v.mode (fun t => after cfg σ (t0 + t)) (fun t => σ (t0 + t)) :=
    ⟨fun t => ⟨⟨_, rfl⟩, (hn _ (Nat.le_add_right _ _)).1, (hn _ (Nat.le_add_right _ _)).2.1,
      (hn _ (Nat.le_add_right _ _)).2.2, hstay t, hs _ (Nat.le_add_right _ _), hc _ (Nat.le_add_right _ _)⟩,
      fun t => after_succ cfg σ (t0 + t)⟩
  have hidle := h.lively.unblocked (fun t hh f hp => by
    obtain ⟨t', h1, h2⟩ := hf.makesRoom (t0 + t) hh f hp
    exact ⟨t' - t0, by omega, by rw [Nat.add_sub_cancel' (by omega)]; exact h2⟩)
  have hidle' := hidle.back (P := fun t => (after cfg σ t).srv.pending = none)
  obtain ⟨d1, -, x, a1⟩ := h.taken ((hf.takesNew hidle').shift t0) 0
  obtain ⟨d2, e2, a2⟩ := h.lively.sentS ((hf.serverWrites hidle').shift t0) d1
  obtain ⟨d3, e3, a3⟩ := h.lively.readC (hf.clientReads.shift t0) d2
  obtain ⟨c, ho⟩ := h.opens (t := d1) (u := d3) (by omega) (hfree _ (Nat.le_add_right _ _)) (pickName_bare hw) hl
    (a := a) (fun c => by unfold Tunnel.outcome; rw [if_neg (by simpa using hp), ha]) a1 (a2.trans a3)
  obtain ⟨u, u1, u2⟩ := hf.connected (t0 + d3) c a ho
  obtain ⟨d, rfl⟩ : ∃ d, u = t0 + d := ⟨u - t0, by omega⟩
  have ho' : ∀ z, d3 ≤ z → .opened v.relay.id c (.connect a) ∈ (after cfg σ (t0 + z)).cli.trace := fun z hz =>
    (chain_prefix (B := fun t => (after cfg σ (t0 + t)).cli.trace) (fun t => h.lively.cliTrace t) hz).subset ho
  refine ⟨t0 + d + 1, by omega, ?_⟩
  refine (h.calls (d + 1)).has (h := c) (a := a) (ho' _ (by omega)) ?_
  show c ∈ (after cfg σ (t0 + (d + 1))).locals.map (·.2)
  rw [← Nat.add_assoc, after_succ, u2]
  by_cases hm : c ∈ (after cfg σ (t0 + d)).locals.map (·.2)
  · simp only [step]
    rw [if_neg (by simp [hm])]
    exact hm
  · have hcon : (v.relay.id, c) ∈ connects (after cfg σ (t0 + d)).cli.trace :=
      List.mem_filterMap.2 ⟨_, ho' d (by omega), rfl⟩
    simp only [step]
    rw [if_pos ⟨hcon, hm⟩]
    simp

/-! ### A schedule that meets the requirements -/

/-- the web visitor of the other examples comes; then everybody has its turn, over and over. -/
def greets (t : Nat) : Event :=
  if t < hello.length then hello.getD t .accept else opening.getD ((t - hello.length) % 4) .accept

theorem greets_turn (t j : Nat) (hj : j < 4) : greets (8 + 4 * t + j) = opening.getD j .accept := by
  unfold greets
  have hw : hello.length = 4 := by decide
  rw [hw, if_neg (by omega)]
  congr 1
  omega

theorem greets_still {e} (he : e ∈ opening) : step webCfg (after webCfg greets 8) e = after webCfg greets 8 := by
  have h1 : (after webCfg greets 8).works = [] := by decide +kernel
  have h2 : (after webCfg greets 8).srv.writeBuf = [] := by decide +kernel
  have h3 : (after webCfg greets 8).down = [] := by decide +kernel
  have h4 : 0 ∈ (after webCfg greets 8).locals.map (·.2) := by decide +kernel
  simp only [opening, List.mem_cons, List.not_mem_nil, or_false] at he
  rcases he with rfl | rfl | rfl | rfl
  · simp only [step, h1]
  · simp only [step, loopStep, Tunnel.serverStep, Tunnel.step, h2, if_true, ite_self, List.take_nil, List.append_nil]
  · simp [step, loopStep, h3]
    rw [← h3]
  · simp only [step]
    rw [if_neg (fun h => h.2 h4)]

theorem greets_settled (d : Nat) : after webCfg greets (8 + d) = after webCfg greets 8 := by
  induction d with
  | zero => rfl
  | succ d ih =>
    rw [← Nat.add_assoc, after_succ, ih]
    refine greets_still ?_
    have h := greets_turn (d / 4) (d % 4) (Nat.mod_lt _ (by decide))
    rw [Nat.add_assoc, Nat.div_add_mod] at h
    rw [h]
    exact (by decide : ∀ j < 4, opening.getD j .accept ∈ opening) _ (Nat.mod_lt _ (by decide))

theorem greets_all {P : St → Prop} {a : Nat} (h : ∀ t < 9, a ≤ t → P (after webCfg greets t)) (ha : a ≤ 8) (t : Nat)
    (ht : a ≤ t) : P (after webCfg greets t) := by
  rcases Nat.lt_or_ge t 9 with h1 | h1
  · exact h t h1 ht
  · obtain ⟨d, rfl⟩ : ∃ d, t = 8 + d := ⟨t - 8, by omega⟩
    rw [greets_settled]
    exact h 8 (by decide) ha

theorem greets_often {Q : St → Event → Prop} (j : Nat) (hj : j < 4)
    (h : Q (after webCfg greets 8) (opening.getD j .accept)) : Often fun t => Q (after webCfg greets t) (greets t) := by
  intro t
  refine ⟨8 + 4 * t + j, by omega, ?_⟩
  show Q (after webCfg greets (8 + 4 * t + j)) (greets (8 + 4 * t + j))
  rw [greets_turn t j hj, Nat.add_assoc, greets_settled]
  exact h

/-- The hypotheses of `C177_fair` are met by `greets`; after four steps the visitor has come, and nobody is connected. -/
example : (∀ t, 4 ≤ t → (Normal webCfg (after webCfg greets t) ∧ NoLogins (after webCfg greets t) ∧
      NoMaps (after webCfg greets t)) ∧ (after webCfg greets t).srv.phase = .running ∧
      (after webCfg greets t).cli.phase = .running ∧ Free 2 (after webCfg greets t)) ∧
    (∃ v ∈ (after webCfg greets 4).visitors, v.relay.id = 2 ∧ v.mode = "tcp".toList) ∧ FairOpen webCfg greets 2 ∧
    (after webCfg greets 4).locals = [] ∧ LastOfMode webCfg.client.mappings "tcp".toList web ∧
    Tunnel.LastMatch webCfg.client.mappings web.name web ∧ web.mode.map Char.toLower ≠ "proxy".toList ∧
    web.localAddr = some ⟨.v4 2130706433, 80⟩ := by
  have hf : ∀ t, 0 ≤ t → (after webCfg greets t).otherS = [] ∧ (after webCfg greets t).otherC = [] ∧
      (after webCfg greets t).used < 2 ^ 23 ∧ (after webCfg greets t).srv.phase = .running ∧
      (after webCfg greets t).cli.phase = .running :=
    greets_all (P := fun w => w.otherS = [] ∧ w.otherC = [] ∧ w.used < 2 ^ 23 ∧ w.srv.phase = .running ∧
      w.cli.phase = .running) (by decide +kernel) (by decide)
  have hp : ∀ t, 0 ≤ t → (after webCfg greets t).srv.pending = none :=
    greets_all (P := fun w => w.srv.pending = none) (by decide +kernel) (by decide)
  have ho : ∀ t, 0 ≤ t → ((after webCfg greets t).cli.trace.all fun o =>
      match o with | .opened _ h _ => h == 0 | _ => true) = true :=
    greets_all (P := fun w => (w.cli.trace.all fun o => match o with | .opened _ h _ => h == 0 | _ => true) = true)
      (by decide +kernel) (by decide)
  refine ⟨fun t _ => ?_, ?_, ⟨fun _ => ?_, fun _ => ?_, fun t h f hh => ?_, ?_, fun t h a hm => ?_⟩, by decide +kernel,
    ⟨[], [], rfl, rfl, by simp⟩, ⟨[], [], rfl, .inr rfl, by simp⟩, by decide, rfl⟩
  · obtain ⟨f1, f2, f3, f4, f5⟩ := hf t (Nat.zero_le _)
    refine ⟨⟨web_normal _ f1 f2 f3, ?_, ?_⟩, f4, f5, web_free _ f1 f2 _⟩
    · intro u p hf; rw [f1] at hf; cases hf
    · intro f hf; rw [f2] at hf; cases hf
  · have h : ((after webCfg greets 4).visitors.map fun v => (v.relay.id, v.mode)) = [(2, "tcp".toList)] := by decide +kernel
    cases hv : (after webCfg greets 4).visitors with
    | nil => rw [hv] at h; simp at h
    | cons v vs => rw [hv] at h; simp at h; exact ⟨v, by simp, h.1⟩
  · exact greets_often (Q := fun w e => e = .work ∧ w.srv.pending = none) 0 (by decide) ⟨rfl, hp _ (by decide)⟩
  · exact greets_often (Q := fun w e => (∃ j, 0 < j ∧ e = .srv (.wrote j)) ∧ w.srv.pending = none) 1 (by decide)
      ⟨⟨1000, by decide, rfl⟩, hp _ (by decide)⟩
  · rw [hp t (Nat.zero_le _)] at hh; cases hh
  · exact greets_often (Q := fun _ e => ∃ j, 0 < j ∧ e = .cli (.read j)) 2 (by decide) ⟨1000, by decide, rfl⟩
  · have := List.all_eq_true.1 (ho t (Nat.zero_le _)) _ hm
    have h0 : h = 0 := by simpa using this
    subst h0
    exact greets_often (Q := fun _ e => e = .start 2 0) 3 (by decide) rfl t

end Wm.World
