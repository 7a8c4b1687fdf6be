import Verif.Props.Udp
import Mathlib.Tactic.Tauto
/-! Property C55 (nothing lost): while no task ends, every datagram of a client is sent on. -/
namespace Wm.Udp
open Wm

/-- no task ends and the upstream server always has an address -/
def Steady (evs : List Ev) : Prop := ∀ e ∈ evs, (∀ k, e ≠ .endTask k) ∧ ∀ now c d, e ≠ .recv false now c d

/-- how often the datagram `d` of client `c` waits in a task or in the channel towards it -/
def inTasks (cs : List Child) (c : Client) (d : Bytes) : Nat :=
  (cs.map (fun ch => if ch.client = c then (ch.queue ++ ch.chan).count d else 0)).sum

/-- how often the datagram `d` of client `c` waits anywhere -/
def waiting (s : St) (c : Client) (d : Bytes) : Nat := s.sendCache.count (d, c) + inTasks s.children c d

/-- what was sent to the upstream server, by client -/
def sentBy (s : St) : List (Client × Bytes) := s.sent.map (fun x => (x.1.2, x.2))

theorem sum_modify (g : Child → Nat) (f : Child → Child) : ∀ (cs : List Child) (k : Nat) (ch : Child), cs[k]? = some ch →
    ((updChild cs k f).map g).sum + g ch = (cs.map g).sum + g (f ch) := by
  intro cs
  induction cs with
  | nil => intro k ch h; simp at h
  | cons a cs ih =>
    intro k ch h
    cases k with
    | zero =>
      simp only [List.getElem?_cons_zero, Option.some.injEq] at h
      subst h
      simp only [updChild, List.modify_zero_cons, List.map_cons, List.sum_cons]
      omega
    | succ k =>
      simp only [List.getElem?_cons_succ] at h
      have := ih k ch h
      simp only [updChild, List.modify_succ_cons, List.map_cons, List.sum_cons] at this ⊢
      omega

theorem updChild_none {cs : List Child} {k : Nat} {f : Child → Child} (h : cs[k]? = none) : updChild cs k f = cs := by
  apply List.ext_getElem?
  intro i
  rw [getElem?_upd]
  by_cases hk : k = i
  · subst hk; simp [h]
  · simp [hk]

/-- the invariant; `r` are the datagrams a pass has still to look at -/
structure Live (s : St) (r : List (Bytes × Client)) : Prop where
  alive : ∀ (k : Nat) (ch : Child), s.children[k]? = some ch → ch.alive = true
  known : ∀ x ∈ s.sendCache ++ r, ∃ v, lookup s.entries x.2 = some v
  task : ∀ c k t, lookup s.entries c = some (k, t) → ∃ ch, s.children[k]? = some ch ∧ ch.client = c
  count : ∀ c d, s.arrived.count (c, d) = (sentBy s).count (c, d) + (waiting s c d + r.count (d, c))

theorem Live.init : Live St.init [] := by
  refine ⟨?_, ?_, ?_, ?_⟩ <;> simp [St.init, lookup, sentBy, waiting, inTasks]

/-- a change of a task that keeps its client and stays alive -/
theorem alive_upd {cs : List Child} {k : Nat} {f : Child → Child} (h : ∀ (k : Nat) (ch : Child), cs[k]? = some ch → ch.alive = true)
    (hf : ∀ ch, ch.alive = true → (f ch).alive = true) : ∀ (i : Nat) (ch : Child), (updChild cs k f)[i]? = some ch → ch.alive = true := by
  intro i ch hi
  rw [getElem?_upd] at hi
  cases hc : cs[i]? with
  | none => simp [hc] at hi
  | some ch' =>
    simp only [hc, Option.map_some, Option.some.injEq] at hi
    have := h i ch' hc
    split at hi
    · rw [← hi]; exact hf _ this
    · rw [← hi]; exact this

theorem task_upd {cs : List Child} {k : Nat} {f : Child → Child} (hf : ∀ ch, (f ch).client = ch.client) {i : Nat} {c : Client}
    (h : ∃ ch, cs[i]? = some ch ∧ ch.client = c) : ∃ ch, (updChild cs k f)[i]? = some ch ∧ ch.client = c := by
  obtain ⟨ch, h1, h2⟩ := h
  refine ⟨if k = i then f ch else ch, ?_, ?_⟩
  · rw [getElem?_upd, h1]; split <;> simp_all
  · split
    · rw [hf]; exact h2
    · exact h2

/-- what taking a datagram does to a task -/
def takeOne (ch : Child) : Child :=
  match ch.chan with
  | [] => ch
  | d :: r => if ch.alive then { ch with chan := r, queue := ch.queue ++ [d] } else ch

theorem take_eq (s : St) (k : Nat) : take s k = { s with children := updChild s.children k takeOne } := rfl

theorem Live.take {s : St} {r : List (Bytes × Client)} (h : Live s r) (k : Nat) : Live (take s k) r := by
  refine ⟨alive_upd h.alive ?_, h.known, ?_, ?_⟩
  · intro ch ha; split
    · exact ha
    · split <;> exact ha
  · intro c k' t hl
    refine task_upd ?_ (h.task c k' t hl)
    intro ch; split
    · rfl
    · split <;> rfl
  · intro c d
    have har : (Udp.take s k).arrived = s.arrived := rfl
    rw [har, h.count c d]
    cases hk : s.children[k]? with
    | none =>
      have : Udp.take s k = s := by unfold Udp.take; rw [updChild_none hk]
      rw [this]
    | some ch =>
      have := sum_modify (fun ch => if ch.client = c then (ch.queue ++ ch.chan).count d else 0) takeOne s.children k ch hk
      have hsame : (if (takeOne ch).client = c then ((takeOne ch).queue ++ (takeOne ch).chan).count d else 0)
          = if ch.client = c then (ch.queue ++ ch.chan).count d else 0 := by
        unfold takeOne
        cases hc : ch.chan with
        | nil => simp [hc]
        | cons x xs => simp [h.alive k ch hk, hc]
      simp only [hsame] at this
      have e2 : waiting (Udp.take s k) c d = waiting s c d := by
        unfold waiting inTasks
        rw [take_eq]
        simp only
        omega
      have e : (sentBy (Udp.take s k)) = sentBy s := rfl
      rw [e, e2]

theorem Live.foldl_take {r : List (Bytes × Client)} (ks : List Nat) : ∀ {s : St}, Live s r → Live (ks.foldl Udp.take s) r := by
  induction ks with
  | nil => intro s h; exact h
  | cons k ks ih => intro s h; exact ih (h.take k)

theorem Live.passLoop (r : List (Bytes × Client)) : ∀ (s : St) sched, Live s r → Live (Udp.passLoop s r sched) [] := by
  induction r with
  | nil => intro s sched h; exact h
  | cons x r ih =>
    obtain ⟨d, c⟩ := x
    intro s sched h
    rw [Udp.passLoop]
    have h1 := h.foldl_take (sched.headD [])
    generalize (sched.headD []).foldl Udp.take s = s1 at h1
    obtain ⟨⟨k, t⟩, hl⟩ := h1.known (d, c) (by simp)
    obtain ⟨ch, hk, hc⟩ := h1.task c k t hl
    have ha := h1.alive k ch hk
    rw [hl]
    simp only
    have hr : room s1 k = if ch.chan.length < capacity then .room else .full := by
      unfold room; rw [hk]; simp [ha]
    rw [hr]
    by_cases hlt : ch.chan.length < capacity
    · rw [if_pos hlt]
      refine ih _ _ ⟨alive_upd h1.alive (fun _ h => h), ?_, ?_, ?_⟩
      · intro x hx
        exact h1.known x (by simp only [List.mem_append, List.mem_cons] at hx ⊢; tauto)
      · intro c' k' t' hl'
        exact task_upd (f := fun ch => { ch with chan := ch.chan ++ [d] }) (fun _ => rfl) (h1.task c' k' t' hl')
      · intro c' d'
        have hcount := h1.count c' d'
        have := sum_modify (fun ch => if ch.client = c' then (ch.queue ++ ch.chan).count d' else 0)
          (fun ch => { ch with chan := ch.chan ++ [d] }) s1.children k ch hk
        simp only [waiting, inTasks, sentBy, List.count_cons] at hcount ⊢
        simp only [hc, ← List.append_assoc, List.count_append, List.count_singleton] at this
        by_cases he : (d, c) = (d', c')
        · injection he with he1 he2
          subst he1 he2
          simp at this hcount ⊢
          omega
        · have : (if c = c' then (if (d == d') = true then 1 else 0) else 0) = 0 := by
            split
            · split
              · next h1 h2 => exact absurd (by rw [h1, eq_of_beq h2]) he
              · rfl
            · rfl
          simp only [beq_iff_eq, he, if_false, Nat.add_zero] at hcount
          split at this <;> simp_all
    · rw [if_neg hlt]
      refine ih _ _ ⟨h1.alive, ?_, h1.task, ?_⟩
      · intro x hx
        exact h1.known x (by simp only [List.mem_append, List.mem_cons, List.mem_singleton] at hx ⊢; tauto)
      · intro c' d'
        have hcount := h1.count c' d'
        simp only [waiting, inTasks, sentBy, List.count_cons, List.count_append, List.count_nil] at hcount ⊢
        omega

theorem Live.open_ {s : St} (now : Nat) (c : Client) (d : Bytes) (ha : ∀ (k : Nat) (ch : Child), s.children[k]? = some ch → ch.alive = true)
    (hk : ∀ x ∈ s.sendCache, x.2 ≠ c → ∃ v, lookup s.entries x.2 = some v)
    (ht : ∀ c k t, lookup s.entries c = some (k, t) → ∃ ch : Child, s.children[k]? = some ch ∧ ch.client = c)
    (hc : ∀ c' d', s.arrived.count (c', d') = (sentBy s).count (c', d') + waiting s c' d' + [(c, d)].count (c', d')) :
    Live (Udp.open_ s true now c d) [] := by
  unfold Udp.open_
  rw [if_neg (by simp)]
  refine ⟨?_, ?_, ?_, ?_⟩
  · intro k ch hch
    simp only at hch
    rw [List.getElem?_append] at hch
    split at hch
    · exact ha k ch hch
    · rw [List.getElem?_singleton] at hch
      split at hch
      · injection hch with hch; rw [← hch]
      · cases hch
  · intro x hx
    simp only [List.append_nil] at hx ⊢
    by_cases he : x.2 = c
    · rw [he]; exact ⟨_, lookup_cons_self _ _ _⟩
    · rw [lookup_cons_ne _ _ (Ne.symm he)]; exact hk x hx he
  · intro c' k t hl
    simp only at hl ⊢
    by_cases he : c' = c
    · subst he
      rw [lookup_cons_self] at hl
      injection hl with hl
      injection hl with h1 h2
      exact ⟨⟨c', [], [d], true, false⟩, by rw [← h1]; simp, rfl⟩
    · rw [lookup_cons_ne _ _ (Ne.symm he)] at hl
      obtain ⟨ch, h1, h2⟩ := ht c' k t hl
      refine ⟨ch, ?_, h2⟩
      rw [List.getElem?_append_left]
      · exact h1
      · exact (List.getElem?_eq_some_iff.1 h1).1
  · intro c' d'
    have := hc c' d'
    simp only [waiting, inTasks, sentBy, List.map_append, List.sum_append, List.map_cons, List.map_nil, List.sum_cons,
      List.sum_nil, List.append_nil, List.count_nil] at this ⊢
    rw [this]
    by_cases h1 : c = c' <;> by_cases h2 : d = d' <;> simp [h1, h2] <;> omega

theorem Live.step {timeout : Nat} {s : St} (h : Live s []) (e : Ev) (he : (∀ k, e ≠ .endTask k) ∧ ∀ now c d, e ≠ .recv false now c d) :
    Live (step timeout s e) [] := by
  cases e with
  | endTask k => exact absurd rfl (he.1 k)
  | recv up now c d =>
    cases up with
    | false => exact absurd rfl (he.2 now c d)
    | true =>
      have hcount : ∀ c' d', (s.arrived ++ [(c, d)]).count (c', d')
          = (sentBy s).count (c', d') + waiting s c' d' + [(c, d)].count (c', d') := by
        intro c' d'
        rw [List.count_append, h.count c' d']
        simp
      simp only [Udp.step, Udp.recv]
      cases hl : lookup s.entries c with
      | none =>
        simp only
        refine Live.open_ now c d h.alive ?_ h.task ?_
        · intro x hx _; exact h.known x (by simpa using hx)
        · exact hcount
      | some v =>
        obtain ⟨k, last⟩ := v
        simp only
        split
        · refine ⟨h.alive, ?_, ?_, ?_⟩
          · intro x hx
            simp only [List.append_nil, List.mem_append, List.mem_singleton] at hx ⊢
            by_cases hxc : x.2 = c
            · rw [hxc]; exact ⟨_, lookup_cons_self _ _ _⟩
            · rw [lookup_cons_ne _ _ (Ne.symm hxc), lookup_remove_ne _ (Ne.symm hxc)]
              rcases hx with hx | hx
              · exact h.known x (by simpa using hx)
              · exact absurd (by rw [hx]) hxc
          · intro c' k' t hl'
            simp only at hl' ⊢
            by_cases hcc : c' = c
            · subst hcc
              rw [lookup_cons_self] at hl'
              injection hl' with hl'
              injection hl' with h1 h2
              exact h1 ▸ h.task c' k last hl
            · rw [lookup_cons_ne _ _ (Ne.symm hcc), lookup_remove_ne _ (Ne.symm hcc)] at hl'
              exact h.task c' k' t hl'
          · intro c' d'
            have := hcount c' d'
            have hsw : [(d, c)].count (d', c') = [(c, d)].count (c', d') := by
              by_cases h1 : c = c' <;> by_cases h2 : d = d' <;> simp [h1, h2]
            simp only [waiting, sentBy, List.count_append, hsw, List.count_nil] at this ⊢
            omega
        · refine Live.open_ now c d h.alive ?_ ?_ hcount
          · intro x hx hxc
            simp only
            rw [lookup_remove_ne _ (Ne.symm hxc)]
            exact h.known x (by simpa using hx)
          · intro c' k' t hl'
            simp only at hl' ⊢
            by_cases hcc : c' = c
            · rw [hcc, lookup_remove_self] at hl'; cases hl'
            · rw [lookup_remove_ne _ (Ne.symm hcc)] at hl'
              exact h.task c' k' t hl'
  | pass sched =>
    refine Live.passLoop _ _ _ ⟨h.alive, ?_, h.task, ?_⟩
    · intro x hx; exact h.known x (by simpa using hx)
    · intro c d
      have := h.count c d
      simp only [waiting, sentBy, List.count_nil] at this ⊢
      omega
  | take k => exact h.take k
  | send k =>
    simp only [Udp.step, Udp.send]
    cases hk : s.children[k]? with
    | none => exact h
    | some ch =>
      simp only [h.alive k ch hk, not_true, if_false]
      cases hq : ch.queue with
      | nil => exact h
      | cons d r =>
        refine ⟨alive_upd h.alive (fun _ h => h), h.known, ?_, ?_⟩
        · intro c k' t hl
          exact task_upd (f := fun ch => { ch with queue := r }) (fun _ => rfl) (h.task c k' t hl)
        · intro c' d'
          have hcount := h.count c' d'
          have := sum_modify (fun ch => if ch.client = c' then (ch.queue ++ ch.chan).count d' else 0)
            (fun ch => { ch with queue := r }) s.children k ch hk
          simp only [waiting, inTasks, sentBy, List.map_append, List.map_cons, List.map_nil, List.count_append] at hcount this ⊢
          rw [hcount]
          have hs : [(ch.client, d)].count (c', d') = if ch.client = c' then (if d = d' then 1 else 0) else 0 := by
            by_cases h1 : ch.client = c' <;> by_cases h2 : d = d' <;> simp [h1, h2]
          rw [hs]
          rw [hq] at this
          simp only [List.count_cons, beq_iff_eq] at this
          split at this <;> split <;> simp_all <;> omega
  | reply k src d =>
    simp only [Udp.step, Udp.reply]
    split
    · exact h
    · split
      · exact h
      · exact ⟨h.alive, h.known, h.task, h.count⟩
  | notice k =>
    simp only [Udp.step, Udp.notice]
    cases hk : s.children[k]? with
    | none => exact h
    | some ch => simp only [h.alive k ch hk, true_or, if_true]; exact h
  | write n fail => exact ⟨h.alive, h.known, h.task, h.count⟩

theorem Live.run (timeout : Nat) (evs : List Ev) : ∀ {s : St}, Live s [] → Steady evs → Live (run timeout s evs) [] := by
  induction evs with
  | nil => intro s h _; exact h
  | cons e evs ih =>
    intro s h hs
    exact ih (h.step e (hs e List.mem_cons_self)) (fun x hx => hs x (List.mem_cons_of_mem _ hx))

/-- **C55** While no task ends and the upstream server has an address, no datagram of a client is lost or doubled: each was
    sent on, or it waits. -/
theorem C55_kept (timeout : Nat) (evs : List Ev) (hs : Steady evs) (c : Client) (d : Bytes) :
    (run timeout St.init evs).arrived.count (c, d)
      = (sentBy (run timeout St.init evs)).count (c, d) + waiting (run timeout St.init evs) c d := by
  have := (Live.init.run timeout evs hs).count c d
  simpa using this

/-- **C55** Nothing waits for ever: as long as a datagram waits, one of the steps of the program (going through the cache,
    a task taking a datagram from its channel, a task sending one) makes a change, and if none does every datagram was
    sent on. -/
theorem C55_no_standstill (timeout : Nat) (evs : List Ev) (hs : Steady evs)
    (htake : ∀ k, step timeout (run timeout St.init evs) (.take k) = run timeout St.init evs)
    (hsend : ∀ k, step timeout (run timeout St.init evs) (.send k) = run timeout St.init evs)
    (hpass : step timeout (run timeout St.init evs) (.pass []) = run timeout St.init evs) :
    (sentBy (run timeout St.init evs)).Perm (run timeout St.init evs).arrived := by
  have h := Live.init.run timeout evs hs
  generalize run timeout St.init evs = s at h htake hsend hpass
  -- the channels and the queues are empty
  have hidle : ∀ (k : Nat) (ch : Child), s.children[k]? = some ch → ch.queue = [] ∧ ch.chan = [] := by
    intro k ch hk
    have ha := h.alive k ch hk
    constructor
    · cases hq : ch.queue with
      | nil => rfl
      | cons d r =>
        have := congrArg (fun s => s.sent.length) (hsend k)
        simp [step, send, hk, ha, hq] at this
    · cases hq : ch.chan with
      | nil => rfl
      | cons d r =>
        have := congrArg (fun s => (s.children[k]?).map (fun ch => ch.chan.length)) (htake k)
        simp only [step, take_eq, getElem?_upd, hk] at this
        simp [takeOne, hq, ha] at this
  have zeros : ∀ l : List Nat, (∀ n ∈ l, n = 0) → l.sum = 0 := by
    intro l
    induction l with
    | nil => intro _; rfl
    | cons a l ih => intro hl; simp [hl a List.mem_cons_self, ih (fun n hn => hl n (List.mem_cons_of_mem _ hn))]
  have htasks : ∀ c d, inTasks s.children c d = 0 := by
    intro c d
    unfold inTasks
    refine zeros _ ?_
    intro n hn
    obtain ⟨ch, hch, rfl⟩ := List.mem_map.1 hn
    obtain ⟨k, hk⟩ := List.mem_iff_getElem?.1 hch
    simp [(hidle k ch hk).1, (hidle k ch hk).2]
  have hcache : s.sendCache = [] := by
    cases hc : s.sendCache with
    | nil => rfl
    | cons x r =>
      exfalso
      obtain ⟨d, c⟩ := x
      obtain ⟨⟨k, t⟩, hl⟩ := h.known (d, c) (by simp [hc])
      obtain ⟨ch, hk, hcl⟩ := h.task c k t hl
      have hroom : room { s with sendCache := [] } k = .room := by
        unfold room
        simp only [hk]
        simp [h.alive k ch hk, (hidle k ch hk).2, capacity]
      -- the first datagram goes into the channel, and nothing is taken out
      have hgrow : ∀ (r : List (Bytes × Client)) (s : St) (ch : Child), s.children[k]? = some ch → ch.chan ≠ [] →
          ∃ ch' : Child, (Udp.passLoop s r []).children[k]? = some ch' ∧ ch'.chan ≠ [] := by
        intro r
        induction r with
        | nil => intro s ch h1 h2; exact ⟨ch, h1, h2⟩
        | cons x r ih =>
          obtain ⟨d, c⟩ := x
          intro s ch h1 h2
          rw [Udp.passLoop]
          simp only [List.headD_nil, List.foldl_nil, List.tail_nil]
          split
          · exact ih s ch h1 h2
          · split
            · exact ih s ch h1 h2
            · exact ih _ ch h1 h2
            · next k' _ _ _ _ =>
              refine ih _ (if k' = k then { ch with chan := ch.chan ++ [d] } else ch) ?_ ?_
              · simp only [getElem?_upd, h1]; rfl
              · split
                · simp
                · exact h2
      have e : Udp.pass s [] = Udp.passLoop { s with sendCache := [], children := updChild s.children k (fun ch => { ch with chan := ch.chan ++ [d] }) } r [] := by
        unfold Udp.pass
        rw [hc, Udp.passLoop]
        simp only [List.headD_nil, List.foldl_nil, List.tail_nil, hl, hroom]
      obtain ⟨ch', h1, h2⟩ := hgrow r { s with sendCache := [], children := updChild s.children k (fun ch => { ch with chan := ch.chan ++ [d] }) }
        { ch with chan := ch.chan ++ [d] } (by simp only [getElem?_upd, hk]; simp) (by simp)
      rw [← e] at h1
      have hp : Udp.pass s [] = s := hpass
      rw [hp] at h1
      exact h2 (hidle k ch' h1).2
  rw [List.perm_iff_count]
  rintro ⟨c, d⟩
  have := h.count c d
  simp only [waiting, htasks, hcache, List.count_nil] at this
  omega

/-- **C86** A reply of at most 9096 bytes to a socket of a client reaches that client whole, after what waits before it. -/
theorem C86_reply_partial (timeout : Nat) (s : St) (k : Nat) (ch : Child) (hk : s.children[k]? = some ch)
    (ha : ch.alive = true) (hroom : s.main.length < capacity) (d : Bytes) (hd : d.length ≤ 9096) (n : Nat)
    (hlen : s.writeCache.length + s.main.length < n) :
    (run timeout s [.reply k src d, .write n false]).delivered
      = s.delivered ++ ((s.writeCache ++ s.main).map flip ++ [(ch.client, d)]) := by
  have hr : ¬ capacity ≤ s.main.length := by omega
  simp only [run, List.foldl_cons, List.foldl_nil, step, Udp.reply, hk, ha, not_true, false_or, if_neg hr, Udp.write]
  have ht : d.take replySize = d := List.take_of_length_le hd
  rw [ht, List.take_of_length_le (by simp; omega)]
  simp only [List.map_append, List.map_cons, List.map_nil, List.append_assoc]
  rfl

/-! concrete cases -/

/-- two clients; the first sends three datagrams, one of them after its association ran out -/
def steadyRun : List Ev :=
  [.recv true 0 c1 [1], .recv true 1 c2 [2], .recv true 2 c1 [3], .pass [], .recv true 99 c1 [4], .take 0]

example : Steady steadyRun ∧ (run 60 St.init steadyRun).arrived = [(c1, [1]), (c2, [2]), (c1, [3]), (c1, [4])] ∧
    waiting (run 60 St.init steadyRun) c1 [3] = 1 := by
  refine ⟨?_, by decide +kernel, by decide +kernel⟩
  intro e he
  simp only [steadyRun, List.mem_cons, List.not_mem_nil, or_false] at he
  rcases he with rfl | rfl | rfl | rfl | rfl | rfl <;> constructor <;> intros <;> simp

/-- then everything is sent, and no step changes anything -/
example : let s := run 60 St.init (steadyRun ++ [.send 0, .send 0, .send 1, .send 2])
    sentBy s = [(c1, [1]), (c1, [3]), (c2, [2]), (c1, [4])] ∧ s.sendCache = [] ∧
    s.children.map (fun ch => (ch.queue, ch.chan)) = [([], []), ([], []), ([], [])] := by decide +kernel

end Wm.Udp
