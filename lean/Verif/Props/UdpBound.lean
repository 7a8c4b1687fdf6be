import Verif.Props.UdpMore
/-! C216: how much waits inside UDP forwarding. -/
namespace Wm.Udp
open Wm
open scoped List

/-- every channel holds at most ten datagrams -/
def Small (s : St) : Prop := s.main.length ≤ 10 ∧ ∀ ch ∈ s.children, ch.chan.length ≤ 10

theorem small_upd {cs : List Child} {f : Child → Child} (h : ∀ ch ∈ cs, ch.chan.length ≤ 10) (k : Nat)
    (hf : ∀ ch, cs[k]? = some ch → (f ch).chan.length ≤ 10) : ∀ ch ∈ updChild cs k f, ch.chan.length ≤ 10 := by
  intro ch hch
  obtain ⟨i, hi⟩ := List.getElem?_of_mem hch
  rw [updChild, List.getElem?_modify] at hi
  split at hi
  · rename_i hk
    subst hk
    obtain ⟨c, hc, rfl⟩ := Option.map_eq_some_iff.1 hi
    exact hf c hc
  · have hi' : cs[i]? = some ch := by
      rw [← hi]; cases cs[i]? <;> rfl
    exact h ch (List.mem_of_getElem? hi')

theorem Small.take {s : St} (h : Small s) (k : Nat) : Small (take s k) := by
  refine ⟨h.1, small_upd h.2 k ?_⟩
  intro ch hch
  have := h.2 ch (List.mem_of_getElem? hch)
  split
  · exact this
  · rename_i d r hc
    rw [hc, List.length_cons] at this
    split
    · show r.length ≤ 10; omega
    · rw [hc]; exact this

theorem Small.takes (ks : List Nat) : ∀ {s : St}, Small s → Small (ks.foldl Udp.take s) := by
  induction ks with
  | nil => intro s h; exact h
  | cons k ks ih => intro s h; exact ih (h.take k)

theorem Small.passLoop (items : List (Bytes × Client)) : ∀ {s : St} (sched : List (List Nat)), Small s →
    Small (passLoop s items sched) := by
  induction items with
  | nil => intro s _ h; exact h
  | cons i items ih =>
    obtain ⟨d, c⟩ := i
    intro s sched h
    have h' := h.takes (sched.headD [])
    simp only [Udp.passLoop]
    generalize (sched.headD []).foldl Udp.take s = s at h'
    cases hl : lookup s.entries c with
    | none => exact ih _ h'
    | some p =>
      obtain ⟨k, t⟩ := p
      dsimp only
      cases hr : room s k with
      | closed => exact ih _ h'
      | full => exact ih _ h'
      | room =>
        refine ih _ ⟨h'.1, small_upd h'.2 k ?_⟩
        intro ch hch
        unfold room at hr
        rw [hch] at hr
        dsimp only at hr
        split at hr
        · cases hr
        · split at hr
          · rename_i hlt
            simp only [List.length_append, List.length_cons, List.length_nil, capacity] at hlt ⊢
            omega
          · cases hr

theorem small_child (s : St) (h : Small s) (up now c d) : Small (open_ s up now c d) := by
  unfold open_
  split
  · exact h
  · refine ⟨h.1, ?_⟩
    intro ch hch
    rcases List.mem_append.1 hch with hch | hch
    · exact h.2 ch hch
    · rw [List.mem_singleton.1 hch]; exact Nat.zero_le _

theorem Small.step {timeout : Nat} {s : St} (h : Small s) (e : Ev) : Small (step timeout s e) := by
  cases e with
  | recv up now c d =>
    show Small (recv timeout s up now c d)
    unfold recv
    dsimp only
    split
    · split
      · exact h
      · apply small_child; exact ⟨h.1, h.2⟩
    · apply small_child; exact ⟨h.1, h.2⟩
  | pass sched => exact Small.passLoop _ _ h
  | take k => exact h.take k
  | send k =>
    show Small (send s k)
    unfold send
    split
    · exact h
    · split
      · exact h
      · split
        · exact h
        · exact ⟨h.1, small_upd h.2 k fun ch hch => h.2 ch (List.mem_of_getElem? hch)⟩
  | reply k src d =>
    show Small (reply s k d)
    unfold reply
    split
    · exact h
    · split
      · exact h
      · rename_i hc
        refine ⟨?_, h.2⟩
        simp only [not_or, capacity] at hc
        simp only [List.length_append, List.length_cons, List.length_nil]
        omega
  | endTask k => exact ⟨h.1, small_upd h.2 k fun ch hch => h.2 ch (List.mem_of_getElem? hch)⟩
  | notice k =>
    show Small (notice s k)
    unfold notice
    split
    · exact h
    · split
      · exact h
      · rename_i hc
        refine ⟨?_, small_upd h.2 k fun ch hch => h.2 ch (List.mem_of_getElem? hch)⟩
        simp only [not_or, capacity] at hc
        simp only [List.length_append, List.length_cons, List.length_nil]
        omega
  | write n fail => exact ⟨Nat.zero_le _, h.2⟩

/-- **C216**, partial: in every run, at most ten datagrams wait in the channel of a client's task and at most ten replies
    in the channel back. Missing: the lists before and behind these channels, see the next theorems. -/
theorem C216_channels_partial (timeout : Nat) (evs : List Ev) :
    (run timeout St.init evs).main.length ≤ 10 ∧ ∀ ch ∈ (run timeout St.init evs).children, ch.chan.length ≤ 10 := by
  have hall : ∀ s : St, Small s → Small (run timeout s evs) := by
    induction evs with
    | nil => intro s h; exact h
    | cons e evs ih => intro s h; exact ih _ (h.step e)
  exact hall _ ⟨Nat.zero_le _, fun ch hch => by cases hch⟩

theorem passLoop_sent (items : List (Bytes × Client)) : ∀ (s : St) (sched : List (List Nat)),
    (passLoop s items sched).sent = s.sent := by
  have htake : ∀ (ks : List Nat) (s : St), (ks.foldl take s).sent = s.sent := by
    intro ks
    induction ks with
    | nil => intro s; rfl
    | cons k ks ih => intro s; exact ih (take s k)
  induction items with
  | nil => intro s _; rfl
  | cons i items ih =>
    obtain ⟨d, c⟩ := i
    intro s sched
    have h1 := htake (sched.headD []) s
    simp only [passLoop]
    generalize (sched.headD []).foldl take s = s' at h1
    split
    · rw [ih, h1]
    · split <;> rw [ih] <;> exact h1

/-- **C216** fails for what clients send: in every run in which no client's task gets to send (its socket does not take
    anything) and none ends, all datagrams that ever arrived wait inside the program, however many. -/
theorem C216_in_fails (timeout : Nat) (evs : List Ev) (hs : Steady evs) (hn : ∀ e ∈ evs, ∀ k, e ≠ .send k) (c : Client)
    (d : Bytes) : waiting (run timeout St.init evs) c d = (run timeout St.init evs).arrived.count (c, d) := by
  have hsent : ∀ (evs : List Ev), (∀ e ∈ evs, ∀ k, e ≠ .send k) → ∀ s : St, (run timeout s evs).sent = s.sent := by
    intro evs
    induction evs with
    | nil => intro _ s; rfl
    | cons e evs ih =>
      intro hn s
      have h1 : (step timeout s e).sent = s.sent := by
        cases e with
        | send k => exact absurd rfl (hn _ List.mem_cons_self k)
        | recv up now c d =>
          show (recv timeout s up now c d).sent = _
          unfold recv open_
          dsimp only
          repeat' split
          all_goals rfl
        | pass sched => exact passLoop_sent _ _ _
        | take k => rfl
        | reply k src d =>
          show (reply s k d).sent = _
          unfold reply
          repeat' split
          all_goals rfl
        | endTask k => rfl
        | notice k =>
          show (notice s k).sent = _
          unfold notice
          repeat' split
          all_goals rfl
        | write n fail => rfl
      show (run timeout (step timeout s e) evs).sent = _
      rw [ih (fun x hx => hn x (List.mem_cons_of_mem _ hx)), h1]
  have h := C55_kept timeout evs hs c d
  have h0 : sentBy (run timeout St.init evs) = [] := by
    unfold sentBy
    rw [hsent evs hn St.init]; rfl
  rw [h0] at h
  rw [h]; simp

/-- a client that sends a hundred datagrams while the task's socket takes none -/
example : let evs := (List.range 100).flatMap fun i => [Ev.recv true 0 c1 [i.toUInt8], .pass [], .take 0]
    Steady evs ∧ (∀ e ∈ evs, ∀ k, e ≠ .send k) ∧ (run 60 St.init evs).arrived.length = 100 := by
  intro evs
  refine ⟨?_, ?_, by decide +kernel⟩
  · intro e he
    obtain ⟨i, _, hi⟩ := List.mem_flatMap.1 he
    simp only [List.mem_cons, List.not_mem_nil, or_false] at hi
    rcases hi with rfl | rfl | rfl <;> simp
  · intro e he k hk
    obtain ⟨i, _, hi⟩ := List.mem_flatMap.1 he
    subst hk
    simp at hi

/-- **C216** fails for what comes back: in every state in which the task of a client is at work and the channel back has
    room, if the socket towards the clients takes nothing for a while, every number of replies piles up. -/
theorem C216_out_fails (timeout : Nat) (s : St) (k : Nat) (ch : Child) (hk : s.children[k]? = some ch)
    (ha : ch.alive = true) (hm : s.main.length < 10) (src : SockAddr) (ds : List Bytes) (hd : ∀ d ∈ ds, d.length ≤ 9096)
    (hne : ds ≠ []) :
    (run timeout s (ds.flatMap fun d => [.reply k src d, .write 0 false])).writeCache =
      s.writeCache ++ s.main ++ ds.map fun d => (d, ch.client) := by
  induction ds generalizing s with
  | nil => exact absurd rfl hne
  | cons d ds ih =>
    have hstep : run timeout s [.reply k src d, .write 0 false] =
        { s with
          main := []
          writeCache := s.writeCache ++ (s.main ++ [(d, ch.client)])
          replies := s.replies ++ [((k, ch.client), some d)] } := by
      have hc : ¬ (¬ ch.alive = true ∨ capacity ≤ s.main.length) := by
        simp only [not_or, ha, capacity, not_true, not_false_eq_true, true_and]; omega
      have ht : d.take replySize = d := List.take_of_length_le (hd d List.mem_cons_self)
      simp only [run, List.foldl_cons, List.foldl_nil, step, reply, hk]
      rw [if_neg hc, ht]
      simp [write]
    rw [List.flatMap_cons]
    have hrun : run timeout s ([.reply k src d, .write 0 false] ++ ds.flatMap fun d => [.reply k src d, .write 0 false]) =
        run timeout (run timeout s [.reply k src d, .write 0 false]) (ds.flatMap fun d => [.reply k src d, .write 0 false]) := by
      simp [run]
    rw [hrun, hstep]
    cases ds with
    | nil => simp [run]
    | cons d2 ds =>
      have g := ih { s with
          main := []
          writeCache := s.writeCache ++ (s.main ++ [(d, ch.client)])
          replies := s.replies ++ [((k, ch.client), some d)] } hk (by simp)
        (fun x hx => hd x (List.mem_cons_of_mem _ hx)) (by simp)
      rw [g]
      simp

/-- the first client's task, with three replies waiting -/
example : ((run 60 St.init ([.recv true 0 c1 [1]] ++ ([[7], [8], [9]] : List Bytes).flatMap fun d => [.reply 0 c2 d, .write 0 false])).writeCache) =
    [([7], c1), ([8], c1), ([9], c1)] := by
  decide +kernel

/-- sending to a client fails -/
def failsSend : Ev → Bool
  | .write _ true => true
  | _ => false

/-- **C55** Every failure to send to a client loses at most one reply: what was sent, and what is still held, is what came, in
    order, less at most one for every failure. -/
theorem C55_replies_lost (timeout : Nat) (evs : List Ev) :
    outgoing (run timeout St.init evs) <+ (run timeout St.init evs).replies.map due ∧
    (run timeout St.init evs).replies.length ≤ (outgoing (run timeout St.init evs)).length + evs.countP failsSend := by
  refine ⟨run_out timeout evs St.init (List.Sublist.refl _), ?_⟩
  have main : ∀ (evs : List Ev) (s : St) (n : Nat), s.replies.length ≤ (outgoing s).length + n →
      (run timeout s evs).replies.length ≤ (outgoing (run timeout s evs)).length + (n + evs.countP failsSend) := by
    intro evs
    induction evs with
    | nil => exact fun s n h => h
    | cons e es ih =>
      intro s n h
      have h1 : (step timeout s e).replies.length ≤ (outgoing (step timeout s e)).length + (n + if failsSend e then 1 else 0) := by
        rcases step_out timeout s e with h1 | ⟨h1, h2⟩ | ⟨x, h1, h2⟩ | ⟨k, he, -, h2⟩
        · rw [h1]; omega
        · rw [h1, h2]; omega
        · rw [h1, h2]; simp only [List.length_append, List.length_cons, List.length_nil]; omega
        · rw [h2, he]
          simp only [failsSend, if_true, step, write, outgoing, List.length_append, List.length_map, List.length_drop,
            List.length_take] at h ⊢
          omega
      have h2 := ih _ _ h1
      rw [List.countP_cons]
      have e1 : run timeout s (e :: es) = run timeout (step timeout s e) es := rfl
      rw [e1]
      omega
  simpa using main evs St.init 0 (Nat.zero_le _)

/-- three replies, the second of which cannot be sent -/
example : let evs := [Ev.recv true 0 c1 [1], .reply 0 upstream [7], .reply 0 upstream [8], .reply 0 upstream [9], .write 1 true, .write 5 false]
    (run 60 St.init evs).delivered = [(c1, [7]), (c1, [9])] ∧ evs.countP failsSend = 1 := by decide +kernel

end Wm.Udp
