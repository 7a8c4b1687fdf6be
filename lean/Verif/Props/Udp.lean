import Verif.Model.Udp
import Mathlib.Tactic.Tauto
import Mathlib.Tactic.ByContra
/-!
Properties C55, C85–C88: UDP forwarding (src/reverse/stream.rs).
-/
namespace Wm.Udp
open Wm
open scoped List

/-! ### Basic facts -/

theorem lookup_cons_self (c : Client) (v : Nat × Nat) (es : List (Client × (Nat × Nat))) :
    lookup ((c, v) :: es) c = some v := by simp [lookup]

theorem lookup_cons_ne {c c' : Client} (v : Nat × Nat) (es : List (Client × (Nat × Nat))) (h : c ≠ c') :
    lookup ((c, v) :: es) c' = lookup es c' := by simp [lookup, h]

theorem lookup_remove_ne {c c' : Client} (es : List (Client × (Nat × Nat))) (h : c ≠ c') :
    lookup (remove es c) c' = lookup es c' := by
  unfold lookup remove
  rw [List.find?_filter]
  congr 2
  funext a
  by_cases ha : a.1 = c'
  · simp [ha, Ne.symm h]
  · simp [ha]

theorem lookup_remove_self (c : Client) (es : List (Client × (Nat × Nat))) : lookup (remove es c) c = none := by
  unfold lookup remove
  rw [List.find?_filter]
  simp

theorem getElem?_upd (cs : List Child) (k i : Nat) (f : Child → Child) :
    (updChild cs k f)[i]? = (cs[i]?).map (fun ch => if k = i then f ch else ch) := by
  unfold updChild; rw [List.getElem?_modify]; rfl

theorem getElem?_upd_some {cs : List Child} {k i : Nat} {f : Child → Child} {ch : Child}
    (h : (updChild cs k f)[i]? = some ch) : ∃ o, cs[i]? = some o ∧ ch = if k = i then f o else o := by
  rw [getElem?_upd, Option.map_eq_some_iff] at h
  obtain ⟨o, h1, h2⟩ := h
  exact ⟨o, h1, h2.symm⟩

/-! ### Whose datagrams go where -/

/-- The bookkeeping is consistent; `r` are the datagrams a pass over the cache still has to look at. -/
structure Inv (s : St) (r : List (Bytes × Client)) : Prop where
  owner : ∀ c k t, lookup s.entries c = some (k, t) → ∃ ch : Child, s.children[k]? = some ch ∧ ch.client = c
  cache : ∀ x ∈ s.sendCache ++ r, (x.2, x.1) ∈ s.arrived
  held : ∀ (k : Nat) (ch : Child), s.children[k]? = some ch → ∀ d ∈ ch.chan ++ ch.queue, (ch.client, d) ∈ s.arrived
  sent : ∀ k c d, ((k, c), d) ∈ s.sent → (∃ ch : Child, s.children[k]? = some ch ∧ ch.client = c) ∧ (c, d) ∈ s.arrived

theorem Inv.init : Inv St.init [] := by
  constructor <;> simp [St.init, lookup]

theorem Inv.take {s : St} {r : List (Bytes × Client)} (h : Inv s r) (k : Nat) : Inv (take s k) r := by
  have hc : ∀ (i : Nat) (ch : Child), (Udp.take s k).children[i]? = some ch →
      ∃ o, s.children[i]? = some o ∧ ch.client = o.client ∧ ∀ d ∈ ch.chan ++ ch.queue, d ∈ o.chan ++ o.queue := by
    intro i ch hi
    obtain ⟨o, h1, h2⟩ := getElem?_upd_some hi
    refine ⟨o, h1, ?_⟩
    subst h2
    split
    · split
      · exact ⟨rfl, fun d hd => hd⟩
      · rename_i d0 rr hch
        split
        · refine ⟨rfl, fun d hd => ?_⟩
          rw [hch]
          simp only [List.mem_append, List.mem_cons, List.not_mem_nil, or_false] at hd ⊢
          rcases hd with h | h | h
          · exact Or.inl (Or.inr h)
          · exact Or.inr h
          · exact Or.inl (Or.inl h)
        · exact ⟨rfl, fun d hd => hd⟩
    · exact ⟨rfl, fun d hd => hd⟩
  have hc' : ∀ (i : Nat) (o : Child), s.children[i]? = some o → ∃ ch, (Udp.take s k).children[i]? = some ch ∧ ch.client = o.client := by
    intro i o hi
    have : (Udp.take s k).children[i]? ≠ none := by
      unfold Udp.take; simp only; rw [getElem?_upd, hi]; simp
    cases hch : (Udp.take s k).children[i]? with
    | none => exact absurd hch this
    | some ch =>
      obtain ⟨o', h1, h2, -⟩ := hc i ch hch
      rw [hi] at h1; injection h1 with h1; subst h1
      exact ⟨ch, rfl, h2⟩
  constructor
  · intro c k' t hl
    obtain ⟨o, h1, h2⟩ := h.owner c k' t hl
    obtain ⟨ch, h3, h4⟩ := hc' k' o h1
    exact ⟨ch, h3, h4.trans h2⟩
  · exact h.cache
  · intro i ch hi d hd
    obtain ⟨o, h1, h2, h3⟩ := hc i ch hi
    rw [h2]
    exact h.held i o h1 d (h3 d hd)
  · intro k' c d hs
    obtain ⟨⟨o, h1, h2⟩, h3⟩ := h.sent k' c d hs
    obtain ⟨ch, h4, h5⟩ := hc' k' o h1
    exact ⟨⟨ch, h4, h5.trans h2⟩, h3⟩

/-- a change of one task that keeps its client, and holds nothing new but datagrams of its client -/
theorem Inv.upd {s : St} {r : List (Bytes × Client)} (h : Inv s r) (k : Nat) (f : Child → Child)
    (hf : ∀ ch, s.children[k]? = some ch → (f ch).client = ch.client ∧
      ∀ d ∈ (f ch).chan ++ (f ch).queue, d ∈ ch.chan ++ ch.queue ∨ (ch.client, d) ∈ s.arrived) :
    Inv { s with children := updChild s.children k f } r := by
  have hc' : ∀ (i : Nat) (o : Child), s.children[i]? = some o →
      ∃ ch, (updChild s.children k f)[i]? = some ch ∧ ch.client = o.client := by
    intro i o hi
    rw [getElem?_upd, hi]
    refine ⟨_, rfl, ?_⟩
    split
    · rename_i hk; subst hk; exact (hf o hi).1
    · rfl
  constructor
  · intro c k' t hl
    obtain ⟨o, h1, h2⟩ := h.owner c k' t hl
    obtain ⟨ch, h3, h4⟩ := hc' k' o h1
    exact ⟨ch, h3, h4.trans h2⟩
  · exact h.cache
  · intro i ch hi d hd
    obtain ⟨o, h1, h2⟩ := getElem?_upd_some hi
    subst h2
    split at hd
    · rename_i hk; subst hk
      rw [if_pos rfl, (hf o h1).1]
      rcases (hf o h1).2 d hd with h3 | h3
      · exact h.held k o h1 d h3
      · exact h3
    · rename_i hk; rw [if_neg hk]; exact h.held i o h1 d hd
  · intro k' c d hs
    obtain ⟨⟨o, h1, h2⟩, h3⟩ := h.sent k' c d hs
    obtain ⟨ch, h4, h5⟩ := hc' k' o h1
    exact ⟨⟨ch, h4, h5.trans h2⟩, h3⟩

theorem foldl_take_inv {s : St} {r : List (Bytes × Client)} (h : Inv s r) (ks : List Nat) : Inv (ks.foldl take s) r := by
  induction ks generalizing s with
  | nil => exact h
  | cons k ks ih => exact ih (h.take k)

theorem passLoop_inv (r : List (Bytes × Client)) : ∀ (s : St) (sched : List (List Nat)), Inv s r → Inv (passLoop s r sched) [] := by
  induction r with
  | nil => intro s _ h; exact h
  | cons x r ih =>
    intro s sched h
    obtain ⟨d, c⟩ := x
    simp only [passLoop]
    have h' := foldl_take_inv h (sched.headD [])
    generalize (sched.headD []).foldl take s = s' at h'
    have hmem : (c, d) ∈ s'.arrived := h'.cache (d, c) (by simp)
    have hdrop : Inv s' r := ⟨h'.owner, fun x hx => h'.cache x (by
      simp only [List.mem_append, List.mem_cons] at hx ⊢; tauto), h'.held, h'.sent⟩
    split
    · exact ih _ _ hdrop
    · rename_i k t hl
      split
      · exact ih _ _ hdrop
      · refine ih _ _ ⟨h'.owner, fun x hx => h'.cache x (by
          simp only [List.mem_append, List.mem_cons, List.not_mem_nil, or_false] at hx ⊢; tauto), h'.held, h'.sent⟩
      · refine ih _ _ (hdrop.upd k _ ?_)
        intro ch hch
        obtain ⟨ch', h1, h2⟩ := h'.owner c k t hl
        rw [hch] at h1; injection h1 with h1; subst h1
        refine ⟨rfl, fun d' hd' => ?_⟩
        simp only [List.mem_append, List.mem_cons, List.not_mem_nil, or_false] at hd' ⊢
        rcases hd' with (h | h) | h
        · exact Or.inl (Or.inl h)
        · subst h; rw [h2]; exact Or.inr hmem
        · exact Or.inl (Or.inr h)

theorem Inv.arrive {s : St} (h : Inv s []) (x : Client × Bytes) : Inv { s with arrived := s.arrived ++ [x] } [] :=
  ⟨h.owner, fun y hy => List.mem_append_left _ (h.cache y hy), fun k ch hk d hd => List.mem_append_left _ (h.held k ch hk d hd),
    fun k c d hs => ⟨(h.sent k c d hs).1, List.mem_append_left _ (h.sent k c d hs).2⟩⟩

theorem Inv.remove {s : St} (h : Inv s []) (c : Client) : Inv { s with entries := remove s.entries c } [] := by
  refine ⟨fun c' k t hl => ?_, h.cache, h.held, h.sent⟩
  by_cases hc : c = c'
  · subst hc; rw [show lookup (Udp.remove s.entries c) c = none from lookup_remove_self c _] at hl; cases hl
  · rw [show lookup (Udp.remove s.entries c) c' = _ from lookup_remove_ne _ hc] at hl
    exact h.owner c' k t hl

theorem Inv.open_ {s : St} (h : Inv s []) (up : Bool) (now : Nat) (c : Client) (d : Bytes) (hd : (c, d) ∈ s.arrived) :
    Inv (open_ s up now c d) [] := by
  unfold Udp.open_
  split
  · exact h
  · have hold : ∀ (i : Nat) (o : Child), s.children[i]? = some o → (s.children ++ [⟨c, [], [d], true, false⟩])[i]? = some o := by
      intro i o hi
      rw [List.getElem?_append]
      have : i < s.children.length := by
        by_contra hh
        rw [List.getElem?_eq_none (by omega)] at hi; cases hi
      rw [if_pos this]; exact hi
    constructor
    · intro c' k t hl
      by_cases hc : c = c'
      · subst hc
        rw [lookup_cons_self] at hl
        injection hl with hl; injection hl with h1 h2
        subst h1
        exact ⟨⟨c, [], [d], true, false⟩, by simp, rfl⟩
      · rw [lookup_cons_ne _ _ hc] at hl
        obtain ⟨o, h1, h2⟩ := h.owner c' k t hl
        exact ⟨o, hold k o h1, h2⟩
    · exact h.cache
    · intro i ch hi d' hd'
      rw [List.getElem?_append] at hi
      split at hi
      · exact h.held i ch hi d' hd'
      · rw [List.getElem?_singleton] at hi
        split at hi
        · injection hi with hi; subst hi
          simp only [List.nil_append, List.mem_singleton] at hd'
          subst hd'; exact hd
        · cases hi
    · intro k c' d' hs
      obtain ⟨⟨o, h1, h2⟩, h3⟩ := h.sent k c' d' hs
      exact ⟨⟨o, hold k o h1, h2⟩, h3⟩

theorem Inv.step {timeout : Nat} {s : St} (h : Inv s []) (e : Ev) : Inv (step timeout s e) [] := by
  cases e with
  | recv up now c d =>
    have ha := h.arrive (c, d)
    have hmem : (c, d) ∈ s.arrived ++ [(c, d)] := by simp
    simp only [Udp.step, Udp.recv]
    split
    · rename_i k last hl
      split
      · have hr := ha.remove c
        refine ⟨fun c' k' t hl' => ?_, fun x hx => ?_, ha.held, ha.sent⟩
        · by_cases hc : c = c'
          · subst hc
            simp only at hl'
            rw [lookup_cons_self] at hl'
            injection hl' with hl'; injection hl' with h1 h2
            subst h1
            exact ha.owner c k last hl
          · simp only at hl'
            rw [lookup_cons_ne _ _ hc] at hl'
            exact hr.owner c' k' t hl'
        · simp only [List.append_nil, List.mem_append, List.mem_singleton] at hx
          rcases hx with hx | hx
          · exact ha.cache x (by simpa using hx)
          · subst hx; exact hmem
      · exact (ha.remove c).open_ up now c d hmem
    · exact ha.open_ up now c d hmem
  | pass sched =>
    simp only [Udp.step, pass]
    refine passLoop_inv _ _ _ ⟨h.owner, fun x hx => h.cache x (by simpa using hx), h.held, h.sent⟩
  | take k => exact h.take k
  | send k =>
    simp only [Udp.step, send]
    split
    · exact h
    · rename_i ch hch
      split
      · exact h
      · split
        · exact h
        · rename_i d r hq
          have hu := h.upd k (fun ch => { ch with queue := r }) (by
            intro ch' hch'
            rw [hch] at hch'; injection hch' with hch'; subst hch'
            refine ⟨rfl, fun d' hd' => Or.inl ?_⟩
            rw [hq]
            simp only [List.mem_append, List.mem_cons] at hd' ⊢; tauto)
          refine ⟨hu.owner, hu.cache, hu.held, ?_⟩
          intro k' c' d' hs
          simp only [List.mem_append, List.mem_singleton, Prod.mk.injEq] at hs
          rcases hs with hs | ⟨⟨rfl, rfl⟩, rfl⟩
          · exact hu.sent k' c' d' hs
          · refine ⟨⟨{ ch with queue := r }, ?_, rfl⟩, ?_⟩
            · simp only; rw [getElem?_upd, hch]; simp
            · exact h.held k' ch hch d' (by rw [hq]; simp)
  | reply k src d =>
    simp only [Udp.step, reply]
    split
    · exact h
    · split
      · exact h
      · exact ⟨h.owner, h.cache, h.held, h.sent⟩
  | endTask k => exact h.upd k _ (fun ch _ => ⟨rfl, fun d hd => Or.inl hd⟩)
  | notice k =>
    simp only [Udp.step, notice]
    split
    · exact h
    · split
      · exact h
      · have := h.upd k (fun ch => { ch with noticed := true }) (fun ch _ => ⟨rfl, fun d hd => Or.inl hd⟩)
        exact ⟨this.owner, this.cache, this.held, this.sent⟩
  | write n fail => exact ⟨h.owner, h.cache, h.held, h.sent⟩

theorem Inv.run (timeout : Nat) (evs : List Ev) : ∀ {s : St}, Inv s [] → Inv (run timeout s evs) [] := by
  induction evs with
  | nil => intro s h; exact h
  | cons e es ih => intro s h; exact ih (h.step e)

/-- **C55** Whatever is sent to the upstream server through the socket of a client is a datagram of that client; a socket
    belongs to one client. -/
theorem C55_isolated (timeout : Nat) (evs : List Ev) (k : Nat) (c : Client) (d : Bytes)
    (h : ((k, c), d) ∈ (run timeout St.init evs).sent) :
    (c, d) ∈ (run timeout St.init evs).arrived ∧
      ∀ c' d', ((k, c'), d') ∈ (run timeout St.init evs).sent → c' = c := by
  have hi := Inv.run timeout evs Inv.init
  obtain ⟨⟨ch, h1, h2⟩, h3⟩ := hi.sent k c d h
  refine ⟨h3, fun c' d' h' => ?_⟩
  obtain ⟨⟨ch', h4, h5⟩, -⟩ := hi.sent k c' d' h'
  rw [h1] at h4; injection h4 with h4; subst h4
  exact h5.symm.trans h2

/-! ### Replies -/

/-- the datagram a client should get for what a task got (cut to the buffer) or announced -/
def due (x : (Nat × Client) × Option Bytes) : Client × Bytes := (x.1.2, (x.2.getD []).take replySize)

def flip (x : Bytes × Client) : Client × Bytes := (x.2, x.1)

/-- what was, or is still to be, sent to clients -/
def outgoing (s : St) : List (Client × Bytes) := s.delivered ++ (s.writeCache ++ s.main).map flip

/-- sending to a client never failed -/
def NoFail (evs : List Ev) : Prop := ∀ n, Ev.write n true ∉ evs

theorem take_rest (s : St) (k : Nat) : outgoing (take s k) = outgoing s ∧ (take s k).replies = s.replies := ⟨rfl, rfl⟩

theorem foldl_take_rest (ks : List Nat) : ∀ s, outgoing (ks.foldl take s) = outgoing s ∧ (ks.foldl take s).replies = s.replies := by
  induction ks with
  | nil => exact fun s => ⟨rfl, rfl⟩
  | cons k ks ih => exact fun s => ih (take s k)

theorem passLoop_rest (r : List (Bytes × Client)) : ∀ s sched, outgoing (passLoop s r sched) = outgoing s ∧
    (passLoop s r sched).replies = s.replies := by
  induction r with
  | nil => exact fun s _ => ⟨rfl, rfl⟩
  | cons x r ih =>
    intro s sched
    obtain ⟨d, c⟩ := x
    simp only [passLoop]
    obtain ⟨h1, h2⟩ := foldl_take_rest (sched.headD []) s
    generalize (sched.headD []).foldl take s = s' at h1 h2
    rw [← h1, ← h2]
    split
    · exact ih _ _
    · split <;> exact ih _ _

theorem open_rest (s : St) (up : Bool) (now : Nat) (c : Client) (d : Bytes) :
    outgoing (open_ s up now c d) = outgoing s ∧ (open_ s up now c d).replies = s.replies := by
  unfold open_; split <;> exact ⟨rfl, rfl⟩

theorem recv_rest (timeout : Nat) (s : St) (up : Bool) (now : Nat) (c : Client) (d : Bytes) :
    outgoing (recv timeout s up now c d) = outgoing s ∧ (recv timeout s up now c d).replies = s.replies := by
  simp only [recv]
  split
  · split
    · exact ⟨rfl, rfl⟩
    · exact open_rest _ _ _ _ _
  · exact open_rest _ _ _ _ _

theorem step_out (timeout : Nat) (s : St) (e : Ev) :
    (step timeout s e = s) ∨
    (outgoing (step timeout s e) = outgoing s ∧ (step timeout s e).replies = s.replies) ∨
    (∃ x, outgoing (step timeout s e) = outgoing s ++ [due x] ∧ (step timeout s e).replies = s.replies ++ [x]) ∨
    (∃ n, e = .write n true ∧ outgoing (step timeout s e) <+ outgoing s ∧ (step timeout s e).replies = s.replies) := by
  cases e with
  | recv up now c d => exact Or.inr (Or.inl (recv_rest ..))
  | pass sched => exact Or.inr (Or.inl (passLoop_rest _ { s with sendCache := [] } sched))
  | take k => exact Or.inr (Or.inl ⟨rfl, rfl⟩)
  | send k =>
    simp only [step, send]
    split
    · exact Or.inl rfl
    · split
      · exact Or.inl rfl
      · split
        · exact Or.inl rfl
        · exact Or.inr (Or.inl ⟨rfl, rfl⟩)
  | reply k src d =>
    simp only [step, reply]
    split
    · exact Or.inl rfl
    · rename_i ch _
      split
      · exact Or.inl rfl
      · refine Or.inr (Or.inr (Or.inl ⟨((k, ch.client), some d), ?_, rfl⟩))
        simp [outgoing, flip, due]
  | endTask k => exact Or.inr (Or.inl ⟨rfl, rfl⟩)
  | notice k =>
    simp only [step, notice]
    split
    · exact Or.inl rfl
    · rename_i ch _
      split
      · exact Or.inl rfl
      · refine Or.inr (Or.inr (Or.inl ⟨((k, ch.client), none), ?_, rfl⟩))
        simp [outgoing, flip, due]
  | write n fail =>
    have hsplit : (s.writeCache ++ s.main).map flip =
        ((s.writeCache ++ s.main).take n).map (fun x => (x.2, x.1)) ++ ((s.writeCache ++ s.main).drop n).map flip := by
      conv_lhs => rw [← List.take_append_drop n (s.writeCache ++ s.main), List.map_append]
      rfl
    cases fail with
    | false =>
      refine Or.inr (Or.inl ⟨?_, rfl⟩)
      simp only [step, write, outgoing, Bool.false_eq_true, if_false, List.drop_zero, List.append_nil]
      rw [hsplit, List.append_assoc]
    | true =>
      refine Or.inr (Or.inr (Or.inr ⟨n, rfl, ?_, rfl⟩))
      simp only [step, write, outgoing, if_true, List.append_nil]
      rw [hsplit, List.append_assoc]
      refine (List.Sublist.refl _).append ((List.Sublist.refl _).append ?_)
      exact (List.drop_sublist _ _).map _

theorem run_out (timeout : Nat) (evs : List Ev) : ∀ s, outgoing s <+ s.replies.map due →
    outgoing (run timeout s evs) <+ (run timeout s evs).replies.map due := by
  induction evs with
  | nil => exact fun s h => h
  | cons e es ih =>
    intro s h
    refine ih _ ?_
    rcases step_out timeout s e with h1 | ⟨h1, h2⟩ | ⟨x, h1, h2⟩ | ⟨n, -, h1, h2⟩
    · rw [h1]; exact h
    · rw [h1, h2]; exact h
    · rw [h1, h2, List.map_append]; exact h.append (List.Sublist.refl _)
    · rw [h2]; exact h1.trans h

/-- **C55** What clients get is, in order and each at most once, what came to the sockets opened for them (cut
    to 9096 bytes) or announced. -/
theorem C55_replies (timeout : Nat) (evs : List Ev) :
    (run timeout St.init evs).delivered <+ (run timeout St.init evs).replies.map due :=
  (List.sublist_append_left _ _).trans (run_out timeout evs St.init (List.Sublist.refl _))

/-- **C55** If sending to clients never fails, nothing of it is lost: what was not sent yet is still held. -/
theorem C55_replies_kept (timeout : Nat) (evs : List Ev) (hn : NoFail evs) :
    outgoing (run timeout St.init evs) = (run timeout St.init evs).replies.map due := by
  have main : ∀ (evs : List Ev) (s : St), NoFail evs → outgoing s = s.replies.map due →
      outgoing (run timeout s evs) = (run timeout s evs).replies.map due := by
    intro evs
    induction evs with
    | nil => exact fun s _ h => h
    | cons e es ih =>
      intro s hn h
      refine ih _ (fun n hm => hn n (List.mem_cons_of_mem _ hm)) ?_
      rcases step_out timeout s e with h1 | ⟨h1, h2⟩ | ⟨x, h1, h2⟩ | ⟨n, he, -, -⟩
      · rw [h1]; exact h
      · rw [h1, h2]; exact h
      · rw [h1, h2, List.map_append, h]; rfl
      · exact absurd (by rw [he]; exact List.mem_cons_self) (hn n)
  exact main evs St.init hn rfl

/-! ### Concrete runs -/

def c1 : Client := ⟨.v4 1, 1000⟩
def c2 : Client := ⟨.v4 2, 1000⟩
def upstream : SockAddr := ⟨.v4 0x0A000001, 53⟩

example : (run 60 St.init [.recv true 0 c1 [1], .recv true 0 c2 [2], .recv true 1 c1 [3], .pass [], .take 0, .send 0,
    .send 1, .send 0, .reply 1 upstream [9], .reply 0 upstream [8], .write 5 false]).sent = [((0, c1), [1]), ((1, c2), [2]), ((0, c1), [3])] := by
  decide +kernel
example : (run 60 St.init [.recv true 0 c1 [1], .recv true 0 c2 [2], .reply 1 upstream [9], .reply 0 upstream [8], .write 5 false]).delivered =
    [(c2, [9]), (c1, [8])] := by decide +kernel

/-! ### Order towards the upstream server -/

/-- the datagrams of a client in order of arrival -/
def fromClient (s : St) (c : Client) : List Bytes := s.arrived.filterMap (fun x => if x.1 = c then some x.2 else none)
/-- the datagrams sent through a socket in order -/
def throughSocket (s : St) (k : Nat) : List Bytes := s.sent.filterMap (fun x => if x.1.1 = k then some x.2 else none)

/-- **C55** is false as to order: the datagrams of one client may overtake each other. While the cache is gone through, a
    task may take a datagram from its full channel after one datagram was put back and before the next is looked at. -/
theorem C55_order_fails : ∃ evs : List Ev, ¬ (throughSocket (run 60 St.init evs) 0 <+ fromClient (run 60 St.init evs) c1) := by
  refine ⟨[.recv true 0 c1 [0]] ++ (List.range 10).map (fun i => .recv true 0 c1 [UInt8.ofNat (i + 1)]) ++ [.pass []] ++
    [.recv true 0 c1 [11], .recv true 0 c1 [12], .pass [[], [0]]] ++
    [.take 0, .take 0, .take 0, .take 0, .take 0, .take 0, .take 0, .take 0, .take 0, .take 0, .pass [], .take 0] ++
    (List.range 13).map (fun _ => .send 0), ?_⟩
  decide +kernel

/-- the datagrams of a client in a list -/
def pend (l : List (Bytes × Client)) (c : Client) : List Bytes := l.filterMap (fun x => if x.2 = c then some x.1 else none)

/-- The two situations in which order is lost do not occur in this step: a task taking a datagram while the cache is gone
    through (on a runtime with one thread this cannot happen), and a new association for a client with datagrams still in
    the cache. -/
def CalmStep (timeout : Nat) (s : St) : Ev → Prop
  | .pass sched => ∀ ks ∈ sched, ks = []
  | .recv _ now c _ => (∃ k last, lookup s.entries c = some (k, last) ∧ now - last ≤ timeout) ∨ pend s.sendCache c = []
  | _ => True

def Calm (timeout : Nat) : St → List Ev → Prop
  | _, [] => True
  | s, e :: es => CalmStep timeout s e ∧ Calm timeout (step timeout s e) es

/-- the datagrams task `k` has sent and still holds, in order -/
def line (s : St) (k : Nat) (ch : Child) : List Bytes := throughSocket s k ++ (ch.queue ++ ch.chan)

structure Ord (s : St) (r : List (Bytes × Client)) : Prop where
  inv : Inv s r
  all : ∀ (k : Nat) (ch : Child), s.children[k]? = some ch → line s k ch <+ fromClient s ch.client
  cur : ∀ (c : Client) (k t : Nat) (ch : Child), lookup s.entries c = some (k, t) → s.children[k]? = some ch →
    line s k ch ++ pend (s.sendCache ++ r) c <+ fromClient s c

theorem Ord.init : Ord St.init [] :=
  ⟨Inv.init, by simp [St.init], by simp [St.init, lookup]⟩

theorem pend_append (l m : List (Bytes × Client)) (c : Client) : pend (l ++ m) c = pend l c ++ pend m c :=
  List.filterMap_append
theorem pend_cons_self (d : Bytes) (m : List (Bytes × Client)) (c : Client) : pend ((d, c) :: m) c = d :: pend m c := by
  simp [pend]
theorem pend_cons_ne (d : Bytes) (m : List (Bytes × Client)) {c c' : Client} (h : c ≠ c') :
    pend ((d, c) :: m) c' = pend m c' := by simp [pend, h]

/-- datagrams put back in this pass belong to tasks with a full channel -/
def Blocked (s : St) : Prop := ∀ c, pend s.sendCache c ≠ [] → ∀ k t, lookup s.entries c = some (k, t) → room s k = .full

theorem Ord.drop {s : St} {x : Bytes × Client} {r : List (Bytes × Client)} (h : Ord s (x :: r)) (hi : Inv s r) : Ord s r := by
  refine ⟨hi, h.all, fun c k t ch h1 h2 => ?_⟩
  refine List.Sublist.trans ?_ (h.cur c k t ch h1 h2)
  refine (List.Sublist.refl _).append ?_
  exact ((List.Sublist.refl _).append (List.sublist_cons_self _ _)).filterMap _

theorem passLoop_ord (r : List (Bytes × Client)) : ∀ (s : St) (sched : List (List Nat)), (∀ ks ∈ sched, ks = []) → Ord s r →
    Blocked s → Ord (passLoop s r sched) [] := by
  induction r with
  | nil => intro s _ _ h _; exact h
  | cons x r ih =>
    intro s sched hs h hb
    obtain ⟨d, c⟩ := x
    have hhead : sched.headD [] = [] := by
      cases sched with
      | nil => rfl
      | cons a l => exact hs a List.mem_cons_self
    have htail : ∀ ks ∈ sched.tail, ks = [] := fun ks hk => hs ks (List.mem_of_mem_tail hk)
    simp only [passLoop]
    rw [hhead]
    simp only [List.foldl_nil]
    have hdropI : Inv s r := ⟨h.inv.owner, fun x hx => h.inv.cache x (by
      simp only [List.mem_append, List.mem_cons] at hx ⊢; tauto), h.inv.held, h.inv.sent⟩
    split
    · exact ih _ _ htail (h.drop hdropI) hb
    · rename_i k t hl
      split
      · exact ih _ _ htail (h.drop hdropI) hb
      · rename_i hroom
        refine ih _ _ htail ⟨⟨h.inv.owner, fun x hx => h.inv.cache x (by
          simp only [List.mem_append, List.mem_cons, List.not_mem_nil, or_false] at hx ⊢; tauto), h.inv.held, h.inv.sent⟩,
          h.all, fun c' k' t' ch h1 h2 => ?_⟩ ?_
        · have := h.cur c' k' t' ch h1 h2
          rw [List.append_assoc]
          exact this
        · intro c' hp k' t' hl'
          show room s k' = .full
          by_cases hc : c = c'
          · subst hc
            simp only at hl'
            rw [hl] at hl'; injection hl' with hl'; injection hl' with h1 h2
            rw [← h1]; exact hroom
          · refine hb c' ?_ k' t' hl'
            simp only at hp
            rw [pend_append, pend_cons_ne _ _ hc] at hp
            simpa [pend] using hp
      · rename_i hroom
        have hpn : pend s.sendCache c = [] := by
          by_contra hh
          have := hb c hh k t hl
          rw [hroom] at this; cases this
        obtain ⟨ch, hch, hcl⟩ := h.inv.owner c k t hl
        have hmem : (c, d) ∈ s.arrived := h.inv.cache (d, c) (by simp)
        have hI := hdropI.upd k (fun ch => { ch with chan := ch.chan ++ [d] }) (by
          intro ch' hch'
          rw [hch] at hch'; injection hch' with hch'; subst hch'
          refine ⟨rfl, fun d' hd' => ?_⟩
          simp only [List.mem_append, List.mem_cons, List.not_mem_nil, or_false] at hd' ⊢
          rcases hd' with (h | h) | h
          · exact Or.inl (Or.inl h)
          · subst h; rw [hcl]; exact Or.inr hmem
          · exact Or.inl (Or.inr h))
        have hcur := h.cur c k t ch hl hch
        rw [pend_append, hpn, List.nil_append, pend_cons_self] at hcur
        have hnew : line s k { ch with chan := ch.chan ++ [d] } ++ pend r c = line s k ch ++ d :: pend r c := by
          simp [line, throughSocket]
        refine ih _ _ htail ⟨hI, ?_, ?_⟩ ?_
        · intro k' ch' hk'
          obtain ⟨o, h1, h2⟩ := getElem?_upd_some hk'
          by_cases hk : k = k'
          · subst hk
            rw [hch] at h1; injection h1 with h1; subst h1
            rw [if_pos rfl] at h2; subst h2
            show line s k { ch with chan := ch.chan ++ [d] } <+ fromClient s ch.client
            rw [show fromClient s ch.client = fromClient s c by rw [hcl]]
            refine List.Sublist.trans (List.sublist_append_left _ (pend r c)) ?_
            rw [hnew]; exact hcur
          · rw [if_neg hk] at h2; subst h2
            exact h.all k' ch' h1
        · intro c' k' t' ch' hl' hk'
          obtain ⟨o, h1, h2⟩ := getElem?_upd_some hk'
          by_cases hk : k = k'
          · subst hk
            rw [hch] at h1; injection h1 with h1; subst h1
            rw [if_pos rfl] at h2; subst h2
            obtain ⟨o', h3, h4⟩ := h.inv.owner c' k t' hl'
            rw [hch] at h3; injection h3 with h3; subst h3
            have hcc : c' = c := h4.symm.trans hcl
            subst hcc
            show line s k { ch with chan := ch.chan ++ [d] } ++ pend (s.sendCache ++ r) c' <+ fromClient s c'
            rw [pend_append, hpn, List.nil_append, hnew]; exact hcur
          · rw [if_neg hk] at h2; subst h2
            have hc : c ≠ c' := by
              intro hcc; subst hcc
              simp only at hl'
              rw [hl] at hl'; injection hl' with hl'; injection hl' with h5 h6
              exact hk h5
            have := h.cur c' k' t' ch' hl' h1
            rw [pend_append, pend_cons_ne _ _ hc, ← pend_append] at this
            exact this
        · intro c' hp k' t' hl'
          have hc : c ≠ c' := by intro hcc; subst hcc; exact hp hpn
          have hk : k ≠ k' := by
            intro hkk; subst hkk
            obtain ⟨o', h3, h4⟩ := h.inv.owner c' k t' hl'
            rw [hch] at h3; injection h3 with h3; subst h3
            exact hc (hcl.symm.trans h4)
          have := hb c' hp k' t' hl'
          unfold room at this ⊢
          simp only
          rw [getElem?_upd]
          cases hx : s.children[k']? with
          | none => rw [hx] at this; exact this
          | some o => rw [hx] at this; simp only [Option.map_some, if_neg hk]; exact this

/-- a change of tasks that keeps, for each, the order of what it holds -/
theorem Ord.upd {s : St} (h : Ord s []) (k : Nat) (f : Child → Child)
    (hf : ∀ ch, s.children[k]? = some ch → (f ch).client = ch.client ∧ (f ch).queue ++ (f ch).chan = ch.queue ++ ch.chan)
    (hi : Inv { s with children := updChild s.children k f } []) : Ord { s with children := updChild s.children k f } [] := by
  refine ⟨hi, ?_, ?_⟩
  · intro k' ch' hk'
    obtain ⟨o, h1, h2⟩ := getElem?_upd_some hk'
    by_cases hk : k = k'
    · subst hk
      rw [if_pos rfl] at h2; subst h2
      obtain ⟨h3, h4⟩ := hf o h1
      show throughSocket s k ++ _ <+ _
      rw [h4, h3]; exact h.all k o h1
    · rw [if_neg hk] at h2; subst h2
      exact h.all k' ch' h1
  · intro c k' t ch' hl hk'
    obtain ⟨o, h1, h2⟩ := getElem?_upd_some hk'
    by_cases hk : k = k'
    · subst hk
      rw [if_pos rfl] at h2; subst h2
      obtain ⟨h3, h4⟩ := hf o h1
      show throughSocket s k ++ _ ++ _ <+ _
      rw [h4]; exact h.cur c k t o hl h1
    · rw [if_neg hk] at h2; subst h2
      exact h.cur c k' t ch' hl h1

theorem fromClient_arrive_self (s : St) (c : Client) (d : Bytes) :
    fromClient { s with arrived := s.arrived ++ [(c, d)] } c = fromClient s c ++ [d] := by
  simp [fromClient, List.filterMap_append]

theorem fromClient_arrive_sub (s : St) (x : Client × Bytes) (c : Client) :
    fromClient s c <+ fromClient { s with arrived := s.arrived ++ [x] } c := by
  simp only [fromClient, List.filterMap_append]
  exact List.sublist_append_left _ _

theorem Ord.arrive {s : St} (h : Ord s []) (x : Client × Bytes) : Ord { s with arrived := s.arrived ++ [x] } [] :=
  ⟨h.inv.arrive x, fun k ch hk => (h.all k ch hk).trans (fromClient_arrive_sub s x _),
    fun c k t ch hl hk => (h.cur c k t ch hl hk).trans (fromClient_arrive_sub s x _)⟩

theorem Ord.remove {s : St} (h : Ord s []) (c : Client) : Ord { s with entries := remove s.entries c } [] := by
  refine ⟨h.inv.remove c, h.all, fun c' k t ch hl hk => ?_⟩
  by_cases hc : c = c'
  · subst hc; rw [show lookup (Udp.remove s.entries c) c = none from lookup_remove_self c _] at hl; cases hl
  · rw [show lookup (Udp.remove s.entries c) c' = _ from lookup_remove_ne _ hc] at hl
    exact h.cur c' k t ch hl hk

theorem Ord.open_ {s : St} (h : Ord s []) (up : Bool) (now : Nat) (c : Client) (d : Bytes) (hd : [d] <+ fromClient s c)
    (hm : (c, d) ∈ s.arrived) (hp : pend s.sendCache c = []) : Ord (open_ s up now c d) [] := by
  have hi := h.inv.open_ up now c d hm
  revert hi
  unfold Udp.open_
  split
  · exact fun _ => h
  · intro hi
    have hnew : throughSocket s s.children.length = [] := by
      rw [throughSocket, List.filterMap_eq_nil_iff]
      rintro ⟨⟨k, c'⟩, d'⟩ hx
      obtain ⟨⟨o, h1, -⟩, -⟩ := h.inv.sent k c' d' hx
      have : k ≠ s.children.length := by
        rintro rfl
        rw [List.getElem?_eq_none (Nat.le_refl _)] at h1; cases h1
      simp [this]
    have hnewline : line s s.children.length ⟨c, [], [d], true, false⟩ = [d] := by
      simp [line, hnew]
    have hcase : ∀ (k : Nat) (ch : Child), (s.children ++ [(⟨c, [], [d], true, false⟩ : Child)])[k]? = some ch →
        s.children[k]? = some ch ∨ (k = s.children.length ∧ ch = ⟨c, [], [d], true, false⟩) := by
      intro k ch hk
      rw [List.getElem?_append] at hk
      split at hk
      · exact Or.inl hk
      · rw [List.getElem?_singleton] at hk
        split at hk
        · injection hk with hk; exact Or.inr ⟨by omega, hk.symm⟩
        · cases hk
    refine ⟨hi, ?_, ?_⟩
    · intro k ch hk
      rcases hcase k ch hk with h1 | ⟨h1, h2⟩
      · exact h.all k ch h1
      · subst h1; subst h2
        show line s _ _ <+ fromClient s c
        rw [hnewline]; exact hd
    · intro c' k t ch hl hk
      by_cases hc : c = c'
      · subst hc
        rw [lookup_cons_self] at hl
        injection hl with hl; injection hl with h1 h2
        subst h1
        rcases hcase _ ch hk with h3 | ⟨-, h3⟩
        · rw [List.getElem?_eq_none (Nat.le_refl _)] at h3; cases h3
        · subst h3
          show line s _ _ ++ pend (s.sendCache ++ []) c <+ fromClient s c
          rw [hnewline, List.append_nil, hp]; exact hd
      · rw [lookup_cons_ne _ _ hc] at hl
        rcases hcase k ch hk with h3 | ⟨h3, -⟩
        · exact h.cur c' k t ch hl h3
        · obtain ⟨o, h4, -⟩ := h.inv.owner c' k t hl
          rw [h3, List.getElem?_eq_none (Nat.le_refl _)] at h4; cases h4

theorem Ord.step {timeout : Nat} {s : St} (h : Ord s []) (e : Ev) (he : CalmStep timeout s e) : Ord (step timeout s e) [] := by
  have hi := h.inv.step (timeout := timeout) e
  revert hi
  cases e with
  | recv up now c d =>
    have ha := h.arrive (c, d)
    have hmem : (c, d) ∈ s.arrived ++ [(c, d)] := by simp
    have hd : [d] <+ fromClient { s with arrived := s.arrived ++ [(c, d)] } c := by
      rw [fromClient_arrive_self]; exact List.sublist_append_right _ _
    simp only [Udp.step, Udp.recv]
    intro hi
    revert hi
    split
    · rename_i k last hl
      split
      · intro hi
        refine ⟨hi, ha.all, ?_⟩
        intro c' k' t ch hl' hk'
        by_cases hc : c = c'
        · subst hc
          simp only at hl'
          rw [lookup_cons_self] at hl'
          injection hl' with hl'; injection hl' with h1 h2
          subst h1
          have := h.cur c k last ch hl hk'
          show line s k ch ++ pend (s.sendCache ++ [(d, c)] ++ []) c <+ _
          rw [List.append_nil, pend_append, pend_cons_self]
          show _ <+ fromClient { s with arrived := s.arrived ++ [(c, d)] } c
          rw [fromClient_arrive_self, ← List.append_assoc]
          rw [List.append_nil] at this
          exact this.append (List.Sublist.refl _)
        · simp only at hl'
          rw [lookup_cons_ne _ _ hc, lookup_remove_ne _ hc] at hl'
          have := ha.cur c' k' t ch hl' hk'
          show line s k' ch ++ pend (s.sendCache ++ [(d, c)] ++ []) c' <+ _
          rw [List.append_nil, pend_append, pend_cons_ne _ _ hc, show pend [] c' = [] from rfl, List.append_nil]
          rw [List.append_nil] at this
          exact this
      · rename_i hto
        intro _
        have hp : pend s.sendCache c = [] := by
          rcases he with ⟨k', last', h1, h2⟩ | h1
          · rw [hl] at h1; injection h1 with h1; injection h1 with h3 h4
            omega
          · exact h1
        exact (ha.remove c).open_ up now c d hd hmem hp
    · rename_i hl
      intro _
      have hp : pend s.sendCache c = [] := by
        rcases he with ⟨k', last', h1, h2⟩ | h1
        · rw [show lookup s.entries c = none from hl] at h1; cases h1
        · exact h1
      exact ha.open_ up now c d hd hmem hp
  | pass sched =>
    intro _
    simp only [Udp.step, pass]
    refine passLoop_ord _ _ _ he ⟨⟨h.inv.owner, fun x hx => h.inv.cache x (by simpa using hx), h.inv.held, h.inv.sent⟩,
      h.all, fun c k t ch hl hk => ?_⟩ ?_
    · have := h.cur c k t ch hl hk
      rw [List.append_nil] at this
      exact this
    · intro c hp; exact absurd rfl hp
  | take k =>
    intro hi
    refine h.upd k _ (fun ch _ => ?_) hi
    split
    · exact ⟨rfl, rfl⟩
    · rename_i d r hch
      split
      · refine ⟨rfl, ?_⟩
        rw [hch]; simp
      · exact ⟨rfl, rfl⟩
  | send k =>
    simp only [Udp.step, send]
    split
    · exact fun _ => h
    · rename_i ch hch
      split
      · exact fun _ => h
      · split
        · exact fun _ => h
        · rename_i d r hq
          intro hi
          have hline : ∀ (k' : Nat) (ch' : Child), (updChild s.children k (fun ch => { ch with queue := r }))[k']? = some ch' →
              ∃ o, s.children[k']? = some o ∧ ch'.client = o.client ∧
                ((s.sent ++ [((k, ch.client), d)]).filterMap (fun x => if x.1.1 = k' then some x.2 else none) ++
                  (ch'.queue ++ ch'.chan)) = line s k' o := by
            intro k' ch' hk'
            obtain ⟨o, h1, h2⟩ := getElem?_upd_some hk'
            refine ⟨o, h1, ?_⟩
            by_cases hk : k = k'
            · subst hk
              rw [hch] at h1; injection h1 with h1; subst h1
              rw [if_pos rfl] at h2; subst h2
              refine ⟨rfl, ?_⟩
              simp [line, throughSocket, hq, List.filterMap_append]
            · rw [if_neg hk] at h2; subst h2
              refine ⟨rfl, ?_⟩
              simp [line, throughSocket, List.filterMap_append, hk]
          refine ⟨hi, ?_, ?_⟩
          · intro k' ch' hk'
            obtain ⟨o, h1, h2, h3⟩ := hline k' ch' hk'
            have := h.all k' o h1
            rw [← h3, ← h2] at this
            exact this
          · intro c k' t ch' hl hk'
            obtain ⟨o, h1, h2, h3⟩ := hline k' ch' hk'
            have := h.cur c k' t o hl h1
            rw [← h3] at this
            exact this
  | reply k src d =>
    simp only [Udp.step, reply]
    split
    · exact fun _ => h
    · split
      · exact fun _ => h
      · exact fun hi => ⟨hi, h.all, h.cur⟩
  | endTask k => exact fun hi => h.upd k _ (fun ch _ => ⟨rfl, rfl⟩) hi
  | notice k =>
    simp only [Udp.step, notice]
    split
    · exact fun _ => h
    · split
      · exact fun _ => h
      · intro hi
        have := h.upd k (fun ch => { ch with noticed := true }) (fun ch _ => ⟨rfl, rfl⟩)
          (h.inv.upd k _ (fun ch _ => ⟨rfl, fun d hd => Or.inl hd⟩))
        exact ⟨hi, this.all, this.cur⟩
  | write n fail => exact fun hi => ⟨hi, h.all, h.cur⟩

theorem Ord.run (timeout : Nat) (evs : List Ev) : ∀ {s : St}, Ord s [] → Calm timeout s evs → Ord (run timeout s evs) [] := by
  induction evs with
  | nil => intro s h _; exact h
  | cons e es ih => intro s h hc; exact ih (h.step e hc.1) hc.2

/-- **C55** If passes over the cache are not interrupted by the tasks, and no association is replaced while datagrams of its
    client wait in the cache, then what goes through a socket is, in order and each at most once, what its client sent.
    (Missing: these two conditions; see `C55_order_fails`.) -/
theorem C55_order_partial (timeout : Nat) (evs : List Ev) (hc : Calm timeout St.init evs) (k : Nat) (c : Client) (d : Bytes)
    (h : ((k, c), d) ∈ (run timeout St.init evs).sent) :
    throughSocket (run timeout St.init evs) k <+ fromClient (run timeout St.init evs) c := by
  have ho := Ord.run timeout evs Ord.init hc
  obtain ⟨⟨ch, h1, h2⟩, -⟩ := ho.inv.sent k c d h
  have := ho.all k ch h1
  rw [h2] at this
  exact (List.sublist_append_left _ _).trans this

example : Calm 60 St.init [.recv true 0 c1 [1], .recv true 0 c2 [2], .recv true 1 c1 [3], .pass [], .take 0, .send 0] := by
  refine ⟨Or.inr rfl, Or.inr rfl, Or.inl ⟨0, 0, by decide +kernel, by omega⟩, ?_, trivial, trivial, trivial⟩
  intro ks h; cases h

/-! ### C85 no other datagrams for the client -/

/-- **C85** is false: when the task of a client ends and the loop comes to write, the client gets an empty datagram the
    upstream server never sent. -/
theorem C85_notice_fails (timeout : Nat) (s : St) (k : Nat) (ch : Child) (hk : s.children[k]? = some ch)
    (hn : ch.noticed = false) (hroom : s.main.length < capacity) (n : Nat) (hlen : s.writeCache.length + s.main.length < n) :
    let s' := run timeout s [.endTask k, .notice k, .write n false]
    s'.delivered = s.delivered ++ ((s.writeCache ++ s.main).map flip ++ [(ch.client, [])]) ∧
      s'.replies = s.replies ++ [((k, ch.client), none)] := by
  have h1 : (updChild s.children k (fun ch => { ch with alive := false }))[k]? = some { ch with alive := false } := by
    rw [getElem?_upd, hk]; simp
  have h2 : notice (endTask s k) k = { s with
      main := s.main ++ [([], ch.client)]
      children := updChild (updChild s.children k (fun ch => { ch with alive := false })) k (fun ch => { ch with noticed := true })
      replies := s.replies ++ [((k, ch.client), none)] } := by
    unfold notice endTask
    simp only [h1]
    rw [if_neg]
    simp [hn]; omega
  simp only [run, List.foldl_cons, List.foldl_nil, step, h2, write]
  refine ⟨?_, trivial⟩
  rw [List.take_of_length_le (by simp; omega)]
  simp only [List.map_append, List.map_cons, List.map_nil, List.append_assoc]
  rfl

/-- **C85** is false: a datagram that anybody sends to the socket opened for a client — its sender `src` may be any address — is
    given to the client (if it is at most 9096 bytes long), who cannot tell it from the upstream server's. -/
theorem C85_stranger_fails (timeout : Nat) (s : St) (k : Nat) (ch : Child) (hk : s.children[k]? = some ch) (ha : ch.alive = true)
    (hroom : s.main.length < capacity) (src : SockAddr) (d : Bytes) (hd : d.length ≤ 9096) (n : Nat)
    (hlen : s.writeCache.length + s.main.length < n) :
    (run timeout s [.reply k src d, .write n false]).delivered =
      s.delivered ++ ((s.writeCache ++ s.main).map flip ++ [(ch.client, d)]) := by
  have h2 : reply s k d = { s with main := s.main ++ [(d.take replySize, ch.client)], replies := s.replies ++ [((k, ch.client), some d)] } := by
    unfold reply
    simp only [hk]
    rw [if_neg]
    simp [ha]; omega
  rw [List.take_of_length_le (show d.length ≤ replySize from hd)] at h2
  simp only [run, List.foldl_cons, List.foldl_nil, step, h2, write]
  rw [List.take_of_length_le (by simp; omega)]
  simp only [List.map_append, List.map_cons, List.map_nil, List.append_assoc]
  rfl

/-- **C85**, partial: what a client gets came to the socket opened for that client, or is the empty datagram by which the end of its
    task is announced. (Missing: that it came from the upstream server, see `C85_stranger_fails`; and `C85_notice_fails`.) -/
theorem C85_partial (timeout : Nat) (evs : List Ev) (c : Client) (d : Bytes)
    (h : (c, d) ∈ (run timeout St.init evs).delivered) :
    (∃ k full, ((k, c), some full) ∈ (run timeout St.init evs).replies ∧ d = full.take 9096) ∨
      (d = [] ∧ ∃ k, ((k, c), none) ∈ (run timeout St.init evs).replies) := by
  have := (C55_replies timeout evs).subset h
  rw [List.mem_map] at this
  obtain ⟨⟨⟨k, c'⟩, o⟩, h1, h2⟩ := this
  injection h2 with h3 h4
  simp only at h3
  subst h3
  cases o with
  | none => exact Or.inr ⟨by rw [← h4]; rfl, k, h1⟩
  | some full => exact Or.inl ⟨k, full, h1, h4.symm⟩

example : (run 60 St.init [.recv true 0 c1 [1], .endTask 0, .notice 0, .write 1 false]).delivered = [(c1, [])] := by
  decide +kernel

/-! ### C86 long replies -/

/-- **C86** is false: a reply of more than 9096 bytes reaches the client cut. -/
theorem C86_cut_fails (timeout : Nat) (s : St) (k : Nat) (ch : Child) (hk : s.children[k]? = some ch) (ha : ch.alive = true)
    (hroom : s.main.length < capacity) (src : SockAddr) (d : Bytes) (hd : 9096 < d.length) (n : Nat)
    (hlen : s.writeCache.length + s.main.length < n) :
    ∃ cut, (run timeout s [.reply k src d, .write n false]).delivered =
        s.delivered ++ ((s.writeCache ++ s.main).map flip ++ [(ch.client, cut)]) ∧ cut <+: d ∧ cut.length = 9096 := by
  refine ⟨d.take 9096, ?_, List.take_prefix _ _, by rw [List.length_take]; omega⟩
  have h2 : reply s k d = { s with main := s.main ++ [(d.take replySize, ch.client)], replies := s.replies ++ [((k, ch.client), some d)] } := by
    unfold reply
    simp only [hk]
    rw [if_neg]
    simp [ha]; omega
  simp only [run, List.foldl_cons, List.foldl_nil, step, h2, write]
  rw [List.take_of_length_le (by simp; omega)]
  simp only [List.map_append, List.map_cons, List.map_nil, List.append_assoc]
  rfl

/-- **C86** A reply of at most 9096 bytes reaches the client whole. -/
theorem C86_whole_partial (x : (Nat × Client) × Option Bytes) (d : Bytes) (hx : x.2 = some d) (hd : d.length ≤ 9096) :
    due x = (x.1.2, d) := by
  unfold due
  rw [hx]
  show (x.1.2, d.take 9096) = _
  rw [List.take_of_length_le hd]

example : due ((0, c1), some [1, 2, 3]) = (c1, [1, 2, 3]) := C86_whole_partial _ _ rfl (by decide)

/-! ### C87 an ended task -/

/-- Every datagram of the client comes before its association is out of date. -/
def InTime (timeout : Nat) (c : Client) : Nat → List Ev → Prop
  | _, [] => True
  | last, .recv _ now c' _ :: es => (c' = c → now - last ≤ timeout) ∧ InTime timeout c (if c' = c then now else last) es
  | last, _ :: es => InTime timeout c last es

/-- all tasks of the client have ended, and the table still names one of them -/
structure Dead (s : St) (c : Client) (k last : Nat) : Prop where
  entry : lookup s.entries c = some (k, last)
  task : ∃ ch, s.children[k]? = some ch
  ended : ∀ (i : Nat) (ch : Child), s.children[i]? = some ch → ch.client = c → ch.alive = false

/-- the datagrams sent on for a client -/
def sentFor (s : St) (c : Client) : List Bytes := s.sent.filterMap (fun x => if x.1.2 = c then some x.2 else none)

theorem Dead.upd {s : St} {c : Client} {k last : Nat} (h : Dead s c k last) (i : Nat) (f : Child → Child)
    (hf : ∀ ch, (f ch).client = ch.client ∧ (ch.alive = false → (f ch).alive = false)) :
    Dead { s with children := updChild s.children i f } c k last := by
  refine ⟨h.entry, ?_, ?_⟩
  · obtain ⟨ch, hc⟩ := h.task
    simp only
    rw [getElem?_upd, hc]; exact ⟨_, rfl⟩
  · intro j ch hj hcl
    obtain ⟨o, h1, h2⟩ := getElem?_upd_some hj
    subst h2
    split at hcl
    · rename_i hk
      rw [if_pos hk]
      exact (hf o).2 (h.ended j o h1 ((hf o).1 ▸ hcl))
    · rename_i hk
      rw [if_neg hk]
      exact h.ended j o h1 hcl

theorem Dead.take {s : St} {c : Client} {k last : Nat} (h : Dead s c k last) (i : Nat) : Dead (take s i) c k last := by
  refine h.upd i _ (fun ch => ?_)
  split
  · exact ⟨rfl, id⟩
  · split
    · exact ⟨rfl, id⟩
    · exact ⟨rfl, id⟩

theorem Dead.foldl_take {c : Client} {k last : Nat} (ks : List Nat) : ∀ {s : St}, Dead s c k last → Dead (ks.foldl Udp.take s) c k last := by
  induction ks with
  | nil => exact fun h => h
  | cons i ks ih => exact fun h => ih (h.take i)

theorem foldl_take_sent (ks : List Nat) : ∀ s, (ks.foldl take s).sent = s.sent := by
  induction ks with
  | nil => exact fun s => rfl
  | cons i ks ih => exact fun s => ih (Udp.take s i)

theorem Dead.passLoop {c : Client} {k last : Nat} (r : List (Bytes × Client)) : ∀ (s : St) sched, Dead s c k last →
    Dead (passLoop s r sched) c k last ∧ (passLoop s r sched).sent = s.sent := by
  induction r with
  | nil => exact fun s _ h => ⟨h, rfl⟩
  | cons x r ih =>
    intro s sched h
    obtain ⟨d, c'⟩ := x
    simp only [Udp.passLoop]
    have h' := Dead.foldl_take (sched.headD []) h
    have hs := foldl_take_sent (sched.headD []) s
    generalize (sched.headD []).foldl Udp.take s = s' at h' hs
    rw [← hs]
    split
    · exact ih _ _ h'
    · split
      · exact ih _ _ h'
      · exact ih _ _ ⟨h'.entry, h'.task, h'.ended⟩
      · exact ih _ _ (h'.upd _ _ (fun ch => ⟨rfl, id⟩))

theorem Dead.open_ {s : St} {c : Client} {k last : Nat} (h : Dead s c k last) (up : Bool) (now : Nat) {c' : Client} (d : Bytes)
    (hc : c' ≠ c) : Dead (open_ s up now c' d) c k last ∧ (open_ s up now c' d).sent = s.sent := by
  unfold Udp.open_
  split
  · exact ⟨h, rfl⟩
  · refine ⟨⟨?_, ?_, ?_⟩, rfl⟩
    · rw [lookup_cons_ne _ _ hc]; exact h.entry
    · obtain ⟨ch, h1⟩ := h.task
      refine ⟨ch, ?_⟩
      simp only
      rw [List.getElem?_append]
      have : k < s.children.length := by
        by_contra hh
        rw [List.getElem?_eq_none (by omega)] at h1; cases h1
      rw [if_pos this]; exact h1
    · intro i ch hi hcl
      simp only at hi
      rw [List.getElem?_append] at hi
      split at hi
      · exact h.ended i ch hi hcl
      · rw [List.getElem?_singleton] at hi
        split at hi
        · injection hi with hi; subst hi; exact absurd hcl hc
        · cases hi

/-- **C87** is false: if the task of a client has ended (its socket gave an error, for instance), then as long as the client
    goes on sending before its association is out of date, none of its datagrams is sent on, whatever else happens. -/
theorem C87_blackhole_fails (timeout : Nat) (c : Client) (evs : List Ev) : ∀ (s : St) (k last : Nat), Dead s c k last →
    InTime timeout c last evs → sentFor (run timeout s evs) c = sentFor s c := by
  induction evs with
  | nil => intro s k last _ _; rfl
  | cons e es ih =>
    intro s k last h ht
    show sentFor (run timeout (step timeout s e) es) c = _
    cases e with
    | recv up now c' d =>
      obtain ⟨h1, h2⟩ := ht
      have ha : Dead { s with arrived := s.arrived ++ [(c', d)] } c k last := ⟨h.entry, h.task, h.ended⟩
      by_cases hc : c' = c
      · subst hc
        rw [if_pos rfl] at h2
        have h3 := h1 rfl
        have hstep : step timeout s (.recv up now c' d) = { s with
            arrived := s.arrived ++ [(c', d)]
            entries := (c', (k, now)) :: remove s.entries c', sendCache := s.sendCache ++ [(d, c')] } := by
          simp only [step, recv, h.entry]
          rw [if_pos (by omega)]
        have hd : Dead (step timeout s (.recv up now c' d)) c' k now := by
          rw [hstep]; exact ⟨lookup_cons_self _ _ _, h.task, h.ended⟩
        refine (ih _ k now hd h2).trans ?_
        rw [hstep]; rfl
      · rw [if_neg hc] at h2
        have hstep : Dead (step timeout s (.recv up now c' d)) c k last ∧ (step timeout s (.recv up now c' d)).sent = s.sent := by
          have hrem : lookup (remove s.entries c') c = some (k, last) := by rw [lookup_remove_ne _ hc]; exact h.entry
          simp only [step, recv]
          split
          · split
            · refine ⟨⟨?_, h.task, h.ended⟩, rfl⟩
              simp only
              rw [lookup_cons_ne _ _ hc]; exact hrem
            · have hd : Dead { s with arrived := s.arrived ++ [(c', d)], entries := remove s.entries c' } c k last :=
                ⟨hrem, h.task, h.ended⟩
              exact hd.open_ up now d hc
          · exact ha.open_ up now d hc
        refine (ih _ k last hstep.1 h2).trans ?_
        unfold sentFor; rw [hstep.2]
    | pass sched =>
      have := Dead.passLoop s.sendCache { s with sendCache := [] } sched ⟨h.entry, h.task, h.ended⟩
      refine (ih (step timeout s (.pass sched)) k last this.1 ht).trans ?_
      unfold sentFor
      rw [show (step timeout s (.pass sched)).sent = s.sent from this.2]
    | take i => exact (ih _ k last (h.take i) ht).trans rfl
    | send i =>
      have hstep : Dead (step timeout s (.send i)) c k last ∧ sentFor (step timeout s (.send i)) c = sentFor s c := by
        simp only [step, send]
        split
        · exact ⟨h, rfl⟩
        · rename_i ch hch
          split
          · exact ⟨h, rfl⟩
          · rename_i hal
            split
            · exact ⟨h, rfl⟩
            · rename_i d r hq
              have := h.upd i (fun ch => { ch with queue := r }) (fun ch => ⟨rfl, id⟩)
              refine ⟨⟨this.entry, this.task, this.ended⟩, ?_⟩
              have hne : ch.client ≠ c := by
                intro hcl
                have := h.ended i ch hch hcl
                exact hal (by simp [this])
              simp [sentFor, List.filterMap_append, hne]
      exact (ih _ k last hstep.1 ht).trans hstep.2
    | reply i src d =>
      have hstep : Dead (step timeout s (.reply i src d)) c k last ∧ (step timeout s (.reply i src d)).sent = s.sent := by
        simp only [step, reply]
        split
        · exact ⟨h, rfl⟩
        · split
          · exact ⟨h, rfl⟩
          · exact ⟨⟨h.entry, h.task, h.ended⟩, rfl⟩
      refine (ih _ k last hstep.1 ht).trans ?_
      unfold sentFor; rw [hstep.2]
    | endTask i => exact (ih _ k last (h.upd i (fun ch => { ch with alive := false }) (fun ch => ⟨rfl, fun _ => rfl⟩)) ht).trans rfl
    | notice i =>
      have hstep : Dead (step timeout s (.notice i)) c k last ∧ (step timeout s (.notice i)).sent = s.sent := by
        simp only [step, notice]
        split
        · exact ⟨h, rfl⟩
        · split
          · exact ⟨h, rfl⟩
          · have := h.upd i (fun ch => { ch with noticed := true }) (fun ch => ⟨rfl, id⟩)
            exact ⟨⟨this.entry, this.task, this.ended⟩, rfl⟩
      refine (ih _ k last hstep.1 ht).trans ?_
      unfold sentFor; rw [hstep.2]
    | write n fail => exact (ih (step timeout s (.write n fail)) k last ⟨h.entry, h.task, h.ended⟩ ht).trans rfl

/-- the case occurs: the task of `c1` ended at once; two more datagrams are accepted and lost -/
example : Dead (run 60 St.init [.recv true 0 c1 [1], .endTask 0]) c1 0 0 ∧
    InTime 60 c1 0 [.recv true 30 c1 [2], .pass [], .recv true 80 c1 [3], .pass []] := by
  refine ⟨⟨by decide +kernel, ⟨⟨c1, [], [[1]], false, false⟩, by decide +kernel⟩, ?_⟩, ?_⟩
  · intro i ch h _
    cases i with
    | zero =>
      have : (run 60 St.init [.recv true 0 c1 [1], .endTask 0]).children[0]? = some ⟨c1, [], [[1]], false, false⟩ := by
        decide +kernel
      rw [this] at h; injection h with h; subst h; rfl
    | succ i =>
      have : (run 60 St.init [.recv true 0 c1 [1], .endTask 0]).children.length = 1 := by decide +kernel
      rw [List.getElem?_eq_none (by omega)] at h; cases h
  · simp [InTime]

/-! ### C88 the table of clients -/

theorem passLoop_entries (r : List (Bytes × Client)) : ∀ s sched, (passLoop s r sched).entries = s.entries := by
  have hf : ∀ (ks : List Nat) (s : St), (ks.foldl take s).entries = s.entries := by
    intro ks
    induction ks with
    | nil => exact fun s => rfl
    | cons i ks ih => exact fun s => ih (Udp.take s i)
  induction r with
  | nil => exact fun s _ => rfl
  | cons x r ih =>
    intro s sched
    obtain ⟨d, c'⟩ := x
    simp only [passLoop]
    rw [← hf (sched.headD []) s]
    generalize (sched.headD []).foldl Udp.take s = s'
    split
    · exact ih _ _
    · split <;> exact ih _ _

/-- **C88** is false: once a client has an entry in the table it is there for good, unless the same client sends again (when
    it is replaced): time, the end of its task, and other clients never remove it. -/
theorem C88_entries_fails (timeout : Nat) (c : Client) (v : Nat × Nat) (evs : List Ev)
    (hno : ∀ up now d, Ev.recv up now c d ∉ evs) : ∀ s, lookup s.entries c = some v →
    lookup (run timeout s evs).entries c = some v := by
  induction evs with
  | nil => exact fun s h => h
  | cons e es ih =>
    intro s h
    refine ih (fun up now d hm => hno up now d (List.mem_cons_of_mem _ hm)) _ ?_
    cases e with
    | recv up now c' d =>
      have hc : c' ≠ c := fun hc => hno up now d (by rw [hc]; exact List.mem_cons_self)
      have hrem : lookup (remove s.entries c') c = some v := by rw [lookup_remove_ne _ hc]; exact h
      have ho : ∀ s' : St, lookup s'.entries c = some v → lookup (open_ s' up now c' d).entries c = some v := by
        intro s' h'
        unfold open_
        split
        · exact h'
        · simp only; rw [lookup_cons_ne _ _ hc]; exact h'
      simp only [step, recv]
      split
      · split
        · simp only; rw [lookup_cons_ne _ _ hc]; exact hrem
        · exact ho _ hrem
      · exact ho _ h
    | pass sched => simp only [step, pass]; rw [passLoop_entries]; exact h
    | take i => exact h
    | send i => simp only [step, send]; repeat' split
                all_goals exact h
    | reply i src d => simp only [step, reply]; repeat' split
                       all_goals exact h
    | endTask i => exact h
    | notice i => simp only [step, notice]; repeat' split
                  all_goals exact h
    | write n fail => exact h

example : lookup (run 60 St.init [.recv true 0 c1 [1]]).entries c1 = some (0, 0) := by decide +kernel

end Wm.Udp
