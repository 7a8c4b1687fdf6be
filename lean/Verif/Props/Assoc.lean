import Mathlib.Data.List.Induction
import Verif.Model.Assoc
import Verif.Props.Socks
import Mathlib.Tactic.Tauto
import Mathlib.Data.List.Forall2
/-!
Properties C159–C161: UDP associations of the SOCKS5 proxy (src/proxy/socks5.rs:350-503).
-/
namespace Wm.Socks.Assoc
open Wm Wm.Socks
open scoped List

/-- The datagram `d` asks to send `data` to `a`: two reserved bytes, the byte 0 ("not a fragment"), the address, the data. -/
def Asks (net : Net) (d : Bytes) (a : SockAddr) (data : Bytes) : Prop :=
  ∃ x y t, d = [x, y, 0] ++ t ++ data ∧ Target net t a

theorem asks_parse {net : Net} {d : Bytes} {a : SockAddr} {data : Bytes} :
    Asks net d a data ↔ udpParse net d = .ok ((0, a), data) := by
  rw [Asks, ← C78_udp_forward]
  unfold udpForward
  split
  · rename_i flag a' data' h
    rw [h]
    by_cases hf : flag = 0
    · subst hf; simp
    · simp [hf]
  · rename_i h
    constructor
    · intro h'; cases h'
    · intro h'; exact absurd h' (h _ _ _)

/-! ### The steps -/

theorem run_append (net : Net) (s : St) (es fs : List Event) : run net s (es ++ fs) = run net (run net s es) fs := by
  simp [run, List.foldl_append]

theorem run_cons (net : Net) (s : St) (e : Event) (es : List Event) : run net s (e :: es) = run net (step net s e) es := rfl

theorem run_nil (net : Net) (s : St) : run net s [] = s := rfl

theorem inv_run {net : Net} {I : St → Prop} (h : ∀ s e, I s → I (step net s e)) (es : List Event) :
    ∀ s, I s → I (run net s es) := by
  induction es with
  | nil => exact fun s hs => hs
  | cons e es ih => exact fun s hs => ih _ (h s e hs)

theorem dead_step (net : Net) (s : St) (h : s.alive = false) (e : Event) : step net s e = s := by
  cases e <;> simp [step, h]

theorem dead_run (net : Net) (es : List Event) (s : St) (h : s.alive = false) : run net s es = s := by
  induction es with
  | nil => rfl
  | cons e es ih => rw [run_cons, dead_step net s h, ih]

theorem alive_of_req {s : St} (hf : s.failed = false) (h : s.req = true) : s.alive = true := by simp [St.alive, hf, h]

theorem fail_dead (s : St) : (fail s).alive = false := rfl

/-- What one request does, as one of four cases. -/
theorem request_cases (net : Net) (src : SockAddr) (d : Bytes) (c b : Bool) (s : St) :
    (∃ p, request net src d c b s = fail { s with peer := p }) ∨
    (c = true ∧ request net src d c b s = { s with peer := some src, req := false }) ∨
    (∃ a data, c = true ∧ b = true ∧ Asks net d a data ∧
      request net src d c b s = { s with peer := some src, forwarded := s.forwarded ++ [(src, a, data)] }) := by
  unfold request
  split
  · exact Or.inl ⟨s.peer, rfl⟩
  · rename_i hc
    have hc : c = true := by simpa using hc
    dsimp only
    split
    · exact Or.inl ⟨_, rfl⟩
    · exact Or.inl ⟨_, rfl⟩
    · rename_i flag a data hp
      split
      · exact Or.inr (Or.inl ⟨hc, rfl⟩)
      · rename_i hf
        have hf : flag = 0 := by simpa using hf
        subst hf
        split
        · rename_i hb
          exact Or.inr (Or.inr ⟨a, data, hc, hb, asks_parse.2 hp, rfl⟩)
        · exact Or.inl ⟨_, rfl⟩

/-! ### What is forwarded -/

/-- sender, target and data against an accepted datagram -/
def Fits (net : Net) (f : SockAddr × SockAddr × Bytes) (x : SockAddr × Bytes) : Prop := f.1 = x.1 ∧ Asks net x.2 f.2.1 f.2.2

structure Inv (net : Net) (s : St) : Prop where
  fwd : ∃ A rest, s.accepted = A ++ rest ∧ List.Forall₂ (Fits net) s.forwarded A ∧
    (s.alive = true → s.req = true → rest = s.queue)
  last : s.alive = true → s.req = true → s.peer = s.forwarded.getLast?.map (·.1)
  peer : ∀ p, s.peer = some p → ∃ d, (p, d) ∈ s.accepted
  queue : ∀ x ∈ s.queue, x ∈ s.accepted
  told : s.told = true ↔ s.tcp = false
  ret : ∀ x ∈ s.returned, ∃ d, (x.1, d) ∈ s.accepted

theorem Inv.init (net : Net) : Inv net init :=
  ⟨⟨[], [], rfl, .nil, fun _ _ => rfl⟩, fun _ _ => rfl, fun p h => by simp [Assoc.init] at h, fun x h => by simp [Assoc.init] at h, by simp [Assoc.init],
    fun x h => by simp [Assoc.init] at h⟩

theorem Inv.fail {net : Net} {s : St} (h : Inv net s) : Inv net (fail s) := by
  obtain ⟨A, rest, h1, h2, -⟩ := h.fwd
  exact ⟨⟨A, rest, h1, h2, fun h => by cases h⟩, (fun h => by cases h), h.peer, h.queue, h.told, h.ret⟩

/-- the loop over requests has returned -/
theorem Inv.noReq {net : Net} {s : St} (h : Inv net s) : Inv net { s with req := false } := by
  obtain ⟨A, rest, h1, h2, -⟩ := h.fwd
  exact ⟨⟨A, rest, h1, h2, fun _ h => by cases h⟩, (fun _ h => by cases h), h.peer, h.queue, h.told, h.ret⟩

theorem Inv.step {net : Net} (s : St) (e : Event) (h : Inv net s) : Inv net (step net s e) := by
  cases e with
  | arrive src d =>
    simp only [Assoc.step]
    split
    · obtain ⟨A, rest, h1, h2, h3⟩ := h.fwd
      refine ⟨⟨A, rest ++ [(src, d)], by simp [h1], h2, ?_⟩, h.last, ?_, ?_, h.told, ?_⟩
      · intro ha hr; show _ = s.queue ++ _; rw [h3 ha hr]
      · intro p hp; obtain ⟨d', hd⟩ := h.peer p hp; exact ⟨d', List.mem_append_left _ hd⟩
      · intro x hx
        rcases List.mem_append.1 hx with hx | hx
        · exact List.mem_append_left _ (h.queue x hx)
        · exact List.mem_append_right _ hx
      · intro x hx; obtain ⟨d', hd⟩ := h.ret x hx; exact ⟨d', List.mem_append_left _ hd⟩
    · exact h
  | request c b =>
    simp only [Assoc.step]
    split
    · rename_i hal
      split
      · exact h
      · rename_i src d q hq
        have hmem : (src, d) ∈ s.accepted := h.queue _ (by rw [hq]; exact List.mem_cons_self)
        obtain ⟨A, rest, h1, h2, h3⟩ := h.fwd
        have hrest := h3 hal.1 hal.2
        have hqm : ∀ x ∈ q, x ∈ s.accepted := fun x hx => h.queue x (by rw [hq]; exact List.mem_cons_of_mem _ hx)
        rcases request_cases net src d c b { s with queue := q } with ⟨p, e⟩ | ⟨-, e⟩ | ⟨a, data, -, -, hd, e⟩
        · -- the association fails
          unfold request at e ⊢
          split
          · exact ⟨⟨A, rest, h1, h2, fun h => by cases h⟩, (fun h => by cases h), h.peer, hqm, h.told, h.ret⟩
          · rename_i hc
            rw [if_neg hc] at e
            rw [e]
            have : ({ s with queue := q, peer := p } : St).peer = some src := by
              have := congrArg St.peer e
              dsimp only at this
              rw [show (Assoc.fail { s with queue := q, peer := p }).peer = p from rfl] at this
              rw [← this]
              split
              · rfl
              · rfl
              · split
                · rfl
                · split <;> rfl
            refine ⟨⟨A, rest, h1, h2, fun h => by cases h⟩, (fun h => by cases h), ?_, hqm, h.told, h.ret⟩
            intro p' hp'
            have hp' : p = some p' := hp'
            have this : p = some src := this
            rw [this] at hp'
            cases hp'
            exact ⟨d, hmem⟩
        · rw [e]
          refine ⟨⟨A, rest, h1, h2, fun _ h => by cases h⟩, (fun _ h => by cases h), ?_, hqm, h.told, h.ret⟩
          intro p' hp'; cases hp'; exact ⟨d, hmem⟩
        · rw [e]
          rw [hq] at hrest
          subst hrest
          refine ⟨⟨A ++ [(src, d)], q, by simp [h1], ?_, fun _ _ => rfl⟩, ?_, ?_, hqm, h.told, h.ret⟩
          · exact List.rel_append h2 (.cons ⟨rfl, hd⟩ .nil)
          · intro _ _; simp
          · intro p' hp'; cases hp'; exact ⟨d, hmem⟩
    · exact h
  | requestErr => simp only [Assoc.step]; split; exact h.fail; exact h
  | reply src d b =>
    simp only [Assoc.step]
    split
    · split
      · exact h.fail
      · rename_i p hp
        split
        · refine ⟨h.fwd, h.last, h.peer, h.queue, h.told, ?_⟩
          intro x hx
          rcases List.mem_append.1 hx with hx | hx
          · exact h.ret x hx
          · rw [List.mem_singleton] at hx; subst hx; exact h.peer p hp
        · exact h.fail
    · exact h
  | replyErr => simp only [Assoc.step]; split; exact h.fail; exact h
  | tcp n =>
    simp only [Assoc.step]
    split
    · split
      · obtain ⟨A, rest, h1, h2, h3⟩ := h.fwd
        have hal : ∀ s' : St, s' = { s with tcp := false, told := true } → s'.alive = true → s.alive = true := by
          rintro s' rfl ha
          simp only [St.alive, Bool.and_eq_true, Bool.or_eq_true, Bool.not_eq_true'] at ha ⊢
          exact ⟨ha.1, by tauto⟩
        exact ⟨⟨A, rest, h1, h2, fun ha hr => h3 (hal _ rfl ha) hr⟩, fun ha hr => h.last (hal _ rfl ha) hr, h.peer, h.queue, by simp,
          h.ret⟩
      · exact h
    · exact h
  | tcpErr => simp only [Assoc.step]; split; exact h.fail; exact h
  | stopReq => simp only [Assoc.step]; split; exact h.noReq; exact h
  | stopRes =>
    simp only [Assoc.step]
    split
    · obtain ⟨A, rest, h1, h2, h3⟩ := h.fwd
      have hal : ∀ s' : St, s' = { s with res := false } → s'.alive = true → s.alive = true := by
        rintro s' rfl ha
        simp only [St.alive, Bool.and_eq_true, Bool.or_eq_true, Bool.not_eq_true'] at ha ⊢
        exact ⟨ha.1, by tauto⟩
      exact ⟨⟨A, rest, h1, h2, fun ha hr => h3 (hal _ rfl ha) hr⟩, fun ha hr => h.last (hal _ rfl ha) hr, h.peer, h.queue,
        h.told, h.ret⟩
    · exact h

theorem Inv.run (net : Net) (es : List Event) : Inv net (run net Assoc.init es) :=
  inv_run (fun s e h => Inv.step s e h) es _ (Inv.init net)

/-- **C159** What an association sends to targets answers, one by one and in order, to the first datagrams it accepted: each
    is sent once, to the address it names, with its data. -/
theorem C159_forward (net : Net) (es : List Event) :
    let s := run net init es
    List.Forall₂ (fun f x => f.1 = x.1 ∧ Asks net x.2 f.2.1 f.2.2) s.forwarded (s.accepted.take s.forwarded.length) := by
  intro s
  obtain ⟨A, rest, h1, h2, -⟩ := (Inv.run net es).fwd
  have : s.accepted.take s.forwarded.length = A := by
    show (run net init es).accepted.take (run net init es).forwarded.length = A
    rw [h1, h2.length_eq]; simp
  rw [this]
  exact h2

/-- the replies that came to the association, in the form in which they are given to the client: three zero bytes, the
    address of the sender, the data -/
def repliesOf : List Event → List Bytes
  | [] => []
  | .reply src d _ :: es => ([0, 0, 0] ++ encodeAddr src ++ d) :: repliesOf es
  | _ :: es => repliesOf es

theorem repliesOf_append (es fs : List Event) : repliesOf (es ++ fs) = repliesOf es ++ repliesOf fs := by
  induction es with
  | nil => rfl
  | cons e es ih => cases e <;> simp [repliesOf, ih]

theorem request_returned (net : Net) (src : SockAddr) (d : Bytes) (c b : Bool) (s : St) :
    (request net src d c b s).returned = s.returned := by
  rcases request_cases net src d c b s with ⟨p, e⟩ | ⟨-, e⟩ | ⟨a, data, -, -, -, e⟩ <;> rw [e] <;> rfl

theorem step_returned (net : Net) (s : St) (e : Event) :
    ∃ l, (step net s e).returned = s.returned ++ l ∧ l.map (·.2) <+ repliesOf [e] := by
  cases e with
  | arrive src d => exact ⟨[], by simp only [step]; split <;> simp, by simp⟩
  | request c b =>
    refine ⟨[], ?_, by simp⟩
    simp only [step]
    split
    · split
      · simp
      · rw [request_returned]; simp
    · simp
  | requestErr => exact ⟨[], by simp only [step]; split <;> simp [fail], by simp⟩
  | reply src d b =>
    simp only [step]
    split
    · split
      · exact ⟨[], by simp [fail], by simp⟩
      · rename_i p hp
        split
        · exact ⟨[(p, udpReply src d)], rfl, by simp [repliesOf, udpReply]⟩
        · exact ⟨[], by simp [fail], by simp⟩
    · exact ⟨[], by simp, by simp⟩
  | replyErr => exact ⟨[], by simp only [step]; split <;> simp [fail], by simp⟩
  | tcp n =>
    refine ⟨[], ?_, by simp⟩
    simp only [step]
    split
    · split <;> simp
    · simp
  | tcpErr => exact ⟨[], by simp only [step]; split <;> simp [fail], by simp⟩
  | stopReq => exact ⟨[], by simp only [step]; split <;> simp, by simp⟩
  | stopRes => exact ⟨[], by simp only [step]; split <;> simp, by simp⟩

/-- **C159** What is given back through an association is, in order and each at most once, what came from outside, each with
    the address it came from; and it is given only to senders of datagrams the association accepted. -/
theorem C159_back (net : Net) (es : List Event) :
    (run net init es).returned.map (·.2) <+ repliesOf es ∧
      ∀ x ∈ (run net init es).returned, ∃ d, (x.1, d) ∈ (run net init es).accepted := by
  refine ⟨?_, (Inv.run net es).ret⟩
  have main : ∀ (es : List Event) (s : St), ∃ l, (run net s es).returned = s.returned ++ l ∧ l.map (·.2) <+ repliesOf es := by
    intro es
    induction es with
    | nil => exact fun s => ⟨[], by simp [run], by simp [repliesOf]⟩
    | cons e es ih =>
      intro s
      obtain ⟨l1, h1, h2⟩ := step_returned net s e
      obtain ⟨l2, h3, h4⟩ := ih (step net s e)
      refine ⟨l1 ++ l2, by rw [run_cons, h3, h1, List.append_assoc], ?_⟩
      rw [show e :: es = [e] ++ es from rfl, repliesOf_append, List.map_append]
      exact h2.append h4
  obtain ⟨l, h1, h2⟩ := main es init
  rw [h1]
  exact h2

/-- **C159** (what it does) While all three parts of an association are at work and nothing waits, a datagram of the client that
    asks to send `data` to `a` is sent there, and what then comes from anywhere is given back to the client. -/
theorem C159_serves (net : Net) (es : List Event) (c : SockAddr) (d : Bytes) (a : SockAddr) (data : Bytes) (hd : Asks net d a data)
    (src : SockAddr) (r : Bytes) :
    let s := run net init es
    s.alive = true → s.req = true → s.res = true → s.queue = [] → (s.forwarded = [] ∨ ∃ x ∈ s.forwarded.getLast?, x.1 = c) →
      let s' := run net s [.arrive c d, .request true true, .reply src r true]
      s'.forwarded = s.forwarded ++ [(c, a, data)] ∧ s'.returned = s.returned ++ [(c, [0, 0, 0] ++ encodeAddr src ++ r)] ∧
        s'.alive = true := by
  intro s ha hq hr he hc
  have hl : s.peer = s.forwarded.getLast?.map (·.1) := (Inv.run net es).last ha hq
  have hp : s.peer = none ∨ s.peer = some c := by
    rcases hc with hc | ⟨x, hx, rfl⟩
    · left; rw [hl, hc]; rfl
    · right; rw [hl, Option.mem_def.1 hx]; rfl
  have hf : s.failed = false := by
    simp only [St.alive, Bool.and_eq_true, Bool.not_eq_true'] at ha; exact ha.1
  have h1 : step net s (.arrive c d) = { s with queue := [(c, d)], accepted := s.accepted ++ [(c, d)] } := by
    simp only [step]; rw [if_pos ⟨ha, hp⟩, he]; rfl
  have h2 : step net { s with queue := [(c, d)], accepted := s.accepted ++ [(c, d)] } (.request true true) =
      { s with queue := [], accepted := s.accepted ++ [(c, d)], peer := some c, forwarded := s.forwarded ++ [(c, a, data)] } := by
    simp only [step]
    rw [if_pos ⟨ha, hq⟩]
    simp only [request, asks_parse.1 hd]
    simp
  intro s'
  have h3 : s' = { s with queue := [], accepted := s.accepted ++ [(c, d)], peer := some c, forwarded := s.forwarded ++ [(c, a, data)], returned := s.returned ++ [(c, udpReply src r)] } := by
    show run net s _ = _
    rw [run_cons, run_cons, run_cons, h1, h2]
    rw [run_nil]
    simp only [step]
    rw [if_pos ⟨ha, hr⟩]
    rfl
  rw [h3]
  exact ⟨rfl, rfl, ha⟩

/-- what is true of an association that nothing has gone wrong with -/
structure Fine (net : Net) (s : St) : Prop where
  up : s.failed = false ∧ s.req = true ∧ s.res = true ∧ s.tcp = true ∧ s.told = false
  queue : ∀ x ∈ s.queue, ∃ a data, Asks net x.2 a data
  peer : s.forwarded ≠ [] → s.peer ≠ none
  all : s.forwarded.length + s.queue.length = s.accepted.length

theorem Fine.alive {net : Net} {s : St} (h : Fine net s) : s.alive = true := by
  simp [St.alive, h.up.1, h.up.2.1]

/-- **C159** (it stays) An association stays at work in all its parts, and has lost nothing, as long as its TCP connection is neither
    ended nor broken, every datagram it gets asks to be sent on, its sockets work, and nothing comes from outside before it
    has sent something on. -/
theorem C159_stays (net : Net) (es : List Event)
    (h1 : ∀ src d, Event.arrive src d ∈ es → ∃ a data, Asks net d a data)
    (h2 : ∀ c b, Event.request c b ∈ es → c = true ∧ b = true)
    (h3 : ∀ pre src d b post, es = pre ++ .reply src d b :: post → b = true ∧ (run net init pre).forwarded ≠ [])
    (h4 : Event.requestErr ∉ es ∧ Event.replyErr ∉ es ∧ Event.tcpErr ∉ es ∧ Event.tcp 0 ∉ es) :
    let s := run net init es
    s.alive = true ∧ s.req = true ∧ s.res = true ∧ s.tcp = true ∧ s.forwarded.length + s.queue.length = s.accepted.length := by
  suffices h : Fine net (run net init es) from ⟨h.alive, h.up.2.1, h.up.2.2.1, h.up.2.2.2.1, h.all⟩
  induction es using List.reverseRecOn with
  | nil => exact ⟨⟨rfl, rfl, rfl, rfl, rfl⟩, by simp [run, init], by simp [run, init], rfl⟩
  | append_singleton es e ih =>
    have ih := ih (fun s d h => h1 s d (List.mem_append.2 (.inl h))) (fun c b h => h2 c b (List.mem_append.2 (.inl h)))
      (fun pre src d b post h => h3 pre src d b (post ++ [e]) (by rw [h]; simp))
      ⟨fun h => h4.1 (List.mem_append.2 (.inl h)), fun h => h4.2.1 (List.mem_append.2 (.inl h)),
        fun h => h4.2.2.1 (List.mem_append.2 (.inl h)), fun h => h4.2.2.2 (List.mem_append.2 (.inl h))⟩
    have hr : run net init (es ++ [e]) = step net (run net init es) e := by simp [run, List.foldl_append]
    rw [hr]
    have he : e ∈ es ++ [e] := by simp
    have h3' := h3 es
    generalize run net init es = s at *
    have hal := ih.alive
    cases e with
    | arrive src d =>
      simp only [step]
      split
      · refine ⟨ih.up, ?_, ih.peer, ?_⟩
        · intro x hx
          rcases List.mem_append.1 hx with hx | hx
          · exact ih.queue x hx
          · rw [List.mem_singleton] at hx; subst hx; exact h1 _ _ he
        · simp only [List.length_append, List.length_singleton]
          have := ih.all
          omega
      · exact ih
    | request c b =>
      obtain ⟨rfl, rfl⟩ := h2 c b he
      simp only [step]
      rw [if_pos ⟨hal, ih.up.2.1⟩]
      split
      · exact ih
      · rename_i src d q hq
        obtain ⟨a, data, ha⟩ := ih.queue (src, d) (by rw [hq]; simp)
        have hall := ih.all
        rw [hq] at hall
        simp only [request, asks_parse.1 ha]
        refine ⟨ih.up, ?_, ?_, ?_⟩
        · intro x hx
          refine ih.queue x ?_
          rw [hq]
          exact List.mem_cons_of_mem _ hx
        · simp
        · simp only [List.length_cons] at hall
          simp only [if_true, ne_eq, not_true_eq_false, if_false, reduceCtorEq, List.length_append, List.length_singleton]
          omega
    | requestErr => exact absurd he h4.1
    | reply src d b =>
      obtain ⟨rfl, hf⟩ := h3' src d b [] rfl
      simp only [step]
      rw [if_pos ⟨hal, ih.up.2.2.1⟩]
      split
      · rename_i hp; exact absurd hp (ih.peer hf)
      · exact ⟨ih.up, ih.queue, ih.peer, ih.all⟩
    | replyErr => exact absurd he h4.2.1
    | tcp n =>
      simp only [step]
      rw [if_pos ⟨hal, ih.up.2.2.2.1⟩, if_neg]
      · exact ih
      · rintro rfl
        exact h4.2.2.2 he
    | tcpErr => exact absurd he h4.2.2.1
    | stopReq => simp only [step]; rw [if_neg (by simp [ih.up.2.2.2.2])]; exact ih
    | stopRes => simp only [step]; rw [if_neg (by simp [ih.up.2.2.2.2])]; exact ih

/-- **C159** An association can always be ended by closing its TCP connection: when that was noticed and both loops have taken the
    notice, it is over, whatever else happens in between; and then nothing more is passed on in either direction. -/
theorem C159_ends (net : Net) (es fs gs hs : List Event) (n1 : Event.stopReq ∈ fs) (n2 : Event.stopRes ∈ fs) :
    let s := run net (run net init (es ++ [.tcp 0])) (gs ++ fs)
    s.alive = false ∧ run net s hs = s := by
  intro s
  suffices h : s.alive = false from ⟨h, dead_run net hs s h⟩
  have hq : ∀ (s : St) (e : Event), s.req = false → (step net s e).req = false := by
    intro s e h
    cases e <;> simp only [step]
    case request => simp [h]
    all_goals repeat' split
    all_goals first | exact h | rfl
  have hr : ∀ (s : St) (e : Event), s.res = false → (step net s e).res = false := by
    intro s e h
    cases e <;> simp only [step]
    case request c b =>
      split
      · split
        · exact h
        · rename_i src d q hqq
          rcases request_cases net src d c b { s with queue := q } with ⟨p, e⟩ | ⟨-, e⟩ | ⟨a, data, -, -, -, e⟩ <;> rw [e] <;> exact h
      · exact h
    all_goals repeat' split
    all_goals first | exact h | rfl
  have ht : ∀ (s : St) (e : Event), s.tcp = false ∧ s.told = true → (step net s e).tcp = false ∧ (step net s e).told = true := by
    intro s e h
    cases e <;> simp only [step]
    case request c b =>
      split
      · split
        · exact h
        · rename_i src d q hqq
          rcases request_cases net src d c b { s with queue := q } with ⟨p, e⟩ | ⟨-, e⟩ | ⟨a, data, -, -, -, e⟩ <;> rw [e] <;> exact h
      · exact h
    all_goals repeat' split
    all_goals first | exact h | exact ⟨rfl, rfl⟩
  have dead : ∀ s : St, s.failed = false → s.alive = false → s.req = false ∧ s.res = false ∧ s.tcp = false := by
    intro s h1 h2
    simp only [St.alive, h1, Bool.not_false, Bool.true_and, Bool.or_eq_false_iff] at h2
    exact ⟨h2.1.1, h2.1.2, h2.2⟩
  -- the state after the connection was closed
  obtain ⟨s1, hs1⟩ : ∃ s1, s1 = run net init (es ++ [.tcp 0]) := ⟨_, rfl⟩
  have h1 : s1.alive = false ∨ (s1.tcp = false ∧ s1.told = true) := by
    rw [hs1, run_append]
    generalize hs0 : run net init es = s0
    have hi : Inv net s0 := hs0 ▸ Inv.run net es
    by_cases ha : s0.alive = true
    · right
      by_cases htc : s0.tcp = true
      · simp [run, step, ha, htc]
      · have htc : s0.tcp = false := by simpa using htc
        simp only [run, List.foldl_cons, List.foldl_nil, step]
        rw [if_neg (by simp [htc])]
        exact ⟨htc, hi.told.2 htc⟩
    · left
      have ha : s0.alive = false := by simpa using ha
      rw [dead_run net _ s0 ha]; exact ha
  show (run net (run net init (es ++ [.tcp 0])) (gs ++ fs)).alive = false
  rw [← hs1]
  rcases h1 with h1 | h1
  · rw [dead_run net _ s1 h1]; exact h1
  · have stop : ∀ (e : Event) (P : St → Prop), (∀ s e, P s → P (step net s e)) →
        (∀ s : St, s.alive = true → s.told = true → P (step net s e)) →
        ∀ (l : List Event) (s : St), e ∈ l → s.tcp = false ∧ s.told = true → (run net s l).alive = false ∨ P (run net s l) := by
      intro e P hP hstop l
      induction l with
      | nil => intro s hm; cases hm
      | cons x l ih =>
        intro s hm hs
        rw [run_cons]
        rcases List.mem_cons.1 hm with rfl | hm
        · by_cases ha : s.alive = true
          · exact Or.inr (inv_run hP l _ (hstop s ha hs.2))
          · have ha : s.alive = false := by simpa using ha
            rw [dead_step net s ha, dead_run net l s ha]; exact Or.inl ha
        · exact ih _ hm (ht s x hs)
    have a1 := stop .stopReq (fun s => s.req = false) hq (fun s h h' => by simp [step, h, h']) (gs ++ fs) s1
      (List.mem_append_right _ n1) h1
    have a2 := stop .stopRes (fun s => s.res = false) hr (fun s h h' => by simp [step, h, h']) (gs ++ fs) s1
      (List.mem_append_right _ n2) h1
    have a3 := (inv_run (fun s e h => ht s e h) (gs ++ fs) s1 h1).1
    rcases a1 with a1 | a1
    · exact a1
    · rcases a2 with a2 | a2
      · exact a2
      · simp only [St.alive]
        rw [a1, a2, a3]; simp

/-! ### Strangers -/

/-- **C160** is false, always: the socket of an association is open to everybody. If the first datagram it reads is that of somebody
    else than the client, then whatever happens later no datagram of the client is accepted any more, and everything that
    comes back is given to that other one. -/
theorem C160_stranger_fails (net : Net) (s : St) (x : SockAddr) (d : Bytes) (hal : s.alive = true)
    (hrq : s.req = true) (hp : s.peer = none) (hq : s.queue = []) (b : Bool) (es : List Event) :
    let s' := run net s ([.arrive x d, .request true b] ++ es)
    (∃ l, s'.accepted = s.accepted ++ l ∧ ∀ y ∈ l, y.1 = x) ∧
    (∃ l, s'.forwarded = s.forwarded ++ l ∧ ∀ y ∈ l, y.1 = x) ∧
    (∃ l, s'.returned = s.returned ++ l ∧ ∀ y ∈ l, y.1 = x) := by
  let P : St → Prop := fun t =>
    (t.alive = true → t.peer = some x) ∧ (∀ y ∈ t.queue, y.1 = x) ∧
    (∃ l, t.accepted = s.accepted ++ l ∧ ∀ y ∈ l, y.1 = x) ∧
    (∃ l, t.forwarded = s.forwarded ++ l ∧ ∀ y ∈ l, y.1 = x) ∧
    (∃ l, t.returned = s.returned ++ l ∧ ∀ y ∈ l, y.1 = x)
  have app : ∀ {α : Type} (L M : List (SockAddr × α)) (y : α), (∃ l, M = L ++ l ∧ ∀ y ∈ l, y.1 = x) →
      ∃ l, M ++ [(x, y)] = L ++ l ∧ ∀ y ∈ l, y.1 = x := by
    rintro α L M y ⟨l, rfl, h⟩
    exact ⟨l ++ [(x, y)], by simp, fun z hz => by
      rcases List.mem_append.1 hz with hz | hz
      · exact h z hz
      · rw [List.mem_singleton.1 hz]⟩
  have hstep : ∀ t e, P t → P (step net t e) := by
    intro t e h
    have h0 := h
    obtain ⟨h1, h2, h3, h4, h5⟩ := h
    have hdead : P (fail t) := ⟨(fun h => by cases h), h2, h3, h4, h5⟩
    cases e with
    | arrive src d =>
      simp only [step]
      split
      · rename_i hc
        have hx : src = x := by
          have := h1 hc.1
          rcases hc.2 with h | h
          · rw [this] at h; cases h
          · rw [this] at h; injection h with h; exact h.symm
        subst hx
        refine ⟨h1, ?_, app _ _ _ h3, h4, h5⟩
        intro y hy
        rcases List.mem_append.1 hy with hy | hy
        · exact h2 y hy
        · rw [List.mem_singleton.1 hy]
      · exact h0
    | request c b =>
      simp only [step]
      split
      · split
        · exact h0
        · rename_i src d q hqq
          have hsrc : src = x := h2 _ (by rw [hqq]; exact List.mem_cons_self)
          subst hsrc
          have hq2 : ∀ y ∈ q, y.1 = src := fun y hy => h2 y (by rw [hqq]; exact List.mem_cons_of_mem _ hy)
          rcases request_cases net src d c b { t with queue := q } with ⟨p, e⟩ | ⟨-, e⟩ | ⟨a, data, -, -, -, e⟩
          · rw [e]; exact ⟨(fun h => by cases h), hq2, h3, h4, h5⟩
          · rw [e]; exact ⟨fun _ => rfl, hq2, h3, h4, h5⟩
          · rw [e]; exact ⟨fun _ => rfl, hq2, h3, app _ _ _ h4, h5⟩
      · exact h0
    | requestErr => simp only [step]; split; exact hdead; exact h0
    | reply src d b =>
      simp only [step]
      split
      · rename_i hc
        rw [h1 hc.1]
        dsimp only
        split
        · exact ⟨fun _ => rfl, h2, h3, h4, app _ _ _ h5⟩
        · exact hdead
      · exact h0
    | replyErr => simp only [step]; split; exact hdead; exact h0
    | tcp n =>
      simp only [step]
      split
      · rename_i hc
        split
        · exact ⟨fun _ => h1 hc.1, h2, h3, h4, h5⟩
        · exact h0
      · exact h0
    | tcpErr => simp only [step]; split; exact hdead; exact h0
    | stopReq =>
      simp only [step]; split
      · rename_i hc; exact ⟨fun _ => h1 hc.1, h2, h3, h4, h5⟩
      · exact h0
    | stopRes =>
      simp only [step]; split
      · rename_i hc; exact ⟨fun _ => h1 hc.1, h2, h3, h4, h5⟩
      · exact h0
  have h0 : P (run net s [.arrive x d, .request true b]) := by
    have h1 : step net s (.arrive x d) = { s with queue := [(x, d)], accepted := s.accepted ++ [(x, d)] } := by
      simp only [step]; rw [if_pos ⟨hal, Or.inl hp⟩, hq]; rfl
    rw [run_cons, run_cons, h1]
    rw [run_nil]
    simp only [step]
    rw [if_pos ⟨hal, hrq⟩]
    have ha : ∃ l, s.accepted ++ [(x, d)] = s.accepted ++ l ∧ ∀ y ∈ l, y.1 = x := ⟨_, rfl, by simp⟩
    have hf : ∃ l, s.forwarded = s.forwarded ++ l ∧ ∀ y ∈ l, y.1 = x := ⟨[], by simp, by simp⟩
    have hr : ∃ l, s.returned = s.returned ++ l ∧ ∀ y ∈ l, y.1 = x := ⟨[], by simp, by simp⟩
    rcases request_cases net x d true b { s with queue := [], accepted := s.accepted ++ [(x, d)] } with ⟨p, e⟩ | ⟨-, e⟩ | ⟨a, data, -, -, -, e⟩
    · rw [e]; exact ⟨(fun h => by cases h), by simp [fail], ha, hf, hr⟩
    · rw [e]; exact ⟨fun _ => rfl, by simp, ha, hf, hr⟩
    · rw [e]; exact ⟨fun _ => rfl, by simp, ha, app _ _ _ hf, hr⟩
  intro s'
  have : P s' := by
    show P (run net s _)
    rw [run_append]
    exact inv_run hstep es _ h0
  exact this.2.2

/-- **C160**, partial: if only the client sends to the association's socket, everything forwarded is the client's and everything that
    comes back is given to the client. Missing: nothing keeps others from sending, see `C160_stranger_fails`. -/
theorem C160_alone_partial (net : Net) (es : List Event) (c : SockAddr) (h : ∀ src d, Event.arrive src d ∈ es → src = c) :
    (∀ x ∈ (run net init es).forwarded, x.1 = c) ∧ (∀ x ∈ (run net init es).returned, x.1 = c) := by
  have hacc : ∀ (es : List Event) (s : St), (∀ src d, Event.arrive src d ∈ es → src = c) → (∀ x ∈ s.accepted, x.1 = c) →
      ∀ x ∈ (run net s es).accepted, x.1 = c := by
    intro es
    induction es with
    | nil => exact fun s _ hs => hs
    | cons e es ih =>
      intro s he hs
      rw [run_cons]
      refine ih _ (fun src d hm => he src d (List.mem_cons_of_mem _ hm)) ?_
      cases e <;> simp only [step]
      case arrive src d =>
        split
        · intro x hx
          rcases List.mem_append.1 hx with hx | hx
          · exact hs x hx
          · rw [List.mem_singleton.1 hx]; exact he src d List.mem_cons_self
        · exact hs
      case request a b =>
        split
        · split
          · exact hs
          · rename_i src d q hqq
            rcases request_cases net src d a b { s with queue := q } with ⟨p, e⟩ | ⟨-, e⟩ | ⟨a, data, -, -, -, e⟩ <;> rw [e] <;> exact hs
        · exact hs
      all_goals repeat' split
      all_goals exact hs
  have ha := hacc es init h (by simp [init])
  constructor
  · intro x hx
    have hf := C159_forward net es
    dsimp only at hf
    obtain ⟨i, hi, hx⟩ := List.getElem_of_mem hx
    have hl := hf.length_eq
    have := (List.forall₂_iff_get.1 hf).2 i hi (by omega)
    simp only [List.get_eq_getElem] at this
    rw [← hx, this.1]
    exact ha _ (List.mem_of_mem_take (List.getElem_mem _))
  · intro x hx
    obtain ⟨d, hd⟩ := (C159_back net es).2 x hx
    exact ha (x.1, d) hd

/-! ### What ends an association -/

/-- **C161** is false: whoever sends a datagram to the outer socket of an association before the client has used it ends the
    association; nothing is forwarded after that. -/
theorem C161_early_fails (net : Net) (s : St) (hal : s.alive = true) (hr : s.res = true) (hp : s.peer = none)
    (src : SockAddr) (d : Bytes) (b : Bool) (es : List Event) :
    let s' := run net s (.reply src d b :: es)
    s'.alive = false ∧ s'.forwarded = s.forwarded ∧ s'.returned = s.returned := by
  have h : step net s (.reply src d b) = fail s := by
    simp only [step]; rw [if_pos ⟨hal, hr⟩, hp]
  intro s'
  have : s' = fail s := by
    show run net s _ = _
    rw [run_cons, h, dead_run net es _ (fail_dead s)]
  rw [this]
  exact ⟨rfl, rfl, rfl⟩

theorem encodeAddr_length (a : SockAddr) : 7 ≤ (encodeAddr a).length := by
  unfold encodeAddr
  cases a.ip <;> simp [putU8, putU16, putU32]

/-- **C161** is false: a datagram of up to 65507 bytes can come from outside, but with the header in front one of more than 65497
    bytes is too long to be sent on (65507 is the limit of UDP over IPv4); the association ends with it. -/
theorem C161_large_fails (net : Net) (s : St) (hal : s.alive = true) (hr : s.res = true) (src : SockAddr) (d : Bytes)
    (hd : 65497 < d.length) (sends : Bytes → Bool) (hlimit : ∀ x, 65507 < x.length → sends x = false) (es : List Event) :
    let s' := run net s (.reply src d (sends ([0, 0, 0] ++ encodeAddr src ++ d)) :: es)
    s'.alive = false ∧ s'.forwarded = s.forwarded ∧ s'.returned = s.returned := by
  have hl : sends ([0, 0, 0] ++ encodeAddr src ++ d) = false := by
    apply hlimit
    have := encodeAddr_length src
    simp only [List.length_append, List.length_cons, List.length_nil]
    omega
  have h : step net s (.reply src d (sends ([0, 0, 0] ++ encodeAddr src ++ d))) = fail s := by
    rw [hl]
    simp only [step]; rw [if_pos ⟨hal, hr⟩]
    split <;> rfl
  intro s'
  have : s' = fail s := by
    show run net s _ = _
    rw [run_cons, h, dead_run net es _ (fail_dead s)]
  rw [this]
  exact ⟨rfl, rfl, rfl⟩

/-- **C161**, partial: once the client has used the association, a datagram from outside that can be sent on leaves it at work.
    Missing: see `C161_early_fails`, `C161_large_fails`. -/
theorem C161_reply_partial (net : Net) (s : St) (hal : s.alive = true) (hp : s.peer ≠ none) (src : SockAddr) (d : Bytes) :
    let s' := step net s (.reply src d true)
    s'.alive = true ∧ s'.req = s.req ∧ s'.res = s.res ∧ s'.tcp = s.tcp ∧ s'.peer = s.peer := by
  intro s'
  show (step net s _).alive = true ∧ _
  simp only [s', step]
  split
  · split
    · rename_i h; exact absurd h hp
    · exact ⟨hal, rfl, rfl, rfl, rfl⟩
  · exact ⟨hal, rfl, rfl, rfl, rfl⟩

theorem parse_three (net : Net) (x y f : UInt8) (r : Bytes) :
    udpParse net (x :: y :: f :: r) =
      match readAddr net ⟨r, []⟩ with
      | .ok v => .ok ((f.toNat, v.1), v.2.buf)
      | .err e => .err e
      | .panic => .panic := by
  unfold udpParse
  rw [if_neg (by simp)]
  show (readAddr net ⟨r, []⟩).bind (fun x => _) = _
  cases readAddr net ⟨r, []⟩ <;> rfl

/-- **C79** fails: after one datagram marked as a fragment nothing of the client is sent on any more, though the association stays and
    goes on giving replies to the client until its TCP connection ends. -/
theorem C79_fragment_fails (net : Net) (s : St) (hal : s.alive = true) (hrq : s.req = true) (hr : s.res = true) (c : SockAddr)
    (x y f : UInt8) (t data : Bytes) (a : SockAddr) (hT : Target net t a) (hf : f ≠ 0)
    (q : List (SockAddr × Bytes)) (hq : s.queue = (c, [x, y, f] ++ t ++ data) :: q) (b : Bool) (src : SockAddr) (r : Bytes) (es : List Event) :
    (run net s (.request true b :: es)).forwarded = s.forwarded ∧
      (run net s [.request true b, .reply src r true]).returned = s.returned ++ [(c, [0, 0, 0] ++ encodeAddr src ++ r)] := by
  have hp : udpParse net ([x, y, f] ++ t ++ data) = .ok ((f.toNat, a), data) := by
    have h0 : udpParse net ([x, y, 0] ++ t ++ data) = .ok ((0, a), data) := asks_parse.1 ⟨x, y, t, rfl, hT⟩
    rw [show [x, y, 0] ++ t ++ data = x :: y :: 0 :: (t ++ data) by simp, parse_three] at h0
    rw [show [x, y, f] ++ t ++ data = x :: y :: f :: (t ++ data) by simp, parse_three]
    cases hr : readAddr net ⟨t ++ data, []⟩ with
    | err e => rw [hr] at h0; cases h0
    | panic => rw [hr] at h0; cases h0
    | ok v =>
      rw [hr] at h0
      simp only [Res.ok.injEq, Prod.mk.injEq] at h0
      obtain ⟨⟨-, h1⟩, h2⟩ := h0
      rw [← h1, ← h2]
  have hf : f.toNat ≠ 0 := fun h => hf (UInt8.toNat_inj.1 h)
  have h1 : step net s (.request true b) = { s with queue := q, peer := some c, req := false } := by
    simp only [step]
    rw [if_pos ⟨hal, hrq⟩, hq]
    simp only [request, hp]
    rw [if_neg (by simp), if_pos hf]
  constructor
  · rw [run_cons, h1]
    have : ∀ (t : St) (e : Event), (t.req = false ∧ t.forwarded = s.forwarded) → (step net t e).req = false ∧ (step net t e).forwarded = s.forwarded := by
      intro t e h
      cases e <;> simp only [step]
      case request => simp [h]
      all_goals repeat' split
      all_goals first | exact h | exact ⟨rfl, h.2⟩
    exact (inv_run (I := fun t => t.req = false ∧ t.forwarded = s.forwarded) this es { s with queue := q, peer := some c, req := false } ⟨rfl, rfl⟩).2
  · rw [run_cons, run_cons, h1]
    rw [run_nil]
    have hfl : s.failed = false := by
      simp only [St.alive, Bool.and_eq_true, Bool.not_eq_true'] at hal; exact hal.1
    have hal' : ({ s with queue := q, peer := some c, req := false } : St).alive = true := by simp [St.alive, hfl, hr]
    simp only [step]
    rw [if_pos ⟨hal', hr⟩]
    rfl

/-- a name service that knows nothing -/
def noNames : Net := ⟨fun _ => none, fun _ => true⟩
/-- a client, another host, a target, and a datagram asking to send `7` to the target -/
def client : SockAddr := ⟨.v4 0x7F000001, 5000⟩
def other : SockAddr := ⟨.v4 0x0A000009, 6000⟩
def target : SockAddr := ⟨.v4 0x01020304, 53⟩
def ask : Bytes := [0, 0, 0, 1, 1, 2, 3, 4, 0, 53, 7]

example : Asks noNames ask target [7] := ⟨0, 0, encodeAddr target, by decide, Or.inl rfl⟩

/-- a client asks twice, and gets two replies -/
example : (run noNames init [.arrive client ask, .request true true, .reply target [8] true, .arrive client ask, .request true true,
      .reply other [9] true]).forwarded = [(client, target, [7]), (client, target, [7])] ∧
    (run noNames init [.arrive client ask, .request true true, .reply target [8] true, .arrive client ask, .request true true,
      .reply other [9] true]).returned =
      [(client, [0, 0, 0, 1, 1, 2, 3, 4, 0, 53, 8]), (client, [0, 0, 0, 1, 10, 0, 0, 9, 23, 112, 9])] := by decide

/-- the hypotheses of `C159_stays` are met, e.g. by a datagram, its being sent on, a reply, and bytes on the TCP connection -/
example : let es : List Event := [.arrive client ask, .tcp 3, .request true true, .reply target [8] true]
    (∀ src d, Event.arrive src d ∈ es → ∃ a data, Asks noNames d a data) ∧
    (∀ c b, Event.request c b ∈ es → c = true ∧ b = true) ∧ (run noNames init (es.take 3)).forwarded ≠ [] ∧
    Event.requestErr ∉ es ∧ Event.replyErr ∉ es ∧ Event.tcpErr ∉ es ∧ Event.tcp 0 ∉ es := by
  refine ⟨fun src d h => ?_, fun c b h => ?_, by decide, by decide, by decide, by decide, by decide⟩
  · have : d = ask := by simp at h; exact h.2
    exact ⟨target, [7], this ▸ ⟨0, 0, encodeAddr target, by decide, Or.inl rfl⟩⟩
  · simpa using h

/-- somebody else is first: the client's datagram is not accepted, and the reply goes elsewhere -/
example : let s := run noNames init [.arrive other ask, .request true true, .arrive client ask, .request true true, .reply target [8] true]
    s.accepted = [(other, ask)] ∧ s.returned = [(other, [0, 0, 0, 1, 1, 2, 3, 4, 0, 53, 8])] := by decide

/-- closing the TCP connection -/
example : (run noNames init [.tcp 3, .tcp 0, .stopRes, .arrive client ask, .request true true]).alive = true ∧
    (run noNames init [.tcp 3, .tcp 0, .stopRes, .arrive client ask, .request true true, .stopReq]).alive = false := by decide

example : init.alive = true ∧ init.req = true ∧ init.res = true ∧ init.peer = none ∧ init.queue = [] := by decide

end Wm.Socks.Assoc
