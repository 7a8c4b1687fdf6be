import Verif.Props.ReverseMore
/-! Properties C171 and C172: what is left of a request for the later entries of a try list. -/
namespace Wm.Reverse
open Wm Wm.Config Wm.Helper

variable {W : Type}

/-- if the event is the handling of a request, then by a file server or a fixed answer -/
def ByPlain (locs : List Loc) (e : Ev) : Prop :=
  ∀ i r k, e = .handled i r k → k = false ∧ ∃ l, locs[i]? = some l ∧ l.kind = .plain

/-- up to the first handling by a proxy the request is the client's, but for the path -/
def Whole (locs : List Loc) (req : Req) (trace : List Ev) : Prop :=
  ∀ a i r k b, trace = a ++ .handled i r k :: b → (∀ e ∈ a, ByPlain locs e) → r = { req with path := r.path }

theorem Whole.snoc {locs : List Loc} {req : Req} {trace : List Ev} {e : Ev} (h : Whole locs req trace)
    (he : ∀ i r k, e = .handled i r k → (∀ e ∈ trace, ByPlain locs e) → r = { req with path := r.path }) :
    Whole locs req (trace ++ [e]) := by
  intro a i r k b hab hp
  rcases List.eq_nil_or_concat b with rfl | ⟨b', e', rfl⟩
  · obtain ⟨h1, h2⟩ := List.append_inj' hab rfl
    injection h2 with h2
    subst h1
    exact he i r k h2 hp
  · rw [List.concat_eq_append, ← List.cons_append, ← List.append_assoc] at hab
    exact h a i r k b' (List.append_inj' hab rfl).1 hp

theorem handle_now {env : Env W} {i : Nat} {l : Loc} {locs : List Loc} {s : St W} (hil : locs[i]? = some l)
    (h : ∀ e ∈ (handle env i l s.now s).1.trace, ByPlain locs e) : (handle env i l s.now s).1.now = s.now := by
  have hkept : ∀ {t : List Ev} {r : Req}, ¬ ∀ e ∈ t ++ [Ev.handled i r true], ByPlain locs e := by
    intro t r h
    have := (h _ (by simp : Ev.handled i r true ∈ t ++ [Ev.handled i r true]) i r true rfl).1
    cases this
  have hfresh : ∀ {t : List Ev} {r : Req}, (∀ e ∈ t ++ [Ev.handled i r false], ByPlain locs e) → l.kind = .plain := by
    intro t r h
    obtain ⟨l', hl, hk⟩ := (h _ (by simp : Ev.handled i r false ∈ t ++ [Ev.handled i r false]) i r false rfl).2
    rw [hil] at hl; injection hl with hl; rw [hl]; exact hk
  revert h
  unfold handle
  dsimp only
  split
  · split
    · intro _; rfl
    all_goals intro h; exact absurd h hkept
  · split
    · intro _; rfl
    · split
      · intro h
        have := hfresh h
        simp [this]
      · split
        · rename_i hk
          intro h
          have := hfresh h
          rw [hk] at this; cases this
        · rename_i hk
          intro _; simp [hk]

theorem whole_run (env : Env W) (servers : List Server) (w : W) (cache : List (Rule × Option Text × Option Text))
    (req : Req) (srv : Server) (hsrv : selectServer (req.host.getD []) servers = some srv) (s' : St W) (o : Out)
    (hop : operate env servers w cache req = some (s', o)) : Whole srv.locs req s'.trace := by
  unfold operate at hop
  rw [hsrv] at hop
  simp only at hop
  refine (dealMatch_inv (P := fun s => Whole srv.locs req s.trace ∧
    ((∀ e ∈ s.trace, ByPlain srv.locs e) → s.now = { req with path := s.now.path })) ?_ ?_ ?_ ?_ _
    ⟨w, cache, [], [], [], req⟩ req s' o rfl rfl ⟨?_, fun _ => rfl⟩ hop).1
  · intro s d p h
    refine ⟨h.1, fun hp => ?_⟩
    have := h.2 hp
    dsimp only
    rw [this]
  · intro s i l _ h
    rw [limitStep_now]
    rcases (limitStep_keep env i l s.now s).2.2.2 with ht | ⟨d, ht⟩
    · rw [ht]; exact h
    · rw [ht]
      exact ⟨h.1.snoc (by intro i r k hc; cases hc), fun hp => h.2 fun e he => hp e (by simp [he])⟩
  · intro s i l _ h _
    exact ⟨h.1.snoc (by intro i r k hc; cases hc), fun hp => h.2 fun e he => hp e (by simp [he])⟩
  · intro s i l hil h _ _
    constructor
    · rcases (handle_keep env i l s.now s).2 with ht | ⟨k, ht⟩
      · simp only [ht]; exact h.1
      · simp only [ht]
        refine h.1.snoc ?_
        intro j r k' hc hp
        injection hc with h1 h2 h3
        subst h2
        exact h.2 hp
    · intro hp
      rw [handle_now hil hp]
      refine h.2 fun e he => hp e ?_
      rcases (handle_keep env i l s.now s).2 with ht | ⟨k, ht⟩
      · rw [ht]; exact he
      · rw [ht]; simp [he]
  · intro a i r k b hab
    simp at hab

/-- **C171**, partial: a handler gets the whole body of the client's request as long as only file servers and fixed answers
    were asked before, so in particular whenever the first handler asked is the one that answers. Missing: entries of a try
    list after a proxied one, see `C171_second_fails`. -/
theorem C171_body_partial (env : Env W) (servers : List Server) (w : W)
    (cache : List (Rule × Option Text × Option Text)) (req : Req) (srv : Server)
    (hsrv : selectServer (req.host.getD []) servers = some srv) (s' : St W) (o : Out)
    (hop : operate env servers w cache req = some (s', o)) (a b : List Ev) (i : Nat) (r : Req) (k : Bool)
    (ht : s'.trace = a ++ .handled i r k :: b) (hp : ∀ e ∈ a, ByPlain srv.locs e) : r.body = req.body := by
  rw [whole_run env servers w cache req srv hsrv s' o hop a i r k b ht hp]

/-- **C172**, partial: likewise a handler sees the host, method, scheme and address of the client's request. Missing: entries
    of a try list after a proxied one, see `C172_host_fails`. -/
theorem C172_host_partial (env : Env W) (servers : List Server) (w : W)
    (cache : List (Rule × Option Text × Option Text)) (req : Req) (srv : Server)
    (hsrv : selectServer (req.host.getD []) servers = some srv) (s' : St W) (o : Out)
    (hop : operate env servers w cache req = some (s', o)) (a b : List Ev) (i : Nat) (r : Req) (k : Bool)
    (ht : s'.trace = a ++ .handled i r k :: b) (hp : ∀ e ∈ a, ByPlain srv.locs e) :
    r.host = req.host ∧ r.method = req.method ∧ r.scheme = req.scheme ∧ r.clientIp = req.clientIp := by
  rw [whole_run env servers w cache req srv hsrv s' o hop a i r k b ht hp]
  exact ⟨rfl, rfl, rfl, rfl⟩

/-- **C172** (what never changes) Whatever was asked before, a handler sees the method, scheme and address of the client's
    request. -/
theorem C172_same (env : Env W) (servers : List Server) (w : W)
    (cache : List (Rule × Option Text × Option Text)) (req : Req) (srv : Server)
    (hsrv : selectServer (req.host.getD []) servers = some srv) (s' : St W) (o : Out)
    (hop : operate env servers w cache req = some (s', o)) (i : Nat) (r : Req) (k : Bool)
    (ht : .handled i r k ∈ s'.trace) : r.method = req.method ∧ r.scheme = req.scheme ∧ r.clientIp = req.clientIp := by
  unfold operate at hop
  rw [hsrv] at hop
  simp only at hop
  refine (dealMatch_inv (P := fun s => (∀ i r k, .handled i r k ∈ s.trace → Like req r) ∧ Like req s.now) ?_ ?_ ?_ ?_ _
    ⟨w, cache, [], [], [], req⟩ req s' o rfl rfl ⟨by simp, rfl, rfl, rfl⟩ hop).1 i r k ht
  · intro s d r h; exact h
  · intro s i l _ h
    rw [limitStep_now]
    rcases (limitStep_keep env i l s.now s).2.2.2 with ht | ⟨d, ht⟩
    · rw [ht]; exact h
    · rw [ht]
      refine ⟨fun j r k hm => ?_, h.2⟩
      rcases List.mem_append.1 hm with hm | hm
      · exact h.1 j r k hm
      · simp at hm
  · intro s i l _ h _
    refine ⟨fun j r k hm => ?_, h.2⟩
    rcases List.mem_append.1 hm with hm | hm
    · exact h.1 j r k hm
    · simp at hm
  · intro s i l _ h _ _
    refine ⟨?_, handle_like h.2⟩
    rcases (handle_keep env i l s.now s).2 with ht | ⟨k, ht⟩
    · rw [ht]; exact h.1
    · rw [ht]
      intro j r k' hm
      rcases List.mem_append.1 hm with hm | hm
      · exact h.1 j r k' hm
      · rw [List.mem_singleton] at hm
        injection hm with _ h2
        rw [h2]; exact h.2

/-! ### entries after a proxied one -/

/-- a location with a try list that lets the request pass -/
structure Tries (env : Env W) (locs : List Loc) (req : Req) (i : Nat) (l : Loc) (list : List Text) (status : Nat) : Prop where
  first : IsFirst env locs req i l
  list : l.tryPaths = some (list, status)
  limit : l.limit = none
  admits : Admitted env l req.clientIp

/-- a location without a try list that gets the request -/
structure Takes (env : Env W) (locs : List Loc) (req : Req) (i : Nat) (l : Loc) : Prop where
  first : IsFirst env locs req i l
  list : l.tryPaths = none
  limit : l.limit = none
  admits : Admitted env l req.clientIp

theorem Takes.deal {env : Env W} {locs : List Loc} {req : Req} {i : Nat} {l : Loc} (h : Takes env locs req i l) (fuel : Nat)
    (s : St W) (hd : s.deals = []) : dealMatch env locs (fuel + 1) s req = some (handle env i l req s) := by
  simp only [dealMatch, hd, findLoc_of_first h.first, limitStep, h.limit, access_of_admitted h.admits, h.list]

theorem Tries.deal {env : Env W} {locs : List Loc} {req : Req} {i : Nat} {l : Loc} {list : List Text} {status : Nat}
    (h : Tries env locs req i l list status) (fuel : Nat) (s : St W) (hd : s.deals = []) (hn : i ∉ s.tryDeals) :
    dealMatch env locs (fuel + 1) s req = tryList env (dealMatch env locs fuel) req status list
      { s with tryDeals := i :: s.tryDeals, trace := s.trace ++ [.tries i] } := by
  have hc : s.tryDeals.contains i = false := by simpa using hn
  simp only [dealMatch, hd, findLoc_of_first h.first, limitStep, h.limit, access_of_admitted h.admits, h.list, hc,
    Bool.false_eq_true, if_false]

/-- what is left of a request for entry `v` after the proxy of a location was asked with `r`, which answered -/
def afterProxy (env : Env W) (w : W) (i : Nat) (path : Text) (r : Req) (v : Text) : Req :=
  let left : Req := { r with host := (env.left w i r).1, body := [] }
  { left with path := env.format { left with path := path } v }

theorem two_entries {env : Env W} {locs : List Loc} {w w1 : W} {cache : List (Rule × Option Text × Option Text)}
    {name : Text} {req : Req} {i0 i1 : Nat} {l0 l1 : Loc} {v1 v2 : Text} {status : Nat} {a : Response}
    (h0 : Tries env locs req i0 l0 [v1, v2] status)
    (h1 : Takes env locs { req with path := env.format req v1 } i1 l1) (hk1 : l1.kind = .proxy) (hc1 : l1.key ∉ cache)
    (ha : env.fresh w i1 { req with path := env.format req v1 } = (some a, w1)) (hbad : 400 ≤ a.status ∧ a.status < 600) :
    let r1 : Req := { req with path := env.format req v1 }
    let r2 := afterProxy env w i1 req.path r1 v2
    operate env [⟨name, locs⟩] w cache req =
      (match dealMatch env locs locs.length ⟨w1, l1.key :: cache, [], [i0], [.tries i0, .handled i1 r1 false], r2⟩ r2 with
        | none => none
        | some (s', .resp r) => if isError r.status then some (s', .resp ⟨status, []⟩) else some (s', .resp r)
        | some (s', .err) => some (s', .resp ⟨status, []⟩)) := by
  intro r1 r2
  obtain ⟨n, hn⟩ : ∃ n, locs.length = n + 1 := by
    cases locs with
    | nil => exact absurd h0.first.1 (by simp)
    | cons x xs => exact ⟨xs.length, rfl⟩
  have hop : operate env [⟨name, locs⟩] w cache req
      = dealMatch env locs (locs.length + 1) ⟨w, cache, [], [], [], req⟩ req := rfl
  rw [hop, h0.deal _ _ rfl (by simp), hn, tryList]
  dsimp only
  have hcc : cache.contains l1.key = false := by simpa using hc1
  have hd := h1.deal n (⟨w, cache, [], [i0], [.tries i0], r1⟩ : St W) rfl
  have hh : handle env i1 l1 r1 (⟨w, cache, [], [i0], [.tries i0], r1⟩ : St W)
      = (⟨w1, l1.key :: cache, [i1], [i0], [.tries i0, .handled i1 r1 false],
          r1.proxied (env.left w i1 r1).1 true⟩,
        .resp { a with headers := rewriteAll env.hdr false l1.headers a.headers }) := by
    have ha' : env.fresh w i1 r1 = (some a, w1) := ha
    simp [handle, hcc, hc1, hk1, ha']
  rw [hh] at hd
  have hd' : dealMatch env locs (n + 1)
      (⟨w, cache, [], [i0], [] ++ [.tries i0], { req with path := env.format req v1 }⟩ : St W)
      { req with path := env.format req v1 } = _ := hd
  rw [hd']
  have hb : isError a.status = true := by simp [isError, hbad]
  dsimp only
  rw [if_pos hb, tryList]
  rfl

/-- **C171** fails for try lists: when the first entry goes to a proxy and its upstream server answers with an error status,
    the handler of the second entry gets the request without its body. -/
theorem C171_second_fails (env : Env W) (locs : List Loc) (w w1 : W) (cache : List (Rule × Option Text × Option Text))
    (name : Text) (req : Req) (i0 i1 i2 : Nat) (l0 l1 l2 : Loc) (v1 v2 : Text) (status : Nat) (a : Response)
    (h0 : Tries env locs req i0 l0 [v1, v2] status)
    (h1 : Takes env locs { req with path := env.format req v1 } i1 l1) (hk1 : l1.kind = .proxy) (hc1 : l1.key ∉ cache)
    (ha : env.fresh w i1 { req with path := env.format req v1 } = (some a, w1)) (hbad : 400 ≤ a.status ∧ a.status < 600)
    (h2 : Takes env locs (afterProxy env w i1 req.path { req with path := env.format req v1 } v2) i2 l2)
    (hk2 : l2.kind ≠ .nothing) (hc2 : l2.key ∉ cache) (hne : l2.key ≠ l1.key) :
    ∃ s' o r1 r2, operate env [⟨name, locs⟩] w cache req = some (s', o) ∧
      s'.trace = [.tries i0, .handled i1 r1 false, .handled i2 r2 false] ∧ r1.body = req.body ∧ r2.body = [] := by
  obtain ⟨n, hn⟩ : ∃ n, locs.length = n + 1 := by
    cases locs with
    | nil => exact absurd h0.first.1 (by simp)
    | cons x xs => exact ⟨xs.length, rfl⟩
  have e := two_entries (name := name) h0 h1 hk1 hc1 ha hbad
  dsimp only at e
  rw [hn, h2.deal n _ rfl] at e
  rw [e]
  generalize hr2 : afterProxy env w i1 req.path { req with path := env.format req v1 } v2 = r2
  have hb2 : r2.body = [] := by rw [← hr2]; rfl
  have hcc : (l1.key :: cache).contains l2.key = false := by simp [hc2, hne]
  have ht : (handle env i2 l2 r2 (⟨w1, l1.key :: cache, [], [i0], [.tries i0, .handled i1
      { req with path := env.format req v1 } false], r2⟩ : St W)).1.trace
      = [.tries i0, .handled i1 { req with path := env.format req v1 } false, .handled i2 r2 false] := by
    unfold handle
    dsimp only
    rw [if_neg (by simpa using hcc), if_neg hk2]
    split
    · rfl
    · split <;> rfl
  cases hx : handle env i2 l2 r2 (⟨w1, l1.key :: cache, [], [i0], [.tries i0, .handled i1
      { req with path := env.format req v1 } false], r2⟩ : St W) with
  | mk s' o =>
    rw [hx] at ht
    cases o with
    | err => exact ⟨s', _, _, r2, rfl, ht, rfl, hb2⟩
    | resp r =>
      dsimp only
      split
      · exact ⟨s', _, _, r2, rfl, ht, rfl, hb2⟩
      · exact ⟨s', _, _, r2, rfl, ht, rfl, hb2⟩

/-- after a request was sent over a kept connection nothing of its body is left -/
def Spent (s : St W) : Prop :=
  ∀ a i r b, s.trace = a ++ .handled i r true :: b → s.now.body = [] ∧ ∀ j r' k, .handled j r' k ∈ b → r'.body = []

/-- an event that is no handling leaves the body as it is -/
theorem Spent.note {s : St W} {e : Ev} (h : Spent s) (he : ∀ i r k, e ≠ .handled i r k) {s' : St W}
    (ht : s'.trace = s.trace ++ [e]) (hn : s'.now.body = s.now.body) : Spent s' := by
  intro a i r b hab
  rw [ht] at hab
  rcases List.eq_nil_or_concat b with rfl | ⟨b', e', rfl⟩
  · injection (List.append_inj' hab rfl).2 with h2
    exact absurd h2 (he i r true)
  · rw [List.concat_eq_append, ← List.cons_append, ← List.append_assoc] at hab
    obtain ⟨h1, h2⟩ := List.append_inj' hab rfl
    injection h2 with h2
    obtain ⟨g1, g2⟩ := h a i r b' h1
    refine ⟨hn.trans g1, fun j r' k hm => ?_⟩
    rw [List.concat_eq_append, List.mem_append] at hm
    rcases hm with hm | hm
    · exact g2 j r' k hm
    · exact absurd (h2.trans (List.mem_singleton.1 hm).symm) (he j r' k)

/-- a handling with the request as it is, after which the body is gone or what it was, and gone if the connection was a kept
    one -/
theorem Spent.handled {s : St W} {i : Nat} {k : Bool} (h : Spent s) {s' : St W}
    (ht : s'.trace = s.trace ++ [.handled i s.now k]) (hn : s'.now.body = s.now.body ∨ s'.now.body = [])
    (hk : k = true → s'.now.body = []) : Spent s' := by
  intro a j r b hab
  rw [ht] at hab
  rcases List.eq_nil_or_concat b with rfl | ⟨b', e', rfl⟩
  · injection (List.append_inj' hab rfl).2 with h2
    injection h2 with _ _ h3
    exact ⟨hk h3, fun _ _ _ hm => by cases hm⟩
  · rw [List.concat_eq_append, ← List.cons_append, ← List.append_assoc] at hab
    obtain ⟨h1, h2⟩ := List.append_inj' hab rfl
    injection h2 with h2
    obtain ⟨g1, g2⟩ := h a j r b' h1
    refine ⟨hn.elim (·.trans g1) id, fun j' r' k' hm => ?_⟩
    rw [List.concat_eq_append, List.mem_append] at hm
    rcases hm with hm | hm
    · exact g2 j' r' k' hm
    · have := h2.trans (List.mem_singleton.1 hm).symm
      injection this with _ h4 _
      rw [← h4]; exact g1

theorem handle_spent (env : Env W) (i : Nat) (l : Loc) (s : St W) (h : Spent s) : Spent (handle env i l s.now s).1 := by
  unfold handle
  dsimp only
  split
  · split
    · exact h
    · exact h.handled rfl (Or.inr rfl) fun _ => rfl
    · exact h.handled rfl (Or.inr rfl) fun _ => rfl
    · exact h.handled rfl (Or.inr rfl) fun _ => rfl
  · split
    · exact h
    · have hb : ∀ (x : Option Text) (y : Bool), (s.now.proxied x y).body = s.now.body ∨ (s.now.proxied x y).body = [] := by
        intro x y
        cases y
        · exact Or.inl rfl
        · exact Or.inr rfl
      split
      · refine h.handled rfl ?_ (by intro hc; cases hc)
        dsimp only
        split
        · exact hb _ _
        · exact Or.inl rfl
      · by_cases hk : l.kind = .proxy
        · simp only [hk, if_true]
          exact h.handled rfl (hb _ _) (by intro hc; cases hc)
        · simp only [hk, if_false]
          exact h.handled rfl (Or.inl rfl) (by intro hc; cases hc)

/-- **C171** fails for every try list that comes to a kept upstream connection: whatever that connection gives, an answer with an
    error status or none at all, every handler asked after it gets the request without its body. -/
theorem C171_kept_fails (env : Env W) (servers : List Server) (w : W)
    (cache : List (Rule × Option Text × Option Text)) (req : Req) (s' : St W) (o : Out)
    (hop : operate env servers w cache req = some (s', o)) (a b : List Ev) (i j : Nat) (r r' : Req) (k : Bool)
    (ht : s'.trace = a ++ .handled i r true :: b) (hb : .handled j r' k ∈ b) : r'.body = [] := by
  unfold operate at hop
  split at hop
  · cases hop
    simp at ht
  · rename_i srv hsrv
    refine (dealMatch_inv (P := Spent) ?_ ?_ ?_ ?_ _ _ req s' o rfl rfl ?_ hop a i r b ht).2 j r' k hb
    · intro s d p h; exact h
    · intro s i l _ h
      rcases (limitStep_keep env i l s.now s).2.2.2 with ht | ⟨d, ht⟩
      · intro a j r b hab
        rw [limitStep_now]
        exact h a j r b (ht ▸ hab)
      · exact h.note (by intro _ _ _ hc; cases hc) ht (by rw [limitStep_now])
    · intro s i l _ h _
      exact h.note (by intro _ _ _ hc; cases hc) rfl rfl
    · intro s i l _ h _ _
      exact handle_spent env i l s h
    · intro a i r b hab
      simp at hab

/-- **C172** fails for try lists: when the first entry goes to a proxy (whose upstream server answers with an error status),
    the second entry is looked up with the address of that server as its host. If the only locations for it are bound to
    the host the client named, none is found, and the answer is the status of the list. -/
theorem C172_host_fails (env : Env W) (locs : List Loc) (w w1 : W) (cache : List (Rule × Option Text × Option Text))
    (name : Text) (req : Req) (i0 i1 : Nat) (l0 l1 : Loc) (v1 v2 : Text) (status : Nat) (a : Response) (h : Text)
    (h0 : Tries env locs req i0 l0 [v1, v2] status)
    (h1 : Takes env locs { req with path := env.format req v1 } i1 l1) (hk1 : l1.kind = .proxy) (hc1 : l1.key ∉ cache)
    (ha : env.fresh w i1 { req with path := env.format req v1 } = (some a, w1)) (hbad : 400 ≤ a.status ∧ a.status < 600)
    (hhost : (env.left w i1 { req with path := env.format req v1 }).1 ≠ some h)
    (hlocs : ∀ l ∈ locs, l.rule.host = some h ∨
      ∃ p, l.rule.path = some p ∧ ¬ PathAccepts env p (afterProxy env w i1 req.path { req with path := env.format req v1 } v2).path) :
    ∃ s', operate env [⟨name, locs⟩] w cache req = some (s', .resp ⟨status, []⟩) ∧
      s'.trace = [.tries i0, .handled i1 { req with path := env.format req v1 } false] := by
  obtain ⟨n, hn⟩ : ∃ n, locs.length = n + 1 := by
    cases locs with
    | nil => exact absurd h0.first.1 (by simp)
    | cons x xs => exact ⟨xs.length, rfl⟩
  have e := two_entries (name := name) h0 h1 hk1 hc1 ha hbad
  dsimp only at e
  have hnone : findLoc env [] (afterProxy env w i1 req.path { req with path := env.format req v1 } v2) locs 0 = none := by
    rw [findLoc_none]
    intro l hl hacc
    rcases hlocs l hl with hh | ⟨p, hp, hnp⟩
    · exact hhost (hacc.host h hh)
    · exact hnp (hacc.path p hp)
  rw [hn] at e
  simp only [dealMatch, hnone] at e
  exact ⟨_, e, rfl⟩

/-! a concrete case: "/" tries "/p" (a proxy) and "/s" (files) -/

/-- the proxy leaves the host "u" behind and gets 502 from its server -/
def leaveEnv : Env Unit := { demoEnv with
  fresh := fun _ i _ => (some ⟨if i = 1 then 502 else 200, []⟩, ())
  left := fun _ _ _ => (some ['u'], true) }

def leaveLocs (host : Option Text) : List Loc :=
  [{ plainLoc ['/', 'a'] with tryPaths := some ([['/', 'p'], ['/', 's']], 410) },
    { plainLoc ['/', 'p'] with kind := .proxy },
    { plainLoc ['/', 's'] with rule := ⟨some ['/', 's'], none, none, host, none, none⟩ }]

/-- the requests that were handled -/
def bodies (trace : List Ev) : List (Nat × Bytes) := trace.filterMap fun
  | .handled i r _ => some (i, r.body)
  | _ => none

/-- the second entry is answered, but its handler gets no body -/
example : ((operate leaveEnv [⟨[], leaveLocs none⟩] () [] { demoReq ['/', 'a'] none with body := [1, 2], host := some ['h'] }).map
    fun x => (x.2, bodies x.1.trace)) = some (.resp ⟨200, []⟩, [(1, [1, 2]), (2, [])]) := by decide +kernel

/-- likewise if the first entry finds a kept connection -/
example : ((operate { leaveEnv with reuse := fun _ _ _ => (.answer ⟨502, []⟩, ()) } [⟨[], leaveLocs none⟩] ()
    [({ plainLoc ['/', 'p'] with kind := .proxy } : Loc).key]
    { demoReq ['/', 'a'] none with body := [1, 2], host := some ['h'] }).map
    fun x => (x.2, bodies x.1.trace)) = some (.resp ⟨200, []⟩, [(1, [1, 2]), (2, [])]) := by decide +kernel

/-- bound to the host the client names, it is not found -/
example : ((operate leaveEnv [⟨[], leaveLocs (some ['h'])⟩] () [] { demoReq ['/', 'a'] none with body := [1, 2], host := some ['h'] }).map
    fun x => (x.2, bodies x.1.trace)) = some (.resp ⟨410, []⟩, [(1, [1, 2])]) ∧
  ((operate leaveEnv [⟨[], leaveLocs (some ['h'])⟩] () [] { demoReq ['/', 's'] none with body := [1, 2], host := some ['h'] }).map
    fun x => (x.2, bodies x.1.trace)) = some (.resp ⟨200, []⟩, [(2, [1, 2])]) := by decide +kernel

/-- after a file server the whole request is there -/
example : ((operate { leaveEnv with fresh := fun _ i _ => (some ⟨if i = 1 then 404 else 200, []⟩, ()) }
    [⟨[], (leaveLocs (some ['h'])).map fun l => { l with kind := .plain }⟩] () []
    { demoReq ['/', 'a'] none with body := [1, 2], host := some ['h'] }).map
    fun x => (x.2, bodies x.1.trace)) = some (.resp ⟨200, []⟩, [(1, [1, 2]), (2, [1, 2])]) := by decide +kernel

end Wm.Reverse
