import Verif.Model.Core
import Verif.Props.TransHttp
import Verif.Props.Tunnel
import Verif.Proofs.WorldFit
import Mathlib.Data.List.Perm.Basic
/-!
Properties C114 (a visitor reaches a client that offers the service) and C115 (nobody keeps the service from accepting
others' connections).
-/
namespace Wm.Tunnel
open Wm Wm.Prot

/-! ### a client that has not logged in has no mappings -/

/-- neither login nor mappings change -/
def SameLogin (s s' : St) : Prop := s'.verify = s.verify ∧ s'.mappings = s.mappings

theorem SameLogin.trans {a b c : St} (h : SameLogin a b) (h' : SameLogin b c) : SameLogin a c :=
  ⟨h'.1.trans h.1, h'.2.trans h.2⟩

theorem sameLogin_hangFold (m : List (Nat × Nat)) : ∀ s : St, SameLogin s (m.foldl (fun s x => hangup x.2 s) s) := by
  induction m with
  | nil => intro s; exact ⟨rfl, rfl⟩
  | cons x m ih => intro s; exact SameLogin.trans (b := hangup x.2 s) ⟨rfl, rfl⟩ (ih _)

theorem sameLogin_finish (p : Phase) (s : St) : SameLogin s (finish p s) := sameLogin_hangFold s.map s

theorem sameLogin_trySend (h f) (s : St) : SameLogin s (trySend h f s) := by
  unfold trySend
  split
  · exact ⟨rfl, rfl⟩
  · split <;> exact ⟨rfl, rfl⟩

theorem sameLogin_closeFold (m : List (Nat × Nat)) :
    ∀ s : St, SameLogin s (m.foldl (fun s x => trySend x.2 (.close x.1 []) s) s) := by
  induction m with
  | nil => intro s; exact ⟨rfl, rfl⟩
  | cons x m ih => intro s; exact (sameLogin_trySend _ _ s).trans (ih _)

theorem sameLogin_sendAwait (h f) (s : St) : SameLogin s (sendAwait h f s).1 := by
  unfold sendAwait
  split
  · exact ⟨rfl, rfl⟩
  · split <;> exact ⟨rfl, rfl⟩

theorem sameLogin_register (id) (s : St) : SameLogin s (register id s) := by
  unfold register
  cases lookup id s.map <;> exact ⟨rfl, rfl⟩

/-- without login no mappings -/
def Stranger (s : St) : Prop := s.verify = false → s.mappings = []

theorem Stranger.same {s s' : St} (h : Stranger s) (hs : SameLogin s s') : Stranger s' := by
  intro hv
  rw [hs.2]
  exact h (by rw [← hs.1]; exact hv)

theorem Stranger.kept : Kept Stranger where
  buf s b h := h
  read s bs h _ := h
  fin s p h _ _ := h.same (sameLogin_finish p s)
  lost s h _ := by
    refine Stranger.same (s := emit .connLost s) h ?_
    exact (sameLogin_closeFold _ _).trans (sameLogin_finish _ _)
  submit s f h _ _ := h
  take s k f q h _ _ := h
  drop s k h _ := h
  retry s k f h _ := Stranger.same (s := { s with pending := none }) h (sameLogin_sendAwait k f _)
  work s id d h _ := h.same (sameLogin_register id s)
  recv s f q h _ _ := h
  wrote s n h _ _ _ := h
  drained s n h _ _ _ := Stranger.same (s := emit (.wrote (s.writeBuf.take n)) { s with writeBuf := s.writeBuf.drop n }) h
    (sameLogin_finish _ _)

theorem Stranger.handle (cfg : Cfg) (s : St) (f : Frame) (h : Stranger s) : Stranger (serverHandle cfg s f).1 := by
  have h0 : Stranger (emit (.got f) s) := h
  unfold serverHandle
  dsimp only
  split
  · intro hv; cases hv
  · split
    · exact h0
    · rename_i hv
      cases f with
      | create id d => exact h0.same (sameLogin_register id _)
      | close id r =>
        dsimp only
        split
        · exact h0.same (sameLogin_sendAwait _ _ _)
        · exact h0
      | data id d =>
        dsimp only
        split
        · exact h0.same (sameLogin_sendAwait _ _ _)
        · exact h0
      | mapping id ms =>
        intro hv'
        exact absurd (show (!(emit (.got (Frame.mapping id ms)) s).verify) = true by
          have : s.verify = false := hv'
          simp [emit, this]) hv
      | token u p => exact h0

theorem server_stranger (cfg : Cfg) (es : List Event) : Stranger (serverRun cfg es) := by
  have hK : Kept (fun s => SInv cfg s ∧ Stranger s) :=
    ((Flow.kept.and Guard.kept).and (HInv.kept.and BInv.kept)).and Stranger.kept
  have hP : Preserved (serverHandle cfg) (finish .panicked) (fun s => SInv cfg s ∧ Stranger s) := by
    refine Kept.preserved' hK fun s f h hl => ?_
    have h1 := serverHandle_inv cfg s f h.1 hl
    exact ⟨⟨h1.1, Stranger.handle cfg s f h.2⟩, h1.2⟩
  exact (run_inv hP es _ ⟨server_inv cfg [], fun _ => rfl⟩).2

end Wm.Tunnel

namespace Wm.Core
open Wm

/-! ### C114 -/

/-- the client offers a service of this mode under this name -/
def Offers (c : Tunnel.St) (mode name : Text) : Prop := ∃ m ∈ c.mappings, m.mode = mode ∧ m.name = name

theorem pick_some (ms : List MappingConfig) (mode : Text) (acc : Option Text) :
    (ms.foldl (fun acc m => if m.mode == mode then some m.name else acc) acc = acc ∧ ∀ m ∈ ms, m.mode ≠ mode) ∨
    ∃ m ∈ ms, m.mode = mode ∧ ms.foldl (fun acc m => if m.mode == mode then some m.name else acc) acc = some m.name := by
  induction ms generalizing acc with
  | nil => left; simp
  | cons m ms ih =>
    by_cases hm : m.mode = mode
    · right
      rcases ih (some m.name) with ⟨h1, h2⟩ | ⟨m', h1, h2, h3⟩
      · exact ⟨m, by simp, hm, by rw [List.foldl_cons, if_pos (by simp [hm])]; exact h1⟩
      · exact ⟨m', by simp [h1], h2, by rw [List.foldl_cons, if_pos (by simp [hm])]; exact h3⟩
    · rcases ih acc with ⟨h1, h2⟩ | ⟨m', h1, h2, h3⟩
      · left
        refine ⟨by rw [List.foldl_cons, if_neg (by simp [hm])]; exact h1, ?_⟩
        intro x hx
        rcases List.mem_cons.mp hx with rfl | hx
        · exact hm
        · exact h2 x hx
      · right; exact ⟨m', by simp [h1], h2, by rw [List.foldl_cons, if_neg (by simp [hm])]; exact h3⟩

theorem pickName_some {ms : List MappingConfig} {mode n : Text} (h : World.pickName ms mode = some n) :
    ∃ m ∈ ms, m.mode = mode ∧ m.name = n := by
  rcases pick_some ms mode none with ⟨h1, _⟩ | ⟨m, h1, h2, h3⟩
  · unfold World.pickName at h; rw [h1] at h; cases h
  · unfold World.pickName at h; rw [h3] at h; injection h with h; exact ⟨m, h1, h2, h⟩

theorem pickName_none {ms : List MappingConfig} {mode : Text} :
    World.pickName ms mode = none ↔ ∀ m ∈ ms, m.mode ≠ mode := by
  unfold World.pickName
  rcases pick_some ms mode none with ⟨h1, h2⟩ | ⟨m, h1, h2, h3⟩
  · rw [h1]; simp only [true_iff]; exact h2
  · rw [h3]
    simp only [reduceCtorEq, false_iff]
    exact fun h => h m h1 h2

theorem domain_some (ms : List MappingConfig) (host : Text) (acc : Option MappingConfig) :
    (ms.foldl (fun acc m => if m.domain == host then some m else acc) acc = acc ∧ ∀ m ∈ ms, m.domain ≠ host) ∨
    ∃ m ∈ ms, m.domain = host ∧ ms.foldl (fun acc m => if m.domain == host then some m else acc) acc = some m := by
  induction ms generalizing acc with
  | nil => left; simp
  | cons m ms ih =>
    by_cases hm : m.domain = host
    · right
      rcases ih (some m) with ⟨h1, h2⟩ | ⟨m', h1, h2, h3⟩
      · exact ⟨m, by simp, hm, by rw [List.foldl_cons, if_pos (by simp [hm])]; exact h1⟩
      · exact ⟨m', by simp [h1], h2, by rw [List.foldl_cons, if_pos (by simp [hm])]; exact h3⟩
    · rcases ih acc with ⟨h1, h2⟩ | ⟨m', h1, h2, h3⟩
      · left
        refine ⟨by rw [List.foldl_cons, if_neg (by simp [hm])]; exact h1, ?_⟩
        intro x hx
        rcases List.mem_cons.mp hx with rfl | hx
        · exact hm
        · exact h2 x hx
      · right; exact ⟨m', by simp [h1], h2, by rw [List.foldl_cons, if_neg (by simp [hm])]; exact h3⟩

theorem pickDomain_some {ms : List MappingConfig} {host : Text} {m} (h : TransHttp.pickDomain ms host = some m) :
    m ∈ ms ∧ m.domain = host := by
  unfold TransHttp.pickDomain at h
  rcases domain_some ms host none with ⟨h1, _⟩ | ⟨m, h1, h2, h3⟩
  · rw [h1] at h; cases h
  · rw [h3] at h; injection h with h; subst h; exact ⟨h1, h2⟩

theorem pickDomain_none {ms : List MappingConfig} {host : Text} :
    TransHttp.pickDomain ms host = none ↔ ∀ m ∈ ms, m.domain ≠ host := by
  unfold TransHttp.pickDomain
  rcases domain_some ms host none with ⟨h1, h2⟩ | ⟨m, h1, h2, h3⟩
  · rw [h1]; simp only [true_iff]; exact h2
  · rw [h3]
    simp only [reduceCtorEq, false_iff]
    exact fun h => h m h1 h2

/-- the connection of a client is there: its task is at work, or hangs -/
def Connected (c : Tunnel.St) : Prop := c.phase = .running ∨ c.phase = .stuck

theorem closed_iff (c : Tunnel.St) : closed c = true ↔ ¬ Connected c := by
  unfold closed Connected
  cases c.phase <;> simp

theorem open_iff (c : Tunnel.St) : closed c = false ↔ Connected c := by
  unfold closed Connected
  cases c.phase <;> simp

theorem handTo_first {before after : List Tunnel.St} {c : Tunnel.St} (hb : ∀ x ∈ before, ¬ Connected x)
    (hc : Connected c) : handTo (before ++ c :: after) = some c := by
  unfold handTo
  rw [← open_iff] at hc
  simp only [← closed_iff] at hb
  have : before.filter (fun x => !closed x) = [] := by
    rw [List.filter_eq_nil_iff]; intro x hx; simp [hb x hx]
  rw [List.filter_append, this, List.nil_append, List.filter_cons_of_pos (by simp [hc]),
    List.find?_cons_of_pos (by simp [hc])]

theorem handTo_some {cs : List Tunnel.St} {c} (h : handTo cs = some c) :
    ∃ before after, cs = before ++ c :: after ∧ (∀ x ∈ before, ¬ Connected x) ∧ Connected c := by
  simp only [← closed_iff, ← open_iff]
  unfold handTo at h
  have hc : closed c = false := by simpa using List.find?_some h
  rw [List.find?_filter] at h
  obtain ⟨_, a, b, hab, hn⟩ := List.find?_eq_some_iff_append.mp h
  refine ⟨a, b, hab, fun x hx => ?_, hc⟩
  have := hn x hx
  simpa using this

/-- **C114**, partial: Visitors go only to clients that are connected and offer what was asked for. -/
theorem C114_only_partial (cs : List Tunnel.St) :
    (∀ mode c n, visitTcp cs mode = some (c, n) → c ∈ cs ∧ Connected c ∧ Offers c mode n) ∧
    (∀ host c m, visitHttp cs host = some (c, m) → c ∈ cs ∧ Connected c ∧ m ∈ c.mappings ∧ m.domain = host) := by
  constructor
  · intro mode c n h
    unfold visitTcp at h
    cases hh : handTo cs with
    | none => rw [hh] at h; cases h
    | some c' =>
      rw [hh] at h; dsimp only at h
      cases hp : World.pickName c'.mappings mode with
      | none => rw [hp] at h; cases h
      | some n' =>
        rw [hp] at h; simp only [Option.map_some, Option.some.injEq, Prod.mk.injEq] at h
        obtain ⟨rfl, rfl⟩ := h
        obtain ⟨a, b, hab, _, hc⟩ := handTo_some hh
        exact ⟨by simp [hab], hc, pickName_some hp⟩
  · intro host c m h
    unfold visitHttp at h
    cases hh : handTo cs with
    | none => rw [hh] at h; cases h
    | some c' =>
      rw [hh] at h; dsimp only at h
      cases hp : TransHttp.pickDomain c'.mappings host with
      | none => rw [hp] at h; cases h
      | some n' =>
        rw [hp] at h; simp only [Option.map_some, Option.some.injEq, Prod.mk.injEq] at h
        obtain ⟨rfl, rfl⟩ := h
        obtain ⟨a, b, hab, _, hc⟩ := handTo_some hh
        exact ⟨by simp [hab], hc, pickDomain_some hp⟩

/-- **C114**, partial: If the client that connected first, among those still connected, offers what was asked for, then it gets the visitor.
    Missing: services that only other clients offer, see `C114_first_only_fails`. -/
theorem C114_first_partial (gone others : List Tunnel.St) (c : Tunnel.St) (hg : ∀ x ∈ gone, ¬ Connected x)
    (hc : Connected c) :
    (∀ mode n, Offers c mode n → ∃ n', visitTcp (gone ++ c :: others) mode = some (c, n') ∧ Offers c mode n') ∧
    (∀ host m, m ∈ c.mappings → m.domain = host →
      ∃ m' ∈ c.mappings, m'.domain = host ∧ visitHttp (gone ++ c :: others) host = some (c, m')) := by
  constructor
  · rintro mode n ⟨m, hm, h1, h2⟩
    unfold visitTcp
    rw [handTo_first hg hc]; dsimp only
    cases hp : World.pickName c.mappings mode with
    | none => exact absurd h1 (pickName_none.mp hp m hm)
    | some n' => exact ⟨n', rfl, pickName_some hp⟩
  · intro host m hm h1
    unfold visitHttp
    rw [handTo_first hg hc]; dsimp only
    cases hp : TransHttp.pickDomain c.mappings host with
    | none => exact absurd h1 (pickDomain_none.mp hp m hm)
    | some n' => exact ⟨n', (pickDomain_some hp).1, (pickDomain_some hp).2, rfl⟩

/-- **C114** fails: Services of other clients cannot be reached: whatever the clients offer that connected later, visitors asking for something
    that the first one does not offer are dropped. -/
theorem C114_first_only_fails (gone others : List Tunnel.St) (c : Tunnel.St) (hg : ∀ x ∈ gone, ¬ Connected x)
    (hc : Connected c) :
    (∀ mode, (∀ n, ¬ Offers c mode n) → visitTcp (gone ++ c :: others) mode = none) ∧
    (∀ host, (∀ m ∈ c.mappings, m.domain ≠ host) → visitHttp (gone ++ c :: others) host = none) := by
  constructor
  · intro mode h
    unfold visitTcp
    rw [handTo_first hg hc]; dsimp only
    rw [pickName_none.mpr fun m hm hmo => h m.name ⟨m, hm, hmo, rfl⟩]
    rfl
  · intro host h
    unfold visitHttp
    rw [handTo_first hg hc]; dsimp only
    rw [pickDomain_none.mpr h]
    rfl

/-- **C114** fails: Anybody can make all services unreachable without knowing a password: a connection that is open and has not logged in,
    whatever it sent, has visitors of all kinds dropped, if it came before the connections of the clients that offer the services. -/
theorem C114_stranger_fails (cfg : Tunnel.Cfg) (es : List Tunnel.Event) (gone others : List Tunnel.St)
    (hg : ∀ x ∈ gone, ¬ Connected x) (hv : (Tunnel.serverRun cfg es).verify = false)
    (hc : Connected (Tunnel.serverRun cfg es)) (mode host : Text) :
    visitTcp (gone ++ Tunnel.serverRun cfg es :: others) mode = none ∧
    visitHttp (gone ++ Tunnel.serverRun cfg es :: others) host = none := by
  have hm := Tunnel.server_stranger cfg es hv
  have := C114_first_only_fails gone others _ hg hc
  refine ⟨this.1 mode ?_, this.2 host ?_⟩
  · rintro n ⟨m, h, _⟩; rw [hm] at h; cases h
  · intro m h; rw [hm] at h; cases h

/-- **C114** fails: Such a connection needs to send nothing: as soon as credentials are configured, a connection that stays silent is one. -/
theorem C114_silent_fails (cfg : Tunnel.Cfg) (h : cfg.username ≠ none ∨ cfg.password ≠ none) (others : List Tunnel.St)
    (mode host : Text) :
    visitTcp (Tunnel.serverRun cfg [] :: others) mode = none ∧ visitHttp (Tunnel.serverRun cfg [] :: others) host = none := by
  refine C114_stranger_fails cfg [] [] others (by simp) ?_ (.inl rfl) mode host
  show (cfg.username.isNone && cfg.password.isNone) = false
  rcases h with h | h
  · cases hu : cfg.username with
    | none => exact absurd hu h
    | some u => rfl
  · cases hu : cfg.password with
    | none => exact absurd hu h
    | some u => simp

/-! ### C115 -/

/-- what has been accepted and handed on, and that the service has stopped -/
def seen (s : St) : List Conn × Bool := (s.handled, s.stopped)

def releases : Conn → Event → Bool
  | .center, .settled => true
  | .proxy, .drain => true
  | _, _ => false

theorem waits_step (cfg : Cfg) (s : St) (c : Conn) (hs : s.awaiting = some c) (e : Event) (he : releases c e = false) :
    (step cfg s e).awaiting = some c ∧ seen (step cfg s e) = seen s := by
  cases e with
  | arrive d => exact ⟨hs, rfl⟩
  | askStop => exact ⟨hs, rfl⟩
  | take n => simp [step, hs]
  | seeStop => simp [step, hs]
  | settled =>
    cases c with
    | center => cases he
    | proxy => simp [step, hs]
    | other => simp [step, hs]
  | drain =>
    cases c with
    | proxy => cases he
    | center => simp [step, hs, seen]
    | other => simp [step, hs, seen]

/-- **C115** fails: While the main task waits for the handshake with one client of the tunnel (or for the connection to the upper server), or for
    room in the channel of the tunnel client, nothing else is accepted and a request to stop is not followed, for as long as this
    takes and whatever else happens. -/
theorem C115_blocked_fails (cfg : Cfg) (es : List Event) (c : Conn) (h : (run cfg es).awaiting = some c) (more : List Event)
    (hm : ∀ e ∈ more, releases c e = false) :
    (run cfg (es ++ more)).handled = (run cfg es).handled ∧ (run cfg (es ++ more)).stopped = (run cfg es).stopped := by
  have key : ∀ (more : List Event) (s : St), s.awaiting = some c → (∀ e ∈ more, releases c e = false) →
      seen (more.foldl (step cfg) s) = seen s := by
    intro more
    induction more with
    | nil => intro s _ _; rfl
    | cons e more ih =>
      intro s hs hm
      obtain ⟨h1, h2⟩ := waits_step cfg s c hs e (hm e (by simp))
      exact (ih _ h1 fun e' he' => hm e' (by simp [he'])).trans h2
  have := key more (run cfg es) h hm
  unfold run at this ⊢
  rw [List.foldl_append]
  exact ⟨congrArg Prod.fst this, congrArg Prod.snd this⟩

/-- **C115** fails: With TLS for clients of the tunnel, a single connection that says nothing is enough for this; with an upper server, one
    connection while that server cannot be reached. -/
theorem C115_silent_client_fails (cfg : Cfg) (h : cfg.tls = true ∨ cfg.upstream = true) (more : List Event)
    (hm : Event.settled ∉ more) :
    (run cfg (.arrive .center :: .take 0 :: more)).handled = [] ∧
    (run cfg (.arrive .center :: .take 0 :: more)).stopped = false := by
  have h1 : (run cfg [.arrive .center, .take 0]).awaiting = some .center := by
    rcases h with h | h <;> simp [run, step, init, h]
  have h2 := C115_blocked_fails cfg [.arrive .center, .take 0] .center h1 more (by
    intro e he
    cases e <;> first | rfl | exact absurd he hm)
  have h3 : seen (run cfg [.arrive .center, .take 0]) = ([], false) := by
    rcases h with h | h <;> simp [run, step, init, seen, h]
  exact ⟨h2.1.trans (congrArg Prod.fst h3), h2.2.trans (congrArg Prod.snd h3)⟩

/-- **C115**, partial: Without these the main task waits for nobody: every connection it takes is handed on at once, and it stops when asked to.
    Missing: the other configurations, see `C115_blocked_fails`. -/
theorem C115_free_partial (cfg : Cfg) (h1 : cfg.tls = false) (h2 : cfg.upstream = false) (h3 : cfg.client = false)
    (es : List Event) (hs : (run cfg es).stopped = false) :
    (∀ n c, (run cfg es).ready[n]? = some c → (run cfg (es ++ [.take n])).handled = (run cfg es).handled ++ [c]) ∧
    (run cfg (es ++ [.askStop, .seeStop])).stopped = true := by
  have key : ∀ es : List Event, (run cfg es).awaiting = none := by
    intro es
    induction es using List.reverseRecOn with
    | nil => rfl
    | append_singleton es e ih =>
      unfold run at ih ⊢
      rw [List.foldl_append]
      simp only [List.foldl_cons, List.foldl_nil]
      generalize List.foldl (step cfg) init es = s at *
      cases e with
      | take n =>
        simp only [step, h1, h2, h3, Bool.or_false, Bool.false_eq_true, if_false]
        split
        · exact ih
        · split <;> exact ih
      | seeStop => simp only [step]; split <;> exact ih
      | settled => simp [step, ih]
      | drain => simp [step, ih]
      | arrive c => exact ih
      | askStop => exact ih
  have hk := key es
  have split2 : ∀ more, run cfg (es ++ more) = more.foldl (step cfg) (run cfg es) := fun more => by
    unfold run; rw [List.foldl_append]
  constructor
  · intro n c hc
    rw [split2]
    simp only [List.foldl_cons, List.foldl_nil, step, hs, hk, hc, h1, h2, h3]
    cases c <;> simp
  · rw [split2]
    simp [step, hk]

/-- **C115**, partial: As long as the task does not wait, every configuration is served: a connection that needs no waiting is handed on. -/
theorem C115_other_partial (cfg : Cfg) (es : List Event) (hs : (run cfg es).stopped = false)
    (ha : (run cfg es).awaiting = none) (n : Nat) (hc : (run cfg es).ready[n]? = some .other) :
    (run cfg (es ++ [.take n])).handled = (run cfg es).handled ++ [.other] := by
  unfold run at *
  rw [List.foldl_append]
  simp [step, hs, ha, hc]

/-- **C115**, partial: Connections to the proxy that go through a tunnel are handed on at once as long as fewer than ten wait for the tunnel client. -/
theorem C115_proxy_partial (cfg : Cfg) (es : List Event) (hs : (run cfg es).stopped = false)
    (ha : (run cfg es).awaiting = none) (n : Nat) (hc : (run cfg es).ready[n]? = some .proxy)
    (hw : cfg.client = true → (run cfg es).work < 10) :
    (run cfg (es ++ [.take n])).handled = (run cfg es).handled ++ [.proxy] := by
  unfold run at *
  rw [List.foldl_append]
  simp only [List.foldl_cons, List.foldl_nil, step, hs, ha, hc, Bool.false_or, Option.isSome_none, Bool.false_eq_true, if_false]
  cases h : cfg.client with
  | false => rfl
  | true => simp [workCap, hw h]

/-- how often the tunnel client's loop took a connection from its channel -/
def drains (es : List Event) : Nat := es.count .drain

/-- **C115** fails: With a tunnel to a server, as soon as ten more connections to the proxy were handed on than the tunnel client
    has taken, the main task waits with the next one, and accepts no connection of any kind before the tunnel client takes one. -/
theorem C115_full_fails (cfg : Cfg) (hcl : cfg.client = true) (es : List Event)
    (ha : (run cfg es).awaiting = none) (hs : (run cfg es).stopped = false) (n : Nat)
    (hc : (run cfg es).ready[n]? = some .proxy) (hw : drains es + 10 ≤ (run cfg es).handled.count .proxy)
    (more : List Event) (hm : .drain ∉ more) :
    (run cfg (es ++ .take n :: more)).handled = (run cfg es).handled ∧
    (run cfg (es ++ .take n :: more)).stopped = false := by
  have key : ∀ (es : List Event) (s : St) (k : Nat), s.handled.count .proxy ≤ s.work + k →
      (es.foldl (step cfg) s).handled.count .proxy ≤ (es.foldl (step cfg) s).work + (k + drains es) := by
    intro es
    induction es with
    | nil => exact fun s k h => h
    | cons e es ih =>
      intro s k h
      have hk : drains (e :: es) = drains es + if e = .drain then 1 else 0 := by
        unfold drains
        rw [List.count_cons]
        simp
      rw [hk, List.foldl_cons]
      have hother : ∀ c : Conn, c ≠ .proxy → (s.handled ++ [c]).count .proxy = s.handled.count .proxy := by
        intro c hne
        rw [List.count_append]
        simp [hne]
      have hproxy : (s.handled ++ [Conn.proxy]).count .proxy = s.handled.count .proxy + 1 := by
        rw [List.count_append]; rfl
      cases e with
      | take j =>
        refine Nat.le_trans (ih _ k ?_) (by simp)
        simp only [step]
        split
        · exact h
        · split
          · exact h
          · split
            · exact h
            · dsimp only; rw [hother _ (by decide)]; exact h
          · split
            · dsimp only; rw [hproxy]; omega
            · exact h
          · dsimp only; rw [hother _ (by decide)]; exact h
      | drain =>
        refine Nat.le_trans (ih _ (k + 1) ?_) (by simp; omega)
        simp only [step]
        split
        · dsimp only; rw [hproxy]; omega
        · dsimp only; omega
      | settled =>
        refine Nat.le_trans (ih _ k ?_) (by simp)
        simp only [step]
        split
        · dsimp only; rw [hother _ (by decide)]; exact h
        · exact h
      | seeStop =>
        refine Nat.le_trans (ih _ k ?_) (by simp)
        simp only [step]
        split <;> exact h
      | arrive c => exact Nat.le_trans (ih _ k h) (by simp)
      | askStop => exact Nat.le_trans (ih _ k h) (by simp)
  have hfull : ¬ (run cfg es).work < workCap := by
    have := key es init 0 (Nat.zero_le _)
    have h2 : (run cfg es).handled.count .proxy ≤ (run cfg es).work + (0 + drains es) := this
    unfold workCap
    omega
  have ht : run cfg (es ++ [.take n]) = { run cfg es with ready := (run cfg es).ready.eraseIdx n, awaiting := some .proxy } := by
    have : run cfg (es ++ [.take n]) = step cfg (run cfg es) (.take n) := by
      unfold run; rw [List.foldl_append]; rfl
    rw [this]
    simp only [step, hs, ha, hc, hcl, Bool.false_or, Option.isSome_none, Bool.false_eq_true, if_false, if_true]
    rw [if_neg hfull]
  have hb := C115_blocked_fails cfg (es ++ [.take n]) .proxy (by rw [ht]) more (by
    intro e he
    cases e <;> first | rfl | exact absurd he hm)
  rw [List.append_assoc, List.singleton_append] at hb
  rw [hb.1, hb.2, ht]
  exact ⟨rfl, hs⟩

/-- **C115**, partial (ten connections): The first ten connections to the proxy are handed on at once even if the tunnel client takes none. -/
theorem C115_ten_partial (cfg : Cfg) (es : List Event) (hs : (run cfg es).stopped = false)
    (ha : (run cfg es).awaiting = none) (n : Nat) (hc : (run cfg es).ready[n]? = some .proxy)
    (hw : (run cfg es).handled.count .proxy < 10) :
    (run cfg (es ++ [.take n])).handled = (run cfg es).handled ++ [.proxy] := by
  refine C115_proxy_partial cfg es hs ha n hc fun _ => ?_
  have key : ∀ (es : List Event) (s : St), s.work ≤ s.handled.count .proxy →
      (es.foldl (step cfg) s).work ≤ (es.foldl (step cfg) s).handled.count .proxy := by
    intro es
    induction es with
    | nil => exact fun s h => h
    | cons e es ih =>
      intro s h
      refine ih _ ?_
      have hm : ∀ c, s.handled.count .proxy ≤ (s.handled ++ [c]).count Conn.proxy := fun c => by
        rw [List.count_append]; exact Nat.le_add_right _ _
      cases e with
      | take k =>
        simp only [step]
        repeat' split
        all_goals first
          | exact h
          | exact Nat.le_trans h (hm _)
          | (simp only [List.count_append, List.count_singleton_self]; omega)
      | settled => simp only [step]; split <;> first | exact h | exact Nat.le_trans h (hm _)
      | drain =>
        simp only [step]
        split
        · exact Nat.le_trans h (hm _)
        · exact Nat.le_trans (Nat.sub_le _ _) h
      | seeStop => simp only [step]; split <;> exact h
      | _ => exact h
  exact Nat.lt_of_le_of_lt (key es init (Nat.zero_le _)) hw

/-- ten connections were handed on and none was taken, and there is an eleventh -/
example : let es := List.replicate 11 (.arrive .proxy) ++ List.replicate 10 (.take 0)
    (run ⟨false, false, true⟩ es).ready[0]? = some .proxy ∧ (run ⟨false, false, true⟩ es).awaiting = none ∧
      drains es + 10 ≤ (run ⟨false, false, true⟩ es).handled.count .proxy := by decide

example : (run ⟨false, false, true⟩ (List.replicate 10 (.arrive .proxy) ++ List.replicate 9 (.take 0))).handled.count .proxy < 10 ∧
    (run ⟨false, false, true⟩ (List.replicate 10 (.arrive .proxy) ++ List.replicate 9 (.take 0))).ready[0]? = some .proxy := by decide

/-- **C115** (stop): The task stops only if it was asked to, and from then on hands nothing on. -/
theorem C115_stop (cfg : Cfg) (es : List Event) (h : (run cfg es).stopped = true) :
    Event.askStop ∈ es ∧ ∀ more, (run cfg (es ++ more)).handled = (run cfg es).handled ∧ (run cfg (es ++ more)).stopped = true := by
  have key : ∀ es : List Event, ((run cfg es).stopAsked = true → Event.askStop ∈ es) ∧
      ((run cfg es).stopped = true → Event.askStop ∈ es ∧ (run cfg es).awaiting = none) := by
    intro es
    induction es using List.reverseRecOn with
    | nil => exact ⟨(by intro h; simp [run, init] at h), (by intro h; simp [run, init] at h)⟩
    | append_singleton es e ih =>
      have e1 : run cfg (es ++ [e]) = step cfg (run cfg es) e := by unfold run; rw [List.foldl_append]; rfl
      rw [e1]
      generalize run cfg es = s at *
      obtain ⟨h1, h2⟩ := ih
      have hl : ∀ {P : Prop}, Event.askStop ∈ es ∧ P → Event.askStop ∈ es ++ [e] ∧ P := fun x => ⟨List.mem_append.2 (.inl x.1), x.2⟩
      cases e with
      | arrive c => exact ⟨fun h => List.mem_append.2 (.inl (h1 h)), fun h => hl (h2 h)⟩
      | askStop => exact ⟨fun _ => by simp, fun h => hl (h2 h)⟩
      | take n =>
        simp only [step]
        split
        · exact ⟨fun h => List.mem_append.2 (.inl (h1 h)), fun h => hl (h2 h)⟩
        · rename_i hn
          have hns : s.stopped = false := by cases hb : s.stopped <;> simp_all
          split
          · exact ⟨fun h => List.mem_append.2 (.inl (h1 h)), fun h => hl (h2 h)⟩
          · split <;> exact ⟨fun h => List.mem_append.2 (.inl (h1 h)), fun h => by simp [hns] at h⟩
          · split
            · split <;> exact ⟨fun h => List.mem_append.2 (.inl (h1 h)), fun h => by simp [hns] at h⟩
            · exact ⟨fun h => List.mem_append.2 (.inl (h1 h)), fun h => by simp [hns] at h⟩
          · exact ⟨fun h => List.mem_append.2 (.inl (h1 h)), fun h => by simp [hns] at h⟩
      | seeStop =>
        simp only [step]
        split
        · rename_i hc
          simp at hc
          exact ⟨fun h => List.mem_append.2 (.inl (h1 h)), fun _ => hl ⟨h1 hc.1, hc.2⟩⟩
        · exact ⟨fun h => List.mem_append.2 (.inl (h1 h)), fun h => hl (h2 h)⟩
      | settled =>
        simp only [step]
        split
        · exact ⟨fun h => List.mem_append.2 (.inl (h1 h)), fun h => hl ⟨(h2 h).1, rfl⟩⟩
        · exact ⟨fun h => List.mem_append.2 (.inl (h1 h)), fun h => hl (h2 h)⟩
      | drain =>
        simp only [step]
        split
        · exact ⟨fun h => List.mem_append.2 (.inl (h1 h)), fun h => hl ⟨(h2 h).1, rfl⟩⟩
        · exact ⟨fun h => List.mem_append.2 (.inl (h1 h)), fun h => hl (h2 h)⟩
  refine ⟨((key es).2 h).1, fun more => ?_⟩
  induction more using List.reverseRecOn with
  | nil => rw [List.append_nil]; exact ⟨rfl, h⟩
  | append_singleton more e ih =>
    have e1 : run cfg (es ++ (more ++ [e])) = step cfg (run cfg (es ++ more)) e := by
      unfold run; rw [← List.append_assoc, List.foldl_append]; rfl
    have ha := ((key (es ++ more)).2 ih.2).2
    rw [e1, ← ih.1]
    have hs := ih.2
    generalize run cfg (es ++ more) = s at *
    cases e <;> simp [step, ha, hs]
    split <;> simp [hs]

/-- **C115**: No connection is lost or handled twice: those that have arrived are, in some order, those still to be taken, the one waited for
    and those handed on. -/
theorem C115_none_lost (cfg : Cfg) (es : List Event) :
    ((run cfg es).ready ++ (run cfg es).awaiting.toList ++ (run cfg es).handled).Perm
      (es.filterMap fun | .arrive c => some c | _ => none) := by
  induction es using List.reverseRecOn with
  | nil => exact .refl _
  | append_singleton es e ih =>
    unfold run at ih ⊢
    rw [List.foldl_append, List.filterMap_append]
    simp only [List.foldl_cons, List.foldl_nil]
    generalize List.foldl (step cfg) init es = s at *
    have erase : ∀ (n : Nat) (c : Conn), s.ready[n]? = some c → (c :: s.ready.eraseIdx n).Perm s.ready := by
      intro n c hc
      obtain ⟨hn, rfl⟩ := List.getElem?_eq_some_iff.mp hc
      exact List.getElem_cons_eraseIdx_perm hn
    have mv : ∀ (n : Nat) (c : Conn), s.awaiting = none → s.ready[n]? = some c →
        (s.ready.eraseIdx n ++ (s.handled ++ [c])).Perm (s.ready ++ s.awaiting.toList ++ s.handled) := by
      intro n c ha hc
      rw [ha]
      simp only [Option.toList_none, List.append_nil]
      refine List.Perm.trans ?_ (List.Perm.append_right _ (erase n c hc))
      rw [← List.append_assoc]
      exact (List.perm_append_singleton c _)
    have mv2 : ∀ (n : Nat) (c : Conn), s.awaiting = none → s.ready[n]? = some c →
        (s.ready.eraseIdx n ++ [c] ++ s.handled).Perm (s.ready ++ s.awaiting.toList ++ s.handled) := by
      intro n c ha hc
      rw [ha]
      simp only [Option.toList_none, List.append_nil]
      exact List.Perm.append_right _ ((List.perm_append_singleton c _).trans (erase n c hc))
    cases e with
    | arrive c =>
      simp only [step, List.filterMap_cons_some, List.filterMap_nil]
      refine List.Perm.trans ?_ (List.Perm.append_right [c] ih)
      rw [List.append_assoc s.ready [c], List.append_assoc, List.append_assoc, List.append_assoc, List.append_assoc]
      refine List.Perm.append_left _ ?_
      rw [← List.append_assoc s.awaiting.toList]
      exact List.perm_append_comm
    | askStop => simpa [step] using ih
    | take n =>
      simp only [List.filterMap_cons_none, List.filterMap_nil, List.append_nil, step]
      split
      · exact ih
      · rename_i hsw
        have ha : s.awaiting = none := by
          cases h : s.awaiting with
          | none => rfl
          | some c => simp [h] at hsw
        split
        · exact ih
        · rename_i hc
          split
          · exact (mv2 n _ ha hc).trans ih
          · have := (mv n _ ha hc).trans ih
            simpa [ha] using this
        · rename_i hc
          split
          · split
            · have := (mv n _ ha hc).trans ih
              simpa [ha] using this
            · exact (mv2 n _ ha hc).trans ih
          · have := (mv n _ ha hc).trans ih
            simpa [ha] using this
        · rename_i hc
          have := (mv n _ ha hc).trans ih
          simpa [ha] using this
    | seeStop =>
      simp only [List.filterMap_cons_none, List.filterMap_nil, List.append_nil, step]
      split <;> exact ih
    | settled =>
      simp only [List.filterMap_cons_none, List.filterMap_nil, List.append_nil, step]
      split
      · rename_i ha
        refine List.Perm.trans ?_ ih
        simp only [ha, Option.toList_none, List.append_nil, Option.toList_some, List.append_assoc]
        exact List.Perm.append_left _ List.perm_append_comm
      · exact ih
    | drain =>
      simp only [List.filterMap_cons_none, List.filterMap_nil, List.append_nil, step]
      split
      · rename_i ha
        refine List.Perm.trans ?_ ih
        simp only [ha, Option.toList_none, List.append_nil, Option.toList_some, List.append_assoc]
        exact List.Perm.append_left _ List.perm_append_comm
      · exact ih

/-! ### examples -/
section Examples

def exM (name mode domain : String) : MappingConfig :=
  ⟨name.toList, mode.toList, none, domain.toList, []⟩

/-- a client without credentials that has announced one mapping -/
def exClient (m : MappingConfig) : Tunnel.St :=
  { Tunnel.serverInit ⟨none, none, []⟩ with mappings := [m] }

/-- one client offers an HTTP service, another a TCP service; the first has the visitors -/
example : Connected (exClient (exM "web" "http" "a.com")) ∧ Offers (exClient (exM "web" "http" "a.com")) "http".toList "web".toList ∧
    ∀ n, ¬ Offers (exClient (exM "web" "http" "a.com")) "tcp".toList n := by
  refine ⟨.inl rfl, ⟨_, List.mem_singleton.mpr rfl, rfl, rfl⟩, ?_⟩
  rintro n ⟨m, hm, h1, _⟩
  rw [List.mem_singleton.mp hm] at h1
  revert h1; decide

example : visitTcp [exClient (exM "web" "http" "a.com"), exClient (exM "ssh" "tcp" "")] "tcp".toList = none :=
  (C114_first_only_fails [] _ _ (by simp) (.inl rfl)).1 _ (by
    rintro n ⟨m, hm, h1, _⟩
    rw [List.mem_singleton.mp hm] at h1
    revert h1; decide)

/-- alone the second client would have been found -/
example : ∃ n, visitTcp [exClient (exM "ssh" "tcp" "")] "tcp".toList = some (exClient (exM "ssh" "tcp" ""), n) :=
  ⟨_, ((C114_first_partial [] [] (exClient (exM "ssh" "tcp" "")) (by simp) (.inl rfl)).1 "tcp".toList "ssh".toList
    ⟨_, List.mem_singleton.mpr rfl, rfl, rfl⟩).choose_spec.1⟩

/-- a silent stranger comes first -/
example : (visitTcp [Tunnel.serverRun ⟨some "u".toList, some "p".toList, []⟩ [], exClient (exM "ssh" "tcp" "")] "tcp".toList) = none :=
  (C114_silent_fails ⟨some "u".toList, some "p".toList, []⟩ (.inl (by simp)) [exClient (exM "ssh" "tcp" "")] "tcp".toList []).1

/-- a client says nothing, the service is asked to stop and others arrive -/
example : (run ⟨true, false, false⟩ [.arrive .center, .take 0, .arrive .other, .askStop, .take 0, .seeStop]).handled = [] :=
  (C115_silent_client_fails ⟨true, false, false⟩ (.inl rfl) _ (by simp)).1

example : (run ⟨false, false, false⟩ [.arrive .other, .arrive .center, .take 1]).handled = [.center] :=
  (C115_free_partial ⟨false, false, false⟩ rfl rfl rfl [.arrive .other, .arrive .center] rfl).1 1 .center rfl

example : (run ⟨true, true, true⟩ [.arrive .other, .askStop, .seeStop]).stopped = true := rfl

/-- the eleventh connection to the proxy has the task wait -/
example : (run ⟨false, false, true⟩ ((List.replicate 11 (Event.arrive .proxy)) ++ (List.replicate 11 (Event.take 0)))).awaiting =
    some .proxy := by decide

end Examples

end Wm.Core
