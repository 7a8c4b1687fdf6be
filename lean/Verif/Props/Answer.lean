import Verif.Model.Answer
import Verif.Props.Reverse
import Verif.Props.Inherit
import Verif.Props.Listen
/-! Properties C138 and C139: timeouts of connections, and the answer a request finally gets. -/
namespace Wm.Answer
open Wm Wm.Reverse Wm.Listen

/-! ### C138: timeouts -/

/-- **C138** (meaning) The timeouts of a block for its clients are exactly those given for it, each in its place; if none is given
    there are none. -/
theorem C138_client (c : Common) :
    (buildClient c = none ↔ c.clientReadTimeout = none ∧ c.clientWriteTimeout = none ∧ c.clientTimeout = none ∧
      c.clientKaTimeout = none) ∧
    ∀ t, buildClient c = some t → t.connect = none ∧ t.read = c.clientReadTimeout ∧ t.write = c.clientWriteTimeout ∧
      t.whole = c.clientTimeout ∧ t.idle = c.clientKaTimeout := by
  unfold buildClient Timeouts.new
  cases c.clientReadTimeout <;> cases c.clientWriteTimeout <;> cases c.clientTimeout <;> cases c.clientKaTimeout <;>
    simp <;> (intro t ht; subst ht; simp)

/-- **C138** (meaning) Likewise for the timeouts of a location for its upstream. -/
theorem C138_upstream (c : Common) :
    (buildProxy c = none ↔ c.proxyConnectTimeout = none ∧ c.proxyReadTimeout = none ∧ c.proxyWriteTimeout = none ∧
      c.proxyTimeout = none) ∧
    ∀ t, buildProxy c = some t → t.connect = c.proxyConnectTimeout ∧ t.read = c.proxyReadTimeout ∧
      t.write = c.proxyWriteTimeout ∧ t.whole = c.proxyTimeout ∧ t.idle = none := by
  unfold buildProxy Timeouts.new
  cases c.proxyConnectTimeout <;> cases c.proxyReadTimeout <;> cases c.proxyWriteTimeout <;> cases c.proxyTimeout <;>
    simp <;> (intro t ht; subst ht; simp)

/-- the block is configured for the port -/
def CBlock.At (b : CBlock) (port : BitVec 16) : Prop := ∃ a ∈ b.block.plain ++ b.block.tls, a.port = port

theorem at_iff (b : CBlock) (port : BitVec 16) :
    (b.block.plain.any (·.port == port) || b.block.tls.any (·.port == port)) = true ↔ b.At port := by
  unfold CBlock.At
  simp only [Bool.or_eq_true, List.any_eq_true, beq_iff_eq, List.mem_append]
  constructor
  · rintro (⟨a, h1, h2⟩ | ⟨a, h1, h2⟩)
    · exact ⟨a, .inl h1, h2⟩
    · exact ⟨a, .inr h1, h2⟩
  · rintro ⟨a, h1 | h1, h2⟩
    · exact .inl ⟨a, h1, h2⟩
    · exact .inr ⟨a, h1, h2⟩

/-- the blocks a connection is handed to are those that serve its requests (`Listen.serving`, C108–C110) -/
theorem serving_handed (bs : List CBlock) (l : SockAddr × Bool) (sni : Option Text) (host : Text) :
    serving (bs.map (·.block)) l sni host = selectServer host ((handed bs l sni).map (·.block.server)) := by
  have hp : portBlocks (bs.map (·.block)) l.1.port
      = (bs.filter fun b => b.block.plain.any (·.port == l.1.port) || b.block.tls.any (·.port == l.1.port)).map (·.block) := by
    unfold portBlocks
    rw [List.filter_map]
    rfl
  unfold serving handed
  rw [hp]
  generalize (bs.filter fun b => b.block.plain.any (·.port == l.1.port) || b.block.tls.any (·.port == l.1.port)) = at_
  congr 1
  by_cases hl : l.2 = true
  · simp only [hl, if_true]
    cases sni with
    | none => simp [bySni]
    | some n =>
      simp only [bySni]
      rw [List.find?_map]
      simp only [Function.comp_def]
      cases at_.find? (fun b => b.block.server.name == n) <;> simp
  · simp only [hl, Bool.false_eq_true, if_false]
    simp

theorem select_const (host : Text) (s : Server) (l : List Server) (hne : l ≠ []) (h : ∀ x ∈ l, x = s) :
    selectServer host l = some s := by
  induction l with
  | nil => exact absurd rfl hne
  | cons x l ih =>
    obtain rfl := h x (by simp)
    cases l with
    | nil => rfl
    | cons y l =>
      simp only [selectServer]
      split
      · rfl
      · exact ih (by simp) (fun z hz => h z (by simp [hz]))

/-- **C138**, partial: if only one block is configured for the port, its connections have its timeouts, and it serves all their
    requests. Missing: several blocks for a port, see `C138_first_fails`. -/
theorem C138_one_block_partial (bs : List CBlock) (l : SockAddr × Bool) (sni : Option Text) (host : Text) (b : CBlock)
    (hb : b ∈ bs) (hat : b.At l.1.port) (hone : ∀ c ∈ bs, c.At l.1.port → c = b) :
    serving (bs.map (·.block)) l sni host = some b.block.server ∧ connTimeouts bs l sni = some (buildClient b.comm) := by
  have hall : ∀ c ∈ handed bs l sni, c = b := by
    intro c hc
    unfold handed at hc
    have hf : ∀ c ∈ bs.filter (fun b => b.block.plain.any (·.port == l.1.port) || b.block.tls.any (·.port == l.1.port)), c = b :=
      fun c hc => hone c (List.mem_filter.1 hc).1 ((at_iff c _).1 (List.mem_filter.1 hc).2)
    dsimp only at hc
    split at hc
    · split at hc
      · exact hf c hc
      · split at hc
        · rename_i d hd
          rw [List.mem_singleton] at hc
          subst hc
          exact hf _ (List.mem_of_find?_eq_some hd)
        · exact hf c hc
    · exact hf c hc
  have hne : handed bs l sni ≠ [] := by
    have hf : bs.filter (fun b => b.block.plain.any (·.port == l.1.port) || b.block.tls.any (·.port == l.1.port)) ≠ [] :=
      List.ne_nil_of_mem (List.mem_filter.2 ⟨hb, (at_iff b _).2 hat⟩)
    unfold handed
    dsimp only
    split
    · split
      · exact hf
      · split
        · simp
        · exact hf
    · exact hf
  constructor
  · rw [serving_handed]
    refine select_const _ _ _ (by simpa using hne) ?_
    intro x hx
    obtain ⟨c, hc, rfl⟩ := List.mem_map.1 hx
    rw [hall c hc]
  · unfold connTimeouts
    cases hh : handed bs l sni with
    | nil => exact absurd hh hne
    | cons c cs => rw [hall c (by rw [hh]; simp)] at *; rfl

/-- **C138**, partial: over TLS, if the client asks for the name of a block for the port (the first one of that name), the connection
    has the timeouts of that block, which serves all its requests. -/
theorem C138_sni_partial (pre post : List CBlock) (b : CBlock) (l : SockAddr) (hat : b.At l.port)
    (hpre : ∀ c ∈ pre, c.At l.port → c.block.server.name ≠ b.block.server.name) (host : Text) :
    serving ((pre ++ b :: post).map (·.block)) (l, true) (some b.block.server.name) host = some b.block.server ∧
    connTimeouts (pre ++ b :: post) (l, true) (some b.block.server.name) = some (buildClient b.comm) := by
  have hh : handed (pre ++ b :: post) (l, true) (some b.block.server.name) = [b] := by
    unfold handed
    simp only [if_true]
    rw [List.filter_append, List.filter_cons, if_pos ((at_iff b _).2 hat), List.find?_append]
    have : (pre.filter fun b => b.block.plain.any (·.port == l.port) || b.block.tls.any (·.port == l.port)).find?
        (fun c => c.block.server.name == b.block.server.name) = none := by
      rw [List.find?_eq_none]
      intro c hc
      have := hpre c (List.mem_filter.1 hc).1 ((at_iff c _).1 (List.mem_filter.1 hc).2)
      simpa using this
    rw [this]
    simp
  constructor
  · rw [serving_handed, hh]; rfl
  · unfold connTimeouts; rw [hh]; rfl

theorem selectServer_named (host : Text) (pre : List Server) (s : Server) (post : List Server) (hpre : ∀ x ∈ pre, x.name ≠ host)
    (hh : host ≠ []) (hs : s.name = host) : selectServer host (pre ++ s :: post) = some s := by
  induction pre with
  | nil =>
    cases post with
    | nil => rfl
    | cons y ys => simp [selectServer, hs]
  | cons x pre ih =>
    have hx := hpre x (by simp)
    have := ih (fun y hy => hpre y (by simp [hy]))
    cases hp : pre ++ s :: post with
    | nil => simp at hp
    | cons y ys =>
      rw [hp] at this
      rw [List.cons_append, hp, selectServer, if_neg (by simp [hx, hh])]
      exact this

/-- **C138** fails for several blocks for a port: requests for a later block are served by that block with the timeouts of the
    first one, whatever is configured for the later one. -/
theorem C138_first_fails (first : CBlock) (mid post : List CBlock) (b : CBlock) (l : SockAddr) (h1 : first.At l.port)
    (hat : b.At l.port) (hname : b.block.server.name ≠ [])
    (hother : ∀ c ∈ first :: mid, c.block.server.name ≠ b.block.server.name) (sni : Option Text) :
    serving ((first :: mid ++ b :: post).map (·.block)) (l, false) sni b.block.server.name = some b.block.server ∧
    connTimeouts (first :: mid ++ b :: post) (l, false) sni = some (buildClient first.comm) := by
  have hh : handed (first :: mid ++ b :: post) (l, false) sni = first ::
      ((mid.filter fun b => b.block.plain.any (·.port == l.port) || b.block.tls.any (·.port == l.port)) ++
        b :: (post.filter fun b => b.block.plain.any (·.port == l.port) || b.block.tls.any (·.port == l.port))) := by
    unfold handed
    simp only [Bool.false_eq_true, if_false]
    rw [List.cons_append, List.filter_cons, if_pos ((at_iff first _).2 h1), List.filter_append, List.filter_cons,
      if_pos ((at_iff b _).2 hat)]
  constructor
  · rw [serving_handed, hh]
    rw [← List.cons_append, List.map_append, List.map_cons]
    refine selectServer_named _ _ _ _ ?_ hname rfl
    intro x hx
    rcases List.mem_cons.1 hx with rfl | hx
    · exact hother _ (by simp)
    · obtain ⟨c, hc, rfl⟩ := List.mem_map.1 hx
      exact hother c (List.mem_cons_of_mem _ (List.mem_filter.1 hc).1)
  · unfold connTimeouts; rw [hh]; rfl

variable {α β : Type}

/-- **C138**, partial: the timeouts for reading, for writing and for a whole request hold for a server if given there, else if given
    for `http`. -/
theorem C138_passed_partial (level : Text → Option Reverse.Level) (h : HttpConf α β) (s : SrvConf α β) (t : Timeouts)
    (ht : buildClient (SrvConf.fromHttp level h s).comm = some t) :
    t.read = innermost [s.comm.clientReadTimeout, h.comm.clientReadTimeout] ∧
    t.write = innermost [s.comm.clientWriteTimeout, h.comm.clientWriteTimeout] ∧
    t.whole = innermost [s.comm.clientTimeout, h.comm.clientTimeout] := by
  obtain ⟨_, h1, h2, h3, _⟩ := (C138_client _).2 t ht
  refine ⟨?_, ?_, ?_⟩
  · rw [h1, ← orParent_eq]; rfl
  · rw [h2, ← orParent_eq]; rfl
  · rw [h3, ← orParent_eq]; rfl

/-- **C138** fails for the time between requests: given for `http`, it never has an effect on the servers. -/
theorem C138_idle_fails (level : Text → Option Reverse.Level) (h : HttpConf α β) (s : SrvConf α β) (t : Timeouts)
    (ht : buildClient (SrvConf.fromHttp level h s).comm = some t) : t.idle = s.comm.clientKaTimeout :=
  ((C138_client _).2 t ht).2.2.2.2

/-- **C138** fails for upstreams: given for a server or for `http`, the timeouts for reading, for writing and for a whole request
    have no effect on the upstream connections of the locations; only the one for connecting has. -/
theorem C138_upstream_fails (level : Text → Option Reverse.Level) (h : HttpConf α β) (s : SrvConf α β) (l : LocConf α β) (t : Timeouts)
    (ht : buildProxy (effective level h s l).comm = some t) :
    t.read = l.comm.proxyReadTimeout ∧ t.write = l.comm.proxyWriteTimeout ∧ t.whole = l.comm.proxyTimeout ∧
    t.connect = innermost [l.comm.proxyConnectTimeout, s.comm.proxyConnectTimeout, h.comm.proxyConnectTimeout] := by
  obtain ⟨h1, h2, h3, h4, _⟩ := (C138_upstream _).2 t ht
  refine ⟨h2, h3, h4, ?_⟩
  rw [h1]
  have : (effective level h s l).comm.proxyConnectTimeout
      = orParent l.comm.proxyConnectTimeout (orParent s.comm.proxyConnectTimeout h.comm.proxyConnectTimeout) := rfl
  rw [this]
  cases l.comm.proxyConnectTimeout <;> cases s.comm.proxyConnectTimeout <;> cases h.comm.proxyConnectTimeout <;> rfl

/-! ### C139: the answer -/

variable {W : Type}

/-- **C139** (answered) Every request gets an answer. If it was served, the answer has the status it was served with, the header
    `server` names this program, once, whatever the upstream said, and no other header is touched; else the status is 408 or 500. -/
theorem C139_answered (env : Env W) (ins : Insert) (f : Failure) (servers : List Server) (w : W)
    (cache : List (Rule × Option Text × Option Text)) (req : Req) :
    ∃ s o, operate env servers w cache req = some (s, o) ∧
      ((∃ r, o = .resp r ∧ (sent ins f o).status = r.status ∧
        ((sent ins f o).headers.filter fun e => ins.same "server".toList e.1).map (·.2) = ["wmproxy".toList] ∧
        (sent ins f o).headers.filter (fun e => !ins.same "server".toList e.1)
          = r.headers.filter fun e => !ins.same "server".toList e.1) ∨
      (o = .err ∧ (sent ins f o).status ∈ [408, 500])) := by
  have hop : ∃ x, operate env servers w cache req = some x := by
    unfold operate
    split
    · exact ⟨_, rfl⟩
    · obtain ⟨x, hx⟩ := C47_terminates env _ w cache req
      exact ⟨x, hx 0⟩
  obtain ⟨⟨s, o⟩, ho⟩ := hop
  refine ⟨s, o, ho, ?_⟩
  cases o with
  | resp r => exact .inl ⟨r, rfl, rfl, ins.one _ _ _, ins.others _ _ _⟩
  | err =>
    refine .inr ⟨rfl, ?_⟩
    cases f with
    | other => simp [sent]
    | readTimeout c => cases c <;> simp [sent]

/-- **C139**, partial: a failure that is not a timeout of reading from the upstream is reported as an error of the server. Missing:
    such timeouts, see `C139_timeout_fails`. -/
theorem C139_failure_partial (ins : Insert) (f : Failure) (h : f ≠ .readTimeout false) : (sent ins f .err).status = 500 := by
  cases f with
  | other => rfl
  | readTimeout c =>
    cases c with
    | false => exact absurd rfl h
    | true => rfl

/-- **C139** fails for upstreams that take too long: the client is told that it was too slow itself (408), not that the upstream
    was. Here for a location that admits the client, with no limit and no try list. -/
theorem C139_timeout_fails (env : Env W) (ins : Insert) (servers : List Server) (w : W)
    (cache : List (Rule × Option Text × Option Text)) (req : Req) (srv : Server)
    (hsrv : selectServer (req.host.getD []) servers = some srv) (i : Nat) (l : Loc) (hfirst : IsFirst env srv.locs req i l)
    (hlim : l.limit = none) (hadm : access env l req = .pass) (htry : l.tryPaths = none) (hkind : l.kind ≠ .nothing)
    (hkept : l.key ∉ cache) (hf : (env.fresh w i req).1 = none) :
    ∃ s o, operate env servers w cache req = some (s, o) ∧ (sent ins (.readTimeout false) o).status = 408 := by
  unfold operate
  rw [hsrv]
  simp only [dealMatch, findLoc_of_first hfirst, limitStep, hlim, hadm, htry]
  refine ⟨(handle env i l req ⟨w, cache, [], [], [], req⟩).1, (handle env i l req ⟨w, cache, [], [], [], req⟩).2, rfl, ?_⟩
  have : (handle env i l req ⟨w, cache, [], [], [], req⟩).2 = .err := by
    simp [handle, hkept, hkind, hf]
  rw [this]
  rfl

/-- **C139** (nothing to serve) A location without anything to serve answers 500. -/
theorem C139_nothing (env : Env W) (ins : Insert) (servers : List Server) (w : W)
    (cache : List (Rule × Option Text × Option Text)) (req : Req) (srv : Server)
    (hsrv : selectServer (req.host.getD []) servers = some srv) (i : Nat) (l : Loc) (hfirst : IsFirst env srv.locs req i l)
    (hlim : l.limit = none) (hadm : access env l req = .pass) (htry : l.tryPaths = none) (hkind : l.kind = .nothing)
    (hkept : l.key ∉ cache) :
    ∃ s o, operate env servers w cache req = some (s, o) ∧ (sent ins .other o).status = 500 := by
  unfold operate
  rw [hsrv]
  simp only [dealMatch, findLoc_of_first hfirst, limitStep, hlim, hadm, htry]
  refine ⟨(handle env i l req ⟨w, cache, [], [], [], req⟩).1, (handle env i l req ⟨w, cache, [], [], [], req⟩).2, rfl, ?_⟩
  have : (handle env i l req ⟨w, cache, [], [], [], req⟩).2 = .err := by
    simp [handle, hkept, hkind]
  rw [this]
  rfl

/-! ### Examples -/

/-- names compared as they are -/
def exInsert : Insert where
  insert := fun k v h => (k, v) :: h.filter fun e => e.1 ≠ k
  same := fun a b => a == b
  same_refl := by simp
  one := by
    intro k v h
    rw [List.filter_cons, if_pos (by simp), List.filter_filter]
    have : h.filter (fun e => (k == e.1) && decide (e.1 ≠ k)) = [] := by
      rw [List.filter_eq_nil_iff]
      intro e _ he
      rw [Bool.and_eq_true, beq_iff_eq, decide_eq_true_eq] at he
      exact he.2 he.1.symm
    rw [this]; rfl
  others := by
    intro k v h
    rw [List.filter_cons, if_neg (by simp), List.filter_filter]
    congr 1
    funext e
    by_cases he : e.1 = k
    · simp [he]
    · simp [he]

example : sent exInsert .other (.resp ⟨200, [("server".toList, "x".toList), ("a".toList, "b".toList)]⟩)
    = ⟨200, [("server".toList, "wmproxy".toList), ("a".toList, "b".toList)]⟩ := by decide +kernel

def exBlock (name : Text) : Block := ⟨[⟨.v4 0, 80⟩], [], .absent, none, ⟨name, []⟩⟩

def exComm (read : Option Text) : Common := { Common.new with clientReadTimeout := read }

example : serving ([(⟨exBlock ['a'], exComm none⟩ : CBlock), ⟨exBlock ['b'], exComm (some "5s".toList)⟩].map (·.block))
      (⟨.v4 0, 80⟩, false) none ['b'] = some ⟨['b'], []⟩ ∧
    connTimeouts [⟨exBlock ['a'], exComm none⟩, ⟨exBlock ['b'], exComm (some "5s".toList)⟩] (⟨.v4 0, 80⟩, false) none = some none ∧
    buildClient (exComm (some "5s".toList)) = some ⟨none, some "5s".toList, none, none, none⟩ := by
  refine ⟨by decide +kernel, by decide +kernel, by decide +kernel⟩

end Wm.Answer
