import Verif.Model.Inherit
import Verif.Props.Reverse
import Mathlib.Data.List.Nodup
/-! Properties C48 and C69: settings of inner blocks; kept connections belong to one location. -/
namespace Wm.Reverse
open Wm Wm.Config Wm.Helper

/-! ### C48: inner settings override outer ones -/

/-- the settings with a single value, as one type: what the value is does not matter here -/
inductive Value where
  | text (t : Text)
  | log (l : LogTo)
  | limit (z : Text) (n : Nat)
  | ips (gs : List IpGate)
deriving DecidableEq, Repr

/-- every setting of a block that has a single value -/
inductive Setting where
  | maxReadBuf | rateLimit | clientReadTimeout | clientWriteTimeout | clientTimeout | clientKaTimeout
  | proxyConnectTimeout | proxyReadTimeout | proxyWriteTimeout | proxyTimeout
  | accessLog | errorLog | limitReq | allowIp | denyIp | domain | proxyUrl
deriving DecidableEq, Repr

def Setting.of (c : Common) : Setting → Option Value
  | .maxReadBuf => c.maxReadBuf.map .text
  | .rateLimit => c.rateLimit.map .text
  | .clientReadTimeout => c.clientReadTimeout.map .text
  | .clientWriteTimeout => c.clientWriteTimeout.map .text
  | .clientTimeout => c.clientTimeout.map .text
  | .clientKaTimeout => c.clientKaTimeout.map .text
  | .proxyConnectTimeout => c.proxyConnectTimeout.map .text
  | .proxyReadTimeout => c.proxyReadTimeout.map .text
  | .proxyWriteTimeout => c.proxyWriteTimeout.map .text
  | .proxyTimeout => c.proxyTimeout.map .text
  | .accessLog => c.accessLog.map .log
  | .errorLog => c.errorLog.map .log
  | .limitReq => c.limitReq.map fun p => .limit p.1 p.2
  | .allowIp => c.allowIp.map .ips
  | .denyIp => c.denyIp.map .ips
  | .domain => c.domain.map .text
  | .proxyUrl => c.proxyUrl.map .text

/-- the settings that are passed on -/
def passedOn : List Setting :=
  [.maxReadBuf, .rateLimit, .clientReadTimeout, .clientWriteTimeout, .clientTimeout, .proxyConnectTimeout,
   .accessLog, .limitReq, .allowIp, .denyIp]

/-- the settings that are not -/
def notPassedOn : List Setting :=
  [.clientKaTimeout, .proxyReadTimeout, .proxyWriteTimeout, .proxyTimeout, .domain, .proxyUrl]

/-- the value of the innermost block that gives one -/
def innermost {α : Type} : List (Option α) → Option α
  | [] => none
  | some v :: _ => some v
  | none :: rest => innermost rest

theorem orParent_eq {α : Type} (a b : Option α) : orParent a b = innermost [a, b] := by
  cases a <;> cases b <;> rfl

theorem ifNone_eq {α : Type} (a b : Option α) : (if a.isNone then b else a) = innermost [a, b] := by
  cases a <;> cases b <;> rfl

theorem innermost_map {α β : Type} (f : α → β) (a b : Option α) : (innermost [a, b]).map f = innermost [a.map f, b.map f] := by
  cases a <;> cases b <;> rfl

theorem innermost_nest {α : Type} (a b c : Option α) : innermost [a, innermost [b, c]] = innermost [a, b, c] := by
  cases a <;> cases b <;> cases c <;> rfl

theorem copy_passed (level : Text → Option Level) (c p : Common) (x : Setting) (hx : x ∈ passedOn) :
    x.of ((c.copyFromParent p).preDeal level) = innermost [x.of c, x.of p] := by
  simp only [passedOn, List.mem_cons, List.not_mem_nil, or_false] at hx
  rcases hx with rfl | rfl | rfl | rfl | rfl | rfl | rfl | rfl | rfl | rfl <;>
    simp only [Setting.of, Common.copyFromParent, Common.preDeal, orParent_eq, ifNone_eq, innermost_map]

theorem copy_notPassed (level : Text → Option Level) (c p : Common) (x : Setting) (hx : x ∈ notPassedOn) :
    x.of ((c.copyFromParent p).preDeal level) = x.of c := by
  simp only [notPassedOn, List.mem_cons, List.not_mem_nil, or_false] at hx
  rcases hx with rfl | rfl | rfl | rfl | rfl | rfl <;> rfl

theorem preDeal_of (level : Text → Option Level) (p : Common) (x : Setting) (hx : x ≠ .errorLog) :
    x.of (p.preDeal level) = x.of p := by
  cases x <;> first | rfl | exact absurd rfl hx

variable {α β : Type}

/-- location `l` of server `s` as it ends up after sharing -/
def effective (level : Text → Option Level) (h : HttpConf α β) (s : SrvConf α β) (l : LocConf α β) : LocConf α β :=
  LocConf.fromServer level
    { s with upstream := s.upstream ++ h.upstream
             comm := (s.comm.copyFromParent (h.comm.preDeal level)).preDeal level } l

/-- sharing treats every location of every server on its own, in place -/
theorem copyToChild_effective (level : Text → Option Level) (h : HttpConf α β) :
    (h.copyToChild level).server.map (·.location) = h.server.map (fun s => s.location.map (effective level h s)) := by
  simp [HttpConf.copyToChild, SrvConf.fromHttp, SrvConf.copyToChild, effective, Function.comp_def]

/-- **C48**, partial: for ten of the seventeen settings the effective value in a location is its own if given, else the
    server's, else the http block's. Missing: see the `_fails` theorems below; the error log is `C48_error_log`. -/
theorem C48_inner_wins_partial (level : Text → Option Level) (h : HttpConf α β) (s : SrvConf α β) (l : LocConf α β)
    (x : Setting) (hx : x ∈ passedOn) :
    x.of (effective level h s l).comm = innermost [x.of l.comm, x.of s.comm, x.of h.comm] := by
  have hne : x ≠ .errorLog := by rintro rfl; simp [passedOn] at hx
  have e : (effective level h s l).comm
      = (l.comm.copyFromParent ((s.comm.copyFromParent (h.comm.preDeal level)).preDeal level)).preDeal level := rfl
  rw [e, copy_passed level _ _ x hx, copy_passed level _ _ x hx, preDeal_of level _ x hne, innermost_nest]

/-- **C48** fails for six settings: the value of the outer blocks never reaches a location. Among them are the timeouts
    of the upstream connection. -/
theorem C48_not_passed_fails (level : Text → Option Level) (h : HttpConf α β) (s : SrvConf α β) (l : LocConf α β)
    (x : Setting) (hx : x ∈ notPassedOn) : x.of (effective level h s l).comm = x.of l.comm :=
  copy_notPassed level l.comm _ x hx

/-- every setting is in one of the two lists or is the error log -/
theorem settings_covered (x : Setting) : x ∈ passedOn ∨ x ∈ notPassedOn ∨ x = .errorLog := by
  cases x <;> decide

theorem asError_idem (level : Text → Option Level) (c : LogTo) : (c.asError level).asError level = c.asError level := by
  unfold LogTo.asError
  by_cases h : c.format = [] <;> simp [h]

/-- **C48** (error log) likewise, with the text after the path, if there is one, read as level; if it is none, all levels. -/
theorem C48_error_log (level : Text → Option Level) (h : HttpConf α β) (s : SrvConf α β) (l : LocConf α β) :
    (effective level h s l).comm.errorLog
      = (innermost [l.comm.errorLog, s.comm.errorLog, h.comm.errorLog]).map fun c =>
          ⟨c.name, [], if c.format = [] then c.level else (level c.format).getD .trace⟩ := by
  have ha : (fun c : LogTo => (⟨c.name, [], if c.format = [] then c.level else (level c.format).getD .trace⟩ : LogTo))
      = LogTo.asError level := by
    funext ⟨n, f, v⟩
    unfold LogTo.asError
    by_cases hf : f = [] <;> simp [hf]
  rw [ha]
  have e : (effective level h s l).comm
      = (l.comm.copyFromParent ((s.comm.copyFromParent (h.comm.preDeal level)).preDeal level)).preDeal level := rfl
  rw [e]
  simp only [Common.preDeal, Common.copyFromParent, ifNone_eq]
  cases l.comm.errorLog <;> cases s.comm.errorLog <;> cases h.comm.errorLog <;> simp [innermost, asError_idem]

theorem Table.get_put {V : Type} (t : Table V) (e : Text × V) (k : Text) :
    (t.put e).get k = if e.1 = k then some e.2 else t.get k := by
  unfold Table.get Table.put
  by_cases h : e.1 = k
  · simp [h]
  · rw [List.find?_cons_of_neg (by simpa using h), if_neg h]
    congr 1
    induction t with
    | nil => rfl
    | cons a t ih =>
      by_cases ha : a.1 = e.1
      · rw [List.filter_cons_of_neg (by simpa using ha), ih, List.find?_cons_of_neg]
        simp only [decide_eq_true_eq]
        exact fun hc => h (ha ▸ hc)
      · rw [List.filter_cons_of_pos (by simpa using ha)]
        by_cases hk : a.1 = k
        · rw [List.find?_cons_of_pos (by simpa using hk), List.find?_cons_of_pos (by simpa using hk)]
        · rw [List.find?_cons_of_neg (by simpa using hk), List.find?_cons_of_neg (by simpa using hk), ih]

/-- a key occurs once (maps of the code) -/
def Table.Ok {V : Type} (t : Table V) : Prop := (t.map (·.1)).Nodup

theorem overwrite_get {V : Type} (own parent : Table V) (hp : parent.Ok) (k : Text) :
    (overwrite own parent).get k = innermost [parent.get k, own.get k] := by
  unfold overwrite
  induction parent generalizing own with
  | nil => cases h : own.get k <;> simp [innermost, Table.get] <;> simpa [Table.get] using h
  | cons e parent ih =>
    simp only [Table.Ok, List.map_cons, List.nodup_cons] at hp
    rw [List.foldl_cons, ih _ hp.2, Table.get_put]
    by_cases h : e.1 = k
    · have hn : Table.get parent k = none := by
        unfold Table.get
        rw [Option.map_eq_none_iff, List.find?_eq_none]
        intro a ha
        simp only [decide_eq_true_eq]
        intro hak
        exact hp.1 (h ▸ hak ▸ List.mem_map_of_mem ha)
      have hs : Table.get (e :: parent) k = some e.2 := by simp [Table.get, h]
      rw [hn, hs, if_pos h]
      rfl
    · have hs : Table.get (e :: parent) k = Table.get parent k := by simp [Table.get, h]
      rw [hs, if_neg h]

theorem addMissing_get {V : Type} (own parent : Table V) (k : Text) :
    (addMissing own parent).get k = innermost [own.get k, parent.get k] := by
  unfold addMissing
  induction parent generalizing own with
  | nil => cases h : own.get k <;> simp [innermost, Table.get] <;> simpa [Table.get] using h
  | cons e parent ih =>
    rw [List.foldl_cons, ih]
    by_cases h : e.1 = k
    · have hs : Table.get (e :: parent) k = some e.2 := by simp [Table.get, h]
      rw [hs]
      by_cases hg : (own.get e.1).isSome = true
      · rw [if_pos hg]
        rw [h] at hg
        obtain ⟨v, hv⟩ := Option.isSome_iff_exists.1 hg
        rw [hv]
        rfl
      · rw [if_neg hg, Table.get_put, if_pos h]
        rw [h] at hg
        cases hv : own.get k with
        | none => rfl
        | some v => rw [hv] at hg; exact absurd rfl hg
    · have hs : Table.get (e :: parent) k = Table.get parent k := by simp [Table.get, h]
      rw [hs]
      by_cases hg : (own.get e.1).isSome = true
      · rw [if_pos hg]
      · rw [if_neg hg, Table.get_put, if_neg h]

theorem put_ok {V : Type} (t : Table V) (e : Text × V) (h : t.Ok) : (t.put e).Ok := by
  unfold Table.put Table.Ok at *
  rw [List.map_cons, List.nodup_cons]
  refine ⟨?_, ?_⟩
  · intro hm
    obtain ⟨a, ha, hae⟩ := List.mem_map.1 hm
    have := (List.mem_filter.1 ha).2
    simp [hae] at this
  · exact h.sublist (List.filter_sublist.map _)

theorem overwrite_ok {V : Type} (own parent : Table V) (h : own.Ok) : (overwrite own parent).Ok := by
  unfold overwrite
  induction parent generalizing own with
  | nil => exact h
  | cons e parent ih => exact ih _ (put_ok own e h)

/-- **C48** fails for log formats: a format named in several blocks has the meaning given in the outermost one. -/
theorem C48_log_format_fails (level : Text → Option Level) (h : HttpConf α β) (s : SrvConf α β) (l : LocConf α β)
    (hh : h.comm.logFormat.Ok) (hs : s.comm.logFormat.Ok) (k : Text) :
    (effective level h s l).comm.logFormat.get k
      = innermost [h.comm.logFormat.get k, s.comm.logFormat.get k, l.comm.logFormat.get k] := by
  have e : (effective level h s l).comm.logFormat
      = overwrite l.comm.logFormat (overwrite s.comm.logFormat h.comm.logFormat) := rfl
  rw [e, overwrite_get _ _ (overwrite_ok _ _ hs), overwrite_get _ _ hh]
  generalize h.comm.logFormat.get k = a
  generalize s.comm.logFormat.get k = b
  generalize l.comm.logFormat.get k = c
  cases a <;> cases b <;> cases c <;> rfl

example : let h : HttpConf Unit Unit := ⟨[], [], { Common.new with logFormat := [(['m'], ['o'])] }⟩
    let s : SrvConf Unit Unit := ⟨[], none, [], [], [], Common.new⟩
    let l : LocConf Unit Unit := ⟨anyRule [], none, [], none, none, [], { Common.new with logFormat := [(['m'], ['i'])] }⟩
    ((effective (fun _ => none) h s l).comm.logFormat.get ['m']) = some ['o'] := by decide +kernel

/-- **C48** fails for log names in the same way. -/
theorem C48_log_names_fails (level : Text → Option Level) (h : HttpConf α β) (s : SrvConf α β) (l : LocConf α β)
    (hh : h.comm.logNames.Ok) (hs : s.comm.logNames.Ok) (k : Text) :
    (effective level h s l).comm.logNames.get k
      = innermost [h.comm.logNames.get k, s.comm.logNames.get k, l.comm.logNames.get k] := by
  have e : (effective level h s l).comm.logNames
      = overwrite l.comm.logNames (overwrite s.comm.logNames h.comm.logNames) := rfl
  rw [e, overwrite_get _ _ (overwrite_ok _ _ hs), overwrite_get _ _ hh]
  generalize h.comm.logNames.get k = a
  generalize s.comm.logNames.get k = b
  generalize l.comm.logNames.get k = c
  cases a <;> cases b <;> cases c <;> rfl

/-- **C48** (named matchers) The innermost meaning of a name counts, and a location whose path is `@name` gets it as its
    rule. -/
theorem C48_match_names (level : Text → Option Level) (h : HttpConf α β) (s : SrvConf α β) (l : LocConf α β) :
    (∀ k, (effective level h s l).comm.matchNames.get k
      = innermost [l.comm.matchNames.get k, s.comm.matchNames.get k, h.comm.matchNames.get k]) ∧
    (∀ n m, '@' ∉ n → l.rule.path = some ('@' :: n) →
      innermost [l.comm.matchNames.get n, s.comm.matchNames.get n, h.comm.matchNames.get n] = some m →
      (effective level h s l).rule = m) := by
  have e : (effective level h s l).comm.matchNames
      = addMissing l.comm.matchNames (addMissing s.comm.matchNames h.comm.matchNames) := rfl
  have hget : ∀ k, (effective level h s l).comm.matchNames.get k
      = innermost [l.comm.matchNames.get k, s.comm.matchNames.get k, h.comm.matchNames.get k] := by
    intro k
    rw [e, addMissing_get, addMissing_get, innermost_nest]
  refine ⟨hget, ?_⟩
  intro n m hn hp hm
  have hname : l.rule.matchName = some n := by
    unfold Rule.matchName
    rw [hp]
    simp only [Option.some.injEq, List.filter_eq_self, decide_eq_true_eq, ne_eq]
    rintro a ha rfl
    exact hn ha
  have hr : (effective level h s l).rule = match l.rule.matchName with
      | some n => ((effective level h s l).comm.matchNames.get n).getD l.rule
      | none => l.rule := rfl
  rw [hr, hname]
  simp only
  rw [hget, hm]
  rfl

/-- **C48** (lists) The header rules and upstreams of a location come first, then the server's, then (upstreams) the http
    block's. -/
theorem C48_lists (level : Text → Option Level) (h : HttpConf α β) (s : SrvConf α β) (l : LocConf α β) :
    (effective level h s l).headers = l.headers ++ s.headers ∧
    (effective level h s l).upstream = l.upstream ++ s.upstream ++ h.upstream := by
  refine ⟨rfl, ?_⟩
  show l.upstream ++ (s.upstream ++ h.upstream) = _
  rw [List.append_assoc]

/-- **C48** fails for the root of a location: when the location gives one, its file server is left as it was — it does
    not use that root, and none of the settings shared with the location (rate limit, buffer size) reach it. -/
theorem C48_root_fails (level : Text → Option Level) (h : HttpConf α β) (s : SrvConf α β) (l : LocConf α β) (r : Text)
    (hr : l.root = some r) : (effective level h s l).fileServer = l.fileServer := by
  simp [effective, LocConf.fromServer, hr]

/-- **C48** (root from the server) When only the server gives a root, the file server of the location uses it unless it
    has its own, and gets the shared settings. A prefix of its own stays; otherwise the prefix is the path of the location in
    force, without its stars and without a slash at its end; it is empty for a location without a path. -/
theorem C48_root_server (level : Text → Option Level) (h : HttpConf α β) (s : SrvConf α β) (l : LocConf α β) (r : Text)
    (f : FileConf) (hl : l.root = none) (hs : s.root = some r) (hf : l.fileServer = some f) :
    ∃ f', (effective level h s l).fileServer = some f' ∧ f'.root = some (f.root.getD r) ∧
      f'.comm = (effective level h s l).comm ∧ (f.pfx ≠ [] → f'.pfx = f.pfx) ∧
      (f.pfx = [] → ∀ p, (effective level h s l).rule.path = some p → ∀ q, q = p.filter (· ≠ '*') →
        f'.pfx = if q.getLast? = some '/' then q.dropLast else q) ∧
      (f.pfx = [] → (effective level h s l).rule.path = none → f'.pfx = []) := by
  have hcut : ∀ p : Text, (stripSuffix ['/'] p).getD p = if p.getLast? = some '/' then p.dropLast else p := by
    intro p
    rcases List.eq_nil_or_concat p with rfl | ⟨q, c, rfl⟩
    · rfl
    · by_cases hc : c = '/'
      · subst hc; simp [stripSuffix, stripPrefix]
      · simp [stripSuffix, stripPrefix, Ne.symm hc, hc]
  simp only [effective, LocConf.fromServer, hl, hs, hf]
  refine ⟨_, rfl, ?_, rfl, ?_, ?_, ?_⟩
  · cases hfr : f.root <;> by_cases hp : f.pfx = [] <;> simp [hfr, hp, FileConf.setPrefix]
  · intro hp
    cases hfr : f.root <;> simp [hp, hfr]
  · intro hp p hpath q hq
    have hget : ∀ m : Rule, m.path = some p → m.getPath = q ∨ m.getPath = ['/'] ∧ q = [] := by
      intro m hm
      unfold Rule.getPath
      rw [hm, hq]
      by_cases hstar : '*' ∈ p
      · simp only [hstar, if_true]
        by_cases hv : p.filter (· ≠ '*') = []
        · rw [if_neg (by simpa using hv)]; exact .inr ⟨rfl, hv⟩
        · rw [if_pos (by simpa using hv)]; exact .inl rfl
      · simp only [hstar, if_false]
        left
        symm
        rw [List.filter_eq_self]
        intro c hc
        simp only [decide_eq_true_eq]
        rintro rfl
        exact hstar hc
    obtain ⟨fr, fp, fc⟩ := f
    simp only at hp
    subst hp
    rcases hget _ hpath with hg | ⟨hg, hq⟩
    · cases fr <;> simp [FileConf.setPrefix, hg, hcut]
    · subst hq
      cases fr <;> simp [FileConf.setPrefix, hg, hcut]
  · intro hp hpath
    have hget : ∀ m : Rule, m.path = none → m.getPath = ['/'] := by
      intro m hm; unfold Rule.getPath; rw [hm]
    have hg := hget _ hpath
    obtain ⟨fr, fp, fc⟩ := f
    simp only at hp
    subst hp
    cases fr <;> simp [FileConf.setPrefix, hg, hcut]

example : let h : HttpConf Unit Unit := ⟨[], [], Common.new⟩
    let s : SrvConf Unit Unit := ⟨[], some ['r'], [], [], [], Common.new⟩
    let l : LocConf Unit Unit := ⟨anyRule ['/', 'a', '/'], some ⟨none, [], Common.new⟩, [], none, none, [], Common.new⟩
    (effective (fun _ => none) h s l).fileServer.map (fun f => (f.root, f.pfx)) = some (some ['r'], ['/', 'a']) := by
  decide +kernel

/-! ### C69: a kept connection belongs to one location -/

/-- the location of the server selected by the request's host that gets the request -/
def Gets (env : Env W) (servers : List Server) (req : Req) (srv : Server) (i : Nat) (l : Loc) : Prop :=
  selectServer (req.host.getD []) servers = some srv ∧ IsFirst env srv.locs req i l

theorem selectServer_mem {host : Text} {servers : List Server} {s : Server} (h : selectServer host servers = some s) :
    s ∈ servers := by
  have hne : servers ≠ [] := by rintro rfl; cases h
  obtain ⟨pre, s', post, h1, h2, _⟩ := C45_server host servers hne
  rw [h] at h2
  injection h2 with h2
  subst h2
  rw [h1]
  simp

/-- **C69**, partial: if the server blocks of a listener have different names, two requests of one connection share a
    kept upstream connection only if they belong to the same location of the same server. (Sharing gives every location
    the name of its server: `LocConf.fromServer`.) Missing: equal names, see `C69_same_name_fails`. -/
theorem C69_own_connection_partial (env : Env W) (servers : List Server) (hn : (servers.map (·.name)).Nodup)
    (hup : ∀ s ∈ servers, ∀ l ∈ s.locs, l.upName = some s.name) (req req' : Req) (srv srv' : Server) (i i' : Nat)
    (l l' : Loc) (h : Gets env servers req srv i l) (h' : Gets env servers req' srv' i' l') (hkey : l.key = l'.key) :
    srv = srv' ∧ i = i' ∧ l = l' := by
  obtain ⟨hs, hf⟩ := h
  obtain ⟨hs', hf'⟩ := h'
  simp only [Loc.key, Prod.mk.injEq] at hkey
  obtain ⟨hrule, hname, _⟩ := hkey
  have hm := selectServer_mem hs
  have hm' := selectServer_mem hs'
  have e1 := hup srv hm l (List.mem_of_getElem? hf.1)
  have e2 := hup srv' hm' l' (List.mem_of_getElem? hf'.1)
  rw [e1, e2, Option.some.injEq] at hname
  have hsrv : srv = srv' := by
    have := List.inj_on_of_nodup_map hn hm hm' hname
    exact this
  subst hsrv
  have hi : i = i' := by
    rcases Nat.lt_trichotomy i i' with hlt | heq | hlt
    · exact absurd (hrule ▸ hf'.2.1) (hf'.2.2 i l hlt hf.1)
    · exact heq
    · exact absurd (hrule ▸ hf.2.1) (hf.2.2 i' l' hlt hf'.1)
  subst hi
  refine ⟨rfl, rfl, ?_⟩
  have := hf.1
  rw [hf'.1] at this
  injection this with this
  exact this.symm

/-- the hypotheses are met by two servers with one location each -/
example : let l (n : Text) : Loc := { plainLoc ['/'] with kind := .proxy, upName := some n }
    let servers : List Server := [⟨['a'], [l ['a']]⟩, ⟨['b'], [l ['b']]⟩]
    (servers.map (·.name)).Nodup ∧ (∀ s ∈ servers, ∀ l ∈ s.locs, l.upName = some s.name) ∧
    selectServer ['a'] servers = some ⟨['a'], [l ['a']]⟩ ∧
    (l ['a']).isMatch demoEnv (demoReq ['/'] none) = true := by decide +kernel

end Wm.Reverse
