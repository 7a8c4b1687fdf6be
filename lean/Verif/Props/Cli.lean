import Verif.Proofs.Lower
import Verif.Model.Cli
import Verif.Props.Target
import Verif.Props.Listen
/-! Properties C121 to C126: what the command line does. -/
namespace Wm.Cli
open Wm Wm.Config Wm.Reverse Wm.Target Wm.Health

variable {P F : Type}

/-! ### C121: options take effect -/

/-- the options of every subcommand are those in force -/
structure InForce (s : Shared) (c : Conf P F) : Prop where
  control : c.control = s.control
  disableStdout : c.disableStdout = s.disableStdout
  disableControl : c.disableControl = s.disableControl
  pidfile : c.pidfile = s.pidfile
  level : (s.verbose = true → c.defaultLevel = some .trace) ∧ (s.verbose = false → c.defaultLevel = s.defaultLevel)

/-- **C121**, partial: with the subcommand `proxy` all options given are in force, with `file-server`, `ws-proxy` and
    `reverse-proxy` all but those for the control server, which is never started then.
    Missing: `run`, see `C121_run_fails`. -/
theorem C121_options_partial (w : World P F) (s : Shared) (cmd : Cmd P) (c : Conf P F) (h : start w s cmd = .serve c) :
    (∀ p, cmd = .proxy p → InForce s c ∧ c.proxy = some p) ∧
    ((∃ a, cmd = .fileServer a) ∨ (∃ a, cmd = .wsProxy a) ∨ (∃ a, cmd = .reverseProxy a) →
      InForce { s with disableControl := true } c) := by
  have key : ∀ c0 : Conf P F, load w c0 = .serve c → c = c0 := by
    intro c0 h
    unfold load at h
    split at h
    · cases h; rfl
    · cases h
  constructor
  · rintro p rfl
    have := key _ h
    subst this
    exact ⟨⟨rfl, rfl, rfl, rfl, fun hv => by simp [base, hv], fun hv => by simp [base, hv]⟩, rfl⟩
  · have fin : ∀ (http : Option (Made F OneHttp)) (stream : Option (Made F OneStream)),
        load w { (base s : Conf P F) with http := http, stream := stream, disableControl := true } = .serve c →
        InForce { s with disableControl := true } c := by
      intro http stream h
      have := key _ h
      subst this
      exact ⟨rfl, rfl, rfl, rfl, fun hv => by have hv' : s.verbose = true := hv; simp [base, hv'],
        fun hv => by have hv' : s.verbose = false := hv; simp [base, hv']⟩
    rintro (⟨a, rfl⟩ | ⟨a, rfl⟩ | ⟨a, rfl⟩)
    · simp only [start] at h
      split at h
      · cases h
      · exact fin _ none h
    · simp only [start] at h
      split at h
      · cases h
      · exact fin none _ h
    · exact fin _ none h

/-- **C121** fails for `run`: none of the options has any effect except `--verbose` — the address of the control server,
    switching it off, the file for the process id, the log level and the output are those of the file. -/
theorem C121_run_fails (w : World P F) (s s' : Shared) (hv : s.verbose = s'.verbose) (path : Text) :
    start w s (.run path) = start w s' (.run path) := by
  simp only [start, hv]

/-! ### C122: checking a configuration -/

/-- the file is there, has one of the two extensions, and its text is a configuration -/
def Readable (w : World P F) (path : Text) (c : Conf P F) : Prop :=
  ∃ t e, w.read path = some t ∧ w.extension path = some e ∧ (e = "yaml".toList ∨ e = "toml".toList) ∧ w.parse e t = some c

theorem readConfig_ok (w : World P F) (path : Text) (c : Conf P F) : readConfig w path = .ok c ↔ Readable w path c := by
  unfold readConfig Readable
  cases hr : w.read path with
  | none => simp
  | some t =>
    cases he : w.extension path with
    | none => simp
    | some e =>
      simp only
      by_cases hy : e = "yaml".toList ∨ e = "toml".toList
      · rw [if_pos hy]
        cases hp : w.parse e t with
        | none =>
          refine ⟨nofun, ?_⟩
          rintro ⟨t', e', h1, h2, _, h4⟩
          cases h1
          cases h2
          rw [hp] at h4
          cases h4
        | some c' =>
          constructor
          · intro h
            cases h
            exact ⟨t, e, rfl, rfl, hy, hp⟩
          · rintro ⟨t', e', h1, h2, _, h4⟩
            cases h1
            cases h2
            rw [hp] at h4
            cases h4
            rfl
      · rw [if_neg hy]
        refine ⟨nofun, ?_⟩
        rintro ⟨t', e', h1, h2, h3, _⟩
        cases h2
        exact absurd h3 hy

/-- **C122** (text) `check` says that the file is right exactly if it can be read as a configuration. -/
theorem C122_said (w : World P F) (s : Shared) (path : Text) (n : Nat) (b : Bool)
    (h : start w s (.check path) = .exit n (some b)) : b = true ↔ ∃ c, Readable w path c := by
  simp only [start] at h
  split at h
  · rename_i c hc
    cases h
    exact ⟨fun _ => ⟨c, (readConfig_ok w path c).1 hc⟩, fun _ => rfl⟩
  · rename_i e hc
    cases h
    exact ⟨nofun, fun ⟨c, h⟩ => by rw [(readConfig_ok w path c).2 h] at hc; cases hc⟩
  · cases h

/-- **C122**, partial: a file with which `run` starts a service is said to be right. -/
theorem C122_complete_partial (w : World P F) (s s' : Shared) (path : Text) (c : Conf P F)
    (h : start w s (.run path) = .serve c) : start w s' (.check path) = .exit 0 (some true) := by
  simp only [start] at h ⊢
  cases hr : readConfig w path with
  | ok c0 => rfl
  | err e => rw [hr] at h; cases h
  | panic => rw [hr] at h; cases h

/-- **C122** fails: the exit status is 0 whether or not the configuration can be read (or the file is there at all), so a
    script cannot tell. -/
theorem C122_status_fails (w : World P F) (s : Shared) (path : Text) (served : Served)
    (hx : w.extension path ≠ none) : status (start w s (.check path)) served = some 0 := by
  simp only [start, readConfig]
  cases hr : w.read path with
  | none => rfl
  | some t =>
    cases he : w.extension path with
    | none => exact absurd he hx
    | some e =>
      simp only
      by_cases hy : e = "yaml".toList ∨ e = "toml".toList
      · rw [if_pos hy]
        cases hp : w.parse e t <;> rfl
      · rw [if_neg hy]
        rfl

/-- **C122** fails: what `check` says to be right is refused by `run` when the rest of the configuration does not hold
    (`afterLoad`). -/
theorem C122_unchecked_fails (w : World P F) (s : Shared) (hv : s.verbose = false) (path : Text) (c : Conf P F)
    (hc : Readable w path c) (ha : w.afterLoad c = false) :
    start w s (.check path) = .exit 0 (some true) ∧ start w s (.run path) = .err := by
  replace hc := (readConfig_ok w path c).2 hc
  simp [start, hc, hv, load, ha]

/-- **C122** fails: a path without extension makes both `check` and `run` panic. -/
theorem C122_extension_fails (w : World P F) (s : Shared) (path t : Text) (hr : w.read path = some t)
    (hx : w.extension path = none) : start w s (.check path) = .panic ∧ start w s (.run path) = .panic := by
  simp [start, readConfig, hr, hx]

/-! ### C123: `reverse-proxy` -/

theorem pick_single (checked : Bool) (ops : List (Op SockAddr)) (hna : NoActive ops) (now : Nat) (draw : Nat → Nat)
    (hdraw : ∀ n, 0 < n → draw n < n) (dst : SockAddr) :
    pickAt checked ((Check.global : Check SockAddr).run ops) now draw [Server.simple dst] = .ok (some dst) := by
  obtain ⟨a, h1, h2⟩ := (C43_usable_partial checked ops hna now [Server.simple dst] draw hdraw
    (by simp [Server.simple, sec]) (by simp [Server.simple])).2 ⟨Server.simple dst, by simp, by simp [Server.simple]⟩
  simp only [List.map_cons, List.map_nil, List.mem_singleton] at h2
  subst h2
  exact h1

/-- the one location of the loaded configuration -/
def revLoc (a : ReverseArgs) : Loc :=
  ⟨anyPath, some [], none, .proxy, a.header, a.ws, none, none, none, none⟩

theorem rev_blocks (level : Text → Option Reverse.Level) (cert : Option Text → Option Text → Listen.Cert) (a : ReverseArgs) :
    (reverseConf a).blocks level cert = [⟨a.from', [], cert none none, none, ⟨[], [revLoc a]⟩⟩] := by
  obtain ⟨f, t, hd, al, tls, ws⟩ := a
  simp only [OneHttp.blocks, reverseConf, HttpConf.copyToChild, SrvConf.fromHttp, SrvConf.copyToChild, LocConf.fromServer,
    List.map_cons, List.map_nil, List.append_nil]
  cases al <;> rfl

theorem star_matches {W : Type} (env : Env W) (req : Req) (l : Loc) (h : l.rule = anyPath) : l.isMatch env req = true := by
  have h0 : Helper.isMatch req.path ['*'] = true := (Helper.C33_wildcards _ _ (by simp)).2 (by
    have := Helper.Glob.star (p := []) (s := []) req.path Helper.Glob.nil
    rwa [List.append_nil] at this)
  simp [Loc.isMatch, isMatchRule, h, anyPath, pathOk, h0]

/-- what is assumed about reading the two URLs made here: the host is `server`, the scheme is kept -/
structure ReadsUrls (x : Ext) : Prop where
  http : ∃ u, x.parseUrl "http://server".toList = some u ∧ u.domain = some "server".toList ∧ u.scheme = .http
  https : ∃ u, x.parseUrl "https://server".toList = some u ∧ u.domain = some "server".toList ∧ u.scheme = .https

/-- **C123**, partial: `reverse-proxy --from … --to a`: every address of `--from` is listened on, without TLS, and no other;
    whatever host, path, method and address a request comes with, and whatever happened before, the first request of a
    connection is given to the one location, which sends it to `a` — over TLS exactly if `--tls` is given —, and later ones
    to the connection kept for that location.
    Missing: a request whose kept connection was closed is not sent at all (C68). -/
theorem C123_reverse_partial {W : Type} (x : Ext) (hx : x.Lawful) (hr : ReadsUrls x) (w : World P F) (s : Shared) (a : ReverseArgs)
    (c : Conf P F) (h : start w s (.reverseProxy a) = .serve c) (level : Text → Option Reverse.Level)
    (cert : Option Text → Option Text → Listen.Cert) :
    ∃ o, c.http = some (.made o) ∧
      (∀ grants ls, Listen.bindHttp grants (o.blocks level cert) [] = some ls →
        (∀ l, l ∈ ls ↔ l.1 ∈ a.from' ∧ l.2 = false) ∧
        ∀ l ∈ ls, ∀ sni host, ∃ srv, Listen.serving (o.blocks level cert) l sni host = some srv ∧
          ∀ (env : Env W) (world : W) (req : Req),
            (∃ s' r, operate env [srv] world [] req = some (s', r) ∧ s'.trace = [.handled 0 req false]) ∧
            (∀ cache s' r, operate env [srv] world cache req = some (s', r) → ∀ e ∈ s'.trace, ∃ kept, e = .handled 0 req kept)) ∧
      (∃ srv loc, (o.conf.copyToChild level).server = [srv] ∧ srv.location = [loc] ∧
        ∀ checked ops now draw sch, NoActive ops → (∀ n, 0 < n → draw n < n) →
          ∃ dial, dealRequest x (pickAt checked ((Check.global : Check SockAddr).run ops) now draw) o.file.isSome false
              loc.comm.proxyUrl loc.upstream sch = .ok (.proxy dial) ∧
            Reaches x dial.host dial.port a.to ∧ (dial.tls = none ↔ a.tls = false)) := by
  have hc : c = { (base s : Conf P F) with http := some (.made (reverseConf a)), disableControl := true } := by
    simp only [start, load] at h
    split at h
    · cases h; rfl
    · cases h
  subst hc
  refine ⟨reverseConf a, rfl, fun grants ls hb => ?_, ?_⟩
  · obtain ⟨h1, h2, h3, _⟩ := Listen.C107_listeners grants _ ls hb
    have hmem : ∀ l, l ∈ ls ↔ l.1 ∈ a.from' ∧ l.2 = false := by
      rintro ⟨ad, t⟩
      have := h2 ad
      rw [rev_blocks] at this h3
      simp only [List.mem_singleton, exists_eq_left, List.not_mem_nil, or_false] at this h3
      cases t with
      | false =>
        refine ⟨fun hm => ⟨this.1 (List.mem_map_of_mem hm), rfl⟩, fun hm => ?_⟩
        obtain ⟨⟨ad', t'⟩, hm', rfl⟩ := List.mem_map.1 (this.2 hm.1)
        cases t' with
        | false => exact hm'
        | true => exact absurd (h3 _ hm').1 id
      | true => exact ⟨fun hm => absurd (h3 _ hm).1 id, fun hm => by cases hm.2⟩
    refine ⟨hmem, fun l hl sni host => ?_⟩
    obtain ⟨ha, ht⟩ := (hmem l).1 hl
    refine ⟨⟨[], [revLoc a]⟩, ?_, fun env world req => ?_⟩
    · rw [rev_blocks]
      have : Listen.portBlocks [⟨a.from', [], cert none none, none, ⟨[], [revLoc a]⟩⟩] l.1.port =
          [⟨a.from', [], cert none none, none, ⟨[], [revLoc a]⟩⟩] := by
        simp only [Listen.portBlocks, List.filter_cons, List.filter_nil, List.any_nil, Bool.or_false]
        rw [if_pos]
        exact List.any_eq_true.2 ⟨l.1, ha, by simp⟩
      simp only [Listen.serving, ht, this]
      rfl
    · have hop : ∀ cache, operate env [⟨[], [revLoc a]⟩] world cache req =
          some (handle env 0 (revLoc a) req ⟨world, cache, [], [], [], req⟩) := by
        intro cache
        simp only [operate, selectServer, List.length_cons, List.length_nil, dealMatch, findLoc, List.contains_nil,
          Bool.false_eq_true, if_false, star_matches env req (revLoc a) rfl, if_true]
        rfl
      constructor
      · rw [hop]
        simp only [handle, List.contains_nil, Bool.false_eq_true, if_false, revLoc, reduceCtorEq, if_true]
        cases env.fresh world 0 req with
        | mk o1 w1 => cases o1 <;> exact ⟨_, _, rfl, rfl⟩
      · intro cache s' r he e hm
        rw [hop] at he
        simp only [handle, revLoc, reduceCtorEq, if_false, if_true, Option.some.injEq] at he
        split at he
        · cases hre : (env.reuse world 0 req).1 with
          | closed => rw [hre] at he; cases he; cases hm
          | answer r' => rw [hre] at he; cases he; exact ⟨true, List.mem_singleton.1 hm⟩
          | failed => rw [hre] at he; cases he; exact ⟨true, List.mem_singleton.1 hm⟩
          | gone => rw [hre] at he; cases he; exact ⟨true, List.mem_singleton.1 hm⟩
        · cases hre : (env.fresh world 0 req).1 with
          | none => rw [hre] at he; cases he; exact ⟨false, List.mem_singleton.1 hm⟩
          | some r' => rw [hre] at he; cases he; exact ⟨false, List.mem_singleton.1 hm⟩
  · refine ⟨_, _, rfl, rfl, fun checked ops now draw sch hna hdraw => ?_⟩
    have hup : ∀ pick : Pick, pick [Server.simple a.to] = .ok (some a.to) →
        upstreamAddr pick [single "server".toList a.to] "server".toList = .ok (some a.to) := by
      intro pick hp
      rw [upstreamAddr, if_pos (show (single "server".toList a.to).name = "server".toList from rfl)]
      exact hp
    have hpick := hup _ (pick_single checked ops hna now draw hdraw a.to)
    obtain ⟨t, u, hu, hd, hs⟩ : ∃ t u, x.parseUrl (if a.tls then "https://server".toList else "http://server".toList) = some u ∧
        u.domain = some "server".toList ∧ u.scheme = t ∧ (t = .http ↔ a.tls = false) ∧ t ≠ .none := by
      cases htl : a.tls with
      | true =>
        obtain ⟨u, h1, h2, h3⟩ := hr.https
        exact ⟨_, u, h1, h2, h3, by simp, by simp⟩
      | false =>
        obtain ⟨u, h1, h2, h3⟩ := hr.http
        exact ⟨_, u, h1, h2, h3, by simp, by simp⟩
    have hdial := httpDial_some x hx (pickAt checked ((Check.global : Check SockAddr).run ops) now draw)
      [single "server".toList a.to] sch u "server".toList a.to hd hpick
    refine ⟨⟨x.ipText a.to.ip, a.to.port, if used u.scheme sch = .http then none else some (x.ipText a.to.ip),
      (x.ipText a.to.ip, a.to.port)⟩, ?_, ⟨hx.resolve _, rfl⟩, ?_⟩
    · show dealRequest x _ false false (some (if a.tls then "https://server".toList else "http://server".toList))
        [single "server".toList a.to] sch = _
      unfold dealRequest
      simp only [Bool.false_eq_true, if_false, Option.bind_some, hu, hdial, Res.bind_ok]
    · have : used u.scheme sch = t := by rw [used, if_neg (by rw [hs.1]; exact hs.2.2), hs.1]
      rw [this, ← hs.2.1]
      by_cases ht : t = .http <;> simp [ht]

/-- **C123** fails: a request that comes when the connection kept for the one server was closed meanwhile, is sent nowhere; its client
    is told 404. The request after it is sent again. For every server block made by `reverse-proxy`. -/
theorem C123_closed_fails {W : Type} (a : ReverseArgs) (level : Text → Option Reverse.Level)
    (cert : Option Text → Option Text → Listen.Cert) (env : Env W) (world w : W) (first req again : Req) (ans : Response)
    (hans : (env.fresh world 0 first).1 = some ans) (hcl : env.reuse (env.fresh world 0 first).2 0 req = (.closed, w)) :
    ∃ srv, ((reverseConf a).blocks level cert).map (·.server) = [srv] ∧
      ∃ s1 r1 s2 s3 r3, operate env [srv] world [] first = some (s1, r1) ∧ s1.trace = [.handled 0 first false] ∧
        operate env [srv] s1.world s1.cache req = some (s2, .resp ⟨404, []⟩) ∧ s2.trace = [] ∧
        operate env [srv] s2.world s2.cache again = some (s3, r3) ∧ s3.trace = [.handled 0 again false] := by
  refine ⟨⟨[], [revLoc a]⟩, by rw [rev_blocks]; rfl, ?_⟩
  have hop : ∀ req world cache, operate env [⟨[], [revLoc a]⟩] world cache req =
      some (handle env 0 (revLoc a) req ⟨world, cache, [], [], [], req⟩) := by
    intro req world cache
    simp only [operate, selectServer, List.length_cons, List.length_nil, dealMatch, findLoc, List.contains_nil,
      Bool.false_eq_true, if_false, star_matches env req (revLoc a) rfl, if_true]
    rfl
  have hk : (revLoc a).kind = .proxy := rfl
  have h1 : (handle env 0 (revLoc a) first ⟨world, [], [], [], [], first⟩).1.world = (env.fresh world 0 first).2 ∧
      (handle env 0 (revLoc a) first ⟨world, [], [], [], [], first⟩).1.cache = [(revLoc a).key] ∧
      (handle env 0 (revLoc a) first ⟨world, [], [], [], [], first⟩).1.trace = [.handled 0 first false] := by
    simp [handle, hk, hans]
  obtain ⟨e1, e2, e3⟩ := h1
  have h2 : handle env 0 (revLoc a) req ⟨(env.fresh world 0 first).2, [(revLoc a).key], [], [], [], req⟩ =
      (⟨w, [], [0], [], [], req⟩, .resp ⟨404, []⟩) := by
    simp [handle, hcl]
  have h3 : (handle env 0 (revLoc a) again ⟨w, [], [], [], [], again⟩).1.trace = [.handled 0 again false] := by
    simp only [handle, List.contains_nil, Bool.false_eq_true, if_false, hk, reduceCtorEq, if_true]
    cases (env.fresh w 0 again).1 <;> rfl
  refine ⟨(handle env 0 (revLoc a) first ⟨world, [], [], [], [], first⟩).1, (handle env 0 (revLoc a) first ⟨world, [], [], [], [], first⟩).2,
    ⟨w, [], [0], [], [], req⟩, _, _, hop _ _ _, e3, ?_, rfl, hop _ _ _, h3⟩
  rw [hop, e1, e2, h2]

/-! ### C124: `ws-proxy` -/

/-- the three modes, and what each does with a connection -/
def doesMode (mode : Text) (dst : SockAddr) (domain : Option Text) : Option Forward :=
  if mode = "ws2tcp".toList then some (.wsToTcp dst domain)
  else if mode = "tcp2ws".toList then some (.tcpToWs dst false domain)
  else if mode = "tcp2wss".toList then some (.tcpToWs dst true domain)
  else none

/-- what the stream part of the program does with a connection under this configuration -/
def OneStream.forward (x : Ext) (pick : Pick) (o : OneStream) : Res Forward :=
  Target.forward x pick o.mode o.upName o.domain none (streamGroups o.own o.outer)

theorem ws_forward (x : Ext) (a : WsArgs) (o : OneStream) (h : wsConf a = some o) (checked : Bool)
    (ops : List (Op SockAddr)) (hna : NoActive ops) (now : Nat) (draw : Nat → Nat) (hdraw : ∀ n, 0 < n → draw n < n) :
    o.forward x (pickAt checked ((Check.global : Check SockAddr).run ops) now draw) =
      .ok ((doesMode a.mode a.to a.domain).getD (.tcp a.to)) := by
  have ho : o = ⟨a.from', a.mode, "server".toList, a.domain, a.accessLog, [], [single "server".toList a.to]⟩ := by
    unfold wsConf at h
    simp only at h
    split at h
    · cases h
    · cases h; rfl
  subst ho
  have hs : streamAddr x (pickAt checked ((Check.global : Check SockAddr).run ops) now draw) "server".toList a.domain none
      (streamGroups [] [single "server".toList a.to]) = .ok (some a.to, a.domain) := by
    unfold streamAddr
    have : upstreamAddr (pickAt checked ((Check.global : Check SockAddr).run ops) now draw)
        (streamGroups [] [single "server".toList a.to]) "server".toList = .ok (some a.to) := by
      show upstreamAddr _ [single "server".toList a.to] _ = _
      rw [upstreamAddr, if_pos (show (single "server".toList a.to).name = "server".toList from rfl)]
      exact pick_single checked ops hna now draw hdraw a.to
    simp only [Res.bind_ok, this]
    cases a.domain <;> rfl
  unfold OneStream.forward Target.forward doesMode
  simp only [hs, Res.bind_ok]
  split
  · rfl
  · split
    · rfl
    · split <;> rfl

/-- **C124**, partial: `ws-proxy --from … --to a --mode m` with one of the three modes in lower case starts with the addresses
    given, and every connection is forwarded to `a` in that mode under the given domain, whatever happened before.
    Missing: other spellings, see `C124_case_fails`. -/
theorem C124_mode_partial (x : Ext) (w : World P F) (s : Shared) (a : WsArgs) (c : Conf P F)
    (h : start w s (.wsProxy a) = .serve c) (f : Forward) (hm : doesMode a.mode a.to a.domain = some f) :
    ∃ o, c.stream = some (.made o) ∧ o.listen = a.from' ∧
      ∀ checked ops now draw, NoActive ops → (∀ n, 0 < n → draw n < n) →
        o.forward x (pickAt checked ((Check.global : Check SockAddr).run ops) now draw) = .ok f := by
  simp only [start, load] at h
  split at h
  · cases h
  · rename_i o ho
    split at h
    · cases h
      refine ⟨o, rfl, ?_, fun checked ops now draw hna hdraw => ?_⟩
      · unfold wsConf at ho
        simp only at ho
        split at ho
        · cases ho
        · cases ho; rfl
      · rw [ws_forward x a o ho checked ops hna now draw hdraw, hm]
        rfl
    · cases h

/-- **C124** (refused) Every other mode, in any spelling, is refused at the start. -/
theorem C124_refused (w : World P F) (s : Shared) (a : WsArgs)
    (hm : doesMode (a.mode.map Char.toLower) a.to a.domain = none) : start w s (.wsProxy a) = .exit 0 none := by
  rw [← map_asciiLower] at hm
  have : wsConf a = none := by
    unfold doesMode at hm
    unfold wsConf
    simp only
    split at hm
    · cases hm
    · rename_i h1
      split at hm
      · cases hm
      · rename_i h2
        split at hm
        · cases hm
        · rename_i h3
          rw [if_pos ⟨h1, h2, h3⟩]
  simp only [start, this]

/-- **C124** fails: a mode spelled with capital letters is accepted and then ignored: connections are forwarded as plain
    TCP. -/
theorem C124_case_fails (x : Ext) (w : World P F) (s : Shared) (a : WsArgs) (f : Forward)
    (hl : doesMode (a.mode.map Char.toLower) a.to a.domain = some f) (hm : doesMode a.mode a.to a.domain = none)
    (hw : ∀ c, w.afterLoad c = true) :
    ∃ c o, start w s (.wsProxy a) = .serve c ∧ c.stream = some (.made o) ∧
      ∀ checked ops now draw, NoActive ops → (∀ n, 0 < n → draw n < n) →
        o.forward x (pickAt checked ((Check.global : Check SockAddr).run ops) now draw) = .ok (.tcp a.to) := by
  rw [← map_asciiLower] at hl
  obtain ⟨o, ho⟩ : ∃ o, wsConf a = some o := by
    unfold doesMode at hl
    unfold wsConf
    simp only
    rw [if_neg]
    · exact ⟨_, rfl⟩
    · rintro ⟨h1, h2, h3⟩
      rw [if_neg h1, if_neg h2, if_neg h3] at hl
      cases hl
  refine ⟨{ (base s : Conf P F) with stream := some (.made o), disableControl := true }, o,
    by simp only [start, ho, load, hw, if_true], rfl, fun checked ops now draw hna hdraw => ?_⟩
  rw [ws_forward x a o ho checked ops hna now draw hdraw, hm]
  rfl

/-! ### C125: `file-server` -/

/-- **C125**, partial: with `file-server` the root, robots text, error page, cache time, CORS, header rules and addresses
    given are those in force, for every request; TLS addresses are refused without certificate and key.
    Missing: `--browse` and `--ext-mimetype`, see `C125_ignored_fails`. -/
theorem C125_file_partial {W : Type} (w : World P F) (s : Shared) (a : FileServerArgs) (c : Conf P F)
    (h : start w s (.fileServer a) = .serve c) (level : Text → Option Reverse.Level)
    (cert : Option Text → Option Text → Listen.Cert) :
    (a.listenSsl ≠ none → a.cert ≠ none ∧ a.key ≠ none) ∧
    ∃ o f, c.http = some (.made o) ∧ o.listen = a.listen ∧ o.listenSsl = a.listenSsl.getD [] ∧ o.file = some f ∧
      (a.root ≠ [] → f.root = some a.root) ∧ f.robots = a.robots ∧ f.path404 = a.path404 ∧ f.cacheTime = a.cacheTime ∧
      f.cors = a.cors ∧
      ∃ b l, o.blocks level cert = [b] ∧ b.server.locs = [l] ∧ l.headers = a.header ∧
        ∀ (env : Env W) (world : W) (req : Req), ∃ s' r, operate env [b.server] world [] req = some (s', r) ∧
          s'.trace = [.handled 0 req false] := by
  simp only [start, load] at h
  split at h
  · cases h
  · rename_i o ho
    split at h
    · cases h
      unfold fileServerConf at ho
      split at ho
      · cases ho
      · rename_i hcond
        simp only [Option.some.injEq] at ho
        constructor
        · intro hs
          obtain ⟨l, hl⟩ := Option.ne_none_iff_exists'.1 hs
          rw [hl] at hcond
          cases hc : a.cert <;> cases hk : a.key <;> simp_all
        · subst ho
          refine ⟨_, _, rfl, rfl, rfl, rfl, fun hr => by simp [FileOpts.new, hr], rfl, rfl, rfl, rfl, ?_⟩
          refine ⟨⟨a.listen, a.listenSsl.getD [], cert (if a.listenSsl.isSome then a.cert else none)
            (if a.listenSsl.isSome then a.key else none), if a.listenSsl.isSome then a.domain else none,
            ⟨[], [⟨anyPath, some [], none, .plain, a.header, false, none, none, none, none⟩]⟩⟩, _, ?_, rfl, rfl, ?_⟩
          · simp only [OneHttp.blocks, HttpConf.copyToChild, SrvConf.fromHttp, SrvConf.copyToChild, LocConf.fromServer,
              List.map_cons, List.map_nil, List.append_nil]
            cases a.listenSsl <;> cases a.accessLog <;> rfl
          · intro env world req
            have hop : operate env [⟨[], [⟨anyPath, some [], none, .plain, a.header, false, none, none, none, none⟩]⟩]
                world [] req = some (handle env 0 ⟨anyPath, some [], none, .plain, a.header, false, none, none, none, none⟩
                  req ⟨world, [], [], [], [], req⟩) := by
              simp only [operate, selectServer, List.length_cons, List.length_nil, dealMatch, findLoc, List.contains_nil,
                Bool.false_eq_true, if_false,
                star_matches env req ⟨anyPath, some [], none, .plain, a.header, false, none, none, none, none⟩ rfl, if_true]
              rfl
            rw [hop]
            simp only [handle, List.contains_nil, Bool.false_eq_true, if_false, reduceCtorEq]
            cases env.fresh world 0 req with
            | mk o1 w1 => cases o1 <;> exact ⟨_, _, rfl, rfl⟩
    · cases h

/-- **C125** fails: `--browse` and `--ext-mimetype` have no effect; directories are listed in any case. -/
theorem C125_ignored_fails (w : World P F) (s : Shared) (a : FileServerArgs) (c : Conf P F)
    (h : start w s (.fileServer a) = .serve c) :
    (∃ o f, c.http = some (.made o) ∧ o.file = some f ∧ f.browse = true ∧ f.extMimetype = []) ∧
    ∀ browse mimes, start w s (.fileServer { a with browse := browse, extMimetype := mimes }) = .serve c := by
  refine ⟨?_, fun _ _ => h⟩
  simp only [start, load] at h
  split at h
  · cases h
  · rename_i o ho
    split at h
    · cases h
      unfold fileServerConf at ho
      split at ho
      · cases ho
      · simp only [Option.some.injEq] at ho
        subst ho
        exact ⟨_, _, rfl, rfl, rfl, rfl⟩
    · cases h

/-! ### C126: `--forever` -/

/-- the process ended as it should -/
def Proper (r : Start P F) (served : Served) : Prop :=
  (∃ n said, r = .exit n said ∧ n = 0) ∨ (∃ c, r = .serve c ∧ served = .returned true)

/-- **C126** (rounds) With `--forever`, one process is started after another until one ends with status 0; then the program
    ends. -/
theorem C126_rounds (pre post : List (Option Nat)) (h : ∀ e ∈ pre, e ≠ some 0) :
    forever (pre ++ some 0 :: post) = (pre.length + 1, true) ∧ forever pre = (pre.length + 1, false) := by
  induction pre with
  | nil => exact ⟨rfl, rfl⟩
  | cons e pre ih =>
    obtain ⟨i1, i2⟩ := ih fun e he => h e (by simp [he])
    have he := h e (by simp)
    rcases e with _ | (_ | n)
    · simp [forever, i1, i2]
    · exact absurd rfl he
    · simp [forever, i1, i2]

/-- **C126**, partial: after a panic of the main task, a kill, or when the service leaves with a status other than 0 (as a client
    does whose server cannot be reached at the start), a new process is started; after a proper end none is. -/
theorem C126_restart_partial (c : Conf P F) (rest : List (Option Nat)) :
    (∀ served, served = .panicked ∨ served = .killed ∨ (∃ n, served = .exited n ∧ n ≠ 0) →
      (forever (status (Start.serve c) served :: rest)).1 = (forever rest).1 + 1) ∧
    ∀ r : Start P F, ∀ served, Proper r served → forever (status r served :: rest) = (1, true) := by
  constructor
  · rintro served (rfl | rfl | ⟨n, rfl, hn⟩)
    · rfl
    · rfl
    · match n, hn with
      | n + 1, _ => rfl
  · rintro r served (⟨n, said, rfl, rfl⟩ | ⟨c, rfl, rfl⟩) <;> rfl

/-- **C126** fails: when the program ends with an error — an unreadable or refused configuration, TLS addresses without
    certificate or key, an unknown mode of `ws-proxy`, a service that ends with an error — its exit status is 0, so it is not
    started again. -/
theorem C126_error_fails (w : World P F) (s : Shared) (served : Served) (rest : List (Option Nat)) :
    (∀ path e, readConfig w path = .err e → forever (status (start w s (.run path)) served :: rest) = (1, true)) ∧
    (∀ a : FileServerArgs, a.listenSsl ≠ none → a.cert = none ∨ a.key = none →
      forever (status (start w s (.fileServer a)) served :: rest) = (1, true)) ∧
    (∀ a : WsArgs, a.mode.map asciiLower ∉ ["ws2tcp".toList, "tcp2ws".toList, "tcp2wss".toList] → forever (status (start w s (.wsProxy a)) served :: rest) = (1, true)) ∧
    ∀ c : Conf P F, forever (status (Start.serve c) (.returned false) :: rest) = (1, true) := by
  refine ⟨?_, ?_, ?_, fun _ => rfl⟩
  · intro path e h
    simp only [start, h, status, forever]
  · intro a h1 h2
    have h : fileServerConf a = none := by
      unfold fileServerConf
      rw [if_pos]
      cases hs : a.listenSsl with
      | none => exact absurd hs h1
      | some l => rcases h2 with h2 | h2 <;> simp [h2]
    simp only [start, h, status, forever]
  · intro a h
    have h' : wsConf a = none := by
      unfold wsConf
      exact if_pos ⟨fun e => h (by rw [e]; exact List.mem_cons_self), fun e => h (by rw [e]; simp), fun e => h (by rw [e]; simp)⟩
    simp only [start, h', status, forever]

/-- **C126** fails with `stop`: `stop` without arguments kills the process whose id is in the file, and the program started
    with `--forever` starts it again. -/
theorem C126_stop_fails (w : World P F) (s : Shared) (id : Text) (hid : id ≠ []) (hr : w.read s.pidfile = some id)
    (c : Conf P F) (rest : List (Option Nat)) :
    start w s .stop = .exit (w.kill id) none ∧
    (forever (status (Start.serve c) .killed :: rest)).1 = (forever rest).1 + 1 := by
  simp [start, hr, hid, status, forever]

/-! ### examples -/
section Examples

def exHome : SockAddr := ⟨.v4 2130706433, 8837⟩
def exShared : Shared := ⟨exHome, false, false, false, true, false, some .warn, "wm.pid".toList⟩
def exConf : Conf Nat Nat := ⟨some 1, some (.file 2), none, ⟨.v4 2130706433, 9999⟩, true, true, "other.pid".toList, none⟩

/-- two files, of which `bad.yaml` has a limit on a zone that is not defined; `kill` works for the process 77 -/
def exWorld : World Nat Nat where
  read p := if p = "a.yaml".toList then some "good".toList else if p = "bad.yaml".toList then some "zone".toList
    else if p = "wm.pid".toList then some "77".toList else none
  extension p := if p = "a.yaml".toList ∨ p = "bad.yaml".toList then some "yaml".toList else none
  parse _ t := if t = "good".toList then some exConf else if t = "zone".toList then some { exConf with pidfile := [] } else none
  afterLoad c := decide (c.pidfile ≠ [])
  kill id := if id = "77".toList then 0 else 1

theorem ex_run : start exWorld exShared (.run "a.yaml".toList) = .serve exConf := by
  have h : readConfig exWorld "a.yaml".toList = .ok exConf :=
    (readConfig_ok _ _ _).2 ⟨"good".toList, "yaml".toList, by decide, by decide, by decide, rfl⟩
  simp only [start, h]
  exact if_pos (by decide +kernel)

/-- `proxy` takes the options, `run` does not -/
example : (∃ c, start exWorld exShared (.proxy 5) = .serve c ∧ c.control = exHome ∧ c.defaultLevel = some .warn) ∧
    start exWorld exShared (.run "a.yaml".toList) = .serve exConf ∧ exConf.control ≠ exShared.control :=
  ⟨⟨{ (base exShared : Conf Nat Nat) with proxy := some 5 }, by unfold start; exact if_pos (by decide +kernel), rfl, rfl⟩,
    ex_run, by decide⟩

example : Readable exWorld "bad.yaml".toList { exConf with pidfile := [] } ∧
    exWorld.afterLoad { exConf with pidfile := [] } = false ∧ exWorld.extension "missing.yaml".toList = none ∧
    exWorld.read "wm.pid".toList = some "77".toList ∧ exWorld.extension "wm.pid".toList = none :=
  ⟨⟨"zone".toList, "yaml".toList, by decide, by decide, by decide, rfl⟩, by decide, by decide, by decide, by decide⟩

def exRev : ReverseArgs := ⟨[⟨.v4 0, 8080⟩, ⟨.v4 0, 8081⟩], demoA, [], some "access.log".toList, true, true⟩

/-- URLs of the form made by `reverse-proxy` -/
def exExt : Ext := { demoExt with
  parseUrl := fun t =>
    if t = "http://server".toList then some { demoUrl none with domain := some "server".toList, scheme := .http }
    else if t = "https://server".toList then some { demoUrl none with domain := some "server".toList, scheme := .https }
    else none }

theorem exExt_lawful : exExt.Lawful := ⟨demo_lawful.1, demo_lawful.2⟩

theorem exExt_reads : ReadsUrls exExt := ⟨⟨{ demoUrl none with domain := some "server".toList, scheme := .http }, rfl, rfl, rfl⟩,
  ⟨{ demoUrl none with domain := some "server".toList, scheme := .https }, rfl, rfl, rfl⟩⟩

/-- the service starts, on both addresses, when the system grants them -/
example : (∃ c, start exWorld exShared (.reverseProxy exRev) = .serve c) ∧
    Listen.bindHttp (fun _ _ => true) ((reverseConf exRev).blocks (fun _ => none) (fun _ _ => .absent)) [] =
      some [(⟨.v4 0, 8080⟩, false), (⟨.v4 0, 8081⟩, false)] :=
  ⟨⟨{ (base exShared : Conf Nat Nat) with http := some (.made (reverseConf exRev)), disableControl := true },
    by unfold start; exact if_pos (by decide +kernel)⟩, by rw [rev_blocks]; decide +kernel⟩

/-- after failures too, requests go to the one server, over TLS -/
example : dealRequest exExt (pickAt true ((Check.global : Check SockAddr).run
      [.outcome demoA 0 false, .outcome demoA 0 false, .outcome demoA 0 false]) 5 (fun n => n / 2)) false false
      (some "https://server".toList) [single "server".toList demoA] .http =
    .ok (.proxy ⟨demoText demoA.ip, 8080, some (demoText demoA.ip), (demoText demoA.ip, 8080)⟩) := by
  decide +kernel

/-- a mode in lower and one in upper case -/
example : doesMode "tcp2wss".toList demoA none = some (.tcpToWs demoA true none) ∧
    doesMode "TCP2WSS".toList demoA none = none ∧
    doesMode ("TCP2WSS".toList.map Char.toLower) demoA none = some (.tcpToWs demoA true none) ∧
    doesMode ("udp".toList.map Char.toLower) demoA none = none := by decide

def exFiles : FileServerArgs :=
  ⟨"www".toList, [⟨.v4 0, 80⟩], some [⟨.v4 0, 443⟩], some "c".toList, some "k".toList, some "a.org".toList, false,
    some "User-agent: *".toList, none, none, ["a=b".toList], true, [], none⟩

/-- `--browse` is off, and a directory is listed -/
example : (∃ c, start exWorld exShared (.fileServer exFiles) = .serve c) ∧ exFiles.browse = false ∧
    start exWorld exShared (.fileServer { exFiles with key := none }) = .exit 0 none :=
  ⟨⟨{ (base exShared : Conf Nat Nat) with http := (fileServerConf exFiles).map .made, disableControl := true },
    by unfold start; exact if_pos (by decide +kernel)⟩, rfl, rfl⟩

/-- TLS addresses without a key; a mode that does not exist; each is an ordinary mistake -/
example : ({ exFiles with key := none } : FileServerArgs).listenSsl ≠ none ∧
    "ws2udp".toList.map asciiLower ∉ ["ws2tcp".toList, "tcp2ws".toList, "tcp2wss".toList] := by decide

/-- two crashes and a proper end: three processes; a kill in between: four -/
example : forever [some 101, some 101, some 0] = (3, true) ∧ forever [some 101, none, some 101, some 0] = (4, true) := by
  decide

end Examples

end Wm.Cli
