import Verif.Model.Target
import Verif.Props.Upstream
import Verif.Proofs.Text
import Verif.Props.Inherit
/-! Properties C117 to C120: where requests, connections and WebSocket sessions go, and what a WebSocket session carries. -/
namespace Wm.Target
open Wm Wm.Health Wm.Reverse
open scoped List

/-! ### what a name means -/

/-- `g` is what `name` means in nested blocks (innermost first): the first group of that name in the innermost block that
    has one -/
def Named (blocks : List (List Group)) (name : Text) (g : Group) : Prop :=
  ∃ inner block outer before after, blocks = inner ++ block :: outer ∧ block = before ++ g :: after ∧ g.name = name ∧
    (∀ b ∈ inner, ∀ g' ∈ b, g'.name ≠ name) ∧ ∀ g' ∈ before, g'.name ≠ name

/-- no block has a group of that name -/
def Unknown (blocks : List (List Group)) (name : Text) : Prop := ∀ b ∈ blocks, ∀ g ∈ b, g.name ≠ name

/-- what is assumed about the external functions -/
structure Ext.Lawful (x : Ext) : Prop where
  connect : ∀ (u : Url) d p, u.domain = some d → u.port = some p → x.connectUrl u = some (d, p)
  resolve : ∀ ip, x.resolve (x.ipText ip) = some [ip]

/-- connecting to this host and port reaches exactly this address -/
def Reaches (x : Ext) (host : Text) (port : BitVec 16) (a : SockAddr) : Prop :=
  x.resolve host = some [a.ip] ∧ port = a.port

theorem upstreamAddr_first (pick : Pick) (before after : List Group) (g : Group) (name : Text) (hn : g.name = name)
    (hne : name ≠ []) (hb : ∀ g' ∈ before, g'.name ≠ name) :
    upstreamAddr pick (before ++ g :: after) name = pick g.servers := by
  induction before with
  | nil => simp [upstreamAddr, hn]
  | cons b bs ih =>
    rw [List.cons_append, upstreamAddr, if_neg (hb b (by simp)), if_neg hne]
    exact ih fun g' h => hb g' (by simp [h])

theorem upstreamAddr_named (pick : Pick) (blocks : List (List Group)) (g : Group) (name : Text)
    (hne : name ≠ []) (h : Named blocks name g) : upstreamAddr pick blocks.flatten name = pick g.servers := by
  obtain ⟨inner, block, outer, before, after, rfl, rfl, hn, hi, hb⟩ := h
  have : (inner ++ (before ++ g :: after) :: outer).flatten = (inner.flatten ++ before) ++ g :: (after ++ outer.flatten) := by
    simp
  rw [this]
  refine upstreamAddr_first pick _ _ g name hn hne fun g' hg => ?_
  rcases List.mem_append.1 hg with hg | hg
  · obtain ⟨b, h1, h2⟩ := List.mem_flatten.1 hg
    exact hi b h1 g' h2
  · exact hb g' hg

theorem upstreamAddr_unknown (pick : Pick) (groups : List Group) (name : Text)
    (hne : name ≠ []) (h : ∀ g ∈ groups, g.name ≠ name) : upstreamAddr pick groups name = .ok none := by
  induction groups with
  | nil => rfl
  | cons b bs ih =>
    rw [upstreamAddr, if_neg (h b (by simp)), if_neg hne]
    exact ih fun g' hg => h g' (by simp [hg])

theorem unknown_flatten (blocks : List (List Group)) (name : Text) (h : Unknown blocks name) :
    ∀ g ∈ blocks.flatten, g.name ≠ name := by
  intro g hg
  obtain ⟨b, h1, h2⟩ := List.mem_flatten.1 hg
  exact h b h1 g h2

/-- what is named, or nothing -/
theorem named_or_unknown (blocks : List (List Group)) (name : Text) :
    (∃ g, Named blocks name g) ∨ Unknown blocks name := by
  induction blocks with
  | nil => exact .inr (by simp [Unknown])
  | cons b bs ih =>
    by_cases hb : ∃ g ∈ b, g.name = name
    · left
      cases hf : b.find? (fun g => g.name = name) with
      | none =>
        obtain ⟨g, h1, h2⟩ := hb
        have := List.find?_eq_none.1 hf g h1
        simp [h2] at this
      | some g =>
        obtain ⟨h1, before, after, h2, h3⟩ := List.find?_eq_some_iff_append.1 hf
        exact ⟨g, [], b, bs, before, after, rfl, h2, by simpa using h1, by simp, fun g' hg => by simpa using h3 g' hg⟩
    · have hb' : ∀ g ∈ b, g.name ≠ name := fun g h1 h2 => hb ⟨g, h1, h2⟩
      rcases ih with ⟨g, inner, block, outer, before, after, rfl, h2, h3, h4, h5⟩ | h
      · refine .inl ⟨g, b :: inner, block, outer, before, after, rfl, h2, h3, fun b' hb1 => ?_, h5⟩
        rcases List.mem_cons.1 hb1 with rfl | hb1
        · exact hb'
        · exact h4 b' hb1
      · refine .inr fun b' hb1 => ?_
        rcases List.mem_cons.1 hb1 with rfl | hb1
        · exact hb'
        · exact h b' hb1

/-! ### C117: requests -/

/-- the location of the loaded configuration, after settings were passed on: its URL is its own, its groups are its own,
    then the server block's, then the outer ones -/
theorem loaded_location {α : Type} (level : Text → Option Level) (h : HttpConf α Group) (i j : Nat) (s : SrvConf α Group)
    (l : LocConf α Group) (hs : h.server[i]? = some s) (hl : s.location[j]? = some l) :
    ∃ s' l', (h.copyToChild level).server[i]? = some s' ∧ s'.location[j]? = some l' ∧
      l'.upstream = [l.upstream, s.upstream, h.upstream].flatten ∧ l'.comm.proxyUrl = l.comm.proxyUrl := by
  refine ⟨_, _, by simp only [HttpConf.copyToChild]; rw [List.getElem?_map, hs]; rfl,
    by simp only [SrvConf.fromHttp, SrvConf.copyToChild]; rw [List.getElem?_map, hl]; rfl, ?_, ?_⟩
  · simp [LocConf.fromServer]
  · simp [LocConf.fromServer, Common.copyFromParent, Common.preDeal]

/-- the scheme used for a request -/
def used (url reqScheme : Scheme) : Scheme := if url = .none then reqScheme else url

theorem httpDial_some (x : Ext) (hx : x.Lawful) (pick : Pick) (groups : List Group) (sch : Scheme) (url : Url) (d : Text)
    (a : SockAddr) (hd : url.domain = some d) (ha : upstreamAddr pick groups d = .ok (some a)) :
    httpDial x pick groups sch url = .ok ⟨x.ipText a.ip, a.port,
      if used url.scheme sch = .http then none else some (x.ipText a.ip), (x.ipText a.ip, a.port)⟩ := by
  unfold httpDial
  rw [hd]
  simp only [ha, Res.bind_ok]
  by_cases hs : url.scheme = .none
  · simp only [hs, if_true, used]
    rw [hx.connect _ (x.ipText a.ip) a.port rfl rfl]
  · simp only [hs, if_false, used]
    rw [hx.connect _ (x.ipText a.ip) a.port rfl rfl]

theorem httpDial_none (x : Ext) (pick : Pick) (groups : List Group) (sch : Scheme) (url : Url) (d : Text)
    (hd : url.domain = some d) (ha : upstreamAddr pick groups d = .ok none) (c : Text × BitVec 16)
    (hc : x.connectUrl { url with scheme := used url.scheme sch } = some c) :
    httpDial x pick groups sch url = .ok ⟨c.1, c.2, if used url.scheme sch = .http then none else some d, c⟩ := by
  unfold httpDial
  rw [hd]
  simp only [ha, Res.bind_ok]
  by_cases hs : url.scheme = .none
  · simp only [used, hs, if_true] at hc ⊢
    rw [hd] at hc
    simp only [hd, hc]
  · have : ({ url with scheme := used url.scheme sch } : Url) = url := by simp [used, hs]
    rw [this] at hc
    simp only [used, hs, if_false]
    rw [hc, hd]

/-- the health settings of the program's records, as in `C43_usable_partial` -/
def Usual (g : Group) : Prop :=
  (∀ s ∈ g.servers, s.failTimeout = 60 * 1000000000 ∧ s.fallTimes = 3 ∧ s.riseTimes = 2) ∧
  (g.servers.map (·.weight)).sum < 65536 ∧ ∃ s ∈ g.servers, 0 < s.weight

/-- **C117**, partial: in every configuration, for every location with a `proxy_url` whose host is the name of a group:
    after every history of outcomes and for every random draw, a request is sent to a server of that group — the group of
    that name in the innermost block that has one —, to one that is not down if there is one (of positive weight), and
    with TLS unless the scheme is http. The `Host` header it carries is the address it is sent to.
    Missing: groups with other health settings (`C117_down_fails`), without servers (`C117_empty_fails`) or with zero or
    large weights (C43), URLs without host (`C117_no_host_fails`); the name shown in TLS (`C117_tls_name_fails`). -/
theorem C117_group_partial {α : Type} (x : Ext) (hx : x.Lawful) (level : Text → Option Level) (h : HttpConf α Group)
    (i j : Nat) (s : SrvConf α Group) (l : LocConf α Group) (hs : h.server[i]? = some s) (hl : s.location[j]? = some l)
    (t : Text) (url : Url) (d : Text) (ht : l.comm.proxyUrl = some t) (hu : x.parseUrl t = some url)
    (hd : url.domain = some d) (hne : d ≠ []) (g : Group) (hg : Named [l.upstream, s.upstream, h.upstream] d g)
    (hgu : Usual g) (checked : Bool) (ops : List (Op SockAddr)) (hna : NoActive ops) (now : Nat) (draw : Nat → Nat)
    (hdraw : ∀ n, 0 < n → draw n < n) (sch : Scheme) :
    ∃ s' l' dial, (h.copyToChild level).server[i]? = some s' ∧ s'.location[j]? = some l' ∧
      dealRequest x (pickAt checked ((Check.global : Check SockAddr).run ops) now draw) false false l'.comm.proxyUrl
        l'.upstream sch = .ok (.proxy dial) ∧
      (∃ srv ∈ g.servers, Reaches x dial.host dial.port srv.addr ∧
        ((∃ s ∈ g.servers, 0 < s.weight ∧ ((Check.global : Check SockAddr).run ops).isDown s.addr now = false) →
          ((Check.global : Check SockAddr).run ops).isDown srv.addr now = false)) ∧
      (dial.tls = none ↔ used url.scheme sch = .http) ∧ dial.hostHeader = (dial.host, dial.port) := by
  obtain ⟨s', l', h1, h2, h3, h4⟩ := loaded_location level h i j s l hs hl
  obtain ⟨hset, hsum, hpos⟩ := hgu
  obtain ⟨c1, c2⟩ := C43_usable_partial checked ops hna now g.servers draw hdraw hset hsum
  have key : ∃ a, getServer checked ((Check.global : Check SockAddr).run ops) now g.servers draw = .ok (some a) ∧
      a ∈ g.servers.map (·.addr) ∧
      ((∃ s ∈ g.servers, 0 < s.weight ∧ ((Check.global : Check SockAddr).run ops).isDown s.addr now = false) →
        ((Check.global : Check SockAddr).run ops).isDown a now = false) := by
    by_cases hup : ∃ s ∈ g.servers, 0 < s.weight ∧ ((Check.global : Check SockAddr).run ops).isDown s.addr now = false
    · obtain ⟨a, p1, p2, p3⟩ := c1 hup
      exact ⟨a, p1, p2, fun _ => p3⟩
    · obtain ⟨a, p1, p2⟩ := c2 hpos
      exact ⟨a, p1, p2, fun h => absurd h hup⟩
  obtain ⟨a, p1, p2, p3⟩ := key
  obtain ⟨srv, q1, rfl⟩ := List.mem_map.1 p2
  have hdial := httpDial_some x hx (pickAt checked ((Check.global : Check SockAddr).run ops) now draw)
    [l.upstream, s.upstream, h.upstream].flatten sch url d srv.addr hd
    (by rw [upstreamAddr_named _ _ g d hne hg]; exact p1)
  refine ⟨s', l', ⟨x.ipText srv.addr.ip, srv.addr.port,
    if used url.scheme sch = .http then none else some (x.ipText srv.addr.ip), (x.ipText srv.addr.ip, srv.addr.port)⟩,
    h1, h2, ?_, ⟨srv, q1, ⟨hx.resolve _, rfl⟩, p3⟩, ?_, rfl⟩
  · unfold dealRequest
    rw [h3, h4, ht]
    simp only [Bool.false_eq_true, if_false, Option.bind_some, hu, hdial, Res.bind_ok]
  · simp

/-- **C117** (only) Whatever the group's servers, their settings and records: a request is sent to a server of the group
    that the URL's host names or to that host itself, never to another group's servers. -/
theorem C117_only {α : Type} (x : Ext) (hx : x.Lawful) (level : Text → Option Level) (h : HttpConf α Group)
    (i j : Nat) (s : SrvConf α Group) (l : LocConf α Group) (hs : h.server[i]? = some s) (hl : s.location[j]? = some l)
    (t : Text) (url : Url) (d : Text) (ht : l.comm.proxyUrl = some t) (hu : x.parseUrl t = some url)
    (hd : url.domain = some d) (hne : d ≠ []) (checked : Bool) (recs : Check SockAddr) (now : Nat) (draw : Nat → Nat)
    (sch : Scheme) :
    ∃ s' l', (h.copyToChild level).server[i]? = some s' ∧ s'.location[j]? = some l' ∧
      ∀ dial, dealRequest x (pickAt checked recs now draw) false false l'.comm.proxyUrl l'.upstream sch = .ok (.proxy dial) →
        (∃ g, Named [l.upstream, s.upstream, h.upstream] d g ∧ ∃ srv ∈ g.servers, Reaches x dial.host dial.port srv.addr) ∨
        some (dial.host, dial.port) = x.connectUrl { url with scheme := used url.scheme sch } := by
  obtain ⟨s', l', h1, h2, h3, h4⟩ := loaded_location level h i j s l hs hl
  refine ⟨s', l', h1, h2, fun dial hdl => ?_⟩
  unfold dealRequest at hdl
  rw [h3, h4, ht] at hdl
  simp only [Bool.false_eq_true, if_false, Option.bind_some, hu] at hdl
  cases ha : upstreamAddr (pickAt checked recs now draw) [l.upstream, s.upstream, h.upstream].flatten d with
  | err e => simp only [httpDial, hd, ha, Res.bind_err] at hdl; cases hdl
  | panic => simp only [httpDial, hd, ha, Res.bind_panic] at hdl; cases hdl
  | ok r =>
    cases r with
    | some a =>
      left
      rw [httpDial_some x hx _ _ sch url d a hd ha] at hdl
      simp only [Res.bind_ok, Res.ok.injEq, Handled.proxy.injEq] at hdl
      rcases named_or_unknown [l.upstream, s.upstream, h.upstream] d with ⟨g, hg⟩ | hun
      · rw [upstreamAddr_named _ _ g d hne hg] at ha
        obtain ⟨srv, q1, q2⟩ := List.mem_map.1 (C43_configured checked recs now g.servers draw a ha)
        subst q2
        exact ⟨g, hg, srv, q1, by rw [← hdl]; exact ⟨hx.resolve _, rfl⟩⟩
      · rw [upstreamAddr_unknown _ _ d hne (unknown_flatten _ _ hun)] at ha
        cases ha
    | none =>
      right
      cases hc : x.connectUrl { url with scheme := used url.scheme sch } with
      | some c =>
        rw [httpDial_none x _ _ sch url d hd ha c hc] at hdl
        simp only [Res.bind_ok, Res.ok.injEq, Handled.proxy.injEq] at hdl
        rw [← hdl]
      | none =>
        exfalso
        have : httpDial x (pickAt checked recs now draw) [l.upstream, s.upstream, h.upstream].flatten sch url =
            .err .extension := by
          unfold httpDial
          rw [hd]
          simp only [ha, Res.bind_ok]
          by_cases hsn : url.scheme = .none
          · simp only [used, hsn, if_true] at hc ⊢
            rw [hd] at hc
            simp only [hd, hc]
          · have hr : ({ url with scheme := used url.scheme sch } : Url) = url := by simp [used, hsn]
            rw [hr] at hc
            simp only [hsn, if_false]
            rw [hc]
        rw [this] at hdl
        cases hdl

/-- **C117** (other hosts) When no group has the name of the URL's host, the request is sent to that host and port. -/
theorem C117_host (x : Ext) (hx : x.Lawful) (own server http : List Group) (t : Text) (url : Url) (d : Text)
    (p : BitVec 16) (hu : x.parseUrl t = some url) (hd : url.domain = some d) (hp : url.port = some p) (hne : d ≠ [])
    (hun : Unknown [own, server, http] d) (pick : Pick) (sch : Scheme) :
    ∃ dial, dealRequest x pick false false (some t) [own, server, http].flatten sch = .ok (.proxy dial) ∧
      dial.host = d ∧ dial.port = p ∧ (dial.tls = if used url.scheme sch = .http then none else some d) := by
  have := httpDial_none x pick [own, server, http].flatten sch url d hd
    (upstreamAddr_unknown _ _ d hne (unknown_flatten _ _ hun)) (d, p) (hx.connect _ d p hd hp)
  refine ⟨⟨d, p, if used url.scheme sch = .http then none else some d, (d, p)⟩, ?_, rfl, rfl, rfl⟩
  unfold dealRequest
  simp only [Bool.false_eq_true, if_false, Option.bind_some, hu, this, Res.bind_ok]

/-- **C117** fails when the group's server has the default health settings and failed twice: instead of being answered
    with an error, requests are sent to whatever host the network knows by the group's name. -/
theorem C117_down_fails (x : Ext) (hx : x.Lawful) (t : Text) (url : Url) (d : Text) (p : BitVec 16)
    (hu : x.parseUrl t = some url) (hd : url.domain = some d) (hp : url.port = some p) (a : SockAddr) (time : Nat)
    (checked : Bool) (draw : Nat → Nat) (sch : Scheme) :
    let recs := (Check.global : Check SockAddr).run [.outcome a time false, .outcome a time false]
    ∃ dial, dealRequest x (pickAt checked recs time draw) false false (some t) [⟨d, [Server.default a]⟩] sch =
      .ok (.proxy dial) ∧ dial.host = d ∧ dial.port = p := by
  intro recs
  have hup : upstreamAddr (pickAt checked recs time draw) [⟨d, [Server.default a]⟩] d = .ok none := by
    rw [upstreamAddr, if_pos rfl]
    exact (C43_default_fails checked a time draw).2
  have := httpDial_none x (pickAt checked recs time draw) [⟨d, [Server.default a]⟩] sch url d hd hup (d, p)
    (hx.connect _ d p hd hp)
  refine ⟨⟨d, p, if used url.scheme sch = .http then none else some d, (d, p)⟩, ?_, rfl, rfl⟩
  unfold dealRequest
  simp only [Bool.false_eq_true, if_false, Option.bind_some, hu, this, Res.bind_ok]

/-- **C117** fails for a group without servers: requests are sent to the host of that name. -/
theorem C117_empty_fails (x : Ext) (hx : x.Lawful) (t : Text) (url : Url) (d : Text) (p : BitVec 16)
    (hu : x.parseUrl t = some url) (hd : url.domain = some d) (hp : url.port = some p) (checked : Bool)
    (recs : Check SockAddr) (now : Nat) (draw : Nat → Nat) (sch : Scheme) :
    ∃ dial, dealRequest x (pickAt checked recs now draw) false false (some t) [⟨d, []⟩] sch = .ok (.proxy dial) ∧
      dial.host = d ∧ dial.port = p := by
  have hup : upstreamAddr (pickAt checked recs now draw) [⟨d, []⟩] d = .ok none := by
    rw [upstreamAddr, if_pos rfl]; rfl
  have := httpDial_none x (pickAt checked recs now draw) [⟨d, []⟩] sch url d hd hup (d, p) (hx.connect _ d p hd hp)
  refine ⟨⟨d, p, if used url.scheme sch = .http then none else some d, (d, p)⟩, ?_, rfl, rfl⟩
  unfold dealRequest
  simp only [Bool.false_eq_true, if_false, Option.bind_some, hu, this, Res.bind_ok]

/-- **C117** fails for a URL without host: every request to the location ends in a panic of its connection's task. -/
theorem C117_no_host_fails (x : Ext) (pick : Pick) (t : Text) (url : Url) (hu : x.parseUrl t = some url)
    (hd : url.domain = none) (groups : List Group) (sch : Scheme) :
    dealRequest x pick false false (some t) groups sch = .panic := by
  unfold dealRequest
  simp only [Bool.false_eq_true, if_false, Option.bind_some, hu, httpDial, hd]
  rfl

/-- **C117** fails for TLS: a server of a group is asked for a certificate for its bare address, never for the host in the
    URL. -/
theorem C117_tls_name_fails (x : Ext) (hx : x.Lawful) (pick : Pick) (groups : List Group) (t : Text) (url : Url)
    (d : Text) (hu : x.parseUrl t = some url) (hd : url.domain = some d) (a : SockAddr)
    (ha : upstreamAddr pick groups d = .ok (some a)) (sch : Scheme) (hs : used url.scheme sch ≠ .http)
    (hname : x.ipText a.ip ≠ d) :
    ∃ dial name, dealRequest x pick false false (some t) groups sch = .ok (.proxy dial) ∧ dial.tls = some name ∧ name ≠ d := by
  have := httpDial_some x hx pick groups sch url d a hd ha
  rw [if_neg hs] at this
  refine ⟨⟨x.ipText a.ip, a.port, some (x.ipText a.ip), (x.ipText a.ip, a.port)⟩, x.ipText a.ip, ?_, rfl, hname⟩
  · unfold dealRequest
    simp only [Bool.false_eq_true, if_false, Option.bind_some, hu, this, Res.bind_ok]

/-! ### C118: stream blocks -/

/-- the address that a forwarded connection is made to -/
def Forward.addr : Forward → SockAddr
  | .wsToTcp a _ => a
  | .tcpToWs a _ _ => a
  | .tcp a => a

theorem forward_of (x : Ext) (pick : Pick) (mode upName : Text) (domain : Option Text) (url : Option Url)
    (groups : List Group) (a : SockAddr) (n : Option Text) (h : streamAddr x pick upName domain url groups = .ok (some a, n)) :
    ∃ f, forward x pick mode upName domain url groups = .ok f ∧ f.addr = a := by
  unfold forward
  rw [h]
  simp only [Res.bind_ok]
  split
  · exact ⟨_, rfl, rfl⟩
  · split
    · exact ⟨_, rfl, rfl⟩
    · split
      · exact ⟨_, rfl, rfl⟩
      · exact ⟨_, rfl, rfl⟩

/-- **C118**, partial: a connection to a stream block whose `proxy_url` has the name of a group as host and no port is
    forwarded to a server of that group (the innermost of that name), at that server's own port; to one that is not down if
    there is one. A block without `proxy_url` uses the group named by its `up_name` in the same way.
    Missing: URLs with a port, see `C118_port_fails`; the limits of C43; UDP, see `C118_udp_fails`. -/
theorem C118_group_partial (x : Ext) (own outer : List Group) (upName : Text) (domain : Option Text) (url : Option Url)
    (name : Text) (hurl : match url with
      | none => name = upName
      | some u => u.domain = some name ∧ u.port = none) (hne : name ≠ [])
    (g : Group) (hg : Named [own, outer] name g) (hgu : Usual g) (checked : Bool) (ops : List (Op SockAddr))
    (hna : NoActive ops) (now : Nat) (draw : Nat → Nat) (hdraw : ∀ n, 0 < n → draw n < n) (mode : Text) :
    ∃ f, forward x (pickAt checked ((Check.global : Check SockAddr).run ops) now draw) mode upName domain url
        (streamGroups own outer) = .ok f ∧
      ∃ srv ∈ g.servers, f.addr = srv.addr ∧
        ((∃ s ∈ g.servers, 0 < s.weight ∧ ((Check.global : Check SockAddr).run ops).isDown s.addr now = false) →
          ((Check.global : Check SockAddr).run ops).isDown srv.addr now = false) := by
  obtain ⟨hset, hsum, hpos⟩ := hgu
  obtain ⟨c1, c2⟩ := C43_usable_partial checked ops hna now g.servers draw hdraw hset hsum
  have key : ∃ srv ∈ g.servers, getServer checked ((Check.global : Check SockAddr).run ops) now g.servers draw =
        .ok (some srv.addr) ∧
      ((∃ s ∈ g.servers, 0 < s.weight ∧ ((Check.global : Check SockAddr).run ops).isDown s.addr now = false) →
        ((Check.global : Check SockAddr).run ops).isDown srv.addr now = false) := by
    by_cases hup : ∃ s ∈ g.servers, 0 < s.weight ∧ ((Check.global : Check SockAddr).run ops).isDown s.addr now = false
    · obtain ⟨a, p1, p2, p3⟩ := c1 hup
      obtain ⟨srv, q1, rfl⟩ := List.mem_map.1 p2
      exact ⟨srv, q1, p1, fun _ => p3⟩
    · obtain ⟨a, p1, p2⟩ := c2 hpos
      obtain ⟨srv, q1, rfl⟩ := List.mem_map.1 p2
      exact ⟨srv, q1, p1, fun h => absurd h hup⟩
  obtain ⟨srv, q1, p1, p3⟩ := key
  have hup : upstreamAddr (pickAt checked ((Check.global : Check SockAddr).run ops) now draw) (streamGroups own outer) name =
      .ok (some srv.addr) := by
    have := upstreamAddr_named (pickAt checked ((Check.global : Check SockAddr).run ops) now draw) [own, outer] g name hne hg
    rw [show [own, outer].flatten = streamGroups own outer by simp [streamGroups]] at this
    rw [this]
    exact p1
  have : ∃ n, streamAddr x (pickAt checked ((Check.global : Check SockAddr).run ops) now draw) upName domain url
      (streamGroups own outer) = .ok (some srv.addr, n) := by
    cases url with
    | none =>
      subst hurl
      refine ⟨if domain.isNone then none else domain, ?_⟩
      unfold streamAddr
      simp only [Res.bind_ok, hup]
      rfl
    | some u =>
      obtain ⟨h1, h2⟩ := hurl
      refine ⟨if domain.isNone then some name else domain, ?_⟩
      unfold streamAddr
      simp only [streamNamed, h1, h2, Res.bind_ok, hup, Option.bind_some]
  obtain ⟨n, hn⟩ := this
  obtain ⟨f, hf, ha⟩ := forward_of x _ mode upName domain url _ srv.addr n hn
  exact ⟨f, hf, srv, q1, ha, p3⟩

/-- **C118** fails when the URL has a port: the connection is made to that port of the picked server's host, whatever port
    the server is configured with. -/
theorem C118_port_fails (x : Ext) (pick : Pick) (groups : List Group) (mode upName : Text) (domain : Option Text) (u : Url)
    (d : Text) (p : BitVec 16) (hd : u.domain = some d) (hp : u.port = some p) (a : SockAddr)
    (ha : upstreamAddr pick groups d = .ok (some a)) (hne : a.port ≠ p) :
    ∃ f, forward x pick mode upName domain (some u) groups = .ok f ∧ f.addr = ⟨a.ip, p⟩ ∧ f.addr ≠ a := by
  have : ∃ n, streamAddr x pick upName domain (some u) groups = .ok (some ⟨a.ip, p⟩, n) := by
    refine ⟨if domain.isNone then some d else domain, ?_⟩
    unfold streamAddr
    simp only [streamNamed, hd, hp, ha, Res.bind_ok, Option.bind_some]
  obtain ⟨n, hn⟩ := this
  obtain ⟨f, hf, hfa⟩ := forward_of x pick mode upName domain (some u) groups _ n hn
  exact ⟨f, hf, hfa, by rw [hfa]; intro h; exact hne (by rw [← h])⟩

/-- the same server and URL for requests: there the server's own port is used -/
theorem requests_use_own_port (x : Ext) (hx : x.Lawful) (pick : Pick) (groups : List Group) (u : Url) (d : Text)
    (hd : u.domain = some d) (a : SockAddr) (ha : upstreamAddr pick groups d = .ok (some a)) (sch : Scheme) :
    ∃ dial, httpDial x pick groups sch u = .ok dial ∧ dial.port = a.port :=
  ⟨_, httpDial_some x hx pick groups sch u d a hd ha, rfl⟩

/-- **C118** (own host) When no group has the name of the URL's host, the connection is made to the first address of that
    host, at the URL's port. -/
theorem C118_host (x : Ext) (hx : x.Lawful) (pick : Pick) (own outer : List Group) (mode upName : Text)
    (domain : Option Text) (u : Url) (d : Text) (p : BitVec 16) (hd : u.domain = some d) (hp : u.port = some p)
    (hne : d ≠ []) (hun : Unknown [own, outer] d) (ip : IpAddr) (ips : List IpAddr) (hr : x.resolve d = some (ip :: ips)) :
    ∃ f, forward x pick mode upName domain (some u) (streamGroups own outer) = .ok f ∧ f.addr = ⟨ip, p⟩ := by
  have hup := upstreamAddr_unknown pick [own, outer].flatten d hne (unknown_flatten _ _ hun)
  rw [show [own, outer].flatten = streamGroups own outer by simp [streamGroups]] at hup
  have : ∃ n, streamAddr x pick upName domain (some u) (streamGroups own outer) = .ok (some ⟨ip, p⟩, n) := by
    refine ⟨if domain.isNone then some d else domain, ?_⟩
    unfold streamAddr
    simp only [streamNamed, hd, hup, Res.bind_ok, streamOwn, hx.connect u d p hd hp, hr, List.head?_cons, Option.map_some,
      Option.bind_some]
  obtain ⟨n, hn⟩ := this
  exact forward_of x pick mode upName domain (some u) _ _ n hn

/-- **C118** (refused) A connection is refused, not sent elsewhere, when the URL's host is neither a group nor known to the
    network. -/
theorem C118_unresolved (x : Ext) (hx : x.Lawful) (pick : Pick) (own outer : List Group) (mode upName : Text)
    (domain : Option Text) (u : Url) (d : Text) (p : BitVec 16) (hd : u.domain = some d) (hp : u.port = some p)
    (hne : d ≠ []) (hun : Unknown [own, outer] d) (hr : x.resolve d = none) :
    forward x pick mode upName domain (some u) (streamGroups own outer) = .err .ioError := by
  have hup := upstreamAddr_unknown pick [own, outer].flatten d hne (unknown_flatten _ _ hun)
  rw [show [own, outer].flatten = streamGroups own outer by simp [streamGroups]] at hup
  unfold forward streamAddr
  simp only [streamNamed, hd, hup, Res.bind_ok, streamOwn, hx.connect u d p hd hp, hr]
  rfl

/-- **C118** fails for UDP blocks: where TCP blocks use the innermost group of the name, UDP blocks use the outermost (the
    last of that name). -/
theorem C118_udp_fails (checked : Bool) (recs : Check SockAddr) (now : Nat) (draw : Nat → Nat) (own outer : List Group)
    (upName : Text) (g : Group) (before after : List Group) (ho : outer = before ++ g :: after) (hg : g.name = upName)
    (hlast : ∀ g' ∈ after, g'.name ≠ upName)
    (hok : ∀ g' ∈ own ++ before, ∃ r, getServer checked recs now g'.servers draw = .ok r) :
    udpAddr (pickAt checked recs now draw) upName (streamGroups own outer) none = pickAt checked recs now draw g.servers := by
  have tail : ∀ (gs : List Group) (r : Option SockAddr), (∀ g' ∈ gs, g'.name ≠ upName) →
      udpAddr (pickAt checked recs now draw) upName gs r = .ok r := by
    intro gs
    induction gs with
    | nil => intro r _; rfl
    | cons b bs ih =>
      intro r h
      rw [udpAddr, if_neg (h b (by simp))]
      simp only [Res.bind_ok]
      exact ih r fun g' hg' => h g' (by simp [hg'])
  have head : ∀ (gs : List Group) (r : Option SockAddr),
      (∀ g' ∈ gs, ∃ r, getServer checked recs now g'.servers draw = .ok r) →
      udpAddr (pickAt checked recs now draw) upName (gs ++ g :: after) r = pickAt checked recs now draw g.servers := by
    intro gs
    induction gs with
    | nil =>
      intro r _
      rw [List.nil_append, udpAddr, if_pos hg]
      cases hp : pickAt checked recs now draw g.servers with
      | ok v => simp only [Res.bind_ok]; exact tail after v hlast
      | err e => rfl
      | panic => rfl
    | cons b bs ih =>
      intro r h
      rw [List.cons_append, udpAddr]
      have hrest := fun r => ih r fun g' hg' => h g' (by simp [hg'])
      split
      · obtain ⟨v, hv⟩ := h b (by simp)
        have : pickAt checked recs now draw b.servers = .ok v := hv
        rw [this, Res.bind_ok]
        exact hrest v
      · rw [Res.bind_ok]
        exact hrest r
  unfold streamGroups
  rw [ho, ← List.append_assoc]
  exact head (own ++ before) none hok

/-- **C118** fails for UDP blocks without `up_name`: where TCP blocks use the first group, UDP blocks have no address. -/
theorem C118_udp_unnamed_fails (pick : Pick) (g : Group) (gs : List Group) (h : ∀ g' ∈ g :: gs, g'.name ≠ []) :
    udpAddr pick [] (g :: gs) none = .ok none ∧ upstreamAddr pick (g :: gs) [] = pick g.servers := by
  refine ⟨?_, by rw [upstreamAddr, if_neg (h g (by simp)), if_pos rfl]⟩
  generalize g :: gs = l at h
  induction l with
  | nil => rfl
  | cons b bs ih =>
    rw [udpAddr, if_neg (h b (by simp)), Res.bind_ok]
    exact ih fun g' hg' => h g' (by simp [hg'])

/-! ### C119: WebSocket sessions are connected to the named group -/

/-- **C119**, partial: a WebSocket request to a location whose `proxy_url` has the name of a group as host is connected to a
    server of that group, keeping scheme and path, under the URL's host as name; if the connection cannot be made, the
    WebSocket is refused.
    Missing: other hosts, see `C119_dropped_fails`; the limits of C43. -/
theorem C119_group_partial (x : Ext) (own server http : List Group) (u : Url) (plain : SockAddr → Url) (d : Text)
    (hd : u.domain = some d) (hne : d ≠ []) (g : Group) (hg : Named [own, server, http] d g) (hgu : Usual g) (checked : Bool)
    (ops : List (Op SockAddr)) (hna : NoActive ops) (now : Nat) (draw : Nat → Nat) (hdraw : ∀ n, 0 < n → draw n < n) :
    ∃ url, wsUrl x (pickAt checked ((Check.global : Check SockAddr).run ops) now draw) [own, server, http].flatten (some u)
        plain = .ok (url, d) ∧ url.scheme = u.scheme ∧ url.path = u.path ∧
      (∃ srv ∈ g.servers, url.domain = some (x.ipText srv.addr.ip) ∧ url.port = some srv.addr.port) ∧
      (∃ s, wsStart (wsUrl x (pickAt checked ((Check.global : Check SockAddr).run ops) now draw) [own, server, http].flatten
        (some u) plain) true = .ok (some s) ∧ s.linked = true) ∧
      wsStart (wsUrl x (pickAt checked ((Check.global : Check SockAddr).run ops) now draw) [own, server, http].flatten
        (some u) plain) false = .ok none := by
  obtain ⟨hset, hsum, hpos⟩ := hgu
  obtain ⟨a, p1, p2⟩ := (C43_usable_partial checked ops hna now g.servers draw hdraw hset hsum).2 hpos
  obtain ⟨srv, q1, rfl⟩ := List.mem_map.1 p2
  have hw : wsAddr (pickAt checked ((Check.global : Check SockAddr).run ops) now draw) [own, server, http].flatten (some u) =
      .ok (some srv.addr) := by
    unfold wsAddr
    rw [Option.bind_some, hd, Option.getD_some, upstreamAddr_named _ _ g d hne hg]
    exact p1
  have hu : wsUrl x (pickAt checked ((Check.global : Check SockAddr).run ops) now draw) [own, server, http].flatten (some u)
      plain = .ok ({ u with domain := some (x.ipText srv.addr.ip), port := some srv.addr.port }, d) := by
    unfold wsUrl
    rw [hw]
    simp only [Res.bind_ok, hd, Option.getD_some]
  exact ⟨_, hu, rfl, rfl, ⟨srv, q1, rfl, rfl⟩, ⟨_, by rw [hu]; rfl, rfl⟩, by rw [hu]; rfl⟩

theorem unlinked_out (evs : List Ev) (s : Sess) (h : s.linked = false) (hu : s.upstream = false) (h1 : s.up.queue = [])
    (h2 : s.down.queue = []) :
    (run s evs).linked = false ∧ (run s evs).up.out = s.up.out ∧ (run s evs).down.out = s.down.out := by
  induction evs generalizing s with
  | nil => exact ⟨h, rfl, rfl⟩
  | cons e evs ih =>
    have key : (step s e).linked = false ∧ (step s e).upstream = false ∧ (step s e).up.queue = [] ∧
        (step s e).down.queue = [] ∧ (step s e).up.out = s.up.out ∧ (step s e).down.out = s.down.out := by
      cases e with
      | fromVisitor m =>
        simp only [step, h]
        split <;> simp_all
      | fromUpstream m => simp [step, hu, h, h1, h2]
      | toUpstream => simp [step, hu, h, h1, h2]
      | toVisitor =>
        simp only [step]
        split <;> simp_all [Dir.pop]
      | upstreamEnds => simp [step, h, h1, h2]
      | visitorEnds => simp [step, hu, h, h1, h2]
    obtain ⟨k1, k2, k3, k4, k5, k6⟩ := key
    have := ih (step s e) k1 k2 k3 k4
    rw [k5, k6] at this
    exact this

/-- **C119** fails when the URL's host is not the name of a group — where plain requests are sent to that host —: the
    WebSocket is accepted, and every message the visitor ever sends is read and dropped; nothing is ever sent to the
    visitor. -/
theorem C119_dropped_fails (x : Ext) (pick : Pick) (own server http : List Group) (u : Url) (plain : SockAddr → Url) (d : Text)
    (hd : u.domain = some d) (hne : d ≠ []) (hun : Unknown [own, server, http] d) (connects : Bool) :
    ∃ s, wsStart (wsUrl x pick [own, server, http].flatten (some u) plain) connects = .ok (some s) ∧
      (∀ evs, (run s evs).up.out = [] ∧ (run s evs).down.out = []) ∧
      ∀ ms : List Msg, (run s (ms.map .fromVisitor)).up.inn = ms ∧ (run s (ms.map .fromVisitor)).visitor = true := by
  have hu : wsUrl x pick [own, server, http].flatten (some u) plain = .err .extension := by
    unfold wsUrl wsAddr
    rw [Option.bind_some, hd, Option.getD_some, upstreamAddr_unknown _ _ d hne (unknown_flatten _ _ hun)]
    rfl
  refine ⟨⟨false, Dir.empty false, Dir.empty false, true, false⟩, by rw [hu]; rfl, fun evs => ?_, fun ms => ?_⟩
  · exact (unlinked_out evs _ rfl rfl rfl rfl).2
  · have : ∀ (ms : List Msg) (s : Sess), s.linked = false → s.visitor = true →
        (run s (ms.map .fromVisitor)).up.inn = s.up.inn ++ ms ∧ (run s (ms.map .fromVisitor)).visitor = true := by
      intro ms
      induction ms with
      | nil => intro s _ h2; simp [run, h2]
      | cons m ms ih =>
        intro s h1 h2
        have hs : step s (.fromVisitor m) = { s with up := { s.up with inn := s.up.inn ++ [m] } } := by
          simp [step, h1, h2]
        have := ih (step s (.fromVisitor m)) (by rw [hs]; exact h1) (by rw [hs]; exact h2)
        rw [hs] at this
        simp only [List.map_cons, run, List.foldl_cons, hs]
        simp only [run] at this
        rw [this.1]
        exact ⟨by simp, this.2⟩
    have := this ms ⟨false, Dir.empty false, Dir.empty false, true, false⟩ rfl rfl
    simpa [Dir.empty] using this

/-! ### C120: what a WebSocket session carries -/

/-- nothing is invented, reordered or changed on the way; nothing is lost while the far end takes part -/
def Dir.Good (d : Dir) : Prop :=
  (∃ lost, d.inn = d.out ++ d.queue ++ lost ∧ (d.alive = true → lost = [])) ∧ d.queue.length ≤ cap

theorem Dir.push_good {d d' : Dir} {m : Msg} {ok : Bool} (h : d.Good) (hp : d.push m = some (d', ok)) : d'.Good := by
  obtain ⟨⟨lost, h1, h2⟩, h3⟩ := h
  unfold Dir.push at hp
  split at hp
  · rename_i hal
    cases hp
    refine ⟨⟨lost ++ [m], by simp [h1], fun ha => ?_⟩, h3⟩
    have ha' : d.alive = true := ha
    simp [ha'] at hal
  · rename_i hal
    simp only [Bool.not_eq_true, Bool.not_eq_false'] at hal
    split at hp
    · rename_i hlt
      cases hp
      have := h2 hal
      subst this
      exact ⟨⟨[], by simp [h1], fun _ => rfl⟩, by simp; omega⟩
    · cases hp

theorem Dir.pop_good {d : Dir} (h : d.Good) : d.pop.Good := by
  obtain ⟨⟨lost, h1, h2⟩, h3⟩ := h
  unfold Dir.pop
  split
  · exact ⟨⟨lost, h1, h2⟩, h3⟩
  · rename_i m ms heq
    rw [heq] at h1 h3
    exact ⟨⟨lost, by simp [h1], h2⟩, by simp at h3 ⊢; omega⟩

theorem Dir.drop_good {d : Dir} (h : d.Good) : ({ d with alive := false } : Dir).Good := by
  obtain ⟨⟨lost, h1, h2⟩, h3⟩ := h
  exact ⟨⟨lost, h1, by simp⟩, h3⟩

theorem step_good {s : Sess} (h : s.linked = true ∧ s.up.Good ∧ s.down.Good) (e : Ev) :
    (step s e).linked = true ∧ (step s e).up.Good ∧ (step s e).down.Good := by
  obtain ⟨h0, h1, h2⟩ := h
  cases e with
  | fromVisitor m =>
    simp only [step, h0]
    split
    · exact ⟨h0, h1, h2⟩
    · simp only [Bool.not_true, Bool.false_eq_true, if_false]
      cases hp : s.up.push m with
      | none => exact ⟨h0, h1, h2⟩
      | some p => exact ⟨rfl, Dir.push_good h1 (by rw [hp]), h2⟩
  | fromUpstream m =>
    simp only [step]
    split
    · exact ⟨h0, h1, h2⟩
    · cases hp : s.down.push m with
      | none => exact ⟨h0, h1, h2⟩
      | some p => exact ⟨h0, h1, Dir.push_good h2 (by rw [hp])⟩
  | toUpstream =>
    simp only [step]
    split
    · exact ⟨h0, Dir.pop_good h1, h2⟩
    · exact ⟨h0, h1, h2⟩
  | toVisitor =>
    simp only [step]
    split
    · exact ⟨h0, h1, Dir.pop_good h2⟩
    · exact ⟨h0, h1, h2⟩
  | upstreamEnds => exact ⟨h0, Dir.drop_good h1, h2⟩
  | visitorEnds => exact ⟨h0, h1, Dir.drop_good h2⟩

theorem run_good {s : Sess} (h : s.linked = true ∧ s.up.Good ∧ s.down.Good) (evs : List Ev) :
    (run s evs).linked = true ∧ (run s evs).up.Good ∧ (run s evs).down.Good := by
  induction evs generalizing s with
  | nil => exact h
  | cons e evs ih => exact ih (step_good h e)

/-- a connected session at its start -/
def fresh : Sess := ⟨true, Dir.empty true, Dir.empty true, true, true⟩

theorem start_fresh (url : Res (Url × Text)) (s : Sess) (h : wsStart url true = .ok (some s)) (hl : s.linked = true) :
    s = fresh := by
  cases url with
  | ok v => simp only [wsStart, if_true] at h; cases h; rfl
  | err e => simp only [wsStart] at h; cases h; cases hl
  | panic => simp [wsStart] at h

theorem fresh_good : fresh.linked = true ∧ fresh.up.Good ∧ fresh.down.Good :=
  ⟨rfl, ⟨⟨[], rfl, fun _ => rfl⟩, by simp [fresh, Dir.empty]⟩, ⟨⟨[], rfl, fun _ => rfl⟩, by simp [fresh, Dir.empty]⟩⟩

/-- **C120** (order) In every run of a connected session, in both directions: the messages handed to the far side —
    texts, binaries, pings, pongs and closes — are the messages read on the near side, each once, unchanged and in order. -/
theorem C120_order (url : Res (Url × Text)) (s : Sess) (h : wsStart url true = .ok (some s)) (hl : s.linked = true)
    (evs : List Ev) :
    (run s evs).up.out <+: (run s evs).up.inn ∧ (run s evs).down.out <+: (run s evs).down.inn := by
  rw [start_fresh url s h hl]
  obtain ⟨_, ⟨⟨l1, h1, _⟩, _⟩, ⟨⟨l2, h2, _⟩, _⟩⟩ := run_good fresh_good evs
  exact ⟨⟨(run fresh evs).up.queue ++ l1, by rw [h1]; simp⟩, ⟨(run fresh evs).down.queue ++ l2, by rw [h2]; simp⟩⟩

theorem alive_of (evs : List Ev) (s : Sess) :
    (Ev.upstreamEnds ∉ evs → s.up.alive = true → (run s evs).up.alive = true) ∧
    (Ev.visitorEnds ∉ evs → s.down.alive = true → (run s evs).down.alive = true) := by
  induction evs generalizing s with
  | nil => exact ⟨fun _ h => h, fun _ h => h⟩
  | cons e evs ih =>
    have push : ∀ (d d' : Dir) (m : Msg) (ok : Bool), d.push m = some (d', ok) → d'.alive = d.alive := by
      intro d d' m ok h
      unfold Dir.push at h
      split at h
      · cases h; rfl
      · split at h
        · cases h; rfl
        · cases h
    have pop : ∀ d : Dir, d.pop.alive = d.alive := by
      intro d; unfold Dir.pop; split <;> rfl
    have k1 : e ≠ .upstreamEnds → (step s e).up.alive = s.up.alive := by
      intro hne
      cases e with
      | fromVisitor m =>
        simp only [step]
        split
        · rfl
        · split
          · rfl
          · cases hp : s.up.push m with
            | none => rfl
            | some p => exact push _ _ m p.2 (by rw [hp])
      | fromUpstream m =>
        simp only [step]
        split
        · rfl
        · cases hp : s.down.push m <;> rfl
      | toUpstream => simp only [step]; split; exact pop _; rfl
      | toVisitor => simp only [step]; split <;> rfl
      | upstreamEnds => exact absurd rfl hne
      | visitorEnds => rfl
    have k2 : e ≠ .visitorEnds → (step s e).down.alive = s.down.alive := by
      intro hne
      cases e with
      | fromVisitor m =>
        simp only [step]
        split
        · rfl
        · split
          · rfl
          · cases hp : s.up.push m <;> rfl
      | fromUpstream m =>
        simp only [step]
        split
        · rfl
        · cases hp : s.down.push m with
          | none => rfl
          | some p => exact push _ _ m p.2 (by rw [hp])
      | toUpstream => simp only [step]; split <;> rfl
      | toVisitor => simp only [step]; split; exact pop _; rfl
      | upstreamEnds => rfl
      | visitorEnds => exact absurd rfl hne
    refine ⟨fun h1 h2 => (ih (step s e)).1 (fun h => h1 (by simp [h])) ?_,
      fun h1 h2 => (ih (step s e)).2 (fun h => h1 (by simp [h])) ?_⟩
    · rw [k1 fun he => h1 (by simp [he])]; exact h2
    · rw [k2 fun he => h1 (by simp [he])]; exact h2

theorem served_of (evs : List Ev) (s : Sess) (h1 : Ev.upstreamEnds ∉ evs) (h2 : Ev.visitorEnds ∉ evs)
    (h3 : s.up.alive = true) (h4 : s.down.alive = true) (h5 : s.upstream = true) (h6 : s.visitor = true) :
    (run s evs).upstream = true ∧ (run s evs).visitor = true := by
  induction evs generalizing s with
  | nil => exact ⟨h5, h6⟩
  | cons e evs ih =>
    have ha := alive_of [e] s
    have hu : (step s e).up.alive = true := ha.1 (fun h => h1 (by simp at h; simp [h])) h3
    have hd : (step s e).down.alive = true := ha.2 (fun h => h2 (by simp at h; simp [h])) h4
    have push : ∀ (d d' : Dir) (m : Msg) (ok : Bool), d.alive = true → d.push m = some (d', ok) → ok = true := by
      intro d d' m ok hal h
      unfold Dir.push at h
      rw [hal] at h
      simp only [Bool.not_true, Bool.false_eq_true, if_false] at h
      split at h
      · cases h; rfl
      · cases h
    refine ih (step s e) (fun h => h1 (by simp [h])) (fun h => h2 (by simp [h])) hu hd ?_ ?_
    · cases e with
      | fromVisitor m =>
        simp only [step]
        split
        · exact h5
        · split
          · exact h5
          · cases hp : s.up.push m <;> exact h5
      | fromUpstream m =>
        simp only [step]
        split
        · exact h5
        · cases hp : s.down.push m with
          | none => exact h5
          | some p => simp [push _ _ m p.2 h4 (by rw [hp])]
      | toUpstream => simp only [step]; split <;> exact h5
      | toVisitor => simp only [step]; split <;> exact h5
      | upstreamEnds => exact absurd (by simp) h1
      | visitorEnds => exact h5
    · cases e with
      | fromVisitor m =>
        simp only [step]
        split
        · exact h6
        · split
          · exact h6
          · cases hp : s.up.push m with
            | none => exact h6
            | some p => simp [push _ _ m p.2 h3 (by rw [hp])]
      | fromUpstream m =>
        simp only [step]
        split
        · exact h6
        · cases hp : s.down.push m <;> exact h6
      | toUpstream => simp only [step]; split <;> exact h6
      | toVisitor => simp only [step]; split <;> exact h6
      | upstreamEnds => exact h6
      | visitorEnds => exact absurd (by simp) h2

theorem pops_up (n : Nat) (s : Sess) (hu : s.upstream = true) (hn : s.up.queue.length ≤ n) :
    (run s (List.replicate n .toUpstream)).up.out = s.up.out ++ s.up.queue ∧
    (run s (List.replicate n .toUpstream)).up.inn = s.up.inn := by
  induction n generalizing s with
  | zero =>
    have : s.up.queue = [] := List.length_eq_zero_iff.1 (by omega)
    simp [run, this]
  | succ n ih =>
    rw [List.replicate_succ]
    have hs : step s .toUpstream = { s with up := s.up.pop } := by simp [step, hu]
    have := ih (step s .toUpstream) (by rw [hs]; exact hu) (by
      rw [hs]; simp only [Dir.pop]; split
      · rename_i h; simp [h]
      · rename_i h; rw [h] at hn; simpa using hn)
    simp only [run, List.foldl_cons] at this ⊢
    rw [this.1, this.2, hs]
    simp only [Dir.pop]
    split <;> rename_i h <;> simp [h]

theorem pops_down (n : Nat) (s : Sess) (hu : s.visitor = true) (hn : s.down.queue.length ≤ n) :
    (run s (List.replicate n .toVisitor)).down.out = s.down.out ++ s.down.queue ∧
    (run s (List.replicate n .toVisitor)).down.inn = s.down.inn := by
  induction n generalizing s with
  | zero =>
    have : s.down.queue = [] := List.length_eq_zero_iff.1 (by omega)
    simp [run, this]
  | succ n ih =>
    rw [List.replicate_succ]
    have hs : step s .toVisitor = { s with down := s.down.pop } := by simp [step, hu]
    have := ih (step s .toVisitor) (by rw [hs]; exact hu) (by
      rw [hs]; simp only [Dir.pop]; split
      · rename_i h; simp [h]
      · rename_i h; rw [h] at hn; simpa using hn)
    simp only [run, List.foldl_cons] at this ⊢
    rw [this.1, this.2, hs]
    simp only [Dir.pop]
    split <;> rename_i h <;> simp [h]

/-- **C120** (no loss) While neither connection ends, whatever was read on one side is handed on once the other side took
    ten messages; at no time are more than ten under way in one direction. -/
theorem C120_no_loss (url : Res (Url × Text)) (s : Sess) (h : wsStart url true = .ok (some s)) (hl : s.linked = true)
    (evs : List Ev) (h1 : Ev.upstreamEnds ∉ evs) (h2 : Ev.visitorEnds ∉ evs) :
    (run s (evs ++ List.replicate 10 .toUpstream)).up.out = (run s evs).up.inn ∧
    (run s (evs ++ List.replicate 10 .toVisitor)).down.out = (run s evs).down.inn ∧
    (run s evs).up.inn.length ≤ (run s evs).up.out.length + 10 ∧
    (run s evs).down.inn.length ≤ (run s evs).down.out.length + 10 := by
  rw [start_fresh url s h hl]
  obtain ⟨_, ⟨⟨l1, p1, p2⟩, p3⟩, ⟨⟨l2, q1, q2⟩, q3⟩⟩ := run_good fresh_good evs
  have hua := (alive_of evs fresh).1 h1 rfl
  have hda := (alive_of evs fresh).2 h2 rfl
  obtain ⟨hu, hv⟩ := served_of evs fresh h1 h2 rfl rfl rfl rfl
  have e1 := p2 hua
  have e2 := q2 hda
  subst e1; subst e2
  simp only [List.append_nil] at p1 q1
  have a1 : run fresh (evs ++ List.replicate 10 .toUpstream) = run (run fresh evs) (List.replicate 10 .toUpstream) := by
    simp [run, List.foldl_append]
  have a2 : run fresh (evs ++ List.replicate 10 .toVisitor) = run (run fresh evs) (List.replicate 10 .toVisitor) := by
    simp [run, List.foldl_append]
  rw [a1, a2, (pops_up 10 _ hu p3).1, (pops_down 10 _ hv q3).1]
  have p3' : (run fresh evs).up.queue.length ≤ 10 := p3
  have q3' : (run fresh evs).down.queue.length ≤ 10 := q3
  refine ⟨p1.symm, q1.symm, ?_, ?_⟩
  · rw [p1, List.length_append]; omega
  · rw [q1, List.length_append]; omega

/-- **C120** (end) When one connection has ended, the other one ends at its next message that is not a close. -/
theorem C120_ends (s : Sess) (hl : s.linked = true) (m : Msg) (hc : ∀ r, m ≠ .close r) :
    (step (step s .upstreamEnds) (.fromVisitor m)).visitor = false ∧
    (step (step s .visitorEnds) (.fromUpstream m)).upstream = false := by
  have hm : m.isClose = false := by
    cases m <;> first | rfl | exact absurd rfl (hc _)
  constructor
  · simp only [step, hl, Dir.push, hm]
    cases hv : s.visitor <;> simp [hv]
  · simp only [step, Dir.push, hm]
    cases hv : s.upstream <;> simp [hv]

/-! ### examples -/

section Examples

/-- addresses written as one number -/
def demoText : IpAddr → Text
  | .v4 a => '4' :: showNat a.toNat
  | .v6 a => '6' :: showNat a.toNat

def demoResolve : Text → Option (List IpAddr)
  | '4' :: t => (parseU 32 t).map fun n => [.v4 (BitVec.ofNat 32 n)]
  | '6' :: t => (parseU 128 t).map fun n => [.v6 (BitVec.ofNat 128 n)]
  | _ => none

/-- the host `app`, with or without port 80 -/
def demoUrl (p : Option (BitVec 16)) : Url := ⟨.https, some "app".toList, p, "/x".toList⟩

def demoExt : Ext where
  connectUrl u := match u.domain, u.port with
    | some d, some p => some (d, p)
    | _, _ => none
  ipText := demoText
  resolve := demoResolve
  parseUrl t := if t = "https://app:80/x".toList then some (demoUrl (some 80)) else none

theorem demo_lawful : demoExt.Lawful := by
  refine ⟨fun u d p h1 h2 => by simp only [demoExt, h1, h2], fun ip => ?_⟩
  cases ip with
  | v4 a =>
    show (parseU 32 (showNat a.toNat)).map (fun n => [IpAddr.v4 (BitVec.ofNat 32 n)]) = some [.v4 a]
    rw [parseU_showNat a.isLt, Option.map_some, BitVec.ofNat_toNat, BitVec.setWidth_eq]
  | v6 a =>
    show (parseU 128 (showNat a.toNat)).map (fun n => [IpAddr.v6 (BitVec.ofNat 128 n)]) = some [.v6 a]
    rw [parseU_showNat a.isLt, Option.map_some, BitVec.ofNat_toNat, BitVec.setWidth_eq]

def demoA : SockAddr := ⟨.v4 167772161, 8080⟩
def demoB : SockAddr := ⟨.v4 167772162, 8081⟩
def demoC : SockAddr := ⟨.v4 167772163, 8082⟩

/-- the inner `app` has two servers, the outer one another -/
def inner : Group := ⟨"app".toList, [Server.simple demoA, Server.simple demoB]⟩
def outerGroup : Group := ⟨"app".toList, [Server.simple demoC]⟩
def other : Group := ⟨"db".toList, [Server.simple demoC]⟩

def demoLoc : LocConf Unit Group where
  rule := ⟨some ['/'], none, none, none, none, none⟩
  fileServer := none
  headers := []
  upName := none
  root := none
  upstream := []
  comm := { Common.new with proxyUrl := some "https://app:80/x".toList }

def demoSrv : SrvConf Unit Group where
  upName := []
  root := none
  headers := []
  location := [demoLoc]
  upstream := [other, inner]
  comm := Common.new

def demoHttp : HttpConf Unit Group := ⟨[demoSrv], [outerGroup], Common.new⟩

/-- the hypotheses of `C117_group_partial` hold here: the name means the group of the server block -/
example : Named [demoLoc.upstream, demoSrv.upstream, demoHttp.upstream] "app".toList inner ∧ Usual inner ∧
    demoHttp.server[0]? = some demoSrv ∧ demoSrv.location[0]? = some demoLoc ∧
    demoExt.parseUrl "https://app:80/x".toList = some (demoUrl (some 80)) :=
  ⟨⟨[[]], [other, inner], [[outerGroup]], [other], [], rfl, rfl, rfl, by simp, by simp [other]⟩,
    ⟨by simp [inner, Server.simple, sec], by simp [inner, Server.simple], ⟨Server.simple demoA, by simp [inner], by simp [Server.simple]⟩⟩,
    rfl, rfl, by decide⟩

/-- the first server failed three times: requests go to the second one, on its port -/
example : dealRequest demoExt (pickAt true ((Check.global : Check SockAddr).run
      [.outcome demoA 0 false, .outcome demoA 0 false, .outcome demoA 0 false]) 5 (fun n => n / 2)) false false
      (some "https://app:80/x".toList) [other, inner, outerGroup] .http =
    .ok (.proxy ⟨demoText demoB.ip, 8081, some (demoText demoB.ip), (demoText demoB.ip, 8081)⟩) := by
  decide +kernel

/-- a stream block with the same groups: without a port in the URL the server's own, with one that of the URL -/
example : let pick := pickAt true (Check.global : Check SockAddr) 0 (fun n => n / 4)
    forward demoExt pick [] [] none (some (demoUrl none)) (streamGroups [other, inner] [outerGroup]) = .ok (.tcp demoA) ∧
    forward demoExt pick "tcp2wss".toList [] none (some (demoUrl (some 80))) (streamGroups [other, inner] [outerGroup]) =
      .ok (.tcpToWs ⟨.v4 167772161, 80⟩ true (some "app".toList)) ∧
    forward demoExt pick [] "db".toList none none (streamGroups [other, inner] [outerGroup]) = .ok (.tcp demoC) ∧
    udpAddr pick "app".toList (streamGroups [other, inner] [outerGroup]) none = .ok (some demoC) ∧
    upstreamAddr pick (streamGroups [other, inner] [outerGroup]) "app".toList = .ok (some demoA) := by
  decide +kernel

/-- a WebSocket session: three messages up, of which two are handed on, one down -/
example : wsStart (wsUrl demoExt (pickAt true (Check.global : Check SockAddr) 0 (fun n => n / 4)) [inner]
      (some (demoUrl none)) (fun _ => demoUrl none)) true = .ok (some fresh) ∧
    (run fresh [.fromVisitor (.text [1]), .fromVisitor (.ping [2]), .toUpstream, .fromUpstream (.pong [2]), .toUpstream,
      .fromVisitor (.close none), .toVisitor]).up.out = [.text [1], .ping [2]] ∧
    (run fresh [.fromVisitor (.text [1]), .fromVisitor (.ping [2]), .toUpstream, .fromUpstream (.pong [2]), .toUpstream,
      .fromVisitor (.close none), .toVisitor]).down.out = [.pong [2]] := by
  decide +kernel

/-- nobody is called `app`: the WebSocket is accepted and leads nowhere -/
example : Unknown [[other], [], []] "app".toList ∧
    ∃ s, wsStart (wsUrl demoExt (pickAt true (Check.global : Check SockAddr) 0 id) [other] (some (demoUrl none))
      (fun _ => demoUrl none)) true = .ok (some s) ∧ s.linked = false :=
  ⟨by simp [Unknown, other], ⟨false, Dir.empty false, Dir.empty false, true, false⟩, by decide +kernel, rfl⟩

end Examples

end Wm.Target
