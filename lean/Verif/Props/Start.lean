import Verif.Model.Start
import Verif.Props.Listen
import Mathlib.Tactic.Tauto
/-! What is in operation after the start of a service (C145). -/
namespace Wm.Listen
open Wm

/-! ## C145: the start

"After a start everything that is configured is in operation: every address of the configuration is listened on in its role and
the server above is connected to; if something of this is not possible, the start fails." -/

/-- the address configured for a role in the proxy section; the roles of HTTP and stream sections have lists of addresses of their
    own -/
def ProxyPart.address (p : ProxyPart) : Role → Option SockAddr
  | .proxy => p.bind
  | .center => p.center
  | .mapHttp => p.mapHttp
  | .mapHttps => p.mapHttps
  | .mapTcp => p.mapTcp
  | .mapProxy => p.mapProxy
  | _ => none

/-- the certificates for HTTPS visitors can be used -/
def ProxyPart.Usable (e : Env) (p : ProxyPart) : Prop := ∃ t, mapAccept e.rustls p.mapCert p.mapKey = .ok t

def asks (r : Role) (o : Option SockAddr) : Doors := o.toList.map (r, ·)

def Granted (e : Env) (ls : Doors) : Prop := ∀ x ∈ ls, ∃ o, e.grants o x.2 = true

theorem openOne_some {e r ls o ls'} (h : openOne e r ls o = some ls') (hg : Granted e ls) :
    ls' = ls ++ asks r o ∧ Granted e ls' := by
  cases o with
  | none => simp [openOne] at h; subst h; simp [asks, hg]
  | some a =>
    simp only [openOne] at h
    split at h
    · rename_i hc
      injection h with h
      subst h
      refine ⟨by simp [asks], ?_⟩
      intro x hx
      rcases List.mem_append.mp hx with hx | hx
      · exact hg x hx
      · rw [List.mem_singleton.mp hx]; exact ⟨_, hc⟩
    · cases h

/-- all that a start with a proxy section leads to -/
theorem startProxy_up {e : Env} {p : ProxyPart} {ls server} (h : startProxy e (some p) = .up ls server) :
    Granted e ls ∧
    (∃ hs, ls = asks .proxy p.bind ++ asks .center p.center ++ asks .mapHttp p.mapHttp ++ hs ++ asks .mapTcp p.mapTcp ++
        asks .mapProxy p.mapProxy ∧ (hs = asks .mapHttps p.mapHttps ∧ (p.mapHttps ≠ none → p.Usable e) ∨ hs = [] ∧ ¬ p.Usable e)) ∧
    ((p.bind ≠ none ∧ server = p.server ∧ ∀ s, server = some s → e.reaches s = true) ∨ (p.bind = none ∧ server = none)) := by
  simp only [startProxy] at h
  split at h <;> [skip; cases h]
  split at h
  · cases h
  · rename_i sv hsv
    split at h
    · cases h
    · rename_i l0 hl0
      split at h
      · rename_i l1 _ hl1
        injection h with h1 h2
        subst h1 h2
        -- the server
        have hserver : (p.bind ≠ none ∧ sv = p.server ∧ ∀ s, sv = some s → e.reaches s = true) ∨ (p.bind = none ∧ sv = none) := by
          unfold goUp at hsv
          split at hsv
          · rename_i hb
            left
            refine ⟨by rw [Option.isSome_iff_ne_none] at hb; exact hb, ?_⟩
            split at hsv
            · rename_i s hs
              split at hsv
              · injection hsv with hsv; subst hsv
                refine ⟨hs.symm, ?_⟩
                intro s' hs'; injection hs' with hs'; subst hs'; assumption
              · cases hsv
            · rename_i hs
              injection hsv with hsv; subst hsv
              exact ⟨hs.symm, by simp⟩
          · rename_i hb
            right
            injection hsv with hsv
            exact ⟨by simpa using hb, hsv.symm⟩
        -- the listeners
        unfold openProxy at hl0
        obtain ⟨a1, ha1, hl0⟩ := Option.bind_eq_some_iff.mp hl0
        obtain ⟨e1, g1⟩ := openOne_some ha1 (by intro x hx; cases hx)
        obtain ⟨e2, g2⟩ := openOne_some hl0 g1
        unfold openMaps at hl1
        split at hl1
        · cases hl1
        · rename_i a3 ha3
          obtain ⟨e3, g3⟩ := openOne_some ha3 g2
          split at hl1
          · rename_i a4 _ ha4
            split at hl1
            · cases hl1
            · rename_i a6 ha6
              injection hl1 with hl1 _
              subst hl1
              obtain ⟨a5, ha5, ha6⟩ := Option.bind_eq_some_iff.mp ha6
              -- https
              have h4 : Granted e a4 ∧ ∃ hs, a4 = a3 ++ hs ∧
                  (hs = asks .mapHttps p.mapHttps ∧ (p.mapHttps ≠ none → p.Usable e) ∨ hs = [] ∧ ¬ p.Usable e) := by
                unfold openHttps at ha4
                split at ha4
                · rename_i hn
                  injection ha4 with ha4 _
                  subst ha4
                  exact ⟨g3, [], by simp, .inl ⟨by simp [asks, hn], by simp [hn]⟩⟩
                · rename_i a hn
                  split at ha4
                  · cases ha4
                  · rename_i b hb
                    obtain ⟨e4, g4⟩ := openOne_some hb g3
                    split at ha4
                    · rename_i t ht
                      injection ha4 with ha4 _
                      subst ha4
                      exact ⟨g4, _, e4, .inl ⟨by rw [hn], fun _ => ⟨t, ht⟩⟩⟩
                    · rename_i er ht
                      injection ha4 with ha4 _
                      subst ha4
                      refine ⟨g3, [], by simp, .inr ⟨rfl, ?_⟩⟩
                      rintro ⟨t, ht'⟩; rw [ht] at ht'; cases ht'
                    · cases ha4
              obtain ⟨g4, hs, e4, hh⟩ := h4
              obtain ⟨e5, g5⟩ := openOne_some ha5 g4
              obtain ⟨e6, g6⟩ := openOne_some ha6 g5
              refine ⟨g6, ⟨hs, ?_, hh⟩, hserver⟩
              rw [e6, e5, e4, e3, e2, e1]
              simp
          · rename_i o ho
            exact absurd hl1 (ho _ _)
      · rename_i o ho
        exact absurd h (ho _ _)

theorem mem_asks {r : Role} {o : Option SockAddr} {x : Role × SockAddr} : x ∈ asks r o ↔ x.1 = r ∧ o = some x.2 := by
  obtain ⟨r', a⟩ := x
  cases o with
  | none => simp [asks]
  | some b => simp [asks]; tauto

theorem startAll_up {e : Env} {c : Conf} {ls server} (h : startAll e c = .up ls server) :
    ∃ l0 hs ss, startProxy e c.proxy = .up l0 server ∧
      bindHttp (fun o a => e.grants (l0.map (·.2) ++ o) a) (c.http.getD []) [] = some hs ∧
      streamBind (fun o a => e.grants ((l0 ++ hs.map fun l => (Role.http l.2, l.1)).map (·.2) ++ o) a) (c.stream.getD []) [] = some ss ∧
      ls = l0 ++ (hs.map fun l => (Role.http l.2, l.1)) ++ ss.map fun l => (Role.stream l.2.udp, l.1) := by
  simp only [startAll] at h
  split at h
  · rename_i l0 sv h0
    split at h
    · cases h
    · rename_i hs h1
      split at h
      · cases h
      · rename_i ss h2
        injection h with h3 h4
        subst h4
        exact ⟨l0, hs, ss, h0, h1, h2, h3.symm⟩
  · rename_i o ho
    exact absurd h (ho _ _)

/-- **C145** (proxy section): after a start the addresses of the proxy section are listened on, each in its role, and no others —
    but for the one for HTTPS visitors, for which see below. -/
theorem C145_proxy_listeners_partial (e : Env) (c : Conf) (p : ProxyPart) (hp : c.proxy = some p) (ls : Doors)
    (server : Option Text) (h : startAll e c = .up ls server) (r : Role) (hr : r ∈ [.proxy, .center, .mapHttp, .mapTcp, .mapProxy])
    (a : SockAddr) : (r, a) ∈ ls ↔ p.address r = some a := by
  obtain ⟨l0, hs, ss, h0, -, -, rfl⟩ := startAll_up h
  rw [hp] at h0
  obtain ⟨-, ⟨hh, rfl, hh2⟩, -⟩ := startProxy_up h0
  have hne : (r, a) ∉ hh := by
    rcases hh2 with ⟨rfl, -⟩ | ⟨rfl, -⟩
    · rw [mem_asks]; rintro ⟨h1, -⟩; simp only at h1; subst h1; simp at hr
    · simp
  simp only [List.mem_cons, List.not_mem_nil, or_false] at hr
  rcases hr with rfl | rfl | rfl | rfl | rfl <;> simp [mem_asks, hne, ProxyPart.address]

/-- **C145** (HTTPS visitors): they are listened for exactly if an address is configured for this and the certificates can be
    used. Missing: that the start fails otherwise, see `C145_https_fails`. -/
theorem C145_https_partial (e : Env) (c : Conf) (p : ProxyPart) (hp : c.proxy = some p) (ls : Doors)
    (server : Option Text) (h : startAll e c = .up ls server) (a : SockAddr) :
    (.mapHttps, a) ∈ ls ↔ p.mapHttps = some a ∧ p.Usable e := by
  obtain ⟨l0, hs, ss, h0, -, -, rfl⟩ := startAll_up h
  rw [hp] at h0
  obtain ⟨-, ⟨hh, rfl, hh2⟩, -⟩ := startProxy_up h0
  rcases hh2 with ⟨rfl, hu⟩ | ⟨rfl, hu⟩
  · simp only [List.mem_append, mem_asks, List.mem_map, Prod.mk.injEq, reduceCtorEq, false_and, false_or, or_false, true_and, and_false,
      exists_false]
    exact ⟨fun h => ⟨h, hu (by rw [h]; simp)⟩, fun h => h.1⟩
  · simp [mem_asks, hu]

theorem proxy_roles {e : Env} {o : Option ProxyPart} {ls server} (h : startProxy e o = .up ls server) :
    ∀ x ∈ ls, x.1 ∈ [.proxy, .center, .mapHttp, .mapHttps, .mapTcp, .mapProxy] := by
  cases o with
  | none =>
    simp only [startProxy] at h
    injection h with h _
    subst h
    intro x hx; cases hx
  | some p =>
    obtain ⟨-, ⟨hs, he, hh⟩, -⟩ := startProxy_up h
    intro x hx
    have hhs : ∀ y ∈ hs, y.1 = .mapHttps := by
      rcases hh with ⟨hh, -⟩ | ⟨hh, -⟩
      · rw [hh]; intro y hy; exact (mem_asks.1 hy).1
      · rw [hh]; intro y hy; cases hy
    rw [he] at hx
    simp only [List.mem_append, mem_asks] at hx
    have := hhs x
    simp only [List.mem_cons, List.not_mem_nil, or_false]
    tauto

/-- **C145** (HTTP and streams): each address of the HTTP section is listened on, with or without TLS, and each port of the stream
    section; with TLS only if so configured, likewise without, and with UDP or TCP as configured; and nothing else. (More on these: C107, C111.) -/
theorem C145_sections (e : Env) (c : Conf) (ls : Doors) (server : Option Text) (h : startAll e c = .up ls server) :
    (∀ bs, c.http = some bs → ∀ b ∈ bs, ∀ a, a ∈ b.plain ∨ a ∈ b.tls → ∃ t, (.http t, a) ∈ ls) ∧
    (∀ bs, c.stream = some bs → ∀ b ∈ bs, ∀ a ∈ b.addrs, ∃ u a', (.stream u, a') ∈ ls ∧ a'.port = a.port) ∧
    (∀ t a, (.http t, a) ∈ ls → ∃ bs, c.http = some bs ∧ ∃ b ∈ bs, a ∈ if t then b.tls else b.plain) ∧
    (∀ u a, (.stream u, a) ∈ ls → ∃ bs, c.stream = some bs ∧ ∃ b ∈ bs, a ∈ b.addrs ∧ b.udp = u) := by
  obtain ⟨l0, hs, ss, h0, h1, h2, rfl⟩ := startAll_up h
  refine ⟨?_, ?_, ?_, ?_⟩
  · intro bs hbs b hb a ha
    rw [hbs] at h1
    obtain ⟨x, hx, hxa⟩ := List.mem_map.mp (((C107_listeners _ bs hs h1).2.1 a).2 ⟨b, hb, ha⟩)
    refine ⟨x.2, ?_⟩
    simp only [List.mem_append, List.mem_map]
    exact .inl (.inr ⟨x, hx, by rw [hxa]⟩)
  · intro bs hbs b hb a ha
    rw [hbs] at h2
    obtain ⟨x, hx, hxp⟩ := C111_ports_partial _ bs ss h2 b hb a ha
    refine ⟨x.2.udp, x.1, ?_, hxp⟩
    simp only [List.mem_append, List.mem_map]
    exact .inr ⟨x, hx, rfl⟩
  · intro t a hm
    simp only [List.mem_append, List.mem_map] at hm
    rcases hm with (hm | ⟨x, hx, he⟩) | ⟨x, -, he⟩
    · have := proxy_roles h0 _ hm
      simp at this
    · injection he with e1 e2
      injection e1 with e1
      subst e1 e2
      obtain ⟨pre, post, hm, -⟩ := (C107_kind_exact _ _ hs h1 x.1 x.2).1 hx
      obtain ⟨b, hb, hab⟩ := mem_mentions.1 (show (x.1, x.2) ∈ mentions (c.http.getD []) by rw [hm]; simp)
      cases hc : c.http with
      | none => rw [hc] at hb; cases hb
      | some bs =>
        rw [hc] at hb
        exact ⟨bs, rfl, b, hb, hab⟩
    · injection he with e1 _; cases e1
  · intro u a hm
    simp only [List.mem_append, List.mem_map] at hm
    rcases hm with (hm | ⟨x, hx, he⟩) | ⟨x, hx, he⟩
    · have := proxy_roles h0 _ hm
      simp at this
    · injection he with e1 _; cases e1
    · injection he with e1 e2
      injection e1 with e1
      subst e1 e2
      obtain ⟨hb, ha, -⟩ := C111_own_block _ _ ss h2 x.1 x.2 hx
      cases hc : c.stream with
      | none => rw [hc] at hb; cases hb
      | some bs =>
        rw [hc] at hb
        exact ⟨bs, rfl, x.2, hb, ha, rfl⟩

/-- **C145**: what the start says is open is open: if an address of the proxy section (other than for HTTPS visitors) cannot be
    opened, the start fails. -/
theorem C145_refused (e : Env) (c : Conf) (p : ProxyPart) (hp : c.proxy = some p) (r : Role)
    (hr : r ∈ [.proxy, .center, .mapHttp, .mapTcp, .mapProxy]) (a : SockAddr) (ha : p.address r = some a)
    (hg : ∀ o, e.grants o a = false) (ls : Doors) (server : Option Text) : startAll e c ≠ .up ls server := by
  intro h
  have hm := (C145_proxy_listeners_partial e c p hp ls server h r hr a).2 ha
  obtain ⟨l0, hs, ss, h0, -, -, rfl⟩ := startAll_up h
  rw [hp] at h0
  obtain ⟨hgr, -, -⟩ := startProxy_up h0
  have : (r, a) ∈ l0 := by
    simp only [List.mem_append, List.mem_map] at hm
    rcases hm with (hm | ⟨x, -, hx⟩) | ⟨x, -, hx⟩
    · exact hm
    · injection hx with hx _; subst hx; simp at hr
    · injection hx with hx _; subst hx; simp at hr
  obtain ⟨o, ho⟩ := hgr _ this
  rw [hg o] at ho; cases ho

/-- **C145**, partial: if there is an address for the proxy, then after a start the tunnel to the configured server is there.
    Missing: without one, see `C145_no_bind_fails`. -/
theorem C145_tunnel_partial (e : Env) (c : Conf) (p : ProxyPart) (hp : c.proxy = some p) (hb : p.bind ≠ none) (ls : Doors)
    (server : Option Text) (h : startAll e c = .up ls server) :
    server = p.server ∧ ∀ s, p.server = some s → e.reaches s = true := by
  obtain ⟨l0, hs, ss, h0, -, -, -⟩ := startAll_up h
  rw [hp] at h0
  obtain ⟨-, -, ⟨-, h1, h2⟩ | ⟨h1, -⟩⟩ := startProxy_up h0
  · subst h1; exact ⟨rfl, h2⟩
  · exact absurd h1 hb

/-- **C145** fails without an address for the proxy: whatever server and mappings are configured, the service starts and has no
    tunnel, so that no mapping is offered. -/
theorem C145_no_bind_fails (e : Env) (c : Conf) (p : ProxyPart) (hp : c.proxy = some p) (hb : p.bind = none) :
    (∀ ls server, startAll e c = .up ls server → server = none) ∧
    startAll e { c with proxy := some { p with server := none } } = startAll e c := by
  refine ⟨?_, ?_⟩
  · intro ls server h
    obtain ⟨l0, hs, ss, h0, -, -, -⟩ := startAll_up h
    rw [hp] at h0
    obtain ⟨-, -, ⟨h1, -, -⟩ | ⟨-, h1⟩⟩ := startProxy_up h0
    · exact absurd hb h1
    · exact h1
  · have : startProxy e (some { p with server := none }) = startProxy e c.proxy := by
      rw [hp]
      simp only [startProxy, goUp, hb, openProxy]
      rfl
    simp only [startAll, this]

/-- **C145** fails for HTTPS visitors: with certificates that cannot be used the service starts as if no address had been
    configured for them, provided that it can be opened. -/
theorem C145_https_fails (e : Env) (c : Conf) (p : ProxyPart) (hp : c.proxy = some p) (hg : ∀ o a, e.grants o a = true)
    (hu : ∃ er, mapAccept e.rustls p.mapCert p.mapKey = .err er) :
    startAll e c = startAll e { c with proxy := some { p with mapHttps := none } } := by
  obtain ⟨er, hu⟩ := hu
  have h1 : ∀ r ls o, openOne e r ls o = some (ls ++ asks r o) := by
    intro r ls o; cases o <;> simp [openOne, asks, hg]
  have h2 : ∀ ls, openHttps e p ls = .up ls none := by
    intro ls
    unfold openHttps
    split
    · rfl
    · simp [h1, hu]
  have h3 : ∀ ls, openHttps e { p with mapHttps := none } ls = .up ls none := by intro ls; rfl
  have h4 : ∀ ls, openMaps e p ls = openMaps e { p with mapHttps := none } ls := by
    intro ls
    simp only [openMaps, h1, h2, h3]
  have : startProxy e c.proxy = startProxy e (some { p with mapHttps := none }) := by
    rw [hp]
    simp only [startProxy, h4]
    rfl
  simp only [startAll, this]

theorem tls_settled (e : Env) (t : TunnelTls) (ht : t.twoWay = false) :
    (∃ w, acceptedOver e.rustls t = some w) ∧ ∃ v, connectedOver e.rustls t = some v := by
  have hcp : loadCerts e.rustls t.cert ≠ .panic := by unfold loadCerts; split <;> simp
  have hkp : loadKeys e.rustls t.key ≠ .panic := by unfold loadKeys; split <;> (try split) <;> simp
  have ho : ∀ (α : Type) (x : Res α), x ≠ .panic → ∃ w, orClear x = some w := by
    intro α x hx; cases x <;> simp_all [orClear]
  refine ⟨ho _ _ ?_, ho _ _ ?_⟩
  · unfold tlsAccept
    rw [ht]
    repeat' split
    all_goals simp_all
  · unfold tlsRequest
    rw [ht]
    repeat' split
    all_goals simp_all

/-- **C145** fails when the server above cannot be reached at the time of the start: the process exits, with all that it is doing
    (other services too, see C56); it is not tried again, as it is when the connection is lost later (C95). -/
theorem C145_exit_fails (e : Env) (c : Conf) (p : ProxyPart) (hp : c.proxy = some p) (hb : p.bind ≠ none) (s : Text)
    (hs : p.server = some s) (hr : e.reaches s = false) (h2 : p.tls.twoWay = false) : startAll e c = .exit := by
  obtain ⟨⟨w, hw⟩, v, hv⟩ := tls_settled e p.tls h2
  have hu : goUp e p = none := by
    unfold goUp
    rw [if_pos (by rw [Option.isSome_iff_ne_none]; exact hb), hs]
    simp [hr]
  simp [startAll, startProxy, hp, hw, hv, hu]

/-- **C145** fails to tell apart two roles with the same address, where the operating system opens an address more than once (as
    the program asks for): the start does not fail, and a connection to the address gets to either of the two. -/
theorem C145_same_address_fails (e : Env) (hg : ∀ o a, e.grants o a = true) (a : SockAddr) (t : TunnelTls)
    (ht : t.twoWay = false) :
    startAll e ⟨some ⟨some a, some a, none, some a, none, none, none, none, none, t⟩, none, none⟩ =
      .up [(.proxy, a), (.center, a), (.mapHttp, a)] none := by
  obtain ⟨⟨w, hw⟩, v, hv⟩ := tls_settled e t ht
  simp [startAll, startProxy, hw, hv, goUp, openProxy, openMaps, openHttps, openOne, hg, bindHttp, streamBind]

/-! Cases that meet the hypotheses. -/

private def a1 : SockAddr := ⟨.v4 (BitVec.ofNat 32 0), BitVec.ofNat 16 8090⟩
private def a2 : SockAddr := ⟨.v4 (BitVec.ofNat 32 0), BitVec.ofNat 16 8091⟩
private def net : Env := ⟨fun _ _ => true, fun s => s == "up:85".toList, ⟨[1], 2, fun _ => true, fun _ => true, fun _ _ => true⟩⟩
private def part : ProxyPart :=
  ⟨some a1, none, some "up:85".toList, none, some a2, none, none, none, none, ⟨false, false, false, none, none⟩⟩
private def conf : Conf := ⟨some part, some [⟨[a1], [], .absent, none, ⟨[], []⟩⟩], none⟩

example : startAll net conf = .up [(.proxy, a1), (.mapHttps, a2), (.http false, a1)] (some "up:85".toList) := by decide +kernel
example : startAll net { conf with proxy := some { part with server := some "other:85".toList } } = .exit := by decide +kernel
example : startAll net { conf with proxy := some { part with bind := none } } = .up [(.mapHttps, a2), (.http false, a1)] none := by
  decide +kernel
example : startAll net { conf with proxy := some { part with mapCert := some none } } =
    .up [(.proxy, a1), (.http false, a1)] (some "up:85".toList) := by decide +kernel
example : startAll { net with grants := fun o a => a ∉ o } conf = .failed := by decide +kernel

end Wm.Listen
