import Verif.Props.Assoc
/-!
Properties C178, C179: the addresses of UDP associations of the SOCKS5 proxy (src/proxy/socks5.rs:350-503).
-/
namespace Wm.Socks.Assoc
open Wm Wm.Socks

/-- The number that bytes denote, the first byte being the most significant. -/
def number (bs : Bytes) : Nat := bs.foldl (fun n b => n * 256 + b.toNat) 0

/-- The reply that announces the address `a` (RFC 1928, section 6): version 5, success, a reserved byte, the kind of the address, the
    address, the port. -/
def Announces (bs : Bytes) (a : SockAddr) : Prop :=
  ∃ ip port, port.length = 2 ∧ number port = a.port.toNat ∧
    match a.ip with
    | .v4 x => bs = [5, 0, 0, 1] ++ ip ++ port ∧ ip.length = 4 ∧ number ip = x.toNat
    | .v6 x => bs = [5, 0, 0, 4] ++ ip ++ port ∧ ip.length = 16 ∧ number ip = x.toNat

/-- A datagram for `a` comes to a socket bound to `b` (if it comes to this host at all): the ports agree, and so do the
    addresses, unless the socket is bound to all IPv4 addresses. -/
def ComesTo (a b : SockAddr) : Prop := a.port = b.port ∧ (a.ip = b.ip ∨ b.ip = .v4 0 ∧ ∃ x, a.ip = .v4 x)

theorem number_port (p : BitVec 16) : number (putU16 p.toNat) = p.toNat := by
  have := p.isLt
  simp only [number, putU16, byteAt, List.foldl_cons, List.foldl_nil, UInt8.toNat_ofNat', Nat.reducePow]
  omega

theorem number_v4 (x : BitVec 32) : number (putU32 x.toNat) = x.toNat := by
  have := x.isLt
  simp only [number, putU32, byteAt, List.foldl_cons, List.foldl_nil, UInt8.toNat_ofNat', Nat.reducePow]
  omega

theorem number_u16 (n : Nat) (k : Nat) (h : n < 65536) : (putU16 n).foldl (fun n b => n * 256 + b.toNat) k = k * 65536 + n := by
  simp only [putU16, byteAt, List.foldl_cons, List.foldl_nil, UInt8.toNat_ofNat', Nat.reducePow]
  omega

theorem told_announces (ip : IpAddr) (port : BitVec 16) : Announces (told ip port) ⟨ip, port⟩ := by
  cases ip with
  | v4 x => exact ⟨putU32 x.toNat, putU16 port.toNat, rfl, number_port port, rfl, rfl, number_v4 x⟩
  | v6 x =>
    refine ⟨putU16 (seg x 7) ++ putU16 (seg x 6) ++ putU16 (seg x 5) ++ putU16 (seg x 4)
      ++ putU16 (seg x 3) ++ putU16 (seg x 2) ++ putU16 (seg x 1) ++ putU16 (seg x 0), putU16 port.toNat, rfl, number_port port,
      rfl, rfl, ?_⟩
    have hs : ∀ k, seg x k < 65536 := fun k => Nat.mod_lt _ (by decide)
    unfold number
    simp only [List.foldl_append, number_u16 _ _ (hs _)]
    have := x.isLt
    simp only [seg, Nat.reducePow, Nat.pow_zero, Nat.div_one] at *
    omega

theorem serve_udp {c : Cfg} {net : Net} {w : Bytes} {s : Src} (h : (serve c net w s).fin = .udp) : c.bindIp ≠ none := by
  intro hn
  unfold serve at h
  split at h
  · cases h
  · cases h
  · repeat' split at h
    all_goals cases h
    rename_i hb
    rw [hn] at hb
    exact hb rfl

theorem process_udp {c : Cfg} {net : Net} {s : Src} (h : (process c net s).fin = .udp) : c.bindIp ≠ none := by
  unfold process at h
  split at h
  · cases h
  · cases h
  · cases h
  · dsimp only at h
    split at h
    · cases h
    · split at h
      · split at h
        · cases h
        · cases h
        · cases h
        · exact serve_udp h
      · exact serve_udp h

/-- **C178**, partial: if the address set for UDP is one of IPv4, a client that has got an association is told exactly this
    address with the port of the association's socket, and datagrams sent there come to this socket.
    Missing: addresses of IPv6, see the next theorem. -/
theorem C178_told_partial (c : Cfg) (net : Net) (s : Src) (h : (process c net s).fin = .udp) (port : BitVec 16) :
    ∃ ip bs, c.bindIp = some ip ∧ reply c port = some bs ∧ Announces bs ⟨ip, port⟩ ∧
      ∀ x, ip = .v4 x → ComesTo ⟨ip, port⟩ (bound port) := by
  obtain ⟨ip, hip⟩ := Option.ne_none_iff_exists'.1 (process_udp h)
  refine ⟨ip, told ip port, hip, by rw [reply, hip]; rfl, told_announces ip port, ?_⟩
  intro x hx
  exact ⟨rfl, .inr ⟨rfl, x, hx⟩⟩

/-- **C178** is false: if the address set for UDP is one of IPv6, the client is told this address, but the socket of the
    association is bound to IPv4, and no datagram sent to the address told comes to it. -/
theorem C178_v6_fails (c : Cfg) (x : BitVec 128) (hc : c.bindIp = some (.v6 x)) (port : BitVec 16) :
    ∃ bs, reply c port = some bs ∧ Announces bs ⟨.v6 x, port⟩ ∧ ¬ ComesTo ⟨.v6 x, port⟩ (bound port) := by
  refine ⟨told (.v6 x) port, by rw [reply, hc]; rfl, told_announces _ port, ?_⟩
  rintro ⟨-, h | ⟨-, y, h⟩⟩ <;> cases h

/-- a client that asks for an association without credentials, and what it is told -/
example : (process ⟨none, none, some (.v4 0x7F000001)⟩ noNames ⟨[5, 1, 0, 5, 3, 0, 1, 0, 0, 0, 0, 0, 0], []⟩).fin = .udp ∧
    reply ⟨none, none, some (.v4 0x7F000001)⟩ 5000 = some [5, 0, 0, 1, 127, 0, 0, 1, 19, 136] := by decide

/-- the same with an address of IPv6 -/
example : (process ⟨none, none, some (.v6 1)⟩ noNames ⟨[5, 1, 0, 5, 3, 0, 1, 0, 0, 0, 0, 0, 0], []⟩).fin = .udp ∧
    reply ⟨none, none, some (.v6 1)⟩ 5000 = some [5, 0, 0, 4, 0, 0, 0, 0, 0, 0, 0, 0, 0, 0, 0, 0, 0, 0, 0, 1, 19, 136] := by decide

/-- What the operating system sends: a socket of IPv4 can send to addresses of IPv4 only. -/
def V4Only (sends : SockAddr → Bytes → Bool) : Prop := ∀ a d, (∃ x, a.ip = .v6 x) → sends a d = false

/-- **C179** is false: one datagram that asks to send something to an address of IPv6 ends the association: nothing is sent for it,
    and nothing for later datagrams. -/
theorem C179_v6_fails (net : Net) (s : St) (hal : s.alive = true) (hrq : s.req = true) (c a : SockAddr) (d data : Bytes)
    (ha : Asks net d a data) (x : BitVec 128) (hx : a.ip = .v6 x) (q : List (SockAddr × Bytes)) (hq : s.queue = (c, d) :: q)
    (sends : SockAddr → Bytes → Bool) (hos : V4Only sends) (connects : Bool) (es : List Event) :
    let s' := run net s (.request connects (sends a data) :: es)
    s'.alive = false ∧ s'.forwarded = s.forwarded ∧ s'.returned = s.returned := by
  have hb : sends a data = false := hos a data ⟨x, hx⟩
  intro s'
  have hstep : ∃ t : St, step net s (.request connects (sends a data)) = fail t ∧ t.forwarded = s.forwarded ∧ t.returned = s.returned := by
    simp only [step]
    rw [if_pos ⟨hal, hrq⟩, hq, hb]
    rcases request_cases net c d connects false { s with queue := q } with ⟨p, e⟩ | ⟨hc, e⟩ | ⟨_, _, _, h, _⟩
    · exact ⟨_, e, rfl, rfl⟩
    · exfalso
      simp only [request, hc, asks_parse.1 ha, Bool.true_eq_false, if_false] at e
      have := congrArg St.failed e
      have hf : s.failed = false := by
        simp only [St.alive, Bool.and_eq_true, Bool.not_eq_true'] at hal; exact hal.1
      simp [fail, hf] at this
    · cases h
  obtain ⟨t, h1, h2, h3⟩ := hstep
  have : s' = fail t := by
    show run net s _ = _
    rw [run_cons, h1, dead_run net es _ (fail_dead t)]
  rw [this]
  exact ⟨rfl, h2, h3⟩

/-- **C179**, partial: a datagram for any address that the operating system sends to is sent on as it is, and the association
    stays. Missing: addresses of IPv6, see the theorem before. -/
theorem C179_sent_partial (net : Net) (s : St) (hal : s.alive = true) (hrq : s.req = true) (c a : SockAddr) (d data : Bytes)
    (ha : Asks net d a data) (q : List (SockAddr × Bytes)) (hq : s.queue = (c, d) :: q)
    (sends : SockAddr → Bytes → Bool) (hos : sends a data = true) :
    let s' := run net s [.request true (sends a data)]
    s'.alive = true ∧ s'.req = true ∧ s'.forwarded = s.forwarded ++ [(c, a, data)] ∧ s'.queue = q := by
  intro s'
  have h : s' = { s with queue := q, peer := some c, forwarded := s.forwarded ++ [(c, a, data)] } := by
    show run net s _ = _
    rw [run_cons, run_nil]
    simp only [step]
    rw [if_pos ⟨hal, hrq⟩, hq, hos]
    simp only [request, asks_parse.1 ha, Bool.true_eq_false, if_false, ne_eq, not_true_eq_false, if_true]
  rw [h]
  exact ⟨hal, hrq, rfl, rfl⟩

/-- a datagram that asks to send `7` to port 53 of the address `::1` -/
def ask6 : Bytes := [0, 0, 0, 4, 0, 0, 0, 0, 0, 0, 0, 0, 0, 0, 0, 0, 0, 0, 0, 1, 0, 53, 7]

example : Asks noNames ask6 ⟨.v6 1, 53⟩ [7] ∧ V4Only (fun a _ => (a.ip matches .v4 _)) ∧
    (let s := run noNames init [.arrive client ask6, .arrive client ask];
      s.alive = true ∧ s.req = true ∧ s.queue = (client, ask6) :: [(client, ask)]) := by
  refine ⟨⟨0, 0, encodeAddr ⟨.v6 1, 53⟩, by decide, .inl rfl⟩, ?_, by decide⟩
  rintro ⟨_, p⟩ d ⟨x, rfl⟩; rfl

end Wm.Socks.Assoc
