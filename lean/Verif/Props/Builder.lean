import Verif.Model.Builder
import Mathlib.Data.List.Induction
/-! Properties C140 and C141: settings made by a program, and opening addresses. -/
namespace Wm.Builder
open Wm Wm.Config

/-! ### C140 -/

/-- the last of the calls that give this setting -/
def last {α : Type} (pick : Call → Option α) (cs : List Call) : Option α := (cs.filterMap pick).getLast?

theorem build_snoc (cs : List Call) (c : Call) : build (cs ++ [c]) = (build cs).call c := by
  unfold build; rw [List.foldl_append]; rfl

theorem last_snoc {α : Type} (pick : Call → Option α) (cs : List Call) (c : Call) :
    last pick (cs ++ [c]) = (pick c).or (last pick cs) := by
  unfold last
  rw [List.filterMap_append]
  cases h : pick c <;> simp [h]

theorem field {α : Type} (get : Proxy → α) (pick : Call → Option α)
    (step : ∀ p c, get (p.call c) = (pick c).getD (get p)) (cs : List Call) :
    get (build cs) = (last pick cs).getD (get .default) := by
  induction cs using List.reverseRecOn with
  | nil => rfl
  | append_singleton cs c ih =>
    rw [build_snoc, step, last_snoc, ih]
    cases pick c <;> rfl

/-- **C140** (settings) Every setting has the value of the last call that gives it, however many calls there are and in whatever order;
    a setting that no call gives has its default: listening at 127.0.0.1:8090, everything else off. -/
theorem C140_settings (cs : List Call) :
    (build cs).bind = some ((last (fun | .bind a => some a | _ => none) cs).getD ⟨.v4 0x7f000001, 8090⟩) ∧
    (build cs).center = last (fun | .center a => some a | _ => none) cs ∧
    (build cs).server = (last (fun | .server a => some a | _ => none) cs).getD none ∧
    (build cs).ts = (last (fun | .ts a => some a | _ => none) cs).getD false ∧
    (build cs).tc = (last (fun | .tc a => some a | _ => none) cs).getD false ∧
    (build cs).cert = (last (fun | .cert a => some a | _ => none) cs).getD none ∧
    (build cs).key = (last (fun | .key a => some a | _ => none) cs).getD none ∧
    (build cs).domain = (last (fun | .domain a => some a | _ => none) cs).getD none ∧
    (build cs).username = (last (fun | .username a => some a | _ => none) cs).getD none ∧
    (build cs).password = (last (fun | .password a => some a | _ => none) cs).getD none ∧
    (build cs).udpBind = (last (fun | .udpBind a => some a | _ => none) cs).getD none ∧
    (build cs).mapHttp = (last (fun | .mapHttp a => some a | _ => none) cs).getD none ∧
    (build cs).mapHttps = (last (fun | .mapHttps a => some a | _ => none) cs).getD none ∧
    (build cs).mapTcp = (last (fun | .mapTcp a => some a | _ => none) cs).getD none ∧
    (build cs).mapProxy = (last (fun | .mapProxy a => some a | _ => none) cs).getD none := by
  refine ⟨?_, ?_, ?_, ?_, ?_, ?_, ?_, ?_, ?_, ?_, ?_, ?_, ?_, ?_, ?_⟩
  · induction cs using List.reverseRecOn with
    | nil => rfl
    | append_singleton cs c ih => rw [build_snoc, last_snoc]; cases c <;> first | exact ih | rfl
  · induction cs using List.reverseRecOn with
    | nil => rfl
    | append_singleton cs c ih => rw [build_snoc, last_snoc]; cases c <;> first | exact ih | rfl
  all_goals exact field (fun p => _) _ (by intro p c; cases c <;> rfl) cs

/-- **C140** (mappings) The mappings are those given, all of them, in the order of the calls. -/
theorem C140_mappings (cs : List Call) : (build cs).mappings = cs.filterMap (fun | .mapping m => some m | _ => none) := by
  induction cs using List.reverseRecOn with
  | nil => rfl
  | append_singleton cs c ih =>
    rw [build_snoc, List.filterMap_append]
    cases c <;> simp [Proxy.call, ih]

/-- the protocols a call adds -/
def added : Call → Option Flag
  | .addFlag f => some f
  | _ => none

/-- **C140** (protocols) A call of `flag` sets the protocols, calls of `add_flag` add to them: a bit is on exactly if it is in the last
    `flag` — in HTTP, HTTPS and SOCKS5 if there is none — or in an `add_flag` after it. -/
theorem C140_protocols (before after : List Call) (f : Flag) (h : ∀ g, .flag g ∉ after) (i : Nat) :
    (build after).flag.getLsbD i = ((0x7 : Flag).getLsbD i || (after.filterMap added).any (·.getLsbD i)) ∧
    (build (before ++ .flag f :: after)).flag.getLsbD i = (f.getLsbD i || (after.filterMap added).any (·.getLsbD i)) := by
  have key : ∀ (p : Proxy),
      (after.foldl Proxy.call p).flag.getLsbD i = (p.flag.getLsbD i || (after.filterMap added).any (·.getLsbD i)) := by
    induction after with
    | nil => intro p; simp
    | cons c after ih =>
      intro p
      rw [List.foldl_cons, ih (fun g hg => h g (by simp [hg]))]
      cases c with
      | flag g => exact absurd (List.mem_cons_self ..) (h g)
      | addFlag g => simp [Proxy.call, added, Bool.or_assoc]
      | _ => rfl
  constructor
  · exact key _
  · unfold build
    rw [List.foldl_append, List.foldl_cons, key]
    rfl

/-- **C140** fails for datagrams: adding UDP turns on HTTPS and SOCKS5 as well, even after they were left out. -/
theorem C140_udp_fails (cs : List Call) :
    Flag.has (build (cs ++ [.addFlag Flag.udp])).flag Flag.https = true ∧
    Flag.has (build (cs ++ [.addFlag Flag.udp])).flag Flag.socks5 = true := by
  have h : ∀ f : BitVec 8, Flag.has (f ||| Flag.udp) Flag.https = true ∧ Flag.has (f ||| Flag.udp) Flag.socks5 = true := by
    decide +kernel
  rw [build_snoc]
  exact h _

/-- **C140** fails for five settings: no call gives the number of the server, the certificate and key of mappings, and the proof of
    identity with TLS; and listening cannot be turned off. -/
theorem C140_missing_fails (cs : List Call) :
    (build cs).serverId = 0 ∧ (build cs).mapCert = none ∧ (build cs).mapKey = none ∧ (build cs).twoWay = false ∧
    (build cs).bind ≠ none := by
  induction cs using List.reverseRecOn with
  | nil => exact ⟨rfl, rfl, rfl, rfl, by simp [build, Proxy.default]⟩
  | append_singleton cs c ih =>
    rw [build_snoc]
    obtain ⟨h1, h2, h3, h4, h5⟩ := ih
    cases c <;> exact ⟨h1, h2, h3, h4, by first | exact h5 | simp [Proxy.call]⟩

example : (build [.bind ⟨.v4 0, 1⟩, .flag Flag.tcp, .ts true, .addFlag Flag.udp, .bind ⟨.v4 0, 2⟩]).bind = some ⟨.v4 0, 2⟩ ∧
    (build [.bind ⟨.v4 0, 1⟩, .flag Flag.tcp, .ts true, .addFlag Flag.udp]).flag = 0x1e := by decide +kernel

/-! ### C141 -/

/-- the kind of socket an address needs -/
inductive Needs : SockAddr → Family → Prop
  | v4 (i : BitVec 32) (p : BitVec 16) : Needs ⟨.v4 i, p⟩ .v4
  | v6 (i : BitVec 128) (p : BitVec 16) : Needs ⟨.v6 i, p⟩ .v6

theorem needs_family {a : SockAddr} {k : Family} : Needs a k ↔ familyOf a = k := by
  obtain ⟨i, p⟩ := a
  cases i <;> cases k <;> refine ⟨fun h => ?_, fun h => ?_⟩ <;> first | exact .v4 .. | exact .v6 .. | (cases h; done) | (cases h; rfl)

/-- the address can be opened for connections, with a socket of its own kind -/
def Net.Opens (n : Net) (a : SockAddr) : Prop := ∃ k, Needs a k ∧ n.socket k = true ∧ n.bind k a = true ∧ n.listen a = true

theorem opens_iff {n : Net} {a : SockAddr} :
    n.Opens a ↔ n.socket (familyOf a) = true ∧ n.bind (familyOf a) a = true ∧ n.listen a = true := by
  constructor
  · rintro ⟨k, hk, h⟩; rw [needs_family.1 hk]; exact h
  · intro h; exact ⟨_, needs_family.2 rfl, h⟩

/-- **C141**, partial: an address that is listened on is one of those given and can be opened, and none before it could; one address
    that can be opened is. Missing: a list whose first address cannot be opened, see `C141_first_fails`. -/
theorem C141_opened_partial (n : Net) (as : List SockAddr) (a : SockAddr) :
    (bindTcp n as = some a → ∃ pre post, as = pre ++ a :: post ∧ n.Opens a ∧ ∀ b ∈ pre, ¬ n.Opens b) ∧
    (∀ post, as = a :: post → n.Opens a → bindTcp n as = some a) := by
  constructor
  · intro h
    induction as with
    | nil => simp [bindTcp] at h
    | cons b as ih =>
      rw [bindTcp] at h
      split at h
      · simp at h
      · split at h
        · simp at h
        · split at h
          · rename_i h1 h2 h3
            simp only [Option.some.injEq] at h
            subst h
            exact ⟨[], as, rfl, opens_iff.2 ⟨by simpa using h1, by simpa using h2, h3⟩, by simp⟩
          · rename_i h1 h2 h3
            obtain ⟨pre, post, e, h4, h5⟩ := ih h
            refine ⟨b :: pre, post, by rw [e]; rfl, h4, ?_⟩
            intro c hc
            rcases List.mem_cons.1 hc with rfl | hc
            · exact fun ho => h3 (opens_iff.1 ho).2.2
            · exact h5 c hc
  · rintro post rfl ho
    obtain ⟨h1, h2, h3⟩ := opens_iff.1 ho
    simp [bindTcp, h1, h2, h3]

/-- **C141** fails for a name with several addresses: if the first cannot be bound, the others are not tried. -/
theorem C141_first_fails (n : Net) (a : SockAddr) (as : List SockAddr) (k : Family) (hk : Needs a k) (h : n.bind k a = false) :
    bindTcp n (a :: as) = none := by
  rw [← needs_family.1 hk] at h
  simp [bindTcp, h]

/-- addresses of IPv4 can be opened but for port 1, those of IPv6 not -/
def exNet : Net := ⟨fun f => f = .v4, fun f a => f = familyOf a ∧ a.port ≠ 1, fun _ => true⟩

example : exNet.Opens ⟨.v4 0, 2⟩ ∧ bindTcp exNet [⟨.v4 0, 1⟩, ⟨.v4 0, 2⟩] = none ∧ bindTcp exNet [⟨.v4 0, 2⟩] = some ⟨.v4 0, 2⟩ ∧
    (∀ a, Needs a .v6 → exNet.bind .v4 a = false) ∧ bindUdp exNet [⟨.v4 0, 2⟩] = some ⟨.v4 0, 2⟩ := by
  refine ⟨⟨.v4, .v4 _ _, by decide +kernel⟩, by decide +kernel, by decide +kernel, ?_, by decide +kernel⟩
  intro a ha
  simp [exNet, needs_family.1 ha]

/-- **C141**, partial: for datagrams, the first address is opened, if it is one of IPv4 and can be opened. -/
theorem C141_udp_partial (n : Net) (a : SockAddr) (as : List SockAddr) (_h4 : Needs a .v4) :
    bindUdp n (a :: as) = some a ↔ n.socket .v4 = true ∧ n.bind .v4 a = true := by
  simp [bindUdp]

/-- **C141** fails for datagrams over IPv6: on a system that does not bind sockets for IPv4 to addresses of IPv6 — and none does — no
    such address is ever opened. -/
theorem C141_udp_v6_fails (n : Net) (hn : ∀ a, Needs a .v6 → n.bind .v4 a = false) (a : SockAddr) (ha : Needs a .v6)
    (as : List SockAddr) : bindUdp n (a :: as) = none := by
  simp [bindUdp, hn a ha]

end Wm.Builder
