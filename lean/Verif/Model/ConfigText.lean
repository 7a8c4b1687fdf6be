import Verif.Model.Text
/-! Textual settings: quoted words, header rules, address lists, listen addresses, protocol flags.
src/helper.rs:249-259, src/config/header.rs, ip_sets.rs, wrap.rs, src/flag.rs. -/
namespace Wm.Config
open Wm

/-! ### quoted words -/

/-- a character of the class `[^\s'"]` -/
def isPlain (c : Char) : Bool := !isWs c && c ≠ '\'' && c ≠ '"'

theorem dropWhile_le (f : Char → Bool) (s : Text) : (s.dropWhile f).length ≤ s.length := by
  induction s with
  | nil => simp
  | cons c s ih => rw [List.dropWhile_cons]; split <;> simp <;> omega

/-- a quote that is closed later in the text -/
def closes (c : Char) (r : Text) : Bool := (c = '"' || c = '\'') && r.contains c

/-- what follows the closing quote -/
def afterQuote (c : Char) (r : Text) : Text := (r.dropWhile (fun x => x ≠ c)).drop 1

theorem afterQuote_le (c : Char) (r : Text) : (afterQuote c r).length ≤ r.length := by
  have := dropWhile_le (fun x => x ≠ c) r
  simp only [afterQuote, List.length_drop]; omega

/-- src/helper.rs:249-259: the captures of the regular expression `([^\s'"]+)|"([^"]*)"|'([^']*)'` from left to right.
    At each place the first alternative that matches is taken; where none does (whitespace, an unclosed quote) the
    search goes on at the next character. `extract` gives the one group that took part in the match. The first
    argument bounds the number of turns. -/
def splitTurns : Nat → Text → List Text
  | 0, _ => []
  | _ + 1, [] => []
  | n + 1, c :: r =>
    if isPlain c then (c :: r.takeWhile isPlain) :: splitTurns n (r.dropWhile isPlain)
    else if closes c r then r.takeWhile (fun x => x ≠ c) :: splitTurns n (afterQuote c r)
    else splitTurns n r

/-- src/helper.rs:249-259; every turn uses up at least one character, so the length of the text is enough turns
    (`splitQuoted_cons`) -/
def splitQuoted (s : Text) : List Text := splitTurns s.length s

theorem splitTurns_enough (n : Nat) (s : Text) (h : s.length ≤ n) : splitTurns n s = splitTurns s.length s := by
  induction n using Nat.strongRecOn generalizing s with
  | _ n ih =>
    cases s with
    | nil => cases n <;> rfl
    | cons c r =>
      cases n with
      | zero => simp at h
      | succ n =>
        simp only [List.length_cons] at h ⊢
        have h1 := dropWhile_le isPlain r
        have h2 := afterQuote_le c r
        have key : ∀ x : Text, x.length ≤ r.length → splitTurns n x = splitTurns r.length x := by
          intro x hx
          rw [ih n (by omega) x (by omega)]
          by_cases hn : r.length < n + 1
          · rw [ih r.length (by omega) x hx]
          · omega
        simp only [splitTurns]
        rw [key _ h1, key _ h2, key r (Nat.le_refl _)]

theorem splitQuoted_cons (c : Char) (r : Text) : splitQuoted (c :: r) =
    if isPlain c then (c :: r.takeWhile isPlain) :: splitQuoted (r.dropWhile isPlain)
    else if closes c r then r.takeWhile (fun x => x ≠ c) :: splitQuoted (afterQuote c r)
    else splitQuoted r := by
  have h1 := dropWhile_le isPlain r
  have h2 := afterQuote_le c r
  unfold splitQuoted
  rw [List.length_cons, splitTurns, splitTurns_enough _ _ h1, splitTurns_enough _ _ h2]

/-! ### header rules -/

/-- src/config/header.rs:17-23 -/
inductive HeaderOper where
  | add | del | default | replace
deriving DecidableEq, Repr

/-- src/config/header.rs:71-77 -/
structure HeaderRule where
  oper : HeaderOper
  isProxy : Bool
  key : Text
  val : Text
deriving DecidableEq, Repr

/-- src/config/header.rs:45-54 -/
def showOper : HeaderOper → Text
  | .add => ['+']
  | .del => ['-']
  | .replace => []
  | .default => ['?']

/-- src/config/header.rs:56-68 -/
def parseOper (s : Text) : HeaderOper :=
  if s = ['+'] then .add else if s = ['-'] then .del else if s = ['?'] then .default else .replace

/-- the word `proxy` -/
def proxyWord : Text := ['p', 'r', 'o', 'x', 'y']

/-- src/config/header.rs:99-127: the rule given by the words of the text. `vals[0]` panics on no words. -/
def ruleOfWords (ws : List Text) : Res HeaderRule :=
  match ws with
  | [] => .panic
  | [a, b, c, d] => if a = proxyWord then .ok ⟨parseOper b, true, c, d⟩ else .err .invalid
  | [a, b, c] => if a = proxyWord then .ok ⟨.replace, true, b, c⟩ else .ok ⟨parseOper a, false, b, c⟩
  | [a, b] => if a = ['-'] then .ok ⟨parseOper a, false, b, []⟩ else .ok ⟨.replace, false, a, b⟩
  | _ => .err .invalid

/-- src/config/header.rs:90-129 -/
def parseRule (s : Text) : Res HeaderRule :=
  if s = [] then .err .invalid else ruleOfWords (splitQuoted s)

/-- src/config/header.rs:131-145 -/
def showRule (h : HeaderRule) : Text :=
  match h.isProxy, h.oper with
  | true, .default => proxyWord ++ ' ' :: h.key ++ ' ' :: h.val
  | true, o => proxyWord ++ ' ' :: showOper o ++ ' ' :: h.key ++ ' ' :: h.val
  | false, .default => h.key ++ ' ' :: h.val
  | false, o => showOper o ++ ' ' :: h.key ++ ' ' :: h.val

/-! ### address lists -/

/-- `IpAddr`: the octets as a big-endian number -/
inductive Ip where
  | v4 (a : BitVec 32)
  | v6 (a : BitVec 128)
deriving DecidableEq, Repr

/-- `IpAddr::is_ipv4` -/
def Ip.isV4 : Ip → Bool
  | .v4 _ => true
  | .v6 _ => false

/-- External: `IpAddr::from_str` and `Display` of the standard library. Assumed: printing and parsing is the identity, and
    a printed address is not empty and contains neither `/` nor whitespace. -/
structure IpText where
  parse : Text → Option Ip
  render : Ip → Text
  parse_render : ∀ ip, parse (render ip) = some ip
  render_ne : ∀ ip, render ip ≠ []
  render_plain : ∀ ip, ∀ c ∈ render ip, c ≠ '/' ∧ isWs c = false

/-- src/config/ip_sets.rs:17-20 -/
structure IpGate where
  ip : Ip
  gate : Nat
deriving DecidableEq, Repr

/-- src/config/ip_sets.rs:23-38. For an IPv4 entry with `gate > 32` the subtraction overflows; the parser does not
    produce such entries and they are not modelled (the subtraction is cut off at 0). -/
def IpGate.contains (g : IpGate) (ip : Ip) : Bool :=
  if g.gate = 0 then decide (ip = g.ip)
  else match ip, g.ip with
    | .v4 other, .v4 my => decide (other >>> (32 - g.gate) = my >>> (32 - g.gate))
    | _, _ => decide (ip = g.ip)

/-- src/config/ip_sets.rs:44-59; `vals[0]` exists because `split` gives at least one piece -/
def parseGate (t : IpText) (s : Text) : Res IpGate :=
  match splitOn (fun c => c = '/') s with
  | [] => .panic
  | a :: more =>
    match t.parse a with
    | none => .err .invalid
    | some ip =>
      match more with
      | [] => .ok ⟨ip, 0⟩
      | b :: _ =>
        match parseU 8 b with
        | none => .err .invalid
        | some gate =>
          if ip.isV4 ∧ gate > 32 then .err .invalid
          else if ¬ ip.isV4 ∧ gate > 128 then .err .invalid
          else .ok ⟨ip, gate⟩

/-- src/config/ip_sets.rs:62-70 -/
def showGate (t : IpText) (g : IpGate) : Text :=
  if g.gate > 0 then t.render g.ip ++ '/' :: showNat g.gate else t.render g.ip

/-- src/config/ip_sets.rs:80-87 -/
def containsAny : List IpGate → Ip → Bool
  | [], _ => false
  | v :: vs, ip => if v.contains ip then true else containsAny vs ip

/-- src/config/ip_sets.rs:94-101 (the loop over the words) -/
def parseGates (t : IpText) : List Text → Res (List IpGate)
  | [] => .ok []
  | w :: ws => do
    let g ← parseGate t w
    let gs ← parseGates t ws
    return g :: gs

/-- src/config/ip_sets.rs:91-102 -/
def parseSets (t : IpText) (s : Text) : Res (List IpGate) := parseGates t (splitWs s)

/-- src/config/ip_sets.rs:104-112 -/
def showSets (t : IpText) (gs : List IpGate) : Text := gs.flatMap fun g => showGate t g ++ [' ']

/-! ### listen addresses -/

/-- `SocketAddr` -/
structure Sock where
  ip : Ip
  port : Nat
deriving DecidableEq, Repr

/-- External: `SocketAddr::from_str`, and the addresses of this host (crate `local_ip_address`). -/
structure NetEnv where
  parseSock : Text → Option Sock
  localV4 : Option Ip
  localV6 : Option Ip

/-- 127.0.0.1 -/
def loopback : Ip := .v4 0x7F000001#32

/-- the addresses meant by a text starting with ':' (src/config/wrap.rs:23-30) -/
def NetEnv.ownIps (n : NetEnv) : List Ip := n.localV4.toList ++ n.localV6.toList ++ [loopback]

/-- src/config/wrap.rs:19-39 -/
def parseAddr (n : NetEnv) (s : Text) : Res (List Sock) :=
  if s.head? = some ':' then
    match parseU 16 (trimStart (fun c => c = ':') s) with
    | some p => .ok (n.ownIps.map fun ip => ⟨ip, p⟩)
    | none => (orInvalid (n.parseSock ("127.0.0.1".toList ++ s))) >>= fun a => .ok [a]
  else orInvalid (n.parseSock s) >>= fun a => .ok [a]

/-- the pieces between separators, without empty ones: `.split(..).filter(|s| !s.is_empty())` -/
def pieces (f : Char → Bool) (s : Text) : List Text := (splitOn f s).filter (fun p => p ≠ [])

/-- `a..=b` -/
def portRange (a b : Nat) : List Nat := (List.range (b + 1 - a)).map (a + ·)

/-- src/config/wrap.rs:106-108 -/
def parseAddrs (n : NetEnv) : List Text → Res (List Sock)
  | [] => .ok []
  | s :: ss => do
    let a ← parseAddr n s
    let as ← parseAddrs n ss
    return a ++ as

/-- src/config/wrap.rs:88-99: `start[0]` always exists, `end[1]` may not -/
def expandRange (start end_ : List Sock) : Res (List Sock) :=
  match start, end_ with
  | s0 :: _, _ :: e1 :: _ => .ok ((portRange s0.port e1.port).flatMap fun p => start.map fun a => { a with port := p })
  | _, _ => .panic

/-- src/config/wrap.rs:78-111 -/
def parseListen (n : NetEnv) (s : Text) : Res (List Sock) :=
  if '-' ∈ s then
    match pieces (fun c => c = '-') s with
    | [] => .panic
    | a :: more => do
      let start ← parseAddr n a
      match more with
      | [b] => do
        let end_ ← parseAddr n b
        expandRange start end_
      | _ => .ok start
  else parseAddrs n (pieces (fun c => c = ',' ∨ c = ' ') s)

/-- src/config/wrap.rs:133-140 -/
def listenContains : List Sock → Nat → Bool
  | [], _ => false
  | v :: vs, port => if v.port = port then true else listenContains vs port

/-! ### protocol flags -/

/-- src/flag.rs:20-31, as bits -/
abbrev Flag := BitVec 8

namespace Flag
def http : Flag := 0x1
def https : Flag := 0x2
def socks5 : Flag := 0x4
def tcp : Flag := 0x8
def udp : Flag := 0x16

/-- `contains` of the `bitflags` crate -/
def has (f g : Flag) : Bool := f &&& g = g

/-- src/flag.rs:69-80 -/
def addWord (f : Flag) (w : Text) : Flag :=
  if w = "http".toList ∨ w = "HTTP".toList then f ||| http
  else if w = "https".toList ∨ w = "HTTPS".toList then f ||| https
  else if w = "socks5".toList ∨ w = "SOCKS5".toList then f ||| socks5
  else f

/-- src/flag.rs:58-84 -/
def parse (s : Text) : Res Flag :=
  if s = [] then .err .invalid else .ok ((splitWs s).foldl addWord 0)

/-- one step of `Display`: the word with a blank before it unless it is the first -/
def appendWord (v w : Text) : Text := if v ≠ [] then v ++ ' ' :: w else v ++ w

/-- src/flag.rs:87-111 -/
def render (f : Flag) : Text :=
  let v : Text := if f.has http then "http".toList else []
  let v := if f.has https then appendWord v "https".toList else v
  if f.has socks5 then appendWord v "socks5".toList else v

/-- `Flag::from_bits` of the `bitflags` crate: all bits must be known -/
def fromBits (b : BitVec 8) : Option Flag :=
  if b &&& ~~~(http ||| https ||| socks5 ||| tcp ||| udp) = 0 then some b else none

/-- src/flag.rs:48-55 (the number in a configuration file) -/
def ofNumber (b : BitVec 8) : Flag := (fromBits b).getD http

end Flag

end Wm.Config
