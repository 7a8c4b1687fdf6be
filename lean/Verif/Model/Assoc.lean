import Verif.Model.Socks
/-!
A UDP association of the SOCKS5 proxy (src/proxy/socks5.rs:350-503): the TCP connection of the client, the socket towards
the client (`inbound`) and the socket towards the targets (`outbound`), each looked after by one of three futures that
`try_join!` runs until all have returned `Ok` or one has returned an error.

Chosen by the environment: which datagram arrives when, which branch of a `select!` is taken, whether connecting and sending
work. External, as the operating system does it: a UDP socket that is connected accepts datagrams of its peer only, but
keeps what it had accepted before; sending on a socket that is not connected fails.

Simplifications: the two sockets could be bound (socks5.rs:354, 488; otherwise there is no association); the socket is
taken to have a queue without limit (a datagram dropped by the operating system is one that does not arrive).
-/
namespace Wm.Socks.Assoc
open Wm Wm.Socks

structure St where
  /-- the address `inbound` is connected to -/
  peer : Option SockAddr
  /-- datagrams accepted by `inbound` and not read, with their senders -/
  queue : List (SockAddr × Bytes)
  /-- `udp_handle_request`, `udp_handle_response`, `upd_handle_tcp_block` have not returned -/
  req : Bool
  res : Bool
  tcp : Bool
  /-- the end was broadcast (`sender.send(())`, line 404) -/
  told : Bool
  /-- one of the three returned an error or panicked: `try_join!` is over -/
  failed : Bool
  /-- record: datagrams accepted by `inbound` so far -/
  accepted : List (SockAddr × Bytes)
  /-- record: sender, target and data of what was sent to targets -/
  forwarded : List (SockAddr × SockAddr × Bytes)
  /-- record: datagrams sent by `inbound`, with their destination -/
  returned : List (SockAddr × Bytes)
deriving DecidableEq, Repr

/-- src/proxy/socks5.rs:484-494 -/
def init : St := ⟨none, [], true, true, true, false, false, [], [], []⟩

/-- src/proxy/socks5.rs:362-363: the address `inbound` is bound to; the system has chosen the port -/
def bound (port : BitVec 16) : SockAddr := ⟨.v4 0, port⟩

/-- src/proxy/socks5.rs:340-349, 364: what is sent on the TCP connection: `port` is the port of `inbound` -/
def told (bindIp : IpAddr) (port : BitVec 16) : Bytes := [5, 0, 0] ++ encodeAddr ⟨bindIp, port⟩

/-- src/proxy/socks5.rs:310-324: what a client whose handshake ends with an association is sent after the handshake -/
def reply (c : Cfg) (port : BitVec 16) : Option Bytes := c.bindIp.map fun ip => told ip port

/-- the association is there: its sockets are open -/
def St.alive (s : St) : Bool := !s.failed && (s.req || s.res || s.tcp)

inductive Event where
  /-- a datagram comes to `inbound` -/
  | arrive (src : SockAddr) (d : Bytes)
  /-- `udp_handle_request` takes the next datagram; whether `connect` and `send_to` work -/
  | request (connects sends : Bool)
  /-- reading from `inbound` gives an error -/
  | requestErr
  /-- `udp_handle_response` takes a datagram that came to `outbound`; whether `send` works on a connected socket -/
  | reply (src : SockAddr) (d : Bytes) (sends : Bool)
  | replyErr
  /-- the TCP connection gives `n` bytes; 0: it is closed -/
  | tcp (n : Nat)
  | tcpErr
  /-- the branch `receiver.recv()` of the two loops -/
  | stopReq
  | stopRes
deriving DecidableEq, Repr

def fail (s : St) : St := { s with failed := true }

/-- src/proxy/socks5.rs:421-443, for the datagram `d` of `src` -/
def request (net : Net) (src : SockAddr) (d : Bytes) (connects sends : Bool) (s : St) : St :=
  if connects = false then fail s
  else
    let s := { s with peer := some src }
    match udpParse net d with
    | .err _ => fail s
    | .panic => fail s
    | .ok ((flag, a), data) =>
      if flag ≠ 0 then { s with req := false }
      else if sends then { s with forwarded := s.forwarded ++ [(src, a, data)] }
      else fail s

def step (net : Net) (s : St) : Event → St
  | .arrive src d =>
    if s.alive ∧ (s.peer = none ∨ s.peer = some src) then
      { s with queue := s.queue ++ [(src, d)], accepted := s.accepted ++ [(src, d)] }
    else s
  | .request c b =>
    if s.alive ∧ s.req then
      match s.queue with
      | [] => s
      | (src, d) :: q => request net src d c b { s with queue := q }
    else s
  | .requestErr => if s.alive ∧ s.req then fail s else s
  | .reply src d b =>
    -- socks5.rs:452-480
    if s.alive ∧ s.res then
      match s.peer with
      | none => fail s
      | some p => if b then { s with returned := s.returned ++ [(p, udpReply src d)] } else fail s
    else s
  | .replyErr => if s.alive ∧ s.res then fail s else s
  | .tcp n =>
    -- socks5.rs:394-407
    if s.alive ∧ s.tcp then (if n = 0 then { s with tcp := false, told := true } else s) else s
  | .tcpErr => if s.alive ∧ s.tcp then fail s else s
  | .stopReq => if s.alive ∧ s.told then { s with req := false } else s
  | .stopRes => if s.alive ∧ s.told then { s with res := false } else s

def run (net : Net) (s : St) (es : List Event) : St := es.foldl (step net) s

end Wm.Socks.Assoc
