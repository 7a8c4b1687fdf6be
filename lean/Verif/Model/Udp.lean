import Verif.Model.Types
/-! UDP forwarding of the stream server (src/reverse/stream.rs:139-398). Each client (by source address) gets a task with a
socket of its own towards the upstream server. -/
namespace Wm.Udp
open Wm

/-- A client is known by its address. -/
abbrev Client := SockAddr

/-- One task `deal_udp_bind` (src/reverse/stream.rs:191-251) with the channel towards it. -/
structure Child where
  client : Client
  /-- the channel of capacity 10 (line 276) -/
  chan : List Bytes
  /-- `send_cache` -/
  queue : List Bytes
  alive : Bool
  /-- the end was announced (line 303) -/
  noticed : Bool
deriving DecidableEq, Repr

/-- `StreamUdp` (src/reverse/stream.rs:152-170) with its tasks, which are numbered in the order of creation. The last four
    fields are records for the statements, not part of the program. -/
structure St where
  /-- `remote_sockets`: task and time of the last datagram -/
  entries : List (Client × (Nat × Nat))
  children : List Child
  /-- `send_cache_data` -/
  sendCache : List (Bytes × Client)
  /-- the channel of capacity 10 from the tasks -/
  main : List (Bytes × Client)
  /-- `cache_data` -/
  writeCache : List (Bytes × Client)
  /-- record: datagrams of clients -/
  arrived : List (Client × Bytes)
  /-- record: datagrams sent to the upstream server, by task and its client -/
  sent : List ((Nat × Client) × Bytes)
  /-- record: datagrams that came to the tasks' sockets, by task and its client; `none` is the announcement of the end of a
      task -/
  replies : List ((Nat × Client) × Option Bytes)
  /-- record: datagrams sent to clients -/
  delivered : List (Client × Bytes)
deriving Repr

/-- src/reverse/stream.rs:173-185 -/
def St.init : St := ⟨[], [], [], [], [], [], [], [], []⟩

def capacity : Nat := 10

def lookup (es : List (Client × (Nat × Nat))) (c : Client) : Option (Nat × Nat) :=
  (es.find? (fun e => e.1 = c)).map Prod.snd

def remove (es : List (Client × (Nat × Nat))) (c : Client) : List (Client × (Nat × Nat)) := es.filter (fun e => e.1 ≠ c)

/-- a change of task `k` -/
def updChild (cs : List Child) (k : Nat) (f : Child → Child) : List Child := cs.modify k f

/-- src/reverse/stream.rs:265-305: a new association. `up`: an upstream address is available (`get_server_addr`). Binding the
    socket (line 199) is part of the task: if it fails the task ends. -/
def open_ (s : St) (up : Bool) (now : Nat) (c : Client) (d : Bytes) : St :=
  if ¬ up then s
  else { s with
    entries := (c, (s.children.length, now)) :: s.entries
    children := s.children ++ [⟨c, [], [d], true, false⟩] }

/-- src/reverse/stream.rs:253-306 `process_data`: the datagram `d` of client `c` at time `now` -/
def recv (timeout : Nat) (s : St) (up : Bool) (now : Nat) (c : Client) (d : Bytes) : St :=
  let s := { s with arrived := s.arrived ++ [(c, d)] }
  match lookup s.entries c with
  | some (k, last) =>
    if ¬ (timeout < now - last) then
      { s with entries := (c, (k, now)) :: remove s.entries c, sendCache := s.sendCache ++ [(d, c)] }
    else open_ { s with entries := remove s.entries c } up now c d
  | none => open_ s up now c d

/-- src/reverse/stream.rs:235-244: task `k` takes one datagram from its channel -/
def take (s : St) (k : Nat) : St :=
  { s with children := updChild s.children k (fun ch =>
      match ch.chan with
      | [] => ch
      | d :: r => if ch.alive then { ch with chan := r, queue := ch.queue ++ [d] } else ch) }

/-- what `poll_reserve` says about the channel of a task: closed, room, or full -/
inductive Room where
  | closed | room | full
deriving DecidableEq, Repr

def room (s : St) (k : Nat) : Room :=
  match s.children[k]? with
  | none => .closed
  | some ch => if ¬ ch.alive then .closed else if ch.chan.length < capacity then .room else .full

/-- src/reverse/stream.rs:332-346: the loop over the cached datagrams. `sched`: which tasks take a datagram from their channel
    while the loop is at each item (the tasks run in parallel). -/
def passLoop (s : St) : List (Bytes × Client) → List (List Nat) → St
  | [], _ => s
  | (d, c) :: r, sched =>
    let s := (sched.headD []).foldl take s
    match lookup s.entries c with
    | none => passLoop s r sched.tail
    | some (k, _) =>
      match room s k with
      | .closed => passLoop s r sched.tail
      | .full => passLoop { s with sendCache := s.sendCache ++ [(d, c)] } r sched.tail
      | .room =>
        passLoop { s with children := updChild s.children k (fun ch => { ch with chan := ch.chan ++ [d] }) } r sched.tail

/-- src/reverse/stream.rs:324-349 `poll_sender`; during the loop the field `sendCache` holds `new_cache_data` -/
def pass (s : St) (sched : List (List Nat)) : St := passLoop { s with sendCache := [] } s.sendCache sched

/-- src/reverse/stream.rs:225-233: task `k` sends one datagram -/
def send (s : St) (k : Nat) : St :=
  match s.children[k]? with
  | none => s
  | some ch =>
    if ¬ ch.alive then s
    else match ch.queue with
      | [] => s
      | d :: r => { s with
          children := updChild s.children k (fun ch => { ch with queue := r })
          sent := s.sent ++ [((k, ch.client), d)] }

/-- the size of the buffer (line 205): longer datagrams are cut -/
def replySize : Nat := 9096

/-- src/reverse/stream.rs:216-224: task `k` got a datagram from its socket (while the channel is full the task waits) -/
def reply (s : St) (k : Nat) (d : Bytes) : St :=
  match s.children[k]? with
  | none => s
  | some ch =>
    if ¬ ch.alive ∨ capacity ≤ s.main.length then s
    else { s with main := s.main ++ [(d.take replySize, ch.client)], replies := s.replies ++ [((k, ch.client), some d)] }

/-- the task ends (timeout, closed channel, error) -/
def endTask (s : St) (k : Nat) : St :=
  { s with children := updChild s.children k (fun ch => { ch with alive := false }) }

/-- src/reverse/stream.rs:303: it announces its end with an empty datagram -/
def notice (s : St) (k : Nat) : St :=
  match s.children[k]? with
  | none => s
  | some ch =>
    if ch.alive ∨ ch.noticed ∨ capacity ≤ s.main.length then s
    else { s with
      main := s.main ++ [([], ch.client)]
      children := updChild s.children k (fun ch => { ch with noticed := true })
      replies := s.replies ++ [((k, ch.client), none)] }

/-- src/reverse/stream.rs:351-384 `poll_write`: the channel is emptied, then `n` datagrams are sent (fewer if there are fewer);
    `fail`: sending the next one gives an error, by which it is lost -/
def write (s : St) (n : Nat) (fail : Bool) : St :=
  let cache := s.writeCache ++ s.main
  { s with
    main := []
    writeCache := (cache.drop n).drop (if fail then 1 else 0)
    delivered := s.delivered ++ (cache.take n).map (fun x => (x.2, x.1)) }

/-- what happens next, chosen by the environment -/
inductive Ev where
  | recv (up : Bool) (now : Nat) (c : Client) (d : Bytes)
  | pass (sched : List (List Nat))
  | take (k : Nat)
  | send (k : Nat)
  /-- a datagram of `src` came to the socket of task `k`; the sender is not looked at (`Ok((s, _))`, line 219) -/
  | reply (k : Nat) (src : SockAddr) (d : Bytes)
  | endTask (k : Nat)
  | notice (k : Nat)
  | write (n : Nat) (fail : Bool)
deriving DecidableEq, Repr

def step (timeout : Nat) (s : St) : Ev → St
  | .recv up now c d => recv timeout s up now c d
  | .pass sched => pass s sched
  | .take k => take s k
  | .send k => send s k
  | .reply k _ d => reply s k d
  | .endTask k => endTask s k
  | .notice k => notice s k
  | .write n fail => write s n fail

def run (timeout : Nat) (s : St) (evs : List Ev) : St := evs.foldl (step timeout) s

end Wm.Udp
