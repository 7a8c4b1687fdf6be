import Verif.Model.Basic
/-!
Which listener gets its turn: the `select!` of the main task (src/wmcore.rs:146-198, 251-362).

Its branches are the listeners that there is one of each (clients of the tunnel, the proxy, visitors over HTTP, HTTPS and TCP, the
proxy of mappings: src/wmcore.rs:262-298) and the groups of listeners (HTTP blocks, stream blocks, stream blocks over UDP:
299-354). What is done with a connection is left out here (`Model/Core.lean` says for what the task waits); so are the branch for
stopping and the end of the task when the address of a listener cannot be told (the `?` behind `local_addr()`).

The `select!` of the control server (src/control/server.rs:184-207) has the same form with two branches and no groups: `.one 0` is the
control port, whose pattern `Ok((conn, addr))` does not match an error, `.one 1` brings the messages that a service is gone.
-/
namespace Wm.Turns
open Wm

/-- a listener: the `k`-th of those that there is one of, or number `i` of group `k` -/
inductive Place where
  | one (k : Nat)
  | many (k i : Nat)
deriving DecidableEq, Repr

/-- what `accept` will give: a connection (for UDP a datagram), or an error such as running out of file descriptors -/
inductive Item where
  | conn (c : Nat)
  | fault
deriving DecidableEq, Repr

/-- a branch of the `select!` -/
inductive Branch where
  | one (k : Nat)
  | many (k : Nat)
deriving DecidableEq, Repr

inductive Event where
  /-- a connection is established, or an error comes up -/
  | arrive (p : Place) (x : Item)
  /-- the branch is polled; the order is random (tokio) -/
  | look (b : Branch)
deriving DecidableEq, Repr

/-- `wait`: what the operating system has ready for each listener; `off`: the branches that the current `select!` polls no more;
    `taken`: the connections accepted, in order -/
structure St where
  wait : Place → List Item
  off : Nat → Bool
  taken : List (Place × Nat)

def init : St := ⟨fun _ => [], fun _ => false, []⟩

def set (w : Place → List Item) (p : Place) (l : List Item) : Place → List Item := fun q => if q = p then l else w q

/-- `select!` is over, and a new one begins (src/wmcore.rs:260-261, 359-361) -/
def again (s : St) (p : Place) (rest : List Item) : St := { s with wait := set s.wait p rest, off := fun _ => false }

/-- src/wmcore.rs:146-157 `tcp_listen_work` and the patterns `Some((inbound, addr))` (262-298): an error gives `None`, which does
    not match, and tokio polls the branch no more until another one is through.
    src/wmcore.rs:159-175 `multi_tcp_listen_work`, 177-198 `multi_udp_listen_work`: `select_all` (futures) polls the listeners in
    their order and gives the first that is ready; an error is passed over (`if let Ok`, 300, 331, 341).
    `width k` is the number of listeners in group `k`. -/
def step (width : Nat → Nat) (s : St) : Event → St
  | .arrive p x => { s with wait := set s.wait p (s.wait p ++ [x]) }
  | .look (.one k) =>
    if s.off k then s
    else match s.wait (.one k) with
      | [] => s
      | .conn c :: rest => { again s (.one k) rest with taken := s.taken ++ [(.one k, c)] }
      | .fault :: rest => { s with wait := set s.wait (.one k) rest, off := fun j => if j = k then true else s.off j }
  | .look (.many k) =>
    match (List.range (width k)).find? (fun i => !(s.wait (.many k i)).isEmpty) with
    | none => s
    | some i => match s.wait (.many k i) with
      | [] => s
      | .conn c :: rest => { again s (.many k i) rest with taken := s.taken ++ [(.many k i, c)] }
      | .fault :: rest => again s (.many k i) rest

def run (width : Nat → Nat) (es : List Event) : St := es.foldl (step width) init

end Wm.Turns
