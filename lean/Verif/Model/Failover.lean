import Verif.Model.Health
/-! Requests passed on to a group of servers while its servers come and go (src/reverse/location.rs:137-169, with the
    health records of src/check/health.rs). Many requests can be under way at the same time. -/
namespace Wm.Failover
open Wm Wm.Health

variable {A : Type} [DecidableEq A]

structure St (A : Type) where
  h : Check A
  /-- requests whose connection is being made: when they came, and to which server -/
  under : List (Nat × A)
  /-- requests that were answered with an error, with the server that was tried (`none`: no server of the group) -/
  lost : List (Nat × Option A)
  /-- requests that were connected to a server -/
  served : List (Nat × A)

inductive Event where
  /-- a request comes at a time; the random number drawn for it -/
  | ask (time : Nat) (draw : Nat → Nat)
  /-- the attempt for the `i`-th request under way ends -/
  | settle (i : Nat) (time : Nat)

def Event.time : Event → Nat
  | .ask t _ => t
  | .settle _ t => t

def init : St A := ⟨Check.global, [], [], []⟩

/-- src/reverse/location.rs:147-169: `get_upstream_addr` picks a server, `HealthCheck::connect_timeout` connects to it
    (src/check/health.rs:206-259, for the one address); `answer a t` is what the server `a` answers at the time `t`. When
    the connection is not made the error is returned at once (`?` in 165). Without a picked server the name of the group
    is taken for a host name (150-153); this is not a server of the group. A panic ends the request too. -/
def step (checked : Bool) (ss : List (Server A)) (answer : A → Nat → Answer) (s : St A) : Event → St A
  | .ask t draw =>
    match getServer checked s.h t ss draw with
    | .ok (some a) =>
      if s.h.isDown a t then { s with lost := s.lost ++ [(t, some a)] }
      else { s with under := s.under ++ [(t, a)] }
    | _ => { s with lost := s.lost ++ [(t, none)] }
  | .settle i t =>
    match s.under[i]? with
    | none => s
    | some (t0, a) =>
      match answer a t with
      | .ok => { s with h := s.h.rise a t, under := s.under.eraseIdx i, served := s.served ++ [(t0, a)] }
      | .fail => { s with h := s.h.fall a t, under := s.under.eraseIdx i, lost := s.lost ++ [(t0, some a)] }
      | .hang => { s with under := s.under.eraseIdx i, lost := s.lost ++ [(t0, some a)] }

def run (checked : Bool) (ss : List (Server A)) (answer : A → Nat → Answer) (es : List Event) : St A :=
  es.foldl (step checked ss answer) init

end Wm.Failover
