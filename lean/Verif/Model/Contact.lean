import Verif.Model.Health
/-! A tunnel client whose server is away: what the health records make of its attempts to connect
    (src/streams/center_client.rs:349-358 with 92-112, src/check/health.rs:206-243). -/
namespace Wm.Contact
open Wm Wm.Health

variable {A : Type} [DecidableEq A]

/-- One call of `inner_connect` after another (src/streams/center_client.rs:349-358), the first at the time `t`, all in
    vain: for each call its time and whether the server was contacted. `ds` says for each call how long an attempt at
    the server lasts. A call that does not contact the server (src/check/health.rs:215-216) fails at once; after a failed
    call the task sleeps one second (356). The server has one address. -/
def calls (x : A) (h : Check A) (t : Nat) : List Nat → List (Nat × Bool)
  | [] => []
  | d :: ds =>
    let r := connect h [⟨x, t, .fail, t + d⟩]
    if r.2.1 = [] then (t, false) :: calls x r.1 (t + sec 1) ds
    else (t, true) :: calls x r.1 (t + d + sec 1) ds

end Wm.Contact
