import Verif.Model.Tunnel
import Verif.Proofs.Lower
/-!
Vocabulary for the tunnel properties (C10-C18). Everything here is a function of the trace of observable happenings.
-/
namespace Wm.Tunnel
open Wm Wm.Prot

/-- the end requires a login -/
def Protected (cfg : Cfg) : Prop := cfg.username ≠ none ∨ cfg.password ≠ none

/-- the message is a login token that agrees with every configured credential -/
def IsLogin (cfg : Cfg) (f : Frame) : Prop :=
  ∃ u p, f = .token u p ∧ (∀ x, cfg.username = some x → u = x) ∧ (∀ x, cfg.password = some x → p = x)

instance (cfg : Cfg) (f : Frame) : Decidable (IsLogin cfg f) :=
  match f with
  | .token u p =>
    if h : (∀ x, cfg.username = some x → u = x) ∧ (∀ x, cfg.password = some x → p = x)
    then isTrue ⟨u, p, rfl, h⟩
    else isFalse (fun ⟨_, _, e, h2⟩ => h (by cases e; exact h2))
  | .create .. => isFalse (fun ⟨_, _, e, _⟩ => by cases e)
  | .close .. => isFalse (fun ⟨_, _, e, _⟩ => by cases e)
  | .data .. => isFalse (fun ⟨_, _, e, _⟩ => by cases e)
  | .mapping .. => isFalse (fun ⟨_, _, e, _⟩ => by cases e)

instance (cfg : Cfg) : Decidable (Protected cfg) := inferInstanceAs (Decidable (_ ∨ _))

/-- bytes of the peer read from the connection -/
def arrived (t : List Obs) : Bytes := t.flatMap fun | .arrived bs => bs | _ => []

/-- messages of the peer that were looked at -/
def gots (t : List Obs) : List Frame := t.filterMap fun | .got f => some f | _ => none

/-- the peer may be served: no login is required, or one of its messages was a login -/
def LoggedIn (cfg : Cfg) (t : List Obs) : Prop := ¬ Protected cfg ∨ ∃ f ∈ gots t, IsLogin cfg f

instance (cfg : Cfg) (t : List Obs) : Decidable (LoggedIn cfg t) := inferInstanceAs (Decidable (_ ∨ _))

/-- the happening is a service to the peer: a stream is opened for it, something is delivered to a stream, its port
    mappings are stored -/
def Served : Obs → Prop
  | .opened .. | .put .. | .lost .. | .overflow .. | .setMap .. => True
  | _ => False

/-- the stream most recently registered under `id` -/
def owner (t : List Obs) (id : Nat) : Option Nat :=
  t.foldl (fun acc o => match o with | .reg i h => if i = id then some h else acc | _ => acc) none

/-- the id under which a stream was registered -/
def idOf (t : List Obs) (h : Nat) : Option Nat :=
  t.foldl (fun acc o => match o with | .reg i h' => if h' = h then some i else acc | _ => acc) none

/-- messages put into the channel of stream `h` -/
def puts (h : Nat) (t : List Obs) : List Frame :=
  t.filterMap fun | .put k f => if k = h then some f else none | _ => none

/-- messages handed over for stream `h`, including those discarded because the stream's task is gone or its channel
    full -/
def attempts (h : Nat) (t : List Obs) : List Frame :=
  t.filterMap fun
    | .put k f => if k = h then some f else none
    | .lost k f => if k = h then some f else none
    | .overflow k f => if k = h then some f else none
    | _ => none

/-- messages received by the task of stream `h` -/
def received (h : Nat) (t : List Obs) : List Frame :=
  t.filterMap fun | .took k f => if k = h then some f else none | _ => none

/-- messages submitted by local tasks for the peer -/
def submissions (t : List Obs) : List Frame := t.filterMap fun | .submitted f => some f | _ => none

/-- messages accepted for sending, in order -/
def accepted (t : List Obs) : List Frame := t.filterMap fun | .queued _ f => some f | _ => none

/-- accepted messages that came from the channel of submitted messages -/
def relayed (t : List Obs) : List Frame := t.filterMap fun | .queued true f => some f | _ => none

/-- bytes written to the connection -/
def written (t : List Obs) : Bytes := t.flatMap fun | .wrote bs => bs | _ => []

/-- What one more happening `o`, after `past`, adds to the messages due to stream `h`:
    a message of the peer that is to be delivered (`accepts`) and carries the id whose current owner is `h`;
    a close, when the connection is lost while `h` is the owner of its id. -/
def dueNow (accepts : List Obs → Frame → Bool) (h : Nat) (past : List Obs) : Obs → List Frame
  | .got f => if accepts past f = true ∧ owner past f.sockMap = some h then [f] else []
  | .connLost =>
    match idOf past h with
    | some i => if owner past i = some h then [.close i []] else []
    | none => []
  | _ => []

def dueFrom (accepts : List Obs → Frame → Bool) (h : Nat) (past : List Obs) : List Obs → List Frame
  | [] => []
  | o :: t => dueNow accepts h past o ++ dueFrom accepts h (past ++ [o]) t

/-- all messages due to stream `h` -/
def due (accepts : List Obs → Frame → Bool) (h : Nat) (t : List Obs) : List Frame := dueFrom accepts h [] t

/-- the server delivers data and close messages once the peer is logged in -/
def serverAccepts (cfg : Cfg) (past : List Obs) : Frame → Bool
  | .data .. | .close .. => decide (LoggedIn cfg past)
  | _ => false

/-- the client delivers data messages and close messages for ids other than the reserved 0 -/
def clientAccepts (_ : List Obs) : Frame → Bool
  | .data .. => true
  | .close id _ => decide (id ≠ 0)
  | _ => false

/-- the last of the mappings whose domain or name is `d` -/
def LastMatch (ms : List MappingConfig) (d : Text) (m : MappingConfig) : Prop :=
  ∃ pre post, ms = pre ++ m :: post ∧ (m.domain = d ∨ m.name = d) ∧ ∀ x ∈ post, x.domain ≠ d ∧ x.name ≠ d

/-- no mapping has domain or name `d` -/
def NoMatch (ms : List MappingConfig) (d : Text) : Prop := ∀ x ∈ ms, x.domain ≠ d ∧ x.name ≠ d

/-- what happens with a stream `h` opened under `id` for mapping `m`: a proxy mapping is served by the proxy with the
    mapping's header rules (its mode is `proxy`, in any spelling), any other by a connection to the local address; without an address the stream is
    discarded -/
def outcome (m : MappingConfig) (id h : Nat) : Obs :=
  if m.mode.map Char.toLower = "proxy".toList then .opened id h (.proxy (some m.headers))
  else match m.localAddr with
    | some a => .opened id h (.connect a)
    | none => .rxGone h

theorem outcome_eq (m : MappingConfig) (id h : Nat) :
    outcome m id h = if m.isProxy then .opened id h (.proxy (some m.headers))
      else match m.localAddr with
        | some a => .opened id h (.connect a)
        | none => .rxGone h := by
  unfold outcome
  by_cases hp : m.isProxy = true
  · rw [if_pos hp, if_pos ((isProxy_iff m).1 hp)]
  · rw [if_neg hp, if_neg (fun hc => hp ((isProxy_iff m).2 hc))]

/-- the messages with which a client introduces itself -/
def introduction (cfg : Cfg) : List Frame :=
  (match cfg.username, cfg.password with
   | some u, some p => [Frame.token u p]
   | _, _ => []) ++
  (if cfg.mappings = [] then [] else [Frame.mapping 0 cfg.mappings])

/-- payloads of the data messages with id `i` -/
def datas (i : Nat) (fs : List Frame) : List Bytes :=
  fs.filterMap fun | .data j d => if j = i then some d else none | _ => none

/-- number of open requests with id `i` -/
def creates (i : Nat) (fs : List Frame) : Nat :=
  fs.countP fun | .create j _ => j == i | _ => false

/-- no data of stream `i` stands before the stream's open request -/
def Announced (i : Nat) (fs : List Frame) : Prop :=
  ∀ a d b, fs = a ++ .data i d :: b → ∃ x, .create i x ∈ a

end Wm.Tunnel
