import Verif.Model.Reverse
import Verif.Model.Inherit
import Verif.Model.Listen

/-!
The answer a request finally gets and the timeouts of a connection: src/reverse/http.rs:428-480 (`operate`, `process`) and
src/reverse/common.rs:173-233 (`build_proxy_timeout`, `build_client_timeout`).

What the HTTP library does with timeouts is outside the model. Durations are texts here (their meaning is C26); a layer is the
record of the durations in it.
-/

namespace Wm.Answer
open Wm Wm.Reverse Wm.Listen

/-- `TimeoutLayer` (crate `wenmeng`): its settings -/
structure Timeouts where
  connect : Option Text
  read : Option Text
  write : Option Text
  /-- for the whole request (`set_timeout`) -/
  whole : Option Text
  /-- keep-alive: between requests -/
  idle : Option Text
deriving DecidableEq, Repr

/-- src/reverse/common.rs:174, 205 `TimeoutLayer::new` -/
def Timeouts.new : Timeouts := ⟨none, none, none, none, none⟩

/-- src/reverse/common.rs:173-202 `build_proxy_timeout`: one `if let` after another on (layer, `has_data`) -/
def buildProxy (c : Common) : Option Timeouts :=
  let s := (Timeouts.new, false)
  let s := match c.proxyConnectTimeout with
    | some d => ({ s.1 with connect := some d }, true)
    | none => s
  let s := match c.proxyReadTimeout with
    | some d => ({ s.1 with read := some d }, true)
    | none => s
  let s := match c.proxyWriteTimeout with
    | some d => ({ s.1 with write := some d }, true)
    | none => s
  let s := match c.proxyTimeout with
    | some d => ({ s.1 with whole := some d }, true)
    | none => s
  if s.2 then some s.1 else none

/-- src/reverse/common.rs:204-233 `build_client_timeout` -/
def buildClient (c : Common) : Option Timeouts :=
  let s := (Timeouts.new, false)
  let s := match c.clientReadTimeout with
    | some d => ({ s.1 with read := some d }, true)
    | none => s
  let s := match c.clientWriteTimeout with
    | some d => ({ s.1 with write := some d }, true)
    | none => s
  let s := match c.clientTimeout with
    | some d => ({ s.1 with whole := some d }, true)
    | none => s
  let s := match c.clientKaTimeout with
    | some d => ({ s.1 with idle := some d }, true)
    | none => s
  if s.2 then some s.1 else none

/-- a server block as it is listened for, with its common settings (`ServerConfig::comm`, after `copy_to_child`) -/
structure CBlock where
  block : Block
  comm : Common

/-- src/wmcore.rs:303-327: the blocks a connection is handed to (`portBlocks`, `bySni`, with the settings) -/
def handed (bs : List CBlock) (l : SockAddr × Bool) (sni : Option Text) : List CBlock :=
  let at_ := bs.filter fun b => b.block.plain.any (·.port == l.1.port) || b.block.tls.any (·.port == l.1.port)
  if l.2 then
    match sni with
    | none => at_
    | some n =>
      match at_.find? (fun b => b.block.server.name == n) with
      | some b => [b]
      | none => at_
  else at_

/-- src/reverse/http.rs:463-480 `process`: the connection's timeouts, those of the first block; `none` if there is no block
    (line 471-473: the connection is closed) -/
def connTimeouts (bs : List CBlock) (l : SockAddr × Bool) (sni : Option Text) : Option (Option Timeouts) :=
  (handed bs l sni).head?.map fun b => buildClient b.comm

/-- what `ProtError::is_read_timeout` (crate `wenmeng`) tells about a failure: a timeout of reading, and whether from the client -/
inductive Failure where
  | readTimeout (client : Bool)
  | other
deriving DecidableEq, Repr

/-- `HeaderMap::insert` (crate `webparse`): the header has this value, and no other header changes -/
structure Insert where
  insert : Text → Text → List (Text × Text) → List (Text × Text)
  same : Text → Text → Bool
  same_refl : ∀ a, same a a = true
  one : ∀ k v h, ((insert k v h).filter fun e => same k e.1).map (·.2) = [v]
  others : ∀ k v h, (insert k v h).filter (fun e => !same k e.1) = h.filter fun e => !same k e.1

/-- src/reverse/http.rs:428-452 `operate`: what is sent for an outcome of `inner_operate`. The answers to failures have the
    headers the library gives every answer, which are not modelled. -/
def sent (ins : Insert) (f : Failure) : Out → Response
  | .resp r => { r with headers := ins.insert "server".toList "wmproxy".toList r.headers }
  | .err => match f with
    | .readTimeout false => ⟨408, []⟩
    | _ => ⟨500, []⟩

end Wm.Answer
