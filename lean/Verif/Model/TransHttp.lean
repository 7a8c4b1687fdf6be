import Verif.Model.Types
import Verif.Model.Helper
/-!
HTTP visitors of the tunnel server (src/trans/http.rs): for each visitor's connection the server's task speaks HTTP with
the visitor and, over one stream of the tunnel, with the service behind the client. The HTTP engines on both sides
(crate `wenmeng`) are external: requests come in as events, and what comes back over the stream is given by the
environment.
-/
namespace Wm.TransHttp
open Wm Wm.Config Wm.Helper

/-- a request: its host (`get_host`), its headers, and all the rest -/
structure Request where
  host : Option Text
  headers : List (Text × Text)
  rest : Bytes
deriving DecidableEq, Repr

structure Response where
  status : Nat
  headers : List (Text × Text)
  body : Bytes
deriving DecidableEq, Repr

/-- the rule in the form of src/config/header.rs -/
def ruleOf (h : ConfigHeader) : HeaderRule :=
  ⟨match h.oper with
    | .add => .add
    | .del => .del
    | .default => .default
    | .replace => .replace, h.isProxy, h.key, h.val⟩

/-- what the environment does with a request handed to the stream (src/trans/http.rs:122-124): the HTTP engine is gone, a
    response, or an error or the end of the stream -/
inductive Reply where
  | gone
  | answer (r : Response)
  | nothing
deriving DecidableEq, Repr

/-- what the task does for the stream -/
inductive Ev where
  /-- a new stream for `host` is announced to the client (src/trans/http.rs:112-114) -/
  | announced (host : Text)
  /-- a request is handed to the stream (line 121) -/
  | passed (req : Request)
deriving DecidableEq, Repr

/-- the answer to the visitor: a response of the service, the notice (src/trans/http.rs:74-82, status 200), or an error
    (the engine closes the connection) -/
inductive Out where
  | served (r : Response)
  | notice (status : Nat)
  | err
deriving DecidableEq, Repr

/-- src/trans/http.rs:49-57 `HttpOper`: `fresh` says that `virtual_sender` is there; `map` is `http_map` -/
structure St where
  fresh : Bool
  map : Option MappingConfig
  trace : List Ev
deriving DecidableEq, Repr

/-- src/trans/http.rs:144-156 -/
def init : St := ⟨true, none, []⟩

/-- src/trans/http.rs:97-105: the last mapping with the domain -/
def pickDomain (ms : List MappingConfig) (host : Text) : Option MappingConfig :=
  ms.foldl (fun acc m => if m.domain == host then some m else acc) none

/-- src/trans/http.rs:117-134: the request goes over the stream, if there is one -/
def pass (w : Headers) (s : St) (req : Request) (reply : Reply) : St × Out :=
  match s.map with
  | none => (s, .notice 200)
  | some m =>
    let req' := { req with headers := rewriteAll w true (m.headers.map ruleOf) req.headers }
    match reply with
    | .gone => (s, .err)
    | .answer r =>
      ({ s with trace := s.trace ++ [.passed req'] },
        .served { r with headers := rewriteAll w false (m.headers.map ruleOf) r.headers })
    | .nothing => ({ s with trace := s.trace ++ [.passed req'] }, .notice 200)

/-- src/trans/http.rs:84-136 `inner_operate`. `ms` are the mappings the client has announced by now. (The header `server` added
    at line 38 is left out.) -/
def operate (w : Headers) (ms : List MappingConfig) (s : St) (req : Request) (reply : Reply) : St × Out :=
  let first := s.fresh
  let s := { s with fresh := false }
  if first then
    let host := req.host.getD []
    match pickDomain ms host with
    | none => (s, .notice 200)
    | some m => pass w { s with map := some m, trace := s.trace ++ [.announced host] } req reply
  else pass w s req reply

/-- a connection: one request after the other, each with the mappings of its time and what comes back -/
def run (w : Headers) : St → List (List MappingConfig × Request × Reply) → St × List Out
  | s, [] => (s, [])
  | s, (ms, req, reply) :: rest =>
    let (s', o) := operate w ms s req reply
    let (s'', os) := run w s' rest
    (s'', o :: os)

end Wm.TransHttp
