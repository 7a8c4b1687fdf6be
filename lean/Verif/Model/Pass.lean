import Verif.Model.Target
import Verif.Model.HttpProxy
import Verif.Model.Answer
/-! Requests and answers with all their headers, as they are handed on: by the proxy of a location of the reverse proxy
    (src/reverse/{http,location}.rs) and by the HTTP proxy that serves a mapping of mode `proxy` (src/proxy/http.rs). What is
    left out here — choosing the location, limits, access rules, credentials — is in `Verif.Model.Reverse` and
    `Verif.Model.HttpProxy`. -/
namespace Wm.Pass
open Wm Wm.Config Wm.Helper Wm.Target Wm.Answer

/-- a request: its method, path and version, its headers, its body -/
structure Request where
  line : Text
  headers : List (Text × Text)
  body : Bytes
deriving DecidableEq, Repr

structure Reply where
  status : Nat
  headers : List (Text × Text)
  body : Bytes
deriving DecidableEq, Repr

/-! ### the proxy of a location -/

/-- the settings of a location used here: its header rules (its own and its server's, src/reverse/server.rs), its `proxy_url`
    and its groups -/
structure Place where
  rules : List HeaderRule
  url : Url
  groups : List Group

/-- External functions: those of `Target.Ext`, `HeaderMap::insert`, header collections, and the text of a host and port as
    `get_connect_url` gives it. -/
structure Ext where
  target : Target.Ext
  ins : Insert
  hdr : Headers
  text : Text × BitVec 16 → Text

/-- what comes back over a connection: an answer, an error, or nothing any more -/
inductive Came where
  | answer (r : Reply)
  | failed
  | gone
deriving DecidableEq, Repr

/-- what the environment decides about a request: the server picked at its time, the request's scheme, whether the kept
    connection is already closed (src/reverse/http.rs:357), whether a new one can be made, and what comes back -/
structure Turn where
  pick : Pick
  scheme : Scheme
  closed : Bool
  reach : Bool
  came : Came

inductive Out where
  | served (r : Reply)
  /-- made by the proxy itself -/
  | notice (status : Nat)
  | err
  | panic
deriving DecidableEq, Repr

/-- a request handed to an upstream server -/
structure Sent where
  host : Text
  port : BitVec 16
  req : Request
deriving DecidableEq, Repr

/-- src/reverse/location.rs:137-187 `deal_reverse_proxy` for a request without kept connection: the header `Host` is set to
    the address connected to (156-158); the rules are applied to the answer (185) -/
def proxyFresh (x : Ext) (l : Place) (req : Request) (t : Turn) : Option Dial × Option Sent × Out :=
  match httpDial x.target t.pick l.groups t.scheme l.url with
  | .panic => (none, none, .panic)
  | .err _ => (none, none, .err)
  | .ok d =>
    if !t.reach then (none, none, .err)
    else
      let sent := ⟨d.host, d.port, { req with headers := x.ins.insert "host".toList (x.text d.hostHeader) req.headers }⟩
      match t.came with
      | .answer r => (some d, some sent, .served { r with headers := rewriteAll x.hdr false l.rules r.headers })
      | _ => (none, some sent, .err)

/-- src/reverse/http.rs:354-388 with src/reverse/location.rs:189-210, for a location with `proxy_url` and neither files nor a
    fixed answer. `kept`: where the connection kept for this location leads. Over a kept connection the request goes as it is
    (358) and the answer comes as it is (366); after a failure it is not kept any longer. -/
def proxyStep (x : Ext) (l : Place) (kept : Option Dial) (req : Request) (t : Turn) : Option Dial × Option Sent × Out :=
  match kept with
  | none => proxyFresh x l req t
  | some d =>
    if t.closed then (none, none, .notice 404)
    else match t.came with
      | .answer r => (some d, some ⟨d.host, d.port, req⟩, .served r)
      | .failed => (none, some ⟨d.host, d.port, req⟩, .err)
      | .gone => (none, some ⟨d.host, d.port, req⟩, .notice 503)

/-- the requests of a client's connection that fall to the location, in turn -/
def proxyRun (x : Ext) (l : Place) : Option Dial → List (Request × Turn) → List (Option Sent × Out)
  | _, [] => []
  | kept, (req, t) :: rest =>
    let r := proxyStep x l kept req t
    r.2 :: proxyRun x l r.1 rest

/-! ### the HTTP proxy of a mapping -/

/-- External: what the handler reads off the headers and the request line: `get_connect_url`, whether the method is CONNECT,
    and the header `Proxy-Authorization`; and `HeaderMap::remove` of that header (src/proxy/http.rs:120). -/
structure View where
  hdr : Headers
  host : Request → Option Text
  connect : Request → Bool
  auth : Request → Option (Option Text)

def View.req (v : View) (r : Request) : HttpProxy.Req := ⟨v.host r, v.connect r, v.auth r⟩

/-- src/proxy/http.rs:74-81 `deal_request`: the rules for requests; `none`: a proxy without rules -/
def ruledReq (w : Headers) (rules : Option (List HeaderRule)) (r : Request) : Request :=
  match rules with
  | none => r
  | some rs => { r with headers := rewriteAll w true rs r.headers }

/-- src/proxy/http.rs:82-90 `deal_response` -/
def ruledReply (w : Headers) (rules : Option (List HeaderRule)) (r : Reply) : Reply :=
  match rules with
  | none => r
  | some rs => { r with headers := rewriteAll w false rs r.headers }

def Came.kind : Came → HttpProxy.Reply
  | .answer _ => .response
  | .failed => .failed
  | .gone => .over

/-- src/proxy/http.rs:93-153 `operate` with whole requests and answers: `HttpProxy.operate` on the request after the rules
    (94); what is handed on is that request — without `Proxy-Authorization` where that was checked (118-120) —, and the
    target's answer goes back after the rules (101, 147). The environment decides whether the target named can be connected to,
    and what comes back. -/
def relayStep (v : View) (u p : Option Text) (rules : Option (List HeaderRule)) (st : HttpProxy.St) (req : Request)
    (reach : Bool) (came : Came) : HttpProxy.St × List (Text × Request) × Out :=
  let req := ruledReq v.hdr rules req
  let r := HttpProxy.operate u p st (v.req req) reach came.kind
  let left := if st.kept.isNone && u.isSome && p.isSome then
      { req with headers := v.hdr.remove "Proxy-Authorization".toList req.headers } else req
  (r.1, r.2.forwards.map (fun f => (f.1, left)), match r.2.answer, came with
    | .upstream, .answer a => .served (ruledReply v.hdr rules a)
    | .status n, _ => .notice n
    | .panic, _ => .panic
    | _, _ => .err)

def relayRun (v : View) (u p : Option Text) (rules : Option (List HeaderRule)) :
    HttpProxy.St → List (Request × Bool × Came) → List (List (Text × Request) × Out)
  | _, [] => []
  | st, (req, reach, came) :: rest =>
    let r := relayStep v u p rules st req reach came
    r.2 :: relayRun v u p rules r.1 rest

end Wm.Pass
