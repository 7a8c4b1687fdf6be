import Verif.Model.Helper
import Verif.Model.Limit
/-! Reverse proxy: choosing server and location, access rules, try_paths
    (src/reverse/{http,location,matcher,reverse_helper}.rs). -/
namespace Wm.Reverse
open Wm Wm.Config Wm.Helper

/-- The parts of a request that the code looks at. `clientIp` is the internal header `{client_ip}` set by the HTTP
    server of the crate `wenmeng` (absent for connections whose address that server was not told). Methods and schemes
    are texts. `host` is what `get_host` (crate `webparse`) gives, `body` what has not been taken out of the body. -/
structure Req where
  path : Text
  method : Text
  scheme : Text
  host : Option Text
  clientIp : Option Text
  body : Bytes
deriving DecidableEq, Repr

structure Response where
  status : Nat
  headers : List (Text × Text)
deriving DecidableEq, Repr

/-- `ProtResult<Response<Body>>` -/
inductive Out where
  | resp (r : Response)
  | err
deriving DecidableEq, Repr

/-- src/reverse/matcher.rs:36-47 `Matcher` -/
structure Rule where
  path : Option Text
  clientIp : Option (List IpGate)
  remoteIp : Option (List IpGate)
  host : Option Text
  method : Option (List Text)
  scheme : Option (List Text)
deriving DecidableEq, Repr

/-- src/reverse/location.rs:28-57 `LocationConfig`, the settings used here. `kind` says which handler is configured:
    the file server and the static response (`plain`), the proxy (`proxy`), or none (src/reverse/location.rs:198-209). -/
inductive Kind where
  | plain | proxy | nothing
deriving DecidableEq, Repr

structure Loc where
  rule : Rule
  upName : Option Text
  method : Option Text
  kind : Kind
  headers : List HeaderRule
  isWs : Bool
  /-- zone and burst (src/reverse/limit_req.rs) -/
  limit : Option (Text × Nat)
  allow : Option (List IpGate)
  deny : Option (List IpGate)
  /-- paths and status (src/reverse/try_paths.rs:27-30) -/
  tryPaths : Option (List Text × Nat)
deriving DecidableEq, Repr

/-- src/reverse/location.rs:72-76: what tells kept connections apart -/
def Loc.key (l : Loc) : Rule × Option Text × Option Text := (l.rule, l.upName, l.method)

structure Server where
  name : Text
  locs : List Loc
deriving DecidableEq, Repr

/-- the answer on a kept upstream connection (src/reverse/http.rs:356-374) -/
inductive Reuse where
  /-- already closed: line 357 -/
  | closed
  | answer (r : Response)
  | failed
  /-- closed without an answer: line 367 -/
  | gone
deriving DecidableEq, Repr

/-- External: address texts, regular expressions (crate `regex`; `none` when the text is not one or is empty),
    `Helper::format_req_may_regex`, header collections, the request limits (`Limit.Zones.recv` with the clock), the
    handlers and upstream servers. `W` is everything they may depend on. `left`: what `get_host` gives after the proxy of a
    location has put the address it connects to into the header `Host` (src/reverse/location.rs:156-158), and whether a
    connection was made, so that the request was sent although no answer came. -/
structure Env (W : Type) where
  parseIp : Text → Option Ip
  regex : Text → Option (Text → Bool)
  format : Req → Text → Text
  hdr : Headers
  limit : W → Text → Text → Nat → Limit.Decision × W
  /-- `none`: the handler returned an error -/
  fresh : W → Nat → Req → Option Response × W
  left : W → Nat → Req → Option Text × Bool
  reuse : W → Nat → Req → Reuse × W

variable {W : Type}

/-! ### matching -/

/-- src/reverse/matcher.rs:82-96: the path condition -/
def pathOk (env : Env W) (p path : Text) : Bool :=
  if isMatch path p then true
  else match env.regex p with
    | some re => re path
    | none => false

/-- src/reverse/matcher.rs:81-132 `Matcher::is_match_rule`; `none` is the error for an unreadable client address -/
def isMatchRule (env : Env W) (m : Rule) (req : Req) : Option Bool :=
  if m.path.elim false (fun p => !pathOk env p req.path) then some false
  else if m.method.elim false (fun ms => !ms.contains req.method) then some false
  else if m.scheme.elim false (fun ss => !ss.contains req.scheme) then some false
  else if m.host.elim false (fun h => !(req.host == some h)) then some false
  else match m.clientIp with
    | none => some true
    | some gs => match req.clientIp with
      | none => some false
      | some t => match env.parseIp t with
        | none => none
        | some ip => some (containsAny gs ip)

/-- src/reverse/location.rs:113-119 `LocationConfig::is_match_rule` -/
def Loc.isMatch (env : Env W) (l : Loc) (req : Req) : Bool := (isMatchRule env l.rule req).getD false

/-- src/reverse/http.rs:280-289: the first location not in `deals` that matches; `i` is the number of the first of
    `ls` -/
def findLoc (env : Env W) (deals : List Nat) (req : Req) : List Loc → Nat → Option (Nat × Loc)
  | [], _ => none
  | l :: ls, i =>
    if deals.contains i then findLoc env deals req ls (i + 1)
    else if l.isMatch env req then some (i, l)
    else findLoc env deals req ls (i + 1)

/-! ### handling -/

/-- what happens while a request is handled, in order -/
inductive Ev where
  /-- the limit of location `i` was asked -/
  | limited (i : Nat) (d : Limit.Decision)
  /-- the try list of location `i` was entered -/
  | tries (i : Nat)
  /-- the handler of location `i`, or its kept upstream connection, got the request -/
  | handled (i : Nat) (req : Req) (kept : Bool)
deriving Repr

structure St (W : Type) where
  world : W
  /-- the keys of the locations with a kept upstream connection (`cache`) -/
  cache : List (Rule × Option Text × Option Text)
  deals : List Nat
  tryDeals : List Nat
  trace : List Ev
  /-- `req: &mut Request<Body>`, as the last handler left it -/
  now : Req

/-- src/reverse/http.rs:298-305 with src/reverse/limit_req.rs:68-89: the response when refused. (The delay of 83 is only
    time.) -/
def limitStep (env : Env W) (i : Nat) (l : Loc) (req : Req) (s : St W) : St W × Option Response :=
  match l.limit with
  | none => (s, none)
  | some (zone, burst) => match req.clientIp with
    | none => (s, none)
    | some ip =>
      let r := env.limit s.world zone ip burst
      ({ s with world := r.2, trace := s.trace ++ [.limited i r.1] },
        if r.1 = .refuse then some ⟨404, []⟩ else none)

inductive Access where
  | pass | refuse | err
deriving DecidableEq, Repr

/-- src/reverse/http.rs:306-325 -/
def access (env : Env W) (l : Loc) (req : Req) : Access :=
  if l.deny.isSome || l.allow.isSome then
    match req.clientIp with
    | none => .pass
    | some t => match env.parseIp t with
      | none => .err
      | some ip =>
        if l.allow.elim false (fun gs => !containsAny gs ip) then .refuse
        else if l.deny.elim false (fun gs => containsAny gs ip) then .refuse
        else .pass
  else .pass

/-- src/reverse/location.rs:130 and src/reverse/http.rs:358 `replace_clone(Body::empty())`: the request is sent on with its
    body, what stays behind has none -/
def Req.taken (req : Req) : Req := { req with body := [] }

/-- src/reverse/location.rs:137-187: the request as the proxy leaves it -/
def Req.proxied (req : Req) (host : Option Text) (sent : Bool) : Req :=
  { req with host := host, body := if sent then [] else req.body }

/-- src/reverse/http.rs:353-388 with src/reverse/location.rs:185-210. A response of the proxy has the header rules
    applied (location.rs:185), one over a kept connection has not. The connection of a proxy is kept. -/
def handle (env : Env W) (i : Nat) (l : Loc) (req : Req) (s : St W) : St W × Out :=
  let s := { s with deals := i :: s.deals }
  if s.cache.contains l.key then
    let r := env.reuse s.world i req
    let s' := { s with world := r.2, cache := s.cache.filter (· ≠ l.key) }
    match r.1 with
    | .closed => (s', .resp ⟨404, []⟩)
    | .answer a =>
      ({ s' with cache := l.key :: s'.cache, trace := s'.trace ++ [.handled i req true], now := req.taken }, .resp a)
    | .failed => ({ s' with trace := s'.trace ++ [.handled i req true], now := req.taken }, .err)
    | .gone => ({ s' with trace := s'.trace ++ [.handled i req true], now := req.taken }, .resp ⟨503, []⟩)
  else if l.kind = .nothing then (s, .err)
  else
    let r := env.fresh s.world i req
    let h := env.left s.world i req
    let now := if l.kind = .proxy then req.proxied h.1 (r.1.isSome || h.2) else req
    let s' := { s with world := r.2, trace := s.trace ++ [.handled i req false], now := now }
    match r.1 with
    | none => (s', .err)
    | some a =>
      if l.kind = .proxy then
        ({ s' with cache := l.key :: s'.cache }, .resp { a with headers := rewriteAll env.hdr false l.headers a.headers })
      else (s', .resp a)

/-- `is_client_error() || is_server_error()` -/
def isError (status : Nat) : Bool := 400 ≤ status && status < 600

/-- src/reverse/http.rs:332-351: the loop over the try list, `go` being the recursive call. Only the path is set anew for
    each entry; host and body are as the attempt before left them. -/
def tryList (env : Env W) (go : St W → Req → Option (St W × Out)) (req : Req) (failStatus : Nat) :
    List Text → St W → Option (St W × Out)
  | [], s => some (s, .resp ⟨failStatus, []⟩)
  | v :: vs, s =>
    let r := { s.now with path := env.format { s.now with path := req.path } v }
    match go { s with deals := [], now := r } r with
    | none => none
    | some (s', .resp r) => if isError r.status then tryList env go req failStatus vs s' else some (s', .resp r)
    | some (s', .err) => tryList env go req failStatus vs s'

/-- src/reverse/http.rs:263-389 `deal_match_location`. The first argument bounds the depth of the recursion; `none` means
    that it was too small (`C47_terminates` shows that the number of locations plus one is enough). -/
def dealMatch (env : Env W) (locs : List Loc) : Nat → St W → Req → Option (St W × Out)
  | 0, _, _ => none
  | fuel + 1, s, req =>
    match findLoc env s.deals req locs 0 with
    | none => some (s, .resp ⟨404, []⟩)
    | some (i, l) =>
      match limitStep env i l req s with
      | (s, some r) => some (s, .resp r)
      | (s, none) =>
        match access env l req with
        | .err => some (s, .err)
        | .refuse => some (s, .resp ⟨503, []⟩)
        | .pass =>
          match l.tryPaths with
          | none => some (handle env i l req s)
          | some (list, status) =>
            if s.tryDeals.contains i then some (handle env i l req s)
            else tryList env (dealMatch env locs fuel) req status list
              { s with tryDeals := i :: s.tryDeals, trace := s.trace ++ [.tries i] }

/-- src/reverse/http.rs:399-403 the server block for a host (`""` when there is none) -/
def selectServer (host : Text) : List Server → Option Server
  | [] => none
  | [s] => some s
  | s :: t :: ss => if s.name = host ∨ host = [] then some s else selectServer host (t :: ss)

/-- src/reverse/http.rs:391-418 `inner_operate_by_http` for one request, with the connection's cache -/
def operate (env : Env W) (servers : List Server) (w : W) (cache : List (Rule × Option Text × Option Text)) (req : Req) : Option (St W × Out) :=
  match selectServer (req.host.getD []) servers with
  | none => some (⟨w, cache, [], [], [], req⟩, .resp ⟨503, []⟩)
  | some s => dealMatch env s.locs (s.locs.length + 1) ⟨w, cache, [], [], [], req⟩ req

/-! ### WebSocket -/

/-- src/reverse/reverse_helper.rs:39-48: the loop over the servers -/
def locationByReq (env : Env W) (req : Req) : List Server → Option Loc
  | [] => none
  | s :: ss =>
    if s.name = req.host.getD [] ∨ req.host.getD [] = [] ∨ ss = [] then
      match s.locs.find? (fun l => l.isMatch env req) with
      | some l => some l
      | none => locationByReq env req ss
    else locationByReq env req ss

/-- src/reverse/ws.rs:35-76 `on_open`: the location whose upstream is connected (when its upstream is known) -/
def wsOpen (env : Env W) (servers : List Server) (req : Req) : Option Loc :=
  match locationByReq env req servers with
  | none => none
  | some l => if l.isWs then some l else none

end Wm.Reverse
