import Verif.Model.Types
import Verif.Model.Inherit
import Verif.Model.Health
/-! Where proxied requests, forwarded connections and WebSocket sessions are connected to
    (src/reverse/{location,server,reverse_helper,stream,ws}.rs). -/
namespace Wm.Target
open Wm Wm.Health

/-- schemes of URLs (crate `webparse`); `none` when the text has no scheme -/
inductive Scheme where
  | none | http | https | ws | wss
deriving DecidableEq, Repr

/-- a parsed `proxy_url` (crate `webparse`, `Url`): the parts that are used. (User, password and query are left out.) -/
structure Url where
  scheme : Scheme
  domain : Option Text
  port : Option (BitVec 16)
  path : Text
deriving DecidableEq, Repr

/-- src/reverse/upstream.rs:61-68 `UpstreamConfig` (its `bind` is not used) -/
structure Group where
  name : Text
  servers : List (Server SockAddr)

/-- External functions. `connectUrl`: `Url::get_connect_url` (crate `webparse`), the host and port to connect to.
    `ipText`: the text of an address. `resolve`: the addresses of a host (`ToSocketAddrs`), `none` for an error.
    `parseUrl`: reading a URL. -/
structure Ext where
  connectUrl : Url → Option (Text × BitVec 16)
  ipText : IpAddr → Text
  resolve : Text → Option (List IpAddr)
  parseUrl : Text → Option Url

/-- how a server of a group is picked at this moment (`UpstreamConfig::get_server_addr`) -/
abbrev Pick := List (Server SockAddr) → Res (Option SockAddr)

/-- src/reverse/upstream.rs:78-109: with the records `h`, at time `now`, with the random draw `draw` -/
def pickAt (checked : Bool) (h : Check SockAddr) (now : Nat) (draw : Nat → Nat) : Pick :=
  fun ss => getServer checked h now ss draw

/-- src/reverse/reverse_helper.rs:24-33 `get_upstream_addr` -/
def upstreamAddr (pick : Pick) : List Group → Text → Res (Option SockAddr)
  | [], _ => .ok none
  | g :: gs, name =>
    if g.name = name then pick g.servers
    else if name = [] then pick g.servers
    else upstreamAddr pick gs name

/-- a connection about to be made for a request -/
structure Dial where
  host : Text
  port : BitVec 16
  /-- TLS is used, for this server name -/
  tls : Option Text
  /-- the `Host` header of the request that is sent -/
  hostHeader : Text × BitVec 16
deriving DecidableEq, Repr

/-- src/reverse/location.rs:137-186 `deal_reverse_proxy`, up to the connection. The scheme `http` is the only one served
    without TLS (`Scheme::is_http`, crate `webparse`); the TLS server name is the domain of the URL (178-182). -/
def httpDial (x : Ext) (pick : Pick) (groups : List Group) (reqScheme : Scheme) (url : Url) : Res Dial :=
  match url.domain with
  | none => .panic
  | some d => do
    let a ← upstreamAddr pick groups d
    let url := match a with
      | some a => { url with domain := some (x.ipText a.ip), port := some a.port }
      | none => url
    let url := if url.scheme = .none then { url with scheme := reqScheme } else url
    match x.connectUrl url with
    | none => .err .extension
    | some c => .ok ⟨c.1, c.2, if url.scheme = .http then none else url.domain, c⟩

/-- how a location answers a request -/
inductive Handled where
  | file | fixed | proxy (d : Dial)
deriving DecidableEq, Repr

/-- src/reverse/location.rs:189-210 `deal_request`: `file`: it has a file server; `fixed`: it has a static response.
    The configured URL was read when the configuration was loaded; one that cannot be read is refused there. -/
def dealRequest (x : Ext) (pick : Pick) (file fixed : Bool) (proxyUrl : Option Text) (groups : List Group)
    (reqScheme : Scheme) : Res Handled :=
  if file then .ok .file
  else if fixed then .ok .fixed
  else match proxyUrl.bind x.parseUrl with
    | some url => do let d ← httpDial x pick groups reqScheme url; .ok (.proxy d)
    | none => .err .extension

/-- src/reverse/server.rs:152-157: a server of the group named by the URL, with the URL's port if it has one -/
def streamNamed (pick : Pick) (groups : List Group) (url : Url) : Res (Option SockAddr) :=
  match url.domain with
  | none => .ok none
  | some d => do
    let a ← upstreamAddr pick groups d
    .ok (match a, url.port with
      | some a, some p => some { a with port := p }
      | a, _ => a)

/-- src/reverse/server.rs:158-162: the first address of the URL's own host -/
def streamOwn (x : Ext) (url : Url) : Res (Option SockAddr) :=
  match x.connectUrl url with
  | none => .ok none
  | some c => match x.resolve c.1 with
    | none => .err .ioError
    | some ips => .ok (ips.head?.map fun ip => ⟨ip, c.2⟩)

/-- src/reverse/server.rs:145-169 `get_addr_domain`: address and domain for the connections of a stream block -/
def streamAddr (x : Ext) (pick : Pick) (upName : Text) (domain : Option Text) (url : Option Url) (groups : List Group) :
    Res (Option SockAddr × Option Text) := do
  let a ← match url with
    | none => .ok none
    | some u => do
      let a ← streamNamed pick groups u
      match a with
      | some a => .ok (some a)
      | none => streamOwn x u
  let a ← match a with
    | some a => .ok (some a)
    | none => upstreamAddr pick groups upName
  .ok (a, if domain.isNone then url.bind (·.domain) else domain)

/-- src/reverse/stream.rs:59-64 `copy_to_child`: the groups of a stream block -/
def streamGroups (own outer : List Group) : List Group := own ++ outer

/-- what is done with a connection to a stream block -/
inductive Forward where
  | wsToTcp (a : SockAddr) (domain : Option Text)
  | tcpToWs (a : SockAddr) (tls : Bool) (domain : Option Text)
  | tcp (a : SockAddr)
deriving DecidableEq, Repr

/-- src/reverse/stream.rs:92-136 `process`, for the block that serves the connection -/
def forward (x : Ext) (pick : Pick) (mode upName : Text) (domain : Option Text) (url : Option Url) (groups : List Group) :
    Res Forward := do
  let r ← streamAddr x pick upName domain url groups
  match r.1 with
  | none => .err .extension
  | some a =>
    if mode = "ws2tcp".toList then .ok (.wsToTcp a r.2)
    else if mode = "tcp2ws".toList then .ok (.tcpToWs a false r.2)
    else if mode = "tcp2wss".toList then .ok (.tcpToWs a true r.2)
    else .ok (.tcp a)

/-- src/reverse/stream.rs:265-271: the address for the datagrams of a new client of a UDP block; every group of the name
    is asked, the last answer counts -/
def udpAddr (pick : Pick) (upName : Text) : List Group → Option SockAddr → Res (Option SockAddr)
  | [], a => .ok a
  | g :: gs, a => do
    let a ← if g.name = upName then pick g.servers else .ok a
    udpAddr pick upName gs a

/-- src/reverse/location.rs:216-229 `get_upstream_addr` -/
def wsAddr (pick : Pick) (groups : List Group) (url : Option Url) : Res (Option SockAddr) :=
  upstreamAddr pick groups ((url.bind (·.domain)).getD [])

/-- src/reverse/location.rs:231-250 `get_reverse_url`: the URL connected to and the name used for TLS. `plain a` is the
    URL read from `http://a/` (246) -/
def wsUrl (x : Ext) (pick : Pick) (groups : List Group) (url : Option Url) (plain : SockAddr → Url) : Res (Url × Text) := do
  let a ← wsAddr pick groups url
  match a with
  | none => .err .extension
  | some a => match url with
    | some u => .ok ({ u with domain := some (x.ipText a.ip), port := some a.port }, u.domain.getD [])
    | none => .ok (plain a, x.ipText a.ip)

/-! ### WebSocket sessions -/

/-- a WebSocket message -/
inductive Msg where
  | text (b : Bytes) | binary (b : Bytes) | ping (b : Bytes) | pong (b : Bytes) | close (b : Option Bytes)
deriving DecidableEq, Repr

/-- one direction of a session: a channel and what came out at the far end -/
structure Dir where
  /-- read from the connection on the near side -/
  inn : List Msg
  /-- in the channel (capacity 10, src/reverse/ws.rs:53-54) -/
  queue : List Msg
  /-- handed to the connection on the far side -/
  out : List Msg
  /-- the receiving end still exists -/
  alive : Bool
deriving DecidableEq, Repr

/-- a session: with both directions, or accepted without an upstream (src/reverse/ws.rs:46, 73) -/
structure Sess where
  linked : Bool
  up : Dir
  down : Dir
  /-- the visitor's connection, the upstream connection are served -/
  visitor : Bool
  upstream : Bool
deriving DecidableEq, Repr

def Dir.empty (alive : Bool) : Dir := ⟨[], [], [], alive⟩

/-- src/reverse/ws.rs:35-76 `on_open`, after the location was found and allows WebSocket (`Reverse.wsOpen`): `url`: what
    `get_reverse_url` gives, `connects`: whether the connection can be made (48-51). `none`: the WebSocket is refused. -/
def wsStart (url : Res (Url × Text)) (connects : Bool) : Res (Option Sess) :=
  match url with
  | .ok _ => .ok (if connects then some ⟨true, Dir.empty true, Dir.empty true, true, true⟩ else none)
  | .err _ => .ok (some ⟨false, Dir.empty false, Dir.empty false, true, false⟩)
  | .panic => .panic

inductive Ev where
  /-- the visitor sent a message, which the connection read -/
  | fromVisitor (m : Msg)
  /-- the upstream server sent a message, which the connection read -/
  | fromUpstream (m : Msg)
  /-- the upstream connection takes the next message out of its channel and sends it -/
  | toUpstream
  /-- the visitor's connection takes the next message out of its channel and sends it -/
  | toVisitor
  /-- the upstream connection ends (error, or after a close) -/
  | upstreamEnds
  /-- the visitor's connection ends -/
  | visitorEnds
deriving DecidableEq, Repr

/-- the capacity of both channels (src/reverse/ws.rs:53-54) -/
def cap : Nat := 10

/-- sending into a channel: waits while it is full (the message is then not yet read), fails when the receiver is gone.
    The second result says whether sending worked. -/
def Dir.push (d : Dir) (m : Msg) : Option (Dir × Bool) :=
  if !d.alive then some ({ d with inn := d.inn ++ [m] }, false)
  else if d.queue.length < cap then some ({ d with inn := d.inn ++ [m], queue := d.queue ++ [m] }, true)
  else none

def Dir.pop (d : Dir) : Dir :=
  match d.queue with
  | [] => d
  | m :: ms => { d with queue := ms, out := d.out ++ [m] }

def Msg.isClose : Msg → Bool
  | .close _ => true
  | _ => false

/-- src/reverse/ws.rs:79-107 `on_close`, `on_ping`, `on_pong`, `on_message` of the visitor's side: every message is passed
    on as it is; a failure ends the connection (`?`), except for a close (81: ignored). 144-172 the same for the upstream
    side. A message waiting for room in the channel is not read: then nothing happens here. -/
def step (s : Sess) : Ev → Sess
  | .fromVisitor m =>
    if !s.visitor then s
    else if !s.linked then { s with up := { s.up with inn := s.up.inn ++ [m] } }
    else match s.up.push m with
      | none => s
      | some (d, ok) => { s with up := d, visitor := ok || m.isClose }
  | .fromUpstream m =>
    if !s.upstream then s
    else match s.down.push m with
      | none => s
      | some (d, ok) => { s with down := d, upstream := ok || m.isClose }
  | .toUpstream => if s.upstream then { s with up := s.up.pop } else s
  | .toVisitor => if s.visitor then { s with down := s.down.pop } else s
  | .upstreamEnds => { s with upstream := false, up := { s.up with alive := false } }
  | .visitorEnds => { s with visitor := false, down := { s.down with alive := false } }

def run (s : Sess) (evs : List Ev) : Sess := evs.foldl step s

end Wm.Target
