import Verif.Model.Types
import Verif.Model.Reverse
/-!
Which addresses are listened on and which part of the configuration serves a connection: listeners for HTTP
(src/reverse/http.rs:185-260, src/wmcore.rs:299-329) and for streams (src/reverse/stream.rs:67-136,
src/wmcore.rs:330-339), and whether connections of the tunnel are encrypted (src/option.rs:350-677).

The operating system is a parameter: `grants open a` says whether a listener for `a` can be opened (`Helper::bind`)
when those of `open` are open already.
-/
namespace Wm.Listen
open Wm

/-! ### HTTP -/

/-- The certificate settings of a server block: not both of certificate and key are configured; they are configured
    and can be loaded and used; they are configured and loading them or adding them to the resolver fails
    (src/reverse/http.rs:198-214) -/
inductive Cert where
  | absent | good | bad
deriving DecidableEq, Repr

/-- src/reverse/server.rs:33-62 `ServerConfig`, what is needed here -/
structure Block where
  /-- `bind_addr` -/
  plain : List SockAddr
  /-- `bind_ssl` -/
  tls : List SockAddr
  cert : Cert
  /-- `comm.domain` -/
  domain : Option Text
  /-- `up_name` and locations -/
  server : Reverse.Server
deriving DecidableEq, Repr

/-- an open listener and whether it speaks TLS (`listeners` and `tlss`) -/
abbrev Listeners := List (SockAddr × Bool)

/-- src/reverse/http.rs:216-227 (plain) and 229-242 (TLS): one list of addresses of a block; `certified` is `is_ssl`. The set of
    addresses seen so far (`bind_addr_set`) are those of the listeners: an address is added and then either gets a listener or
    ends the function with an error. -/
def openAll (grants : List SockAddr → SockAddr → Bool) (tls certified : Bool) : List SockAddr → Listeners → Option Listeners
  | [], ls => some ls
  | v :: vs, ls =>
    if v ∈ ls.map (·.1) then openAll grants tls certified vs ls
    else if tls && !certified then none
    else if grants (ls.map (·.1)) v then openAll grants tls certified vs (ls ++ [(v, tls)])
    else none

/-- src/reverse/http.rs:185-260 `bind`; `none`: an error, the service does not start -/
def bindHttp (grants : List SockAddr → SockAddr → Bool) : List Block → Listeners → Option Listeners
  | [], ls => some ls
  | b :: bs, ls =>
    if b.cert = .bad then none
    else match openAll grants false (b.cert == .good) b.plain ls with
      | none => none
      | some ls1 =>
        match openAll grants true (b.cert == .good) b.tls ls1 with
        | none => none
        | some ls2 => bindHttp grants bs ls2

/-- src/wmcore.rs:303-309: the blocks for a port (`WrapVecAddr::contains`, src/config/wrap.rs:133-140) -/
def portBlocks (bs : List Block) (port : BitVec 16) : List Block :=
  bs.filter fun b => b.plain.any (·.port == port) || b.tls.any (·.port == port)

/-- src/wmcore.rs:314-322: over TLS, the first block with the name the client asked for has the connection for itself -/
def bySni (bs : List Block) : Option Text → List Block
  | none => bs
  | some n =>
    match bs.find? (fun b => b.server.name == n) with
    | some b => [b]
    | none => bs

/-- the server block that serves a request naming `host` on a connection to the listener `l` -/
def serving (bs : List Block) (l : SockAddr × Bool) (sni : Option Text) (host : Text) : Option Reverse.Server :=
  Reverse.selectServer host
    ((if l.2 then bySni (portBlocks bs l.1.port) sni else portBlocks bs l.1.port).map (·.server))

/-- src/reverse/http.rs:208: the name under which a block's certificate is known -/
def certName (b : Block) : Text := b.domain.getD b.server.name

/-- The block whose certificate is shown to a client (src/reverse/http.rs:194-214, 244-256): with a single block its own, else
    that known under the name the client asked for. (A later certificate replaces an earlier one of the same name:
    `ResolvesServerCertUsingSni` of crate `rustls`; names are compared exactly here.) -/
def shown (bs : List Block) (sni : Option Text) : Option Block :=
  match bs with
  | [b] => if b.cert = .good then some b else none
  | bs =>
    match sni with
    | none => none
    | some n => bs.reverse.find? (fun b => b.cert == .good && certName b == n)

/-! ### Streams -/

/-- src/reverse/server.rs:33-62, for streams -/
structure StreamBlock where
  /-- `bind_addr` -/
  addrs : List SockAddr
  /-- `bind_mode == "udp"` -/
  udp : Bool
  name : Text
deriving DecidableEq, Repr

/-- src/reverse/stream.rs:72-87: the addresses of one block. `bind_port` are the ports of the listeners. -/
def streamAddrs (grants : List SockAddr → SockAddr → Bool) (b : StreamBlock) :
    List SockAddr → List (SockAddr × StreamBlock) → Option (List (SockAddr × StreamBlock))
  | [], ls => some ls
  | v :: vs, ls =>
    if v.port ∈ ls.map (·.1.port) then streamAddrs grants b vs ls
    else if grants (ls.map (·.1)) v then streamAddrs grants b vs (ls ++ [(v, b)])
    else none

/-- src/reverse/stream.rs:67-91 `bind`: the listeners with the blocks for which they were opened (a UDP listener keeps its block,
    line 79; for TCP see `streamPick`) -/
def streamBind (grants : List SockAddr → SockAddr → Bool) :
    List StreamBlock → List (SockAddr × StreamBlock) → Option (List (SockAddr × StreamBlock))
  | [], ls => some ls
  | b :: bs, ls =>
    match streamAddrs grants b b.addrs ls with
    | none => none
    | some ls1 => streamBind grants bs ls1

/-- src/reverse/stream.rs:103-104: the block that serves a TCP connection to a port -/
def streamPick (bs : List StreamBlock) (port : BitVec 16) : Option StreamBlock :=
  bs.find? fun b => b.addrs.any (·.port == port)

/-- TCP connections to stream listeners: `StreamConfig::process` holds the lock on the configuration while it forwards a
    connection (src/reverse/stream.rs:102-134). `active` holds the lock, `waiting` wait for it (the lock is fair:
    `tokio::sync::Mutex`); connections are numbered in the order of their tasks asking for the lock. -/
structure Tcp where
  next : Nat
  active : Option Nat
  waiting : List Nat
  /-- connections that were forwarded, and those that have ended -/
  started : List Nat
  ended : List Nat
deriving DecidableEq, Repr

inductive TcpEvent where
  /-- a connection is accepted and its task asks for the lock -/
  | accept
  /-- forwarding the active connection ends -/
  | finish
deriving DecidableEq, Repr

def Tcp.init : Tcp := ⟨0, none, [], [], []⟩

def Tcp.step (s : Tcp) : TcpEvent → Tcp
  | .accept =>
    match s.active with
    | none => { s with next := s.next + 1, active := some s.next, started := s.started ++ [s.next] }
    | some _ => { s with next := s.next + 1, waiting := s.waiting ++ [s.next] }
  | .finish =>
    match s.active, s.waiting with
    | none, _ => s
    | some n, [] => { s with active := none, ended := s.ended ++ [n] }
    | some n, m :: ms => { s with active := some m, waiting := ms, started := s.started ++ [m], ended := s.ended ++ [n] }

def Tcp.run (es : List TcpEvent) : Tcp := es.foldl Tcp.step .init

/-! ### Encryption of the tunnel -/

/-- one section of a PEM file (crate `rustls_pemfile`). Certificates and keys are only told apart here. -/
inductive PemItem where
  | cert (c : Nat)
  /-- `BEGIN RSA PRIVATE KEY` (PKCS#1) -/
  | rsaKey (k : Nat)
  /-- `BEGIN PRIVATE KEY` (PKCS#8), `BEGIN EC PRIVATE KEY` -/
  | otherKey (k : Nat)
deriving DecidableEq, Repr

/-- `rustls_pemfile::certs` keeps these -/
def PemItem.asCert : PemItem → Option Nat
  | .cert c => some c
  | _ => none

/-- `rustls_pemfile::rsa_private_keys` keeps these -/
def PemItem.asRsa : PemItem → Option Nat
  | .rsaKey k => some k
  | _ => none

/-- The settings of src/option.rs:84-124, 231-263 that decide on TLS. A file is its sections, or `none` if it cannot be read or is no PEM
    file. -/
structure TunnelTls where
  /-- accept tunnel connections over TLS -/
  tc : Bool
  /-- connect to the server over TLS -/
  ts : Bool
  twoWay : Bool
  cert : Option (Option (List PemItem))
  key : Option (Option (List PemItem))

/-- crate `rustls`: what it accepts, and the built-in certificates and key (src/option.rs:357-424, 433-463) -/
structure Rustls where
  builtinCerts : List Nat
  builtinKey : Nat
  /-- `RootCertStore::add` -/
  root : Nat → Bool
  /-- `WebPkiClientVerifier::build` -/
  verifier : List Nat → Bool
  /-- `with_single_cert`, `with_client_auth_cert` -/
  single : List Nat → Nat → Bool

/-- src/option.rs:350-425 `load_certs` -/
def loadCerts (r : Rustls) : Option (Option (List PemItem)) → Res (List Nat)
  | none => .ok r.builtinCerts
  | some none => .err .ioError
  | some (some items) => .ok (items.filterMap PemItem.asCert)

/-- src/option.rs:427-477 `load_keys` -/
def loadKeys (r : Rustls) : Option (Option (List PemItem)) → Res Nat
  | none => .ok r.builtinKey
  | some none => .err .ioError
  | some (some items) =>
    match items.filterMap PemItem.asRsa with
    | [k] => .ok k
    | _ => .err .ioError

/-- what one side of a connection shows, and whether it demands a certificate under these roots -/
structure TlsEnd where
  certs : List Nat
  key : Nat
  demands : Option (List Nat)
deriving DecidableEq, Repr

/-- src/option.rs:500-534 `get_tls_accept`, from the line of the settings on -/
def tlsAccept (r : Rustls) (c : TunnelTls) : Res TlsEnd :=
  if !c.tc then .err .protNoSupport
  else match loadCerts r c.cert with
    | .panic => .panic
    | .err e => .err e
    | .ok certs =>
      match loadKeys r c.key with
      | .panic => .panic
      | .err e => .err e
      | .ok key =>
        if c.twoWay then
          if !certs.all r.root then .panic
          else if !r.verifier certs then .err .extension
          else if r.single certs key then .ok ⟨certs, key, some certs⟩ else .err .ioError
        else if r.single certs key then .ok ⟨certs, key, none⟩ else .err .ioError

/-- what a client shows (if it shows anything), and which roots it trusts besides the public ones -/
structure TlsClient where
  shows : Option (List Nat × Nat)
  roots : List Nat
deriving DecidableEq, Repr

/-- src/option.rs:537-558 `get_tls_request` -/
def tlsRequest (r : Rustls) (c : TunnelTls) : Res TlsClient :=
  if !c.ts then .err .protNoSupport
  else match loadCerts r c.cert with
    | .panic => .panic
    | .err e => .err e
    | .ok certs =>
      if c.twoWay then
        match loadKeys r c.key with
        | .panic => .panic
        | .err e => .err e
        | .ok key => if r.single certs key then .ok ⟨some (certs, key), certs.filter r.root⟩ else .err .ioError
      else .ok ⟨none, certs.filter r.root⟩

/-- What a connection is made with. -/
inductive Wire (α : Type) where
  | tls (e : α)
  | clear
deriving DecidableEq, Repr

/-- src/option.rs:577-578: `.ok()` -/
def orClear {α : Type} : Res α → Option (Wire α)
  | .ok e => some (.tls e)
  | .err _ => some .clear
  | .panic => none

/-- How the server talks to a client that connects (src/option.rs:577, src/wmcore.rs:262-278). `none`: the service does not
    start. -/
def acceptedOver (r : Rustls) (c : TunnelTls) : Option (Wire TlsEnd) := orClear (tlsAccept r c)

/-- How a client talks to the server (src/option.rs:578, src/streams/center_client.rs:92-114 `inner_connect`,
    src/streams/center_trans.rs:44-71). -/
def connectedOver (r : Rustls) (c : TunnelTls) : Option (Wire TlsClient) := orClear (tlsRequest r c)

/-- src/option.rs:480-497 `get_map_tls_accept` -/
def mapAccept (r : Rustls) (cert key : Option (Option (List PemItem))) : Res TlsEnd :=
  match loadCerts r cert with
  | .panic => .panic
  | .err e => .err e
  | .ok certs =>
    match loadKeys r key with
    | .panic => .panic
    | .err e => .err e
    | .ok key => if r.single certs key then .ok ⟨certs, key, none⟩ else .err .ioError

/-- src/option.rs:643-658 (in `bind_map`): the listener for HTTPS visitors of the tunnel. `asked`: an address is configured;
    `opens`: it can be opened. `none`: the service does not start; `some none`: it starts without the listener. -/
def mapHttps (r : Rustls) (asked opens : Bool) (cert key : Option (Option (List PemItem))) : Option (Option TlsEnd) :=
  if asked then
    if opens then
      match mapAccept r cert key with
      | .ok e => some (some e)
      | .err _ => some none
      | .panic => none
    else none
  else some none

end Wm.Listen
