import Verif.Model.Reverse
/-! Passing settings from outer to inner blocks (src/reverse/{common,server,http}.rs). -/
namespace Wm.Reverse
open Wm Wm.Config Wm.Helper

/-- `log::Level` (crate `log`) -/
inductive Level where
  | error | warn | info | debug | trace
deriving DecidableEq, Repr

/-- src/config/log.rs:20-24 `ConfigLog` -/
structure LogTo where
  name : Text
  format : Text
  level : Level
deriving DecidableEq, Repr

/-- src/config/log.rs:35-44 `ConfigLog::as_error`; `level` reads a level name (crate `log`) -/
def LogTo.asError (level : Text → Option Level) (c : LogTo) : LogTo :=
  if c.format = [] then c
  else { c with level := (level c.format).getD .trace, format := [] }

/-- a map with texts as keys (`HashMap<String, _>`), the first entry of a key counts -/
abbrev Table (V : Type) := List (Text × V)

def Table.get {V : Type} (t : Table V) (k : Text) : Option V := (t.find? (fun e => e.1 = k)).map (·.2)

/-- `HashMap::insert` -/
def Table.put {V : Type} (t : Table V) (e : Text × V) : Table V := e :: t.filter (fun x => x.1 ≠ e.1)

/-- src/reverse/common.rs:27-72 `CommonConfig`. Durations, sizes, rates and addresses are texts. -/
structure Common where
  maxReadBuf : Option Text
  rateLimit : Option Text
  clientReadTimeout : Option Text
  clientWriteTimeout : Option Text
  clientTimeout : Option Text
  clientKaTimeout : Option Text
  proxyConnectTimeout : Option Text
  proxyReadTimeout : Option Text
  proxyWriteTimeout : Option Text
  proxyTimeout : Option Text
  logFormat : Table Text
  logNames : Table Text
  accessLog : Option LogTo
  errorLog : Option LogTo
  limitReq : Option (Text × Nat)
  allowIp : Option (List IpGate)
  denyIp : Option (List IpGate)
  domain : Option Text
  proxyUrl : Option Text
  matchNames : Table Rule

/-- src/reverse/common.rs:75-105 -/
def Common.new : Common :=
  ⟨none, none, none, none, none, none, none, none, none, none, [], [], none, none, none, none, none, none, none, []⟩

/-- src/reverse/common.rs:109-111 and alike: `if self.x.is_none() && parent.x.is_some() { self.x = parent.x.clone() }` -/
def orParent {α : Type} (own parent : Option α) : Option α :=
  if own.isNone && parent.isSome then parent else own

/-- src/reverse/common.rs:127-129: insert every entry of the parent -/
def overwrite {V : Type} (own parent : Table V) : Table V := parent.foldl Table.put own

/-- src/reverse/common.rs:151-155: insert the entries of the parent that are missing -/
def addMissing {V : Type} (own parent : Table V) : Table V :=
  parent.foldl (fun t e => if (t.get e.1).isSome then t else t.put e) own

/-- src/reverse/common.rs:108-156 `copy_from_parent` -/
def Common.copyFromParent (c parent : Common) : Common :=
  { c with
    maxReadBuf := orParent c.maxReadBuf parent.maxReadBuf
    rateLimit := orParent c.rateLimit parent.rateLimit
    clientReadTimeout := orParent c.clientReadTimeout parent.clientReadTimeout
    clientWriteTimeout := orParent c.clientWriteTimeout parent.clientWriteTimeout
    proxyConnectTimeout := orParent c.proxyConnectTimeout parent.proxyConnectTimeout
    clientTimeout := orParent c.clientTimeout parent.clientTimeout
    logNames := overwrite c.logNames parent.logNames
    logFormat := overwrite c.logFormat parent.logFormat
    accessLog := if c.accessLog.isNone then parent.accessLog else c.accessLog
    errorLog := if c.errorLog.isNone then parent.errorLog else c.errorLog
    limitReq := if c.limitReq.isNone then parent.limitReq else c.limitReq
    allowIp := if c.allowIp.isNone then parent.allowIp else c.allowIp
    denyIp := if c.denyIp.isNone then parent.denyIp else c.denyIp
    matchNames := addMissing c.matchNames parent.matchNames }

/-- src/reverse/common.rs:158-163 `pre_deal` -/
def Common.preDeal (level : Text → Option Level) (c : Common) : Common :=
  { c with errorLog := c.errorLog.map (LogTo.asError level) }

/-- src/plugins/file_server.rs `FileServer`, the settings touched here -/
structure FileConf where
  root : Option Text
  pfx : Text
  comm : Common

/-- src/plugins/file_server.rs:205-209, 215-218 `set_prefix` -/
def FileConf.setPrefix (f : FileConf) (p : Text) : FileConf := { f with pfx := (stripSuffix ['/'] p).getD p }

/-- src/reverse/location.rs:28-57 `LocationConfig`, before the settings are shared; `α` are header rules, `β` upstreams -/
structure LocConf (α β : Type) where
  rule : Rule
  fileServer : Option FileConf
  headers : List α
  upName : Option Text
  root : Option Text
  upstream : List β
  comm : Common

/-- src/reverse/server.rs:33-61 `ServerConfig` -/
structure SrvConf (α β : Type) where
  upName : Text
  root : Option Text
  headers : List α
  location : List (LocConf α β)
  upstream : List β
  comm : Common

/-- src/reverse/http.rs:91-104 `HttpConfig` -/
structure HttpConf (α β : Type) where
  server : List (SrvConf α β)
  upstream : List β
  comm : Common

/-- src/reverse/matcher.rs:57-64 `get_match_name` -/
def Rule.matchName (m : Rule) : Option Text :=
  match m.path with
  | some ('@' :: p) => some (p.filter (· ≠ '@'))
  | _ => none

/-- src/reverse/matcher.rs:66-78 `get_path` -/
def Rule.getPath (m : Rule) : Text :=
  match m.path with
  | some p => if '*' ∈ p then
      let v := p.filter (· ≠ '*')
      if v ≠ [] then v else ['/']
    else p
  | none => ['/']

/-- src/reverse/server.rs:97-123: the body of the loop of `copy_to_child` -/
def LocConf.fromServer {α β : Type} (level : Text → Option Level) (s : SrvConf α β) (l : LocConf α β) : LocConf α β :=
  let comm := (l.comm.copyFromParent s.comm).preDeal level
  let rule := match l.rule.matchName with
    | some n => (comm.matchNames.get n).getD l.rule
    | none => l.rule
  let taken := l.root.isNone && s.root.isSome
  { rule := rule
    comm := comm
    upName := some s.upName
    upstream := l.upstream ++ s.upstream
    headers := l.headers ++ s.headers
    root := if taken then s.root else l.root
    fileServer := if taken then l.fileServer.map (fun f =>
        let f := if f.root.isNone && s.root.isSome then { f with root := s.root } else f
        let f := if f.pfx = [] then f.setPrefix (Rule.getPath rule) else f
        { f with comm := comm })
      else l.fileServer }

/-- src/reverse/server.rs:96-124 `ServerConfig::copy_to_child` -/
def SrvConf.copyToChild {α β : Type} (level : Text → Option Level) (s : SrvConf α β) : SrvConf α β :=
  { s with location := s.location.map (LocConf.fromServer level s) }

/-- src/reverse/http.rs:130-135: the body of the loop of `copy_to_child` -/
def SrvConf.fromHttp {α β : Type} (level : Text → Option Level) (h : HttpConf α β) (s : SrvConf α β) : SrvConf α β :=
  SrvConf.copyToChild level
    { s with upstream := s.upstream ++ h.upstream, comm := (s.comm.copyFromParent h.comm).preDeal level }

/-- src/reverse/http.rs:128-136 `HttpConfig::copy_to_child` -/
def HttpConf.copyToChild {α β : Type} (level : Text → Option Level) (h : HttpConf α β) : HttpConf α β :=
  let h' := { h with comm := h.comm.preDeal level }
  { h' with server := h.server.map (SrvConf.fromHttp level h') }

end Wm.Reverse
