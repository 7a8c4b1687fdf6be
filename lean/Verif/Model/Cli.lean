import Verif.Model.Listen
import Verif.Model.Target
/-! The command line (src/arg.rs, src/main.rs): from options to a configuration, and how the process ends.
    Parsing of the arguments into options is external (crate `bpaf`), as is reading YAML and TOML. `P` are the settings of
    the subcommand `proxy`. -/
namespace Wm.Cli
open Wm Wm.Config Wm.Reverse Wm.Target

/-- `log::LevelFilter` -/
inductive Level where
  | off | error | warn | info | debug | trace
deriving DecidableEq, Repr

/-- src/arg.rs:36-61 `Shared`: options of every subcommand -/
structure Shared where
  control : SockAddr
  disableStdout : Bool
  disableControl : Bool
  daemon : Bool
  forever : Bool
  verbose : Bool
  defaultLevel : Option Level
  pidfile : Text
deriving DecidableEq, Repr

/-- src/plugins/file_server.rs `FileServer`: the settings set here -/
structure FileOpts where
  root : Option Text
  pfx : Text
  robots : Option Text
  path404 : Option Text
  cacheTime : Option Text
  cors : Bool
  browse : Bool
  extMimetype : List Text
deriving DecidableEq, Repr

/-- src/plugins/file_server.rs:183-203 `FileServer::new` -/
def FileOpts.new (root pfx : Text) : FileOpts where
  root := if root ≠ [] then some root else none
  pfx := (stripSuffix ['/'] pfx).getD pfx
  robots := none
  path404 := none
  cacheTime := none
  cors := false
  browse := true
  extMimetype := []

/-- `http` settings with one block and one location: the listeners and certificate of the block, what is special to the
    location, and the rest (`Verif.Model.Inherit`) -/
structure OneHttp where
  listen : List SockAddr
  listenSsl : List SockAddr
  cert : Option Text
  key : Option Text
  isWs : Bool
  file : Option FileOpts
  conf : HttpConf HeaderRule Group

/-- `stream` settings with one block -/
structure OneStream where
  listen : List SockAddr
  mode : Text
  upName : Text
  domain : Option Text
  accessLog : Option Text
  /-- of the block, of the outer settings -/
  own : List Group
  outer : List Group

/-- `http` and `stream` settings: made here, or read from a file (`F`) -/
inductive Made (F M : Type) where
  | file (f : F)
  | made (m : M)

/-- src/option.rs:275-297 `ConfigOption` -/
structure Conf (P F : Type) where
  proxy : Option P
  http : Option (Made F OneHttp)
  stream : Option (Made F OneStream)
  control : SockAddr
  disableStdout : Bool
  disableControl : Bool
  pidfile : Text
  defaultLevel : Option Level

/-- src/arg.rs:105-151 -/
structure FileServerArgs where
  root : Text
  listen : List SockAddr
  listenSsl : Option (List SockAddr)
  cert : Option Text
  key : Option Text
  domain : Option Text
  browse : Bool
  robots : Option Text
  path404 : Option Text
  cacheTime : Option Text
  extMimetype : List Text
  cors : Bool
  header : List HeaderRule
  accessLog : Option Text

/-- src/arg.rs:155-179 -/
structure ReverseArgs where
  from' : List SockAddr
  to : SockAddr
  header : List HeaderRule
  accessLog : Option Text
  tls : Bool
  ws : Bool

/-- src/arg.rs:183-208 -/
structure WsArgs where
  from' : List SockAddr
  to : SockAddr
  accessLog : Option Text
  mode : Text
  domain : Option Text
  ws : Bool

/-- src/arg.rs:215-225. (`stop` and `reload` with an address are requests to the control server: C90, C100.) -/
inductive Cmd (P : Type) where
  | proxy (p : P)
  | run (path : Text)
  | check (path : Text)
  /-- without configuration and url -/
  | stop
  | fileServer (a : FileServerArgs)
  | wsProxy (a : WsArgs)
  | reverseProxy (a : ReverseArgs)
  | version

/-- External: the file's text (`none`: it cannot be read), the extension of a path, YAML and TOML; `afterLoad` stands for
    the checks of `after_load_option` (src/option.rs:695-703): request limits; `kill` is the exit status of the program
    `kill` for a process id. -/
structure World (P F : Type) where
  read : Text → Option Text
  extension : Text → Option Text
  parse : Text → Text → Option (Conf P F)
  afterLoad : Conf P F → Bool
  kill : Text → Nat

/-- how `parse_env` (src/arg.rs:335-578) ends -/
inductive Start (P F : Type) where
  /-- the process ends with this status, having printed `said` -/
  | exit (status : Nat) (said : Option Bool)
  | err
  | panic
  | serve (c : Conf P F)

variable {P F : Type}

/-- src/arg.rs:294-315 `read_config_from_path` -/
def readConfig (w : World P F) (path : Text) : Res (Conf P F) :=
  match w.read path with
  | none => .err .ioError
  | some text => match w.extension path with
    | none => .panic
    | some ext =>
      if ext = "yaml".toList ∨ ext = "toml".toList then
        match w.parse ext text with
        | some c => .ok c
        | none => .err .ioError
      else .err .ioError

/-- `after_load_option()?; return Ok(option)` -/
def load (w : World P F) (c : Conf P F) : Start P F := if w.afterLoad c then .serve c else .err

/-- src/arg.rs:380-388 the configuration made from the options of every subcommand -/
def base (s : Shared) : Conf P F where
  proxy := none
  http := none
  stream := none
  control := s.control
  disableStdout := s.disableStdout
  disableControl := s.disableControl
  pidfile := s.pidfile
  defaultLevel := if s.verbose then some .trace else s.defaultLevel

/-- src/reverse/matcher.rs:50-55 `Matcher::new` -/
def anyPath : Rule := ⟨some ['*'], none, none, none, none, none⟩

/-- src/arg.rs:498-505, 526-533, 558-565: the access log -/
def withLog (access : Option Text) (c : Common) : Common :=
  match access with
  | none => c
  | some a => { c with
      accessLog := some ⟨"access".toList, "main".toList, .trace⟩
      logNames := c.logNames.put ("access".toList, a) }

/-- src/arg.rs:472-512; `none`: the process ends (477-480) -/
def fileServerConf (a : FileServerArgs) : Option OneHttp :=
  if a.listenSsl.isSome && (a.cert.isNone || a.key.isNone) then none
  else
    let file := { FileOpts.new a.root [] with
      robots := a.robots
      cacheTime := a.cacheTime
      cors := a.cors
      path404 := a.path404 }
    some {
      listen := a.listen
      listenSsl := a.listenSsl.getD []
      cert := if a.listenSsl.isSome then a.cert else none
      key := if a.listenSsl.isSome then a.key else none
      isWs := false
      file := some file
      conf := {
        server := [{
          upName := []
          root := none
          headers := []
          location := [⟨anyPath, some ⟨file.root, file.pfx, Common.new⟩, a.header, none, none, [], Common.new⟩]
          upstream := []
          comm := if a.listenSsl.isSome then { Common.new with domain := a.domain } else Common.new }]
        upstream := []
        comm := withLog a.accessLog Common.new } }

/-- src/reverse/upstream.rs:71-77 `new_single` -/
def single (name : Text) (to : SockAddr) : Group := ⟨name, [Health.Server.simple to]⟩

/-- src/arg.rs:513-540; `none`: the process ends (520-523) -/
def wsConf (a : WsArgs) : Option OneStream :=
  let mode := a.mode.map asciiLower
  if mode ≠ "ws2tcp".toList ∧ mode ≠ "tcp2ws".toList ∧ mode ≠ "tcp2wss".toList then none
  else some {
    listen := a.from'
    mode := a.mode
    upName := "server".toList
    domain := a.domain
    accessLog := a.accessLog
    own := []
    outer := [single "server".toList a.to] }

/-- src/arg.rs:541-572 -/
def reverseConf (a : ReverseArgs) : OneHttp where
  listen := a.from'
  listenSsl := []
  cert := none
  key := none
  isWs := a.ws
  file := none
  conf := {
    server := [{
      upName := []
      root := none
      headers := []
      location := [⟨anyPath, none, a.header, none, none, [],
        { Common.new with proxyUrl := some (if a.tls then "https://server".toList else "http://server".toList) }⟩]
      upstream := []
      comm := Common.new }]
    upstream := [single "server".toList a.to]
    comm := withLog a.accessLog Common.new }

/-- src/arg.rs:380-577 `parse_env`, after the options `daemon` and `forever`. The text of `check` is `said`. -/
def start (w : World P F) (s : Shared) : Cmd P → Start P F
  | .proxy p => load w { (base s : Conf P F) with proxy := some p }
  | .check path => match readConfig w path with
    | .ok _ => .exit 0 (some true)
    | .err _ => .exit 0 (some false)
    | .panic => .panic
  | .run path => match readConfig w path with
    | .ok c => load w (if s.verbose then { c with defaultLevel := some .trace } else c)
    | .err _ => .err
    | .panic => .panic
  | .stop => match w.read s.pidfile with
    | none => .err
    | some id => if id = [] then .exit 255 none else .exit (w.kill id) none
  | .fileServer a => match fileServerConf a with
    | none => .exit 0 none
    | some h => load w { (base s : Conf P F) with http := some (.made h), disableControl := true }
  | .wsProxy a => match wsConf a with
    | none => .exit 0 none
    | some h => load w { (base s : Conf P F) with stream := some (.made h), disableControl := true }
  | .reverseProxy a => load w { (base s : Conf P F) with http := some (.made (reverseConf a)), disableControl := true }
  | .version => .exit 0 none

/-! ### the process -/

/-- how a started process ends -/
inductive Served where
  /-- `start_serve` returned, with or without an error -/
  | returned (ok : Bool)
  /-- a panic of the main task -/
  | panicked
  /-- `exit(n)` somewhere in the service (src/option.rs:593, 601) -/
  | exited (n : Nat)
  | killed
deriving DecidableEq, Repr

/-- src/main.rs:28-33 `main` with 16-26 `run_main`: the exit status, `none` when killed. `served` says how serving would end.
    A panic of the main task ends the process with status 101. -/
def status (r : Start P F) (served : Served) : Option Nat :=
  match r with
  | .exit n _ => some n
  | .err => some 0
  | .panic => some 101
  | .serve _ => match served with
    | .returned _ => some 0
    | .panicked => some 101
    | .exited n => some n
    | .killed => none

/-- src/arg.rs:351-371 `--forever`: the number of processes started for this list of endings, and whether it ended -/
def forever : List (Option Nat) → Nat × Bool
  | [] => (1, false)
  | some 0 :: _ => (1, true)
  | _ :: es => ((forever es).1 + 1, (forever es).2)

/-! ### the parts of the program that use the configuration -/

/-- the listeners and locations of the loaded configuration (`after_load_option`, then src/reverse/http.rs) -/
def OneHttp.blocks (level : Text → Option Reverse.Level) (cert : Option Text → Option Text → Listen.Cert) (h : OneHttp) :
    List Listen.Block :=
  (h.conf.copyToChild level).server.map fun s =>
    ⟨h.listen, h.listenSsl, cert h.cert h.key, s.comm.domain, ⟨s.upName, s.location.map fun l =>
      ⟨l.rule, l.upName, none,
        if h.file.isSome then .plain else if l.comm.proxyUrl.isSome then .proxy else .nothing,
        l.headers, h.isWs, l.comm.limitReq, l.comm.allowIp, l.comm.denyIp, none⟩⟩⟩

end Wm.Cli
