import Verif.Model.Reverse
import Verif.Model.Cli
import Verif.Model.Texts
/-! The logs: which files are opened, where a record goes, and which lines the handling of a request writes
(src/helper.rs:170-222, 362-393, src/reverse/http.rs:116-125, 498-503, src/reverse/{server,common}.rs). -/
namespace Wm.Access
open Wm Wm.Config Wm.Reverse Wm.Texts

/-- the order of `log::Level`: error is the smallest -/
def rank : Reverse.Level → Nat
  | .error => 1
  | .warn => 2
  | .info => 3
  | .debug => 4
  | .trace => 5

/-- the order of `log::LevelFilter` -/
def rankFilter : Cli.Level → Nat
  | .off => 0
  | .error => 1
  | .warn => 2
  | .info => 3
  | .debug => 4
  | .trace => 5

/-! ### the files -/

/-- an opened log: appender and logger of this name, src/helper.rs:190-206 -/
structure Logger where
  name : Text
  file : Text
  level : Reverse.Level
deriving DecidableEq, Repr

/-- src/helper.rs:175-185: the text of a log is a path, or a path and a level -/
def openText (s : Text) : Text × Reverse.Level :=
  match splitOn (fun c => c = ' ') s with
  | p :: l :: _ => (p, (parseLevel l).getD .info)
  | _ => (s, .info)

/-- External: whether a file can be opened for appending (its directories are created), and whether crate `log4rs` takes a
    text as name of a logger -/
structure System where
  opens : Text → Bool
  named : Text → Bool

/-- the configuration given to `log4rs` -/
structure Loggers where
  loggers : List Logger
  root : Cli.Level
  stdout : Bool
deriving DecidableEq, Repr

/-- src/helper.rs:170-216 `try_init_log`. Panics when a file cannot be opened (193), and when `log4rs` rejects the
    configuration (215): a name it does not take, or two appenders of one name. Simplification: files opened before the
    panic stay. -/
def openLogs (sys : System) (level : Option Cli.Level) (disableStdout : Bool) (names : Table Text) : Res Loggers :=
  let ls : List Logger := names.map fun e => ⟨e.1, (openText e.2).1, (openText e.2).2⟩
  if ls.all (fun l => sys.opens l.file) && ls.all (fun l => sys.named l.name)
      && (disableStdout || !ls.any (fun l => l.name = "stdout".toList)) then
    .ok ⟨ls, level.getD .trace, !disableStdout⟩
  else .panic

/-- where a line goes -/
inductive Dest where
  | file (path : Text)
  | stdout
deriving DecidableEq, Repr

/-- Where a record of this target and level goes (crate `log4rs`): to the logger of that name and, as it is not additive
    (src/helper.rs:202), nowhere else; without such a logger to the root, that is the log `default` if there is one
    (194-196) and the terminal (207-211). Simplification: names without `::`, by which `log4rs` would look for the logger of
    a prefix. -/
def Loggers.dests (g : Loggers) (target : Text) (l : Reverse.Level) : List Dest :=
  match g.loggers.find? (fun x => x.name = target) with
  | some x => if rank l ≤ rank x.level then [.file x.file] else []
  | none =>
    if rank l ≤ rankFilter g.root then
      (g.loggers.filter (fun x => x.name = "default".toList)).map (fun x => .file x.file)
        ++ (if g.stdout then [.stdout] else [])
    else []

/-- src/reverse/http.rs:498-503, src/reverse/server.rs:127-132, src/reverse/common.rs:235-241 `get_log_names`: the http
    block, then each server with its locations; the first text for a name stays -/
def logNames {α β : Type} (h : HttpConf α β) : Table Text :=
  h.server.foldl (fun t s => s.location.foldl (fun t l => addMissing t l.comm.logNames) (addMissing t s.comm.logNames))
    (addMissing [] h.comm.logNames)

/-- src/reverse/http.rs:118 -/
def mainFormat : Text :=
  ("{d(%Y-%m-%d %H:%M:%S)} {client_ip} {l} {url} path:{path} query:{query} host:{host} status: {status} {up_status} referer: " ++
    "{referer} user_agent: {user_agent} cookie: {cookie}").toList

/-- src/reverse/http.rs:116-120 `after_load_option`. (The zones, 121-123, are C64.) -/
def afterLoad {α β : Type} (h : HttpConf α β) : HttpConf α β :=
  let comm := if (h.comm.logFormat.get "main".toList).isSome then h.comm
    else { h.comm with logFormat := h.comm.logFormat.put ("main".toList, mainFormat) }
  HttpConf.copyToChild parseLevel { h with comm := comm }

/-! ### the lines -/

/-- the settings of a location that `log_acess` gets -/
structure LogOf where
  formats : Table Text
  access : Option LogTo

/-- src/reverse/location.rs:197 -/
def logOf {α β : Type} (l : LocConf α β) : LogOf := ⟨l.comm.logFormat, l.comm.accessLog⟩

/-- src/helper.rs:362-393 `log_acess`; `line f`: the request in format `f` (C58, C91). A level not enabled goes nowhere, so
    that `log_enabled!` needs no case of its own. Simplification: no panic in the format (C91). -/
def logAccess (g : Loggers) (line : Text → Text) (c : LogOf) : List (Dest × Text) :=
  match c.access with
  | none => []
  | some a => match c.formats.get a.format with
    | none => []
    | some f => (g.dests a.name a.level).map fun d => (d, line f)

/-- `deal_request` of location `i` is called exactly where the handling has the event `handled i req false`
    (src/reverse/http.rs:377), and its first statement is `log_acess` (src/reverse/location.rs:197) -/
def eventLines (g : Loggers) (line : Req → Text → Text) (logs : List LogOf) : Ev → List (Dest × Text)
  | .handled i req false => match logs[i]? with
    | some c => logAccess g (line req) c
    | none => []
  | _ => []

/-- the lines written in the course of the handling of a request. Simplification: locations that have something to serve;
    for the others (`Kind.nothing`) `deal_request` writes a line and returns an error. -/
def lines (g : Loggers) (line : Req → Text → Text) (logs : List LogOf) (trace : List Ev) : List (Dest × Text) :=
  trace.flatMap (eventLines g line logs)

end Wm.Access
