import Verif.Model.Files
/-! The page for a directory (src/plugins/file_server.rs:582-660) and the answer for what is not served (238-251). -/
namespace Wm.Files
open Wm

def joinSegs : List Text → Text
  | [] => []
  | [s] => s
  | s :: t => s ++ '/' :: joinSegs t

/-- the segments left after `k` components (after the root or the leading `.`), without those that are no component -/
def dropComps : Nat → List Text → List Text
  | 0, ss => ss.dropWhile (fun s => segComp s = none)
  | _ + 1, [] => []
  | k + 1, s :: ss => if segComp s = none then dropComps (k + 1) ss else dropComps k ss

/-- `Path::strip_prefix` (Rust standard library), for a path that does not end in `/` or `/.` and a base that is not
    empty: `none` if the components of the base are not the first ones of the path -/
def stripPath (p base : Text) : Option Text :=
  if startsWithPath p base then some (joinSegs (dropComps ((segs base).filterMap segComp).length (segs p))) else none

/-- src/plugins/mod.rs:19-29 `calc_file_size` -/
def sizeText (len : Nat) : Text :=
  if len < 1024 then showNat len ++ ['B']
  else if len < 1024 * 1024 then showNat (len / 1024) ++ ['K']
  else if len < 1024 * 1024 * 1024 then showNat (len / (1024 * 1024)) ++ ['M']
  else showNat (len / (1024 * 1024 * 1024)) ++ ['G']

/-- one line of the page: an entry -/
structure Row where
  folder : Bool
  /-- the text in the column of sizes -/
  size : Text
  /-- what the link of the line leads to -/
  link : Text
  name : Text
deriving DecidableEq, Repr

/-- src/plugins/file_server.rs:597-641: the line for the entry `n` of `dir`; `len` is the length of a file, if the system
    tells it. `none`: the panic of line 602. Names are taken to be texts (603 and 611 panic otherwise). -/
def entryRow (e : Fs) (len : Text → Option Nat) (f : FileSrv) (dir n : Text) : Option Row :=
  (stripPath (joinPath dir n) (rootOf e f)).map fun t =>
    { folder := e.isDir (joinPath dir n)
      size := if e.isDir (joinPath dir n) then [] else ((len (joinPath dir n)).map sizeText).getD []
      link := f.pfx ++ '/' :: t.map (fun c => if c = '\\' then '/' else c)
      name := n }

/-- src/plugins/file_server.rs:594-645: the lines of the page, folders first; `none`: a panic -/
def pageRows (e : Fs) (len : Text → Option Nat) (f : FileSrv) (dir : Text) : Option (List Row) :=
  (((e.entries dir).filter (fun n => !isHide f (joinPath dir n))).mapM (entryRow e len f dir)).map fun l =>
    l.filter (·.folder) ++ l.filter (fun r => !r.folder)

/-- the page for a directory: its heading and its lines -/
structure Page where
  head : Text
  rows : List Row

/-- src/plugins/file_server.rs:582-660: the page that answers a request, if it is one for a directory -/
def page (e : Fs) (len : Text → Option Nat) (f : FileSrv) (path : Text) (accept : Option Text) : Option Page :=
  match dealRequest e f path accept, stripPrefix f.pfx (decoded e path) with
  | .listing dir _ _, some h => (pageRows e len f dir).map fun rows => ⟨withSlash h, rows⟩
  | _, _ => none

/-- src/plugins/file_server.rs:610-642 -/
def rowText (pfxIcon : Bool → Text) (r : Row) : Text :=
  "<tr>".toList ++ pfxIcon r.folder ++ "<td class=\"file-size\"><code>".toList ++ r.size ++ "</code></td>".toList ++
    "<td><a href=\"".toList ++ r.link ++ "\">".toList ++ r.name ++ "</td>".toList ++ "</tr>".toList

/-- src/plugins/file_server.rs:587-648: the page as it is sent. The fixed texts with the style sheet (`HEAD_HTML_PRE`,
    `HEAD_HTML_AFTER`), the cells with the icons and the text at the end are parameters. -/
def pageText (pre after last : Text) (icon : Bool → Text) (p : Page) : Text :=
  pre ++ p.head ++ after ++ "<body><h1>Index Of ".toList ++ p.head ++ "</h1>".toList ++
    "<table>\r\n<tbody>".toList ++ p.rows.flatMap (rowText icon) ++ last

/-! ### what is not served -/

/-- the answer to a request that is refused: the message, or the file configured for it -/
inductive Refusal where
  | message (status : Nat)
  | file (path : Text) (encoding : Option Text) (r : FResp)
deriving DecidableEq, Repr

/-- src/plugins/file_server.rs:238-251 `ret_error_msg`; `status` and `page404` are the settings `status` and `path404`,
    `info` is what the system tells about a file -/
def retError (e : Fs) (f : FileSrv) (env : CondEnv) (info : Text → Meta) (status : Nat) (page404 : Option Text)
    (accept : Option Text) (c : Cond) : Refusal :=
  match status == 404, page404 with
  | true, some p =>
    match byFile e f accept p with
    | .file q enc _ =>
      match fileResponse env c (info q) with
      | some r => .file q enc r
      | none => .message status
    | _ => .message status
  | _, _ => .message status

/-- what is sent for a request (`none`: nothing, the connection is dropped after an error or a panic): the status, and the
    file the content comes from -/
def sent (e : Fs) (f : FileSrv) (env : CondEnv) (info : Text → Meta) (status : Nat) (page404 : Option Text)
    (path : Text) (accept : Option Text) (c : Cond) : Option (Nat × Option Text) :=
  match dealRequest e f path accept with
  | .robots => some (200, none)
  | .panic => none
  | .listing _ _ _ => some (200, none)
  | .file q _ _ => (fileResponse env c (info q)).map fun r => (r.status, some q)
  | .refused => match retError e f env info status page404 accept c with
    | .message s => some (s, none)
    | .file q _ r => some (r.status, some q)

/-- src/plugins/file_server.rs:279-285 `calc_lastmodifed`; `parse` is `chrono`'s reading of a date (dates before 1970 are
    left out) -/
def lastModOf (parse : Text → Option Nat) (v : Text) : Nat := (parse v).getD 0

end Wm.Files
