import Verif.Model.Text
import Verif.Model.ConfigText
/-! The file server (src/plugins/file_server.rs). -/
namespace Wm.Files
open Wm

/-! ### paths (Rust standard library, Unix) -/

/-- `std::path::Component` -/
inductive Comp where
  | root
  | cur
  | parent
  | normal (n : Text)
deriving DecidableEq, Repr

def segs (p : Text) : List Text := splitOn (· == '/') p

/-- the components of one segment that is not the first: empty ones and `.` are dropped -/
def segComp (s : Text) : Option Comp :=
  if s = [] ∨ s = ['.'] then none else if s = ['.', '.'] then some .parent else some (.normal s)

/-- `Path::components` -/
def comps (p : Text) : List Comp :=
  (if p.head? = some '/' then [.root] else if (segs p).head? = some ['.'] then [.cur] else []) ++
    (segs p).filterMap segComp

/-- `Path::starts_with`: componentwise -/
def startsWithPath (p base : Text) : Bool := (comps base).isPrefixOf (comps p)

/-- `Path::join` -/
def joinPath (p i : Text) : Text :=
  if i.head? = some '/' then i
  else if p = [] ∨ p.getLast? = some '/' then p ++ i
  else p ++ '/' :: i

/-- `str::contains` with a text -/
def containsText (s p : Text) : Bool := match s with
  | [] => p.isPrefixOf []
  | c :: r => p.isPrefixOf (c :: r) || containsText r p

/-! ### the file server -/

/-- src/plugins/file_server.rs:119-151 `FileServer`. `rate` is `comm.rate_limit`. -/
structure FileSrv where
  root : Option Text
  pfx : Text
  hide : List Text
  defaultMime : Text
  extMime : List (Text × Text)
  robots : Option Text
  index : List Text
  precompressed : List Text
  browse : Bool
  rate : Option Text

/-- The file system as seen during one request, the current directory (`CURRENT_DIR`) and `Url::url_decode` of the crate
    `webparse`. -/
structure Fs where
  cwd : Text
  isDir : Text → Bool
  ex : Text → Bool
  /-- names of the entries of a directory -/
  entries : Text → List Text
  decode : Text → Option Text

inductive FileOut where
  /-- the text of `robots` -/
  | robots
  /-- `ret_error_msg` -/
  | refused
  | panic
  /-- a directory page with the paths shown, and the rate limit applied -/
  | listing (dir : Text) (shown : List Text) (rate : Option Text)
  /-- the content of a file, its content encoding, and the rate limit applied -/
  | file (path : Text) (encoding : Option Text) (rate : Option Text)
deriving DecidableEq, Repr

/-- src/plugins/file_server.rs:228-236 `is_hide_path` -/
def isHide (f : FileSrv) (p : Text) : Bool := f.hide.any (fun h => containsText p h)

/-- src/plugins/file_server.rs:253-261 `get_mimetype`; `table` is `DEFAULT_MIMETYPE` -/
def mimetype (table : Text → Option Text) (f : FileSrv) (ext : Text) : Text :=
  match table ext with
  | some s => s
  | none => match f.extMime.find? (fun e => e.1 = ext) with
    | some e => e.2
    | none => f.defaultMime

/-- src/plugins/file_server.rs:304-309: the name of the precompressed file -/
def preName (p pre : Text) : Option Text :=
  if pre = ['g', 'z', 'i', 'p'] then some (p ++ ['.', 'g', 'z'])
  else if pre = ['b', 'r'] then some (p ++ ['.', 'b', 'r'])
  else none

/-- src/plugins/file_server.rs:298-341: the loop over the precompressed forms -/
def prePick (e : Fs) (accept : Text) (p : Text) : List Text → Option (Text × Text)
  | [] => none
  | pre :: rest =>
    if !containsText accept pre then prePick e accept p rest
    else match preName p pre with
      | none => prePick e accept p rest
      | some n => if e.ex n then some (n, pre) else prePick e accept p rest

/-- src/plugins/file_server.rs:287-367 `build_response_by_file`: which file is opened. (Opening a file that exists is
    taken to succeed.) -/
def byFile (e : Fs) (f : FileSrv) (accept : Option Text) (p : Text) : FileOut :=
  match accept.bind (fun a => prePick e a p f.precompressed) with
  | some (n, pre) => .file n (some pre) none
  | none => if e.ex p then .file p none none else .refused

/-- src/plugins/file_server.rs:555-558 -/
def rootOf (e : Fs) (f : FileSrv) : Text :=
  match f.root with
  | some r => if r = [] then e.cwd else r
  | none => e.cwd

/-- src/plugins/file_server.rs:561-563 -/
def withSlash (h : Text) : Text := if h.head? = some '/' then h else '/' :: h

/-- src/plugins/file_server.rs:572-580: the first index file that exists -/
def withIndex (e : Fs) (f : FileSrv) (p : Text) : Text :=
  if e.isDir p then
    match f.index.find? (fun i => e.ex (joinPath p i)) with
    | some i => joinPath p i
    | none => p
  else p

/-- src/plugins/file_server.rs:550-554: the request path as it is used from there on -/
def decoded (e : Fs) (path : Text) : Text := if '%' ∈ path then (e.decode path).getD path else path

/-- src/plugins/file_server.rs:529-678 `deal_request`: what is served. Entry names are taken to be texts (another name
    panics, 603 and 611). -/
def dealRequest (e : Fs) (f : FileSrv) (path : Text) (accept : Option Text) : FileOut :=
  if path = ['/', 'r', 'o', 'b', 'o', 't', 's', '.', 't', 'x', 't'] ∧ f.robots.isSome then .robots
  else if (stripPrefix f.pfx path).isNone then .refused
  else
    match stripPrefix f.pfx (decoded e path) with
    | none => .panic
    | some h =>
      let real := rootOf e f ++ withSlash h
      if !startsWithPath real (rootOf e f) || isHide f (rootOf e f) then .refused
      else
        let real := withIndex e f real
        if e.isDir real then
          if !f.browse then .refused
          else .listing real (((e.entries real).map (joinPath real)).filter (fun p => !isHide f p)) f.rate
        else if isHide f (decoded e path) then .refused
        else byFile e f accept real

/-! ### byte ranges -/

/-- src/plugins/file_server.rs:415-423, 424-432: one side of a range -/
def rangeSide (s : Text) (dflt : Nat) : Option Nat := if s = [] then some dflt else parseU 64 s

/-- src/plugins/file_server.rs:400-438 `calc_bytes_range` -/
def calcRange (val : Text) (len : Nat) : Option (Nat × Nat) :=
  match splitOn (· == '=') val with
  | [unit, ranges] =>
    if trim unit ≠ ['b', 'y', 't', 'e', 's'] then none
    else match splitOn (· == '-') (trim ((splitOn (· == ',') ranges).headD [])) with
      | [a, b] => match rangeSide a 0, rangeSide b len with
        | some s, some e => if e < s then none else some (s, e)
        | _, _ => none
      | _ => none
  | _ => none

/-! ### validators -/

/-- `{:x}` of one digit -/
def hexChar (d : Nat) : Char := if d % 16 < 10 then Char.ofNat (48 + d % 16) else Char.ofNat (87 + d % 16)

/-- `format!("{:x}", n)` -/
def showHex (n : Nat) : Text :=
  if n < 16 then [hexChar n] else showHex (n / 16) ++ [hexChar (n % 16)]
termination_by n
decreasing_by omega

/-- length and time of the last change in seconds since 1970, if the system tells it and it is not before -/
structure Meta where
  len : Nat
  mtime : Option Nat
deriving DecidableEq, Repr

/-- src/plugins/file_server.rs:263-272 `calc_etag` -/
def etag (m : Meta) : Text := showHex (m.mtime.getD 0) ++ '-' :: showHex m.len

/-- the headers of a request that matter for a file response -/
structure Cond where
  ifNoneMatch : Option Text
  ifModifiedSince : Option Text
  ifRange : Option Text
  range : Option Text
  acceptRanges : Option Text
  head : Bool

inductive FBody where
  | whole
  | part (s e : Nat)
  | empty
deriving DecidableEq, Repr

/-- status, body, `Content-Range` (`some none` is `bytes */len`) -/
structure FResp where
  status : Nat
  body : FBody
  contentRange : Option (Option (Nat × Nat))
deriving DecidableEq, Repr

/-- External: `chrono`'s reading of dates as in `calc_lastmodifed` (279-285) and `Body::set_start_end` of the crate
    `wenmeng` (`none` is its error). -/
structure CondEnv where
  lastMod : Text → Nat
  seek : FBody → Nat → Nat → Option FBody

/-- src/plugins/file_server.rs:485-496: the range is to be looked at -/
def ifRangeOk (env : CondEnv) (c : Cond) (m : Meta) : Bool :=
  match c.ifRange with
  | none => true
  | some r => r == etag m || (env.lastMod r == m.mtime.getD 0 && m.mtime.getD 0 != 0)

/-- src/plugins/file_server.rs:497-516 -/
def applyRange (env : CondEnv) (c : Cond) (m : Meta) (r : FResp) : Option FResp :=
  match c.range with
  | none => some r
  | some t => match calcRange t m.len with
    | some (s, e) => (env.seek r.body s e).map fun b => ⟨206, b, some (some (s, e))⟩
    | none => some ⟨416, .empty, some none⟩

/-- src/plugins/file_server.rs:519-524 -/
def applyHead (c : Cond) (r : FResp) : FResp := if c.head then { r with body := .empty } else r

/-- src/plugins/file_server.rs:440-527 `after_file_response`, the parts that touch status, body and `Content-Range`;
    `none` is its error. -/
def afterFile (env : CondEnv) (c : Cond) (m : Meta) (r : FResp) : Option FResp :=
  if c.acceptRanges = none ∨ c.acceptRanges = some ['b', 'y', 't', 'e', 's'] then
    if ifRangeOk env c m then (applyRange env c m r).map (applyHead c)
    else some r
  else some (applyHead c r)

/-- src/plugins/file_server.rs:374-396: the cached copy of the client is still good -/
def notModified (env : CondEnv) (c : Cond) (m : Meta) : Bool :=
  (match c.ifNoneMatch with
    | some v => v == etag m
    | none => false) ||
  (match c.ifModifiedSince, m.mtime with
    | some v, some n => env.lastMod v == n
    | _, _ => false)

/-- src/plugins/file_server.rs:369-398 `try_cache` and 350-366: the response for a file. An error of `after_file_response`
    is ignored for a 304 (the response as it was is sent). -/
def fileResponse (env : CondEnv) (c : Cond) (m : Meta) : Option FResp :=
  if notModified env c m then some ((afterFile env c m ⟨304, .empty, none⟩).getD ⟨304, .empty, none⟩)
  else afterFile env c m ⟨200, .whole, none⟩

end Wm.Files
