import Verif.Model.Listing
/-! The header lines of the answers of the file server (src/plugins/file_server.rs). -/
namespace Wm.Files
open Wm

/-- the header lines that the file server sets -/
inductive Name where
  | contentType | contentEncoding | contentLength | contentRange | transferEncoding
  | cacheControl | allowHeaders | allowOrigin | date | lastModified | etag | acceptRanges
deriving DecidableEq, Repr

abbrev Lines := List (Name × Text)

/-- `HeaderMap::insert` of the crate `webparse`: a line of the same name is replaced -/
def Lines.insert (hs : Lines) (n : Name) (v : Text) : Lines := hs.filter (fun l => l.1 ≠ n) ++ [(n, v)]

/-- src/plugins/file_server.rs:30-85 `DEFAULT_MIMETYPE` (`svg` is entered twice, with the same type) -/
def builtinTypes : List (String × String) :=
  [ ("doc", "application/msword"),
    ("pdf", "application/pdf"),
    ("rtf", "application/rtf"),
    ("xls", "application/vnd.ms-excel"),
    ("ppt", "application/vnd.ms-powerpoint"),
    ("rar", "application/application/x-rar-compressed"),
    ("swf", "application/x-shockwave-flash"),
    ("zip", "application/zip"),
    ("json", "application/json"),
    ("js", "application/javascript"),
    ("yaml", "text/plain"),
    ("yml", "text/plain"),
    ("toml", "text/plain"),
    ("mid", "audio/midi"),
    ("midi", "audio/midi"),
    ("kar", "audio/midi"),
    ("mp3", "audio/mpeg"),
    ("ogg", "audio/ogg"),
    ("m4a", "audio/m4a"),
    ("ra", "audio/x-realaudio"),
    ("gif", "image/gif"),
    ("jpeg", "image/jpeg"),
    ("jpg", "image/jpeg"),
    ("png", "image/png"),
    ("tif", "image/tiff"),
    ("tiff", "image/tiff"),
    ("wbmp", "image/vnd.wap.wbmp"),
    ("ico", "image/x-icon"),
    ("jng", "image/x-jng"),
    ("bmp", "image/x-ms-bmp"),
    ("svg", "image/svg+xml"),
    ("svgz", "image/svg+xml"),
    ("webp", "image/webp"),
    ("css", "text/css"),
    ("html", "text/html"),
    ("htm", "text/html"),
    ("shtml", "text/html"),
    ("txt", "text/plain"),
    ("md", "text/plain"),
    ("xml", "text/xml"),
    ("3gpp", "video/3gpp"),
    ("3gp", "video/3gpp"),
    ("mp4", "video/mp4"),
    ("mpeg", "video/mpeg"),
    ("mpg", "video/mpeg"),
    ("mov", "video/quicktime"),
    ("webm", "video/webm"),
    ("flv", "video/x-flv"),
    ("m4v", "video/x-m4v"),
    ("wmv", "video/x-ms-wmv"),
    ("avi", "video/x-msvideo") ]

/-- `HashMap::get` on it -/
def builtin (ext : Text) : Option Text :=
  (builtinTypes.find? (fun x => x.1.toList = ext)).map (fun x => x.2.toList)

/-- `Path::file_name` (Rust standard library): the last component, if it is a name -/
def fileName (p : Text) : Option Text :=
  match (comps p).getLast? with
  | some (.normal n) => some n
  | _ => none

/-- the text before and behind the last dot -/
def lastDot : Text → Option (Text × Text)
  | [] => none
  | c :: r => match lastDot r with
    | some (a, b) => some (c :: a, b)
    | none => if c = '.' then some ([], r) else none

/-- `Path::extension` (Rust standard library): none for a name whose only dot is the first character -/
def extension (p : Text) : Option Text :=
  match (fileName p).bind lastDot with
  | some (a, b) => if a = [] then none else some b
  | none => none

/-- src/plugins/file_server.rs:119-151, the settings not in `FileSrv`; the time in nanoseconds -/
structure Extra where
  cacheTime : Option Nat
  cors : Bool
  disableCompress : Bool
  status : Nat
  path404 : Option Text

/-- External as `CondEnv`, and `to_rfc2822` (274-277) of the current time and of a time in seconds (`none`: not a time that
    `chrono` can show). -/
structure HEnv extends CondEnv where
  now : Text
  dateText : Nat → Option Text

/-- a response that is being made -/
structure HResp where
  status : Nat
  body : FBody
  lines : Lines
deriving DecidableEq, Repr

/-- src/plugins/file_server.rs:446-466 -/
def settingLines (env : HEnv) (x : Extra) (hs : Lines) : Lines :=
  let hs := match x.cacheTime with
    | some d => hs.insert .cacheControl ("max-age=".toList ++ showNat (d / 1000000000))
    | none => hs
  let hs := if x.cors then
      (hs.insert .allowHeaders "Origin, X-Requested-With, Content-Type, Accept, Range".toList).insert .allowOrigin ['*']
    else hs
  let hs := if x.disableCompress then hs.insert .contentEncoding [] else hs
  hs.insert .date env.now

/-- src/plugins/file_server.rs:467-479 -/
def metaLines (env : HEnv) (m : Meta) (hs : Lines) : Lines :=
  let hs := match m.mtime.bind env.dateText with
    | some t => hs.insert .lastModified t
    | none => hs
  hs.insert .etag (etag m)

/-- src/plugins/file_server.rs:497-516; the flag is `false` for the error of line 500, which leaves the response as it is -/
def rangeLines (env : HEnv) (c : Cond) (m : Meta) (r : HResp) : HResp × Bool :=
  match c.range with
  | none => (r, true)
  | some t => match calcRange t m.len with
    | some (s, e) => match env.seek r.body s e with
      | some b => ({ status := 206, body := b,
                     lines := r.lines.insert .contentRange
                       ("bytes ".toList ++ showNat s ++ '-' :: showNat e ++ '/' :: showNat m.len) }, true)
      | none => (r, false)
    | none => ({ status := 416, body := .empty,
                 lines := r.lines.insert .contentRange ("bytes */".toList ++ showNat m.len) }, true)

/-- src/plugins/file_server.rs:519-524 -/
def headLines (c : Cond) (m : Meta) (r : HResp) : HResp :=
  if c.head then
    { r with body := .empty,
             lines := (r.lines.insert .acceptRanges "bytes".toList).insert .contentLength (showNat m.len) }
  else r

/-- src/plugins/file_server.rs:440-527 `after_file_response`; the flag is `false` for its error -/
def afterLines (env : HEnv) (x : Extra) (c : Cond) (m : Option Meta) (r : HResp) : HResp × Bool :=
  let r := { r with lines := settingLines env x r.lines }
  match m with
  | none => (r, true)
  | some m =>
    let r := { r with lines := metaLines env m r.lines }
    if c.acceptRanges = none ∨ c.acceptRanges = some ['b', 'y', 't', 'e', 's'] then
      if ifRangeOk env.toCondEnv c m then
        match rangeLines env c m r with
        | (r, true) => (headLines c m r, true)
        | (r, false) => (r, false)
      else (r, true)
    else (headLines c m r, true)

/-- src/plugins/file_server.rs:288-295, 321-333 and 354-363: the lines set before -/
def contentLines (f : FileSrv) (base : Text) (enc : Option Text) : Lines :=
  (match enc with
    | some e => [(.contentEncoding, e)]
    | none => []) ++
  [(.contentType, mimetype builtin f ((extension base).getD []) ++ "; charset=utf-8".toList),
   (.transferEncoding, "chunked".toList)]

/-- src/plugins/file_server.rs:369-398 `try_cache`, 310-337 and 347-366: the response for a file found for `base` -/
def fileLines (env : HEnv) (f : FileSrv) (x : Extra) (c : Cond) (m : Meta) (base : Text) (enc : Option Text) : Option HResp :=
  if notModified env.toCondEnv c m then some (afterLines env x c (some m) ⟨304, .empty, []⟩).1
  else match afterLines env x c (some m) ⟨200, .whole, contentLines f base enc⟩ with
    | (r, true) => some r
    | (_, false) => none

/-- the path without the ending added in 303-308 (both endings have three characters) -/
def baseOf (p : Text) (enc : Option Text) : Text := if enc.isSome then p.take (p.length - 3) else p

/-- where the content of an answer comes from -/
inductive Source where
  | robots
  | page (dir : Text)
  | message
  | file (path : Text) (b : FBody)
deriving DecidableEq, Repr

structure Answer where
  status : Nat
  source : Source
  lines : Lines
deriving DecidableEq, Repr

/-- 238-251 `ret_error_msg` -/
def refusalLines (e : Fs) (f : FileSrv) (x : Extra) (env : HEnv) (info : Text → Meta) (accept : Option Text) (c : Cond) : Answer :=
  match x.status == 404, x.path404 with
  | true, some p =>
    match byFile e f accept p with
    | .file q enc _ =>
      match fileLines env f x c (info q) (baseOf q enc) enc with
      | some r => ⟨r.status, .file q r.body, r.lines⟩
      | none => ⟨x.status, .message, []⟩
    | _ => ⟨x.status, .message, []⟩
  | _, _ => ⟨x.status, .message, []⟩

/-- src/plugins/file_server.rs:529-678 `deal_request` with the header lines; `none`: an error or a panic. `bytes` is the length
    of the text of `robots` in UTF-8. -/
def answer (e : Fs) (f : FileSrv) (x : Extra) (env : HEnv) (info : Text → Meta) (bytes : Text → Nat) (path : Text)
    (accept : Option Text) (c : Cond) : Option Answer :=
  match dealRequest e f path accept with
  | .robots =>
    some ⟨200, .robots, (afterLines env x c none ⟨200, .whole,
      [(.contentType, "text/plain; charset=utf-8".toList), (.contentLength, showNat (bytes (f.robots.getD []))),
       (.transferEncoding, "chunked".toList)]⟩).1.lines⟩
  | .panic => none
  | .listing dir _ _ =>
    let hs : Lines := [(.contentType, "text/html; charset=utf-8".toList)]
    some ⟨200, .page dir, if x.disableCompress then hs.insert .contentEncoding [] else hs⟩
  | .file q enc _ => (fileLines env f x c (info q) (baseOf q enc) enc).map fun r => ⟨r.status, .file q r.body, r.lines⟩
  | .refused => some (refusalLines e f x env info accept c)

end Wm.Files
