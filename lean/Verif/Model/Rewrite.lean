import Verif.Model.Log
import Verif.Model.ConfigText
import Verif.Model.Inherit

/-!
How the entries of a try list become paths, with the two caches behind it: src/helper.rs:41-43 and 230-319
(`Helper::format_req`, `try_cache_regex`, `inner_oper_regex`, `format_req_may_regex`), used by src/reverse/http.rs:336 and, for
the regular expressions, by src/reverse/matcher.rs:88; and fixed answers: src/plugins/static_response.rs, src/helper.rs:497-510.

What regular expressions mean is a parameter (`Regexes`, the crate `regex`). The pattern cache is thread-local and the cache of
regular expressions is behind a mutex, so that every access is one step; nothing panics while the mutex is held, so it is never
poisoned. Leaking the keys (`Box::leak`) has no effect but on memory.
-/

namespace Wm.Rewrite
open Wm Wm.Log Wm.Config Wm.Reverse

/-- the crate `regex`: `Regex::new` and `Regex::replace_all` (expression, text, replacement) -/
structure Regexes (R : Type) where
  compile : Text → Option R
  replaceAll : R → Text → Text → Text

variable {R : Type}

/-- `FORMAT_PATTERN_CACHE` of the thread (src/helper.rs:41-43) and `RE_CACHES` (src/helper.rs:277-280; only valid expressions are
    ever stored, line 291) -/
structure Caches (R : Type) where
  patterns : Table (List Chunk)
  regexes : Table R

/-- both start empty (src/helper.rs:42, 279) -/
def Caches.empty : Caches R := ⟨[], []⟩

/-- src/helper.rs:231-240: the compiled pattern, from the cache or new -/
def pattern (k : Classes) (c : Caches R) (p : Text) : List Chunk × Caches R :=
  match c.patterns.get p with
  | some cs => (cs, c)
  | none => (chunksOf (parse k p), { c with patterns := c.patterns.put (p, chunksOf (parse k p)) })

/-- src/helper.rs:230-247 `format_req`, with its cache -/
def formatCached (k : Classes) (c : Caches R) (rec : Rec) (p : Text) : Res Text × Caches R :=
  (match encodeList rec (.sink [] []) (pattern k c p).1 with
    | none => .panic
    | some w => .ok (lossy w.out), (pattern k c p).2)

/-- src/helper.rs:275-300 `try_cache_regex` -/
def tryRegex (x : Regexes R) (c : Caches R) (origin : Text) : Option R × Caches R :=
  if origin = [] then (none, c)
  else match c.regexes.get origin with
    | some re => (some re, c)
    | none => match x.compile origin with
      | some re => (some re, { c with regexes := c.regexes.put (origin, re) })
      | none => (none, c)

/-- src/helper.rs:264-271: the replacements, with blanks between them -/
def replaceEach (x : Regexes R) (re : R) (key : Text) : List Text → Text
  | [] => []
  | [v] => x.replaceAll re key v
  | v :: vs => x.replaceAll re key v ++ ' ' :: replaceEach x re key vs

/-- src/helper.rs:261-273 `inner_oper_regex`; `vals` is not empty where it is called (line 315) -/
def operRegex (k : Classes) (x : Regexes R) (c : Caches R) (rec : Rec) (re : R) : List Text → Res Text × Caches R
  | [] => (.panic, c)
  | v :: vs =>
    match formatCached k c rec v with
    | (.ok key, c') => (.ok (replaceEach x re key vs), c')
    | r => r

/-- src/helper.rs:302-319 `format_req_may_regex` -/
def formatMay (k : Classes) (x : Regexes R) (c : Caches R) (rec : Rec) (text : Text) : Res Text × Caches R :=
  let t := trim text
  if t.any isWs then
    match splitQuoted t with
    | [] => (.ok [], c)
    | [_] => (.ok [], c)
    | v :: vs =>
      match tryRegex x c v with
      | (some re, c') => operRegex k x c' rec re vs
      | (none, c') => formatCached k c' rec t
  else formatCached k c rec t

/-- what has been asked of the caches -/
inductive Asked where
  /-- a text is formatted for some request, by this thread -/
  | format (p : Text)
  /-- a regular expression is looked for, by any thread -/
  | regex (p : Text)
deriving DecidableEq, Repr

def Caches.step (k : Classes) (x : Regexes R) (c : Caches R) : Asked → Caches R
  | .format p => (pattern k c p).2
  | .regex p => (tryRegex x c p).2

/-- the caches after a history -/
def Caches.after (k : Classes) (x : Regexes R) (es : List Asked) : Caches R := es.foldl (Caches.step k x) .empty

/-- src/helper.rs:497-510 `get_static_str`: the texts kept so far; the result is the text itself -/
def intern (kept : List Text) (s : Text) : Text × List Text :=
  match kept.find? (· = s) with
  | some v => (v, kept)
  | none => (s, s :: kept)

/-- src/plugins/static_response.rs:29-32: the status and text of a fixed answer -/
def staticAnswer (k : Classes) (c : Caches R) (rec : Rec) (body : Text) : Res (Nat × Text) × Caches R :=
  match formatCached k c rec body with
  | (.ok t, c') => (.ok (200, t), c')
  | (.err e, c') => (.err e, c')
  | (.panic, c') => (.panic, c')

end Wm.Rewrite
