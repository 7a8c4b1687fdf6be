import Verif.Model.ConfigNum
import Verif.Model.Inherit
/-! Further textual settings: request limits and their zones, try lists, log settings, sets of methods and schemes
(src/reverse/{limit_req,try_paths,matcher}.rs, src/config/log.rs). -/
namespace Wm.Texts
open Wm Wm.Config Wm.Reverse

/-- src/reverse/limit_req.rs:120, 158: `split("=").map(|k| k.trim())` -/
def keyValue (w : Text) : List Text := (splitOn (fun c => c = '=') w).map trim

/-! ### limit_req -/

/-- src/reverse/limit_req.rs:45-49 `LimitReq` -/
structure LimitReq where
  zone : Text
  burst : Nat
deriving DecidableEq, Repr

/-- src/reverse/limit_req.rs:157-174: one turn of the loop -/
def limitWord (z : LimitReq) (w : Text) : Res LimitReq :=
  match keyValue w with
  | k :: v :: _ =>
    if k = "zone".toList then .ok { z with zone := v }
    else if k = "brust".toList then orInvalid (parseU 64 v) >>= fun n => .ok { z with burst := n }
    else .err .invalid
  | _ => .err .invalid

/-- src/reverse/limit_req.rs:157-174: the loop -/
def limitWords : List Text → LimitReq → Res LimitReq
  | [], z => .ok z
  | w :: ws, z => limitWord z w >>= limitWords ws

/-- src/reverse/limit_req.rs:149-177 `LimitReq::from_str` -/
def parseLimit (s : Text) : Res LimitReq := limitWords (splitOn (fun c => c = ' ') s) ⟨[], 0⟩

/-- src/reverse/limit_req.rs:143-147 -/
def showLimit (z : LimitReq) : Text := "zone=".toList ++ z.zone ++ " brust=".toList ++ showNat z.burst

/-! ### limit_req_zone -/

/-- src/reverse/limit_req.rs:25-32 `LimitReqZone` -/
structure LimitZone where
  key : Text
  limit : Nat
  nums : Nat
  per : Dur
deriving DecidableEq, Repr

/-- src/reverse/limit_req.rs:119-137: one turn of the loop -/
def zoneWord (checked : Bool) (z : LimitZone) (w : Text) : Res LimitZone :=
  match keyValue w with
  | k :: v :: _ =>
    if k = "limit".toList then parseSize checked v >>= fun n => .ok { z with limit := n }
    else if k = "rate".toList then
      parseRate checked v >>= fun r => .ok { z with nums := r.1, per := r.2 }
    else .err .invalid
  | _ => .err .invalid

/-- src/reverse/limit_req.rs:119-137: the loop -/
def zoneWords (checked : Bool) : List Text → LimitZone → Res LimitZone
  | [], z => .ok z
  | w :: ws, z => zoneWord checked z w >>= zoneWords checked ws

/-- src/reverse/limit_req.rs:111-141 `LimitReqZone::from_str`; `v[0]` panics when there is no word. External: `nums` and
    `per` are the values of `Rate::default()` (crate `wenmeng`). -/
def parseZone (checked : Bool) (nums : Nat) (per : Dur) (s : Text) : Res LimitZone :=
  match splitWs s with
  | [] => .panic
  | key :: ws => zoneWords checked ws ⟨key, 0, nums, per⟩

/-- src/reverse/limit_req.rs:99-109 -/
def showZone (checked : Bool) (z : LimitZone) : Res Text :=
  showDur checked z.per >>= fun d =>
    .ok (z.key ++ " limit=".toList ++ showSize z.limit ++ " rate=".toList ++ showNat z.nums ++ "r/".toList ++ d)

/-! ### try_paths -/

/-- src/reverse/try_paths.rs:27-30 `TryPathsConfig` -/
structure TryPaths where
  list : List Text
  status : Nat
deriving DecidableEq, Repr

/-- src/reverse/try_paths.rs:46-57: one turn of the loop. External: `valid` are the codes `StatusCode::from_u16` (crate
    `webparse`) accepts. -/
def tryWord (valid : Nat → Bool) (t : TryPaths) (w : Text) : TryPaths :=
  if w.head? = some '=' then
    match parseU 16 (trimStart (fun c => c = '=') w) with
    | some n => if valid n then { t with status := n } else t
    | none => t
  else { t with list := t.list ++ [w] }

/-- src/reverse/try_paths.rs:38-60 `TryPathsConfig::from_str`, which never fails -/
def parseTry (valid : Nat → Bool) (s : Text) : TryPaths := (splitQuoted s).foldl (tryWord valid) ⟨[], 404⟩

/-- `join(" ")` -/
def joinWords : List Text → Text
  | [] => []
  | [w] => w
  | w :: v :: ws => w ++ ' ' :: joinWords (v :: ws)

/-- src/reverse/try_paths.rs:62-66. External: `text` prints a status code. -/
def showTry (text : Nat → Text) (t : TryPaths) : Text := joinWords t.list ++ ' ' :: text t.status

/-! ### access_log, error_log -/

/-- ASCII lower case of a letter -/
def lower (c : Char) : Char := if 'A' ≤ c ∧ c ≤ 'Z' then Char.ofNat (c.toNat + 32) else c

/-- `Display` of `log::Level` -/
def showLevel : Level → Text
  | .error => "ERROR".toList
  | .warn => "WARN".toList
  | .info => "INFO".toList
  | .debug => "DEBUG".toList
  | .trace => "TRACE".toList

/-- `log::Level::from_str`: the name in any case -/
def parseLevel (s : Text) : Option Level :=
  [Level.error, .warn, .info, .debug, .trace].find? fun l => (showLevel l).map lower = s.map lower

/-- src/config/log.rs:64-78 `ConfigLog::from_str` -/
def parseLog (s : Text) : Res LogTo :=
  match splitOn (fun c => c = ' ') s with
  | [n, f, l] => .ok ⟨n, f, (parseLevel l).getD .trace⟩
  | n :: f :: _ => .ok ⟨n, f, .trace⟩
  | _ => .err .invalid

/-- src/config/log.rs:47-59 -/
def showLog (c : LogTo) : Text :=
  if c.format = [] then c.name ++ ' ' :: showLevel c.level
  else if c.level ≠ .trace then c.name ++ ' ' :: c.format ++ ' ' :: showLevel c.level
  else c.name ++ ' ' :: c.format

/-! ### sets of methods and schemes -/

/-- src/reverse/matcher.rs:138-146, 161-169: the loop over the words. External: `parse` reads a method or scheme (crate
    `webparse`). The set is a list without repetition. -/
def parseSet {α : Type} [DecidableEq α] (parse : Text → Option α) : List Text → List α → Res (List α)
  | [], set => .ok set
  | w :: ws, set => match parse w with
    | none => .err .invalid
    | some a => parseSet parse ws (if a ∈ set then set else set ++ [a])

/-- src/reverse/matcher.rs:149-156, 172-179: the texts of the members one after another, in the order in which the hash
    set yields them -/
def showSet {α : Type} (render : α → Text) (set : List α) : Text := set.flatMap render

end Wm.Texts
