import Verif.Model.ConfigText
/-! Functions of src/helper.rs: wildcard matching, header rewriting, pid files. -/
namespace Wm.Helper
open Wm Wm.Config

/-! ### wildcards -/

/-- `oper.find(p)` followed by `&oper[idx + p.len()..]`: what follows the leftmost occurrence of `p`. Positions in
    Rust are byte positions; an occurrence of valid UTF-8 in valid UTF-8 is an occurrence of characters. -/
def findAfter (p : Text) : Text → Option Text
  | [] => stripPrefix p []
  | c :: s => match stripPrefix p (c :: s) with
    | some r => some r
    | none => findAfter p s

/-- src/helper.rs:337-356, the turns after the first one: the last piece must end the text, the others are looked for -/
def matchRest : List Text → Text → Bool
  | [], _ => true
  | [p], oper => (stripSuffix p oper).isSome
  | p :: q :: ps, oper => match findAfter p oper with
    | some r => matchRest (q :: ps) r
    | none => false

/-- src/helper.rs:334-359 `Helper::is_match` -/
def isMatch (src pattern : Text) : Bool :=
  match splitOn (fun c => c = '*') pattern with
  | [] => true
  | p :: ps => match stripPrefix p src with
    | some r => matchRest ps r
    | none => false

/-! ### header rewriting -/

/-- External: the header collection of the crate `webparse` and `HeaderHelper::convert_value` of `wenmeng`.
    `same` compares names; `remove` deletes by name; `conv` computes the value of a rule. Assumed: names are compared by
    an equivalence; `remove` does not touch headers of other names, and leaves none of that name (`remove_all`);
    `push` appends (`List.append`), `contains` looks for the name. -/
structure Headers where
  same : Text → Text → Bool
  remove : Text → List (Text × Text) → List (Text × Text)
  conv : List (Text × Text) → Text → Text
  same_refl : ∀ a, same a a = true
  same_symm : ∀ a b, same a b = same b a
  same_trans : ∀ a b c, same a b = true → same b c = true → same a c = true
  remove_others : ∀ k h, (remove k h).filter (fun e => !same k e.1) = h.filter (fun e => !same k e.1)
  remove_all : ∀ k h, ∀ e ∈ remove k h, same k e.1 = false

/-- src/helper.rs:420-485 `rewrite_header` on the headers of the request or response -/
def rewriteHeader (w : Headers) (hs : List (Text × Text)) (r : HeaderRule) : List (Text × Text) :=
  match r.oper with
  | .add => hs ++ [(r.key, w.conv hs r.val)]
  | .del => w.remove r.key hs
  | .default => if hs.any (fun e => w.same r.key e.1) then hs else hs ++ [(r.key, w.conv hs r.val)]
  | .replace => hs ++ [(r.key, w.conv hs r.val)]

/-- src/helper.rs:395-405 (`req = true`) and 407-418 (`req = false`) -/
def rewriteAll (w : Headers) (req : Bool) : List HeaderRule → List (Text × Text) → List (Text × Text)
  | [], hs => hs
  | r :: rs, hs => if r.isProxy = req then rewriteAll w req rs (rewriteHeader w hs r) else rewriteAll w req rs hs

/-! ### pid files -/

/-- One pid file shared by processes. `armed` are the processes between their check and their deletion. -/
structure Pid where
  file : Option Text
  armed : List Nat
  /-- deletions so far: the process and the content it deleted -/
  deleted : List (Nat × Text)

inductive PidEvent where
  /-- `try_create_pidfile` of process `p` (src/helper.rs:151-155; writing the few bytes is taken as one step) -/
  | create (p : Nat)
  /-- `try_remove_pidfile` up to the comparison (src/helper.rs:159-162) -/
  | check (p : Nat)
  /-- `remove_file` (src/helper.rs:163), only after a successful comparison -/
  | unlink (p : Nat)
deriving DecidableEq, Repr

def pidStep (s : Pid) : PidEvent → Pid
  | .create p => { s with file := some (showNat p) }
  | .check p => if s.file = some (showNat p) then { s with armed := p :: s.armed } else s
  | .unlink p =>
    if p ∈ s.armed then
      let s1 := { s with armed := s.armed.filter (· ≠ p), file := none }
      match s.file with
      | some t => { s1 with deleted := s1.deleted ++ [(p, t)] }
      | none => s1
    else s

def pidRun (es : List PidEvent) : Pid := es.foldl pidStep ⟨none, [], []⟩

end Wm.Helper
