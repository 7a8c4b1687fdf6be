import Verif.Model.Basic
/-!
Text functions of the Rust standard library used by the configuration code: integer printing and parsing, trimming,
splitting. A text is its list of characters.
-/
namespace Wm

/-- the decimal digit `d % 10` as a character -/
def digitChar (d : Nat) : Char := Char.ofNat (48 + d % 10)

/-- `format!("{}", n)` for an unsigned integer. -/
def showNat (n : Nat) : Text :=
  if n < 10 then [digitChar n] else showNat (n / 10) ++ [digitChar (n % 10)]
termination_by n
decreasing_by omega

/-- `char::to_digit(10)` -/
def digitVal (c : Char) : Option Nat := if 48 ≤ c.toNat ∧ c.toNat ≤ 57 then some (c.toNat - 48) else none

/-- a non-empty or empty run of decimal digits with the value `acc` before it -/
def parseDigits (acc : Nat) : Text → Option Nat
  | [] => some acc
  | c :: r => match digitVal c with
    | some d => parseDigits (acc * 10 + d) r
    | none => none

/-- without one leading `+` -/
def stripPlus : Text → Text
  | [] => []
  | c :: r => if c = '+' then r else c :: r

/-- `str::parse::<uN>()` for an `N`-bit unsigned integer: an optional `+`, at least one digit, `none` on overflow or any
    other character. The standard library detects overflow digit by digit, which is the same as comparing the final
    value since the value never decreases. -/
def parseU (bits : Nat) (s : Text) : Option Nat :=
  if stripPlus s = [] then none
  else match parseDigits 0 (stripPlus s) with
    | some n => if n < 2 ^ bits then some n else none
    | none => none

/-- `.map_err(|_| InvalidInput)` on the result of a parse -/
def orInvalid {α : Type} : Option α → Res α
  | some a => .ok a
  | none => .err .invalid

/-- `a * b` on `u64`: builds with overflow checks panic, builds without wrap (`checked` tells which build). -/
def mulU64 (checked : Bool) (a b : Nat) : Res Nat :=
  if a * b < 2 ^ 64 then .ok (a * b) else if checked then .panic else .ok (a * b % 2 ^ 64)

/-- `a + b` on `u64`, likewise -/
def addU64 (checked : Bool) (a b : Nat) : Res Nat :=
  if a + b < 2 ^ 64 then .ok (a + b) else if checked then .panic else .ok ((a + b) % 2 ^ 64)

/-- `str::strip_prefix` -/
def stripPrefix : Text → Text → Option Text
  | [], s => some s
  | _ :: _, [] => none
  | a :: p, b :: s => if a = b then stripPrefix p s else none

/-- `str::strip_suffix` -/
def stripSuffix (p s : Text) : Option Text := (stripPrefix p.reverse s.reverse).map List.reverse

/-- `str::ends_with` -/
def endsWith (p s : Text) : Bool := (stripSuffix p s).isSome

/-- `str::trim_start_matches` with a character predicate -/
def trimStart (f : Char → Bool) (s : Text) : Text := s.dropWhile f

/-- `str::trim_end_matches` with a character predicate -/
def trimEnd (f : Char → Bool) (s : Text) : Text := (s.reverse.dropWhile f).reverse

/-- repeatedly remove the non-empty prefix `p` -/
def trimStartStr (p s : Text) : Text :=
  match stripPrefix p s with
  | some r => if r.length < s.length then trimStartStr p r else s
  | none => s
termination_by s.length

/-- `str::trim_end_matches` with a text pattern -/
def trimEndStr (p s : Text) : Text := (trimStartStr p.reverse s.reverse).reverse

/-- `str::split` on a character predicate: the pieces between separators, at least one piece -/
def splitOn (f : Char → Bool) : Text → List Text
  | [] => [[]]
  | c :: r =>
    if f c then [] :: splitOn f r
    else match splitOn f r with
      | p :: ps => (c :: p) :: ps
      | [] => [[c]]

/-- Unicode White_Space: `char::is_whitespace`, and `\s` of the `regex` crate -/
def isWs (c : Char) : Bool :=
  let n := c.toNat
  (9 ≤ n && n ≤ 13) || n == 32 || n == 0x85 || n == 0xA0 || n == 0x1680 || (0x2000 ≤ n && n ≤ 0x200A) ||
    n == 0x2028 || n == 0x2029 || n == 0x202F || n == 0x205F || n == 0x3000

/-- `str::split_whitespace` -/
def splitWs (s : Text) : List Text := (splitOn isWs s).filter (fun p => p ≠ [])

/-- `str::trim` -/
def trim (s : Text) : Text := trimEnd isWs (trimStart isWs s)

/-- `as u32` -/
def asU32 (n : Nat) : Nat := n % 2 ^ 32

end Wm
