import Verif.Model.Text
/-! Size, duration and rate settings: src/config/size.rs, duration.rs, rate.rs. -/
namespace Wm.Config
open Wm

/-- src/config/size.rs:20 -/
def sizeUnits : List Text := [[], ['k'], ['m'], ['g'], ['t'], ['p']]

/-- src/config/size.rs:23-36, keyed by the last byte (ASCII, so a character) -/
def unitMulti (b : UInt8) : Option Nat :=
  if b = 107 ∨ b = 75 then some 1024
  else if b = 109 ∨ b = 77 then some (1024 ^ 2)
  else if b = 103 ∨ b = 71 then some (1024 ^ 3)
  else if b = 116 ∨ b = 84 then some (1024 ^ 4)
  else if b = 112 ∨ b = 80 then some (1024 ^ 5)
  else none

/-- src/config/size.rs:38 -/
def isUnitLetter (c : Char) : Bool := ['k', 'K', 'm', 'M', 'g', 'G', 't', 'T', 'p', 'P'].contains c

/-- src/config/size.rs:59-81 `ConfigSize::from_str`. `checked`: built with overflow checks. -/
def parseSize (checked : Bool) (s : Text) : Res Nat :=
  match (utf8 s).getLast? with
  | none => .err .invalid
  | some last =>
    match unitMulti last with
    | some multi =>
      orInvalid (parseU 64 (trimEnd isUnitLetter s)) >>= fun n => mulU64 checked n multi
    | none =>
      if 48 ≤ last.toNat ∧ last.toNat ≤ 57 then orInvalid (parseU 64 s)
      else orInvalid (parseU 64 (trimEnd (fun c => c = Char.ofNat last.toNat) s))

/-- src/config/size.rs:88-95, the loop with `k = 5 - idx` turns left -/
def sizeLoop : Nat → Nat → Nat → Nat × Nat
  | 0, div, idx => (div, idx)
  | k + 1, div, idx =>
    if div > 1024 then
      if div % 1024 ≠ 0 then (div, idx) else sizeLoop k (div / 1024) (idx + 1)
    else (div, idx)

/-- src/config/size.rs:84-98 `Display` -/
def showSize (n : Nat) : Text :=
  let r := sizeLoop 5 n 0
  showNat r.1 ++ sizeUnits.getD r.2 []

/-- `std::time::Duration` -/
structure Dur where
  secs : Nat
  nanos : Nat
deriving DecidableEq, Repr

/-- `Duration::new`: whole seconds of `nanos` are carried; panics when the seconds overflow -/
def mkDur (secs nanos : Nat) : Res Dur :=
  if secs + nanos / 1000000000 < 2 ^ 64 then .ok ⟨secs + nanos / 1000000000, nanos % 1000000000⟩ else .panic

/-- `parse::<u64>().unwrap_or(1)` -/
def parseOr1 (s : Text) : Nat := (parseU 64 s).getD 1

/-- src/config/duration.rs:39-70 `ConfigDuration::from_str` -/
def parseDur (checked : Bool) (s : Text) : Res Dur :=
  if s = [] then .err .invalid
  else if endsWith ['m', 's'] s then do
    let ns ← mulU64 checked (parseOr1 (trimEndStr ['m', 's'] s)) 1000000
    mkDur 0 (asU32 ns)
  else if endsWith ['h'] s then do
    let n ← mulU64 checked (parseOr1 (trimEndStr ['h'] s)) 3600
    mkDur n 0
  else if endsWith ['m', 'i', 'n'] s then do
    let n ← mulU64 checked (parseOr1 (trimEndStr ['m', 'i', 'n'] s)) 60
    mkDur n 0
  else if endsWith ['s'] s then mkDur (parseOr1 (trimEndStr ['s'] s)) 0
  else mkDur (parseOr1 s) 0

/-- src/config/duration.rs:73-89 `Display`; `subsec_millis` is `nanos / 1_000_000` -/
def showDur (checked : Bool) (d : Dur) : Res Text :=
  let ms := d.nanos / 1000000
  let s := d.secs
  if ms > 0 then do
    let t ← mulU64 checked s 1000
    let t ← addU64 checked ms t
    return showNat t ++ ['m', 's']
  else if s ≥ 3600 ∧ s % 3600 = 0 then .ok (showNat (s / 3600) ++ ['h'])
  else if s ≥ 60 ∧ s % 60 = 0 then .ok (showNat (s / 60) ++ ['m', 'i', 'n'])
  else .ok (showNat s ++ ['s'])

/-- src/config/rate.rs:40-59 `ConfigRate::from_str`: the arguments of `Rate::new` (wenmeng) -/
def parseRate (checked : Bool) (s : Text) : Res (Nat × Dur) :=
  if s = [] then .err .invalid
  else match (splitOn (fun c => c = '/') s).map trim with
    | a :: b :: _ => do
      let n ← parseSize checked a
      let d ← parseDur checked b
      return (n, d)
    | _ => .err .invalid

end Wm.Config
