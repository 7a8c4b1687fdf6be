import Verif.Model.ConfigNum

/-! Numbers as settings: what the reader of a configuration file makes of a plain number (src/config/mod.rs). -/

namespace Wm.Config

/-- What a reader of configuration files hands to the code for one value: the method of `Visitor` it calls with it. -/
inductive Scalar
  | str (t : Text)
  | i64 (n : Int)
  | u64 (n : Nat)
  | f64
  | bool (b : Bool)
  deriving DecidableEq, Repr

/-- The two formats a configuration file can have, src/arg.rs:294-315 -/
inductive FileFormat
  | toml | yaml
  deriving DecidableEq, Repr

/-- The value a number written in a file is handed on as. This is what the crates `toml` and `serde_yaml` do, not code of
    this repository: TOML knows one kind of integers, all of which fit 64 bits with sign; YAML's reader takes any number without
    a minus as an unsigned one. Numbers out of these ranges are rejected or read as texts and floats by the crates, and
    not modelled (`none`). -/
def FileFormat.number : FileFormat → Int → Option Scalar
  | .toml, n => if -2 ^ 63 ≤ n ∧ n < 2 ^ 63 then some (.i64 n) else none
  | .yaml, n =>
    if 0 ≤ n then if n < 2 ^ 64 then some (.u64 n.toNat) else none
    else if -2 ^ 63 ≤ n then some (.i64 n) else none

/-- `i64::to_string` -/
def showInt (n : Int) : Text := if n < 0 then '-' :: showNat n.natAbs else showNat n.natAbs

/-- src/config/mod.rs:49-87 `DisplayFromStrOrNumber::deserialize_as`: texts are parsed, numbers with a sign printed and parsed; every
    other method of the visitor is the default one, which rejects the value -/
def readScalar (parse : Text → Res α) : Scalar → Res α
  | .str t => parse t
  | .i64 n => parse (showInt n)
  | _ => .err .invalid

/-- src/reverse/common.rs:32-47: a timeout of the configuration written as a number -/
def readTimeout (checked : Bool) (f : FileFormat) (n : Int) : Option (Res Dur) :=
  (f.number n).map (readScalar (parseDur checked))

end Wm.Config
