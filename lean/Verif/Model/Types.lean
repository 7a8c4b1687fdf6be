import Verif.Model.Basic
/-! Data types shared by several parts of the model. -/
namespace Wm

/-- `std::net::IpAddr` -/
inductive IpAddr where
  | v4 (a : BitVec 32)
  | v6 (a : BitVec 128)
deriving DecidableEq, Repr

/-- `std::net::SocketAddr`; IPv6 flow label and scope id are not modelled. -/
structure SockAddr where
  ip : IpAddr
  port : BitVec 16
deriving DecidableEq, Repr

/-- src/config/header.rs:18 `HeaderOper` -/
inductive HeaderOper where
  | add | del | default | replace
deriving DecidableEq, Repr

/-- src/config/header.rs:26 -/
def HeaderOper.toU8 : HeaderOper → Nat
  | .add => 1 | .del => 2 | .default => 3 | .replace => 4

/-- src/config/header.rs:35 -/
def HeaderOper.fromU8 (n : Nat) : HeaderOper :=
  if n = 1 then .add else if n = 2 then .del else if n = 3 then .default else .replace

/-- src/config/header.rs:72 `ConfigHeader`: one header-rewrite rule. -/
structure ConfigHeader where
  oper : HeaderOper
  isProxy : Bool
  key : Text
  val : Text
deriving DecidableEq, Repr

/-- src/mapping/config.rs:28 `MappingConfig`: one port mapping announced by a client. -/
structure MappingConfig where
  name : Text
  mode : Text
  localAddr : Option SockAddr
  domain : Text
  headers : List ConfigHeader
deriving DecidableEq, Repr

/-- ASCII lower case of one character (`char::to_ascii_lowercase`). -/
def asciiLower (c : Char) : Char :=
  if 'A' ≤ c ∧ c ≤ 'Z' then Char.ofNat (c.toNat + 32) else c

/-- `str::eq_ignore_ascii_case` -/
def eqIgnoreCase (a b : Text) : Bool := a.map asciiLower == b.map asciiLower

/-- src/mapping/config.rs:62 -/
def MappingConfig.isProxy (m : MappingConfig) : Bool := eqIgnoreCase m.mode "proxy".toList

end Wm
