/-
Model of the CIDR peer-admission policy.
Source: /repo/memberlist-proto/src/cidr/mod.rs. `ipnet::IpNet` is external; its `contains` is
modelled by its contract (same family, equal network part).
-/
namespace Verif

/-- `core::net::IpAddr` as the integer of its 32 or 128 bits. -/
inductive Ip where
  | v4 (bits : BitVec 32)
  | v6 (bits : BitVec 128)
  deriving DecidableEq, Repr

/-- `ipnet::IpNet`: an address and a prefix length not above the width. The host bits are kept, so
`10.1.0.0/8` and `10.0.0.0/8` are different values, as in `ipnet`. -/
inductive IpNet where
  | v4 (bits : BitVec 32) (prefixLen : Fin 33)
  | v6 (bits : BitVec 128) (prefixLen : Fin 129)
  deriving DecidableEq, Repr

/-- `IpNet::contains(&IpAddr)` (external crate `ipnet`): families must agree and the address must lie between
the network and the broadcast address of the prefix, i.e. the parts above the host bits are equal. Called at
cidr/mod.rs:116 and 140. -/
def IpNet.contains : IpNet → Ip → Bool
  | .v4 n p, .v4 a => n >>> (32 - p.val) == a >>> (32 - p.val)
  | .v6 n p, .v6 a => n >>> (128 - p.val) == a >>> (128 - p.val)
  | _, _ => false

/-- `CidrPolicy`, cidr/mod.rs:59-63. The hash set is a list without duplicates. -/
structure CidrPolicy where
  allowed : Option (List IpNet)
  deriving DecidableEq, Repr

namespace CidrPolicy

/-- `allow_all` / `new` / `default`, cidr/mod.rs:65-92. -/
def allowAll : CidrPolicy := ⟨none⟩

/-- `block_all`, cidr/mod.rs:81-86. -/
def blockAll : CidrPolicy := ⟨some []⟩

/-- Set insertion. Standard library (`HashSet::insert`), field at cidr/mod.rs:59-63. -/
def setInsert (s : List IpNet) (n : IpNet) : List IpNet := if n ∈ s then s else n :: s

/-- `FromIterator` / `TryFrom<&[A]>` / `From<HashSet>` after parsing, cidr/mod.rs:165-214: even an empty
collection gives a policy in effect. -/
def ofList (nets : List IpNet) : CidrPolicy := ⟨some (nets.foldl setInsert [])⟩

/-- `add`, cidr/mod.rs:95-100. -/
def add (p : CidrPolicy) (n : IpNet) : CidrPolicy :=
  ⟨some (setInsert (p.allowed.getD []) n)⟩

/-- `remove`, cidr/mod.rs:105-109. -/
def remove (p : CidrPolicy) (n : IpNet) : CidrPolicy :=
  match p.allowed with
  | none => p
  | some s => ⟨some (s.filter (· ≠ n))⟩

/-- `remove_by_ip`, cidr/mod.rs:114-118. -/
def removeByIp (p : CidrPolicy) (ip : Ip) : CidrPolicy :=
  match p.allowed with
  | none => p
  | some s => ⟨some (s.filter (fun n => !n.contains ip))⟩

/-- `is_allowed`, cidr/mod.rs:136-141. -/
def isAllowed (p : CidrPolicy) (ip : Ip) : Bool :=
  match p.allowed with
  | none => true
  | some s => s.any (fun n => n.contains ip)

/-- `is_allowed_net`, cidr/mod.rs:126-128. -/
def isAllowedNet (p : CidrPolicy) (n : IpNet) : Bool :=
  match p.allowed with
  | none => true
  | some s => s.contains n

/-- `is_block_all`, cidr/mod.rs:149-154. -/
def isBlockAll (p : CidrPolicy) : Bool :=
  match p.allowed with
  | none => false
  | some s => s.isEmpty

/-- `is_allow_all`, cidr/mod.rs:157-159. -/
def isAllowAll (p : CidrPolicy) : Bool := p.allowed.isNone

end CidrPolicy

/-- `CidrAnd::notify_alive`, cidr/mod.rs:243-251: both the policy and the inner delegate (`inner`, its
answer for the same peer) must admit. `AliveDelegate for CidrPolicy` (222-227) is `isAllowed` alone. -/
def cidrAnd (p : CidrPolicy) (inner : Bool) (ip : Ip) : Bool := p.isAllowed ip && inner

end Verif
