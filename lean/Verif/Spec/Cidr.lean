import Verif.Model.Cidr
/-
Independent specification of CIDR admission: bits, and histories read from their end.
-/
namespace Verif.Spec

/-- Network membership, bit by bit: same family, and the first `prefixLen` bits (counted from the
most significant one) agree. -/
def InNet : IpNet → Ip → Prop
  | .v4 n p, .v4 a => ∀ i, i < p.val → n.getMsbD i = a.getMsbD i
  | .v6 n p, .v6 a => ∀ i, i < p.val → n.getMsbD i = a.getMsbD i
  | _, _ => False

/-- The mutators of a policy. -/
inductive CidrOp where
  | add (n : IpNet)
  | remove (n : IpNet)
  | removeByIp (ip : Ip)

/-- Apply one mutator. -/
def applyCidr (p : CidrPolicy) : CidrOp → CidrPolicy
  | .add n => p.add n
  | .remove n => p.remove n
  | .removeByIp ip => p.removeByIp ip

/-- The policy after a history of mutators. -/
def runCidr (p : CidrPolicy) (ops : List CidrOp) : CidrPolicy := ops.foldl applyCidr p

/-- Whether an operation takes network `n` off the list. -/
def Removes (n : IpNet) : CidrOp → Prop
  | .add _ => False
  | .remove m => m = n
  | .removeByIp ip => InNet n ip

/-- Network `n` is listed after `ops`, starting from a policy that lists `init`: it was initially
listed and never removed, or was added at some point and not removed afterwards. -/
def Listed (init : List IpNet) (ops : List CidrOp) (n : IpNet) : Prop :=
  (n ∈ init ∧ ∀ o ∈ ops, ¬ Removes n o) ∨
    ∃ before after, ops = before ++ .add n :: after ∧ ∀ o ∈ after, ¬ Removes n o

/-- Some operation of the history adds a network. -/
def AddsSome (ops : List CidrOp) : Prop := ∃ n, CidrOp.add n ∈ ops

/-- The networks a policy starts with. -/
def initialNets (p : CidrPolicy) : List IpNet := p.allowed.getD []

end Verif.Spec
