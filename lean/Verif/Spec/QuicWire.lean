import Verif.Spec.Quic
import Verif.Spec.Driver
import Verif.Spec.Coord
/-
Specification vocabulary for what the streams of a QUIC node carry.

`b.got` lists what the node read from the QUIC stream of an exchange, in order: chunks of bytes and the end of the
stream. `b.put` are the bytes QUIC took for it. `b.late`: QUIC handed out bytes of a stream the node had already given
up (it was told to stop it).
-/
namespace Verif.Spec
variable {I A : Type} {Q : Quinn A}

/-- `b` is the stream that carries exchange `x`, or that carried it when it ended. -/
def Carries (s : Quic I Q) (x : Nat) (b : QBridge I A) : Prop :=
  s.bridges.get? x = some b ∨ b ∈ s.gone ∧ b.stream.id = x

/-- The bytes among what was read. -/
def readOf : List Got → Bytes
  | [] => []
  | .bytes b :: l => b ++ readOf l
  | .fin :: l => readOf l

/-- One unit of the reliable path over QUIC: the length of a body, and the body. -/
def QUnit (body u : Bytes) : Prop := u = encodeVarint (body.length % 2 ^ 32) ++ body

/-- The call that opens exchange `x`: the report that a dial succeeded, for an exchange the node began; the acceptance
of a stream, for one a peer began. -/
def Opens (dialled : Bool) (x : Nat) : Ep.Op I A → Prop
  | .dialSucceeded id _ => dialled = true ∧ id = x
  | .acceptStream _ _ => dialled = false
  | _ => False

section
variable [DecidableEq I] [DecidableEq A] (cfg : Cfg I A) (env : Env I A)

/-- Among the endpoint calls made so far, `op` opened exchange `x`, as the stream `s`. `e0` is the endpoint's first
state. -/
def OpenedBy (e0 : Ep I A) (calls : List (Option Nat × Ep.Op I A)) (x : Nat) (op : Ep.Op I A) (s : Stream I A) : Prop :=
  s.id = x ∧ ∃ before tag, before ++ [(tag, op)] <+: calls ∧
    ((e0.run cfg env (before.map Prod.snd)).step cfg env op).2 = .stream (some s)

/-- Among the endpoint calls made so far is one that handed over what exchange `x` brought, and the endpoint answered it
with the push/pull that `body` is, compressed in some way (`B`) the node was set to. -/
def AnsweredBy (B : Backends) (e0 : Ep I A) (calls : List (Option Nat × Ep.Op I A)) (x : Nat) (body : Bytes) : Prop :=
  ∃ before ev t p cmp, before ++ [(some x, Ep.Op.streamEvent (.payload ev) t)] <+: calls ∧
    ((e0.run cfg env (before.map Prod.snd)).step cfg env (.streamEvent (.payload ev) t)).2 = .command (some (.sendResponse p)) ∧
    body = compressPayload B cmp (Ep.encodeBytes env (.pushPull p))
end

/-- The bytes `read` on a stream opened as `s` begin with the label header the cluster demands and whole units behind it,
which bring a ping for this node, and `body` is the acknowledgement of that ping, compressed. -/
def Pinged (CI : DataCodec I) (CA : DataCodec A) [DecidableEq I] (B : Backends) (label : Option Bytes) (skip : Bool) (max : Nat)
    (cmp : CmpOptions) (s : Stream I A) (read body : Bytes) : Prop :=
  ∃ w rest units left plain out, read = w ++ rest ∧ Behind label skip w (units ++ left) ∧ Units B none max units plain ∧
    Acks CI CA s plain out ∧ body = compressPayload B cmp out

end Verif.Spec
