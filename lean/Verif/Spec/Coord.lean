import Verif.Spec.Transform
import Verif.Spec.Label
import Verif.Model.Coord
/-
Specification vocabulary for reliable exchanges.

  connection ::= label-header?  unit*
  unit       ::= length  wrapped-payload        (see Spec/Transform for the wrappers)
The payloads of the units, put together, are one message frame.
-/
namespace Verif.Spec

/-- `UnitOf B ring max wire plain`: `wire` is one unit, carrying `plain`, for a receiver with this keyring
(`none`: encryption is off) and this payload limit. -/
def UnitOf (B : Backends) (ring : Option Keyring) (max : Nat) (wire plain : Bytes) : Prop :=
  ∃ len body ls, wire = len ++ body ∧ LenField len body.length ∧
    ls.Sublist canonicalOrder ∧ (Layer.encrypted ∈ ls ↔ ring.isSome = true) ∧
    Peels B (heldKeys ring) max ls body plain ∧ PlainLead plain ∧ plain.length ≤ max

/-- `Units B ring max wire plain`: `wire` is a whole number of units that together carry `plain`. -/
inductive Units (B : Backends) (ring : Option Keyring) (max : Nat) : Bytes → Bytes → Prop
  | nil : Units B ring max [] []
  | snoc (w p u q : Bytes) (h : Units B ring max w p) (hu : UnitOf B ring max u q) :
      Units B ring max (w ++ u) (p ++ q)

/-- What a connection of this cluster carries behind its label header, if the cluster has a label. -/
def Behind (label : Option Bytes) (skip : Bool) (wire body : Bytes) : Prop :=
  match label with
  | none | some [] => wire = body
  | some l => Admits isUtf8 (some l) skip wire body

section
variable {I A : Type} [DecidableEq I]

/-- `Acks CI CA s plain out`: `plain` begins with one message, a ping for this node, and `out` is the acknowledgement of
it, with no payload. -/
def Acks (CI : DataCodec I) (CA : DataCodec A) (s : Stream I A) (plain out : Bytes) : Prop :=
  ∃ frame rest p, plain = frame ++ rest ∧ parseMessage CI CA frame = .ok (.ping p) ∧ p.target.id = s.localId ∧
    encodeTyped CI CA (.ack p.seq []) = .ok out

/-- `Delivers CI CA s plain ev`: `plain` is one message and `ev` is what it means for the endpoint on the
freshly opened stream `s`. An accepted connection may bring user data or a push/pull request; a dialled
one brings the answer to its request. -/
def Delivers (CI : DataCodec I) (CA : DataCodec A) (s : Stream I A) (plain : Bytes)
    (ev : PayloadEvent I A) : Prop :=
  plain.length ≤ s.maxFrame ∧
  match s.phase with
  | .inAwaiting =>
    (∃ d, parseMessage CI CA plain = .ok (.userData d) ∧ ev = .userData s.peer d) ∨
    (∃ pp, parseMessage CI CA plain = .ok (.pushPull pp) ∧
      ev = .pushPullRequest s.peer pp.states pp.userData (if pp.join then .join else .refresh) s.id)
  | .outSending (.pushPull k) =>
    ∃ pp, parseMessage CI CA plain = .ok (.pushPull pp) ∧
      ev = .pushPullReply s.peer pp.states pp.userData k s.id
  | .outSending (.reliablePing seq) =>
    ∃ payload t, parseMessage CI CA plain = .ok (.ack seq payload) ∧ ev = .reliablePingAcked seq t
  | _ => False
end

section
variable {I A : Type} [DecidableEq I] [DecidableEq A] (cfg : Cfg I A) (env : Env I A) (X : XCfg) (T : TEnv)

/-- The bytes a history delivered to exchange `x` since it was opened, and whether it delivered the end of
the peer's stream. Calls for an id not handed out yet deliver nothing. -/
def received (c : Coord I A) (x : Nat) : List (Coord.XOp I A) → Bytes × Bool
  | [] => ([], false)
  | op :: ops =>
    let rest := received (c.step cfg env X T op).1 x ops
    match op with
    | .data y bytes eof _ => if y = x ∧ x < c.nextX then (bytes ++ rest.1, eof || rest.2) else rest
    | _ => rest

/-- `Opened e0 calls x op s`: among the endpoint calls made so far, `op` was made for exchange `x` and
returned the stream `s`. `e0` is the endpoint's first state. -/
def Opened (e0 : Ep I A) (calls : List (Option Nat × Ep.Op I A)) (x : Nat) (op : Ep.Op I A)
    (s : Stream I A) : Prop :=
  ∃ before, before ++ [(some x, op)] <+: calls ∧
    ((e0.run cfg env (before.map Prod.snd)).step cfg env op).2 = .stream (some s)

end
end Verif.Spec
