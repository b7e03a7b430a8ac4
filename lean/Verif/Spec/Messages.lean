import Verif.Model.Proto
import Mathlib.Data.List.Forall2
/-
Well-formedness of typed messages: what the Rust types guarantee of their fields.
-/
namespace Verif.Spec

/-- An id or address type whose own codec round-trips (the quantifier of C05). -/
structure LawfulData {T : Type} (C : DataCodec T) : Prop where
  roundtrip : ∀ v b, C.encode v = some b → C.decode b = some (b.length, v)

/-- A state value as `State::from(u8)` produces it: `Unknown` is used only for bytes that have no
name. -/
def CanonState : NState → Prop
  | .unknown b => 4 ≤ b.toNat
  | _ => True

/-- A version value as `From<u8>` produces it. -/
def CanonVersion : Version → Prop
  | .unknown b => b.toNat ≠ 1
  | _ => True

instance (s : NState) : Decidable (CanonState s) := by cases s <;> simp only [CanonState] <;> infer_instance
instance (v : Version) : Decidable (CanonVersion v) := by
  cases v <;> simp only [CanonVersion] <;> infer_instance

variable {I A : Type}

/-- One pushed node state: `u32` incarnation, `Meta` size limit, canonical enums. -/
def PushNodeStateWF (p : PushNodeState I A) : Prop :=
  p.incarnation < 2 ^ 32 ∧ p.metadata.length ≤ 65535 ∧ CanonState p.state ∧ CanonVersion p.pv ∧
    CanonVersion p.dv

instance (p : PushNodeState I A) : Decidable (PushNodeStateWF p) := by
  unfold PushNodeStateWF; infer_instance

/-- A message whose fields are in the range of their Rust types. -/
def MessageWF : Message I A → Prop
  | .ping p => p.seq < 2 ^ 32
  | .indirectPing p => p.seq < 2 ^ 32
  | .ack seq _ => seq < 2 ^ 32
  | .suspect s => s.incarnation < 2 ^ 32
  | .alive a =>
    a.incarnation < 2 ^ 32 ∧ a.metadata.length ≤ 65535 ∧ CanonVersion a.pv ∧ CanonVersion a.dv
  | .dead d => d.incarnation < 2 ^ 32
  | .pushPull p => ∀ s ∈ p.states, PushNodeStateWF s
  | .userData _ => True
  | .nack seq => seq < 2 ^ 32
  | .errorResponse t => isUtf8 t = true

instance (m : Message I A) : Decidable (MessageWF m) := by
  cases m <;> simp only [MessageWF] <;> infer_instance

/-- The body carries a field numbered `n` of varint type. -/
def HasVarint (fs : List Field) (n : Nat) : Prop := ∃ v, (n, WireVal.varint v) ∈ fs

/-- The body carries a length-delimited field numbered `n`. -/
def HasBytes (fs : List Field) (n : Nat) : Prop := ∃ b, (n, WireVal.len b) ∈ fs

end Verif.Spec

namespace Verif.Spec

/-- The value of the last varint occurrence of field `n` (proto3: the last one wins). -/
def lastVarint : List Field → Nat → Option Nat
  | [], _ => none
  | (k, .varint v) :: fs, n => (lastVarint fs n).or (if k = n then some v else none)
  | _ :: fs, n => lastVarint fs n

/-- The value of the last length-delimited occurrence of field `n`. -/
def lastBytes : List Field → Nat → Option Bytes
  | [], _ => none
  | (k, .len b) :: fs, n => (lastBytes fs n).or (if k = n then some b else none)
  | _ :: fs, n => lastBytes fs n

/-- The fields inside one occurrence of sub-message field `n` (none if it is another field). -/
def innerFields (n : Nat) : Field → List Field
  | (k, .len b) => if k = n then (pbFields b).getD [] else []
  | _ => []

/-- The fields of sub-message `n`: proto3 merges all its occurrences. -/
def subFields (fs : List Field) (n : Nat) : List Field := fs.flatMap (innerFields n)

/-- A one-byte version read from field `n`: absent means V1, present must fit one byte. -/
def VersionIs (fs : List Field) (n : Nat) (v : Version) : Prop :=
  (lastVarint fs n = none ∧ v = .v1) ∨
    ∃ w, lastVarint fs n = some w ∧ w % 2 ^ 32 ≤ 255 ∧
      v = if w % 2 ^ 32 = 1 then .v1 else .unknown (UInt8.ofNat (w % 2 ^ 32))

/-- A `uint32` field that must be present. -/
def U32Is (fs : List Field) (n : Nat) (x : Nat) : Prop := ∃ w, lastVarint fs n = some w ∧ x = w % 2 ^ 32

/-- A field holding an encoded id or address that must be present and decode completely. -/
def DataIs {T : Type} (C : DataCodec T) (fs : List Field) (n : Nat) (x : T) : Prop :=
  ∃ b, lastBytes fs n = some b ∧ C.decode b = some (b.length, x)

/-- A metadata field: absent means empty, never above the limit. -/
def MetaIs (fs : List Field) (n : Nat) (x : Bytes) : Prop :=
  x = (lastBytes fs n).getD [] ∧ x.length ≤ 65535

/-- A state field: must be present and fit one byte. -/
def StateIs (fs : List Field) (n : Nat) (s : NState) : Prop :=
  ∃ w, lastVarint fs n = some w ∧ w % 2 ^ 32 ≤ 255 ∧
    s = match w % 2 ^ 32 with
        | 0 => .alive | 1 => .suspect | 2 => .dead | 3 => .left
        | k => .unknown (UInt8.ofNat k)

variable {I A : Type} (CI : DataCodec I) (CA : DataCodec A)

/-- A node sub-message at field `n`: both its id and its address must be present. -/
def NodeIs (fs : List Field) (n : Nat) (x : TNode I A) : Prop :=
  DataIs CI (subFields fs n) 1 x.id ∧ DataIs CA (subFields fs n) 2 x.addr

/-- A pushed node state read from the fields of one list element. -/
def PushStateIs (fs : List Field) (p : PushNodeState I A) : Prop :=
  DataIs CI fs 1 p.id ∧ DataIs CA fs 2 p.addr ∧ MetaIs fs 3 p.metadata ∧ U32Is fs 4 p.incarnation ∧
    StateIs fs 5 p.state ∧ VersionIs fs 6 p.pv ∧ VersionIs fs 7 p.dv

/-- The encoded elements of a repeated sub-message field. -/
def elements (fs : List Field) (n : Nat) : List Bytes :=
  fs.filterMap (fun f => match f with
    | (k, .len b) => if k = n then some b else none
    | _ => none)

/-- What an accepted body of the given type means, field by field. -/
def MeansFields (tag : MessageTag) (fs : List Field) (m : Message I A) : Prop :=
  match tag, m with
  | .ping, .ping p => U32Is fs 1 p.seq ∧ NodeIs CI CA fs 2 p.source ∧ NodeIs CI CA fs 3 p.target
  | .indirectPing, .indirectPing p =>
    U32Is fs 1 p.seq ∧ NodeIs CI CA fs 2 p.source ∧ NodeIs CI CA fs 3 p.target
  | .suspect, .suspect s => U32Is fs 1 s.incarnation ∧ DataIs CI fs 2 s.node ∧ DataIs CI fs 3 s.src
  | .dead, .dead s => U32Is fs 1 s.incarnation ∧ DataIs CI fs 2 s.node ∧ DataIs CI fs 3 s.src
  | .alive, .alive a =>
    U32Is fs 1 a.incarnation ∧ MetaIs fs 2 a.metadata ∧ NodeIs CI CA fs 3 a.node ∧
      VersionIs fs 4 a.pv ∧ VersionIs fs 5 a.dv
  | .ack, .ack s p => s = ((lastVarint fs 1).getD 0) % 2 ^ 32 ∧ p = (lastBytes fs 2).getD []
  | .nack, .nack s => s = ((lastVarint fs 1).getD 0) % 2 ^ 32
  | .pushPull, .pushPull p =>
    p.join = decide ((lastVarint fs 1).getD 0 ≠ 0) ∧ p.userData = (lastBytes fs 3).getD [] ∧
      List.Forall₂ (fun b s => ∃ gs, pbFields b = some gs ∧ PushStateIs CI CA gs s)
        (elements fs 2) p.states
  | .userData, .userData d => d = (lastBytes fs 1).getD []
  | .errorResponse, .errorResponse t => t = (lastBytes fs 1).getD [] ∧ isUtf8 t = true
  | _, _ => False

/-- Every field the protocol requires is present in the body. -/
def RequiredPresent (tag : MessageTag) (fs : List Field) : Prop :=
  match tag with
  | .ping | .indirectPing =>
    HasVarint fs 1 ∧ HasBytes (subFields fs 2) 1 ∧ HasBytes (subFields fs 2) 2 ∧
      HasBytes (subFields fs 3) 1 ∧ HasBytes (subFields fs 3) 2
  | .suspect | .dead => HasVarint fs 1 ∧ HasBytes fs 2 ∧ HasBytes fs 3
  | .alive => HasVarint fs 1 ∧ HasBytes (subFields fs 3) 1 ∧ HasBytes (subFields fs 3) 2
  | .pushPull => ∀ b ∈ elements fs 2, ∃ gs, pbFields b = some gs ∧
      HasBytes gs 1 ∧ HasBytes gs 2 ∧ HasVarint gs 4 ∧ HasVarint gs 5
  | _ => True

end Verif.Spec
