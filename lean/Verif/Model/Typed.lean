import Verif.Model.Varint
/-
The owned message types of the protocol.
Source: /repo/memberlist-proto/src/typed/*.rs, /repo/memberlist-proto/src/node.rs
`I` is the node-id type, `A` the address type. `u32` fields are naturals (callers keep them below
2^32; the wire theorems state that bound explicitly).
-/
namespace Verif

/-- `State`, typed/state.rs:3-25. -/
inductive NState where
  | alive | suspect | dead | left
  | unknown (b : UInt8)
  deriving DecidableEq, Repr

/-- `From<u8> for State`, typed/state.rs:27-37. -/
def NState.ofByte (b : UInt8) : NState :=
  match b.toNat with
  | 0 => .alive
  | 1 => .suspect
  | 2 => .dead
  | 3 => .left
  | _ => .unknown b

/-- `From<State> for u8`, typed/state.rs:39-49. -/
def NState.toByte : NState → UInt8
  | .alive => 0
  | .suspect => 1
  | .dead => 2
  | .left => 3
  | .unknown b => b

/-- `ProtocolVersion` and `DelegateVersion`, typed/version.rs:1-73 (two enums of the same shape). -/
inductive Version where
  | v1
  | unknown (b : UInt8)
  deriving DecidableEq, Repr

/-- `From<u8>`, typed/version.rs:22-29, 60-67. -/
def Version.ofByte (b : UInt8) : Version :=
  match b.toNat with
  | 1 => .v1
  | _ => .unknown b

/-- `From<..> for u8`, typed/version.rs:31-38, 69-76. -/
def Version.toByte : Version → UInt8
  | .v1 => 1
  | .unknown b => b

/-- `Meta::MAX_SIZE`, typed/meta.rs:42. -/
def META_MAX_SIZE : Nat := 65535

/-- `Node<I, A>`, node.rs. node.rs:12-15. -/
structure TNode (I A : Type) where
  id : I
  addr : A
  deriving DecidableEq, Repr

/-- `Alive<I, A>`, typed/alive.rs:9-30. `meta` is a `Meta` (at most `META_MAX_SIZE` bytes by
construction). -/
structure Alive (I A : Type) where
  incarnation : Nat
  metadata : Bytes
  node : TNode I A
  pv : Version
  dv : Version
  deriving DecidableEq, Repr

/-- `Suspect<I>` and `Dead<I>`, typed/suspect_dead.rs:1-28 (one macro, same fields). -/
structure BadState (I : Type) where
  incarnation : Nat
  node : I
  src : I
  deriving DecidableEq, Repr

/-- `Ping<I, A>` and `IndirectPing<I, A>`, typed/ping.rs:1-34 (one macro, same fields). -/
structure Ping (I A : Type) where
  seq : Nat
  source : TNode I A
  target : TNode I A
  deriving DecidableEq, Repr

/-- `PushNodeState<I, A>`, typed/push_pull.rs:9-39. -/
structure PushNodeState (I A : Type) where
  id : I
  addr : A
  metadata : Bytes
  incarnation : Nat
  state : NState
  pv : Version
  dv : Version
  deriving DecidableEq, Repr

/-- `PushPull<I, A>`, typed/push_pull.rs:241-258. -/
structure PushPull (I A : Type) where
  join : Bool
  states : List (PushNodeState I A)
  userData : Bytes
  deriving DecidableEq, Repr

/-- `Message<I, A>`, typed/message.rs:46-67. `Ack` carries its sequence number and payload, `Nack` its
sequence number, `ErrorResponse` the UTF-8 bytes of its text. -/
inductive Message (I A : Type) where
  | ping (p : Ping I A)
  | indirectPing (p : Ping I A)
  | ack (seq : Nat) (payload : Bytes)
  | suspect (s : BadState I)
  | alive (a : Alive I A)
  | dead (d : BadState I)
  | pushPull (p : PushPull I A)
  | userData (data : Bytes)
  | nack (seq : Nat)
  | errorResponse (text : Bytes)
  deriving DecidableEq, Repr

end Verif
