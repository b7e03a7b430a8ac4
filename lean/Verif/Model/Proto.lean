import Verif.Model.Framing
import Verif.Model.Label
import Verif.Model.Typed
/-
Model of the message bodies: the protobuf wire format (schema
/repo/memberlist-proto/proto/memberlist/v1/messages.proto, codec generated by the external `buffa`
crate), the bridge to the typed messages (bridge/mod.rs), and the message level of framing/mod.rs
and codec/mod.rs.

The generated codec is not in the repository. It is modelled by the proto3 contract: fields written
in field-number order, `optional` fields written when present, implicit-presence fields written when
not the default; on decode the last scalar wins, sub-messages merge, repeated fields append, unknown
fields are skipped. Simplifications: a known field with the wrong wire type and the deprecated group
wire types are decode errors; the library's recursion limit is not modelled (the schema nests twice).
-/
namespace Verif

/-- One protobuf field value by wire type (0, 1, 2, 5). Generated codec (protobuf wire format), used at
framing/mod.rs:328. -/
inductive WireVal where
  | varint (n : Nat)
  | i64 (b : Bytes)
  | len (b : Bytes)
  | i32 (b : Bytes)
  deriving DecidableEq, Repr

/-- A field: number and value. Generated codec (protobuf wire format), used at framing/mod.rs:328. -/
abbrev Field := Nat × WireVal

/-- Protobuf base-128 varint of at most `fuel + 1` bytes; returns the value and the unread rest. -/
def pbVarint : (fuel : Nat) → Bytes → Option (Nat × Bytes)
  | _, [] => none
  | 0, b :: bs => if b.toNat < 128 then some (b.toNat, bs) else none
  | f + 1, b :: bs =>
    if b.toNat < 128 then some (b.toNat, bs)
    else
      match pbVarint f bs with
      | none => none
      | some (v, rest) => some (b.toNat % 128 + 128 * v, rest)

/-- 64-bit varint: at most ten bytes and no overflow. -/
def pbVarint64 (buf : Bytes) : Option (Nat × Bytes) :=
  match pbVarint 9 buf with
  | none => none
  | some (v, rest) => if v < 2 ^ 64 then some (v, rest) else none

/-- The value part of a field with wire type `wt`. Generated codec (protobuf wire format), used at
framing/mod.rs:328. -/
def pbValue (wt : Nat) (buf : Bytes) : Option (WireVal × Bytes) :=
  if wt = 0 then (pbVarint64 buf).map (fun p => (.varint p.1, p.2))
  else if wt = 1 then if buf.length < 8 then none else some (.i64 (buf.take 8), buf.drop 8)
  else if wt = 2 then
    match pbVarint64 buf with
    | none => none
    | some (n, rest) => if rest.length < n then none else some (.len (rest.take n), rest.drop n)
  else if wt = 5 then if buf.length < 4 then none else some (.i32 (buf.take 4), buf.drop 4)
  else none

/-- One field: the key varint (`number << 3 | wire type`, a `u32` with non-zero number), then the
value. -/
def pbField (buf : Bytes) : Option (Field × Bytes) :=
  match pbVarint64 buf with
  | none => none
  | some (key, rest) =>
    if key ≥ 2 ^ 32 ∨ key / 8 = 0 then none
    else (pbValue (key % 8) rest).map (fun p => ((key / 8, p.1), p.2))

/-- All fields of a message body; `fuel` bounds the number of fields (each takes at least one byte, so
`buf.length` is enough). Generated codec (protobuf wire format), used at framing/mod.rs:328. -/
def pbFieldsLoop : (fuel : Nat) → Bytes → Option (List Field)
  | _, [] => some []
  | 0, _ => none
  | f + 1, buf =>
    match pbField buf with
    | none => none
    | some (fl, rest) => (pbFieldsLoop f rest).map (fl :: ·)

/-- All fields of a message body. Generated codec (protobuf wire format), used at framing/mod.rs:328. -/
def pbFields (buf : Bytes) : Option (List Field) := pbFieldsLoop buf.length buf

/-- Encoding of one field. Generated codec (protobuf wire format), used at framing/mod.rs:328. -/
def encodeField : Field → Bytes
  | (n, .varint v) => encodeVarint (n * 8) ++ encodeVarint v
  | (n, .i64 b) => encodeVarint (n * 8 + 1) ++ b
  | (n, .len b) => encodeVarint (n * 8 + 2) ++ (encodeVarint b.length ++ b)
  | (n, .i32 b) => encodeVarint (n * 8 + 5) ++ b

/-- Encoding of a field list. Generated codec (protobuf wire format), used at framing/mod.rs:328. -/
def encodeFields (fs : List Field) : Bytes := fs.flatMap encodeField

/-- An `optional bytes` field or a present sub-message. Generated codec (protobuf wire format), used at
framing/mod.rs:328. -/
def optLen (n : Nat) : Option Bytes → List Field
  | none => []
  | some b => [(n, .len b)]

/-- An `optional uint32` field. -/
def optU32 (n : Nat) : Option Nat → List Field
  | none => []
  | some v => [(n, .varint v)]

/-- An implicit-presence `bytes`/`string` field. Generated codec (protobuf wire format), used at
framing/mod.rs:328. -/
def impLen (n : Nat) (b : Bytes) : List Field := if b = [] then [] else [(n, .len b)]

/-- An implicit-presence `uint32` field. -/
def impU32 (n : Nat) (v : Nat) : List Field := if v = 0 then [] else [(n, .varint v)]

/-- Reading a varint as `uint32`: the low 32 bits. -/
def asU32 (n : Nat) : Nat := n % 2 ^ 32

/-- Reading a varint as `int32` / open enum: the low 32 bits, two's complement. -/
def asI32 (n : Nat) : Int :=
  if n % 2 ^ 32 < 2 ^ 31 then (n % 2 ^ 32 : Nat) else ((n % 2 ^ 32 : Nat) : Int) - 2 ^ 32

/-- An enum value on the wire: `int32` sign-extended to 64 bits. -/
def i32Wire (v : Int) : Nat := if v < 0 then (v + 2 ^ 64).toNat else v.toNat

/-- `message Node`, messages.proto:41-44. -/
structure PbNode where
  id : Option Bytes := none
  addr : Option Bytes := none
  deriving DecidableEq, Repr

namespace PbNode
/-- The fields written: messages.proto:41-44; generated codec, by the proto3 contract. -/
def toFields (m : PbNode) : List Field := optLen 1 m.id ++ optLen 2 m.addr

/-- What one field read does: messages.proto:41-44; generated codec, by the proto3 contract. -/
def step (m : PbNode) (f : Field) : Option PbNode :=
  match f.1, f.2 with
  | 1, .len b => some { m with id := some b }
  | 1, _ => none
  | 2, .len b => some { m with addr := some b }
  | 2, _ => none
  | _, _ => some m

/-- Merge the bytes of an occurrence of the field into an already read value. Generated codec (protobuf wire
format), used at framing/mod.rs:328. -/
def merge (old : Option PbNode) (b : Bytes) : Option PbNode :=
  match pbFields b with
  | none => none
  | some fs => fs.foldlM step (old.getD {})
end PbNode

/-- `message PushNodeState`, messages.proto:58-71. -/
structure PbPushNodeState where
  id : Option Bytes := none
  addr : Option Bytes := none
  metadata : Bytes := []
  incarnation : Option Nat := none
  state : Option Int := none
  pv : Option Nat := none
  dv : Option Nat := none
  deriving DecidableEq, Repr

namespace PbPushNodeState
/-- The fields written: messages.proto:58-71; generated codec, by the proto3 contract. -/
def toFields (m : PbPushNodeState) : List Field :=
  optLen 1 m.id ++ optLen 2 m.addr ++ impLen 3 m.metadata ++ optU32 4 m.incarnation
    ++ optU32 5 (m.state.map i32Wire) ++ optU32 6 m.pv ++ optU32 7 m.dv

/-- What one field read does: messages.proto:58-71; generated codec, by the proto3 contract. -/
def step (m : PbPushNodeState) (f : Field) : Option PbPushNodeState :=
  match f.1, f.2 with
  | 1, .len b => some { m with id := some b }
  | 1, _ => none
  | 2, .len b => some { m with addr := some b }
  | 2, _ => none
  | 3, .len b => some { m with metadata := b }
  | 3, _ => none
  | 4, .varint v => some { m with incarnation := some (asU32 v) }
  | 4, _ => none
  | 5, .varint v => some { m with state := some (asI32 v) }
  | 5, _ => none
  | 6, .varint v => some { m with pv := some (asU32 v) }
  | 6, _ => none
  | 7, .varint v => some { m with dv := some (asU32 v) }
  | 7, _ => none
  | _, _ => some m

/-- Reading: messages.proto:58-71; generated codec, by the proto3 contract. -/
def decode (b : Bytes) : Option PbPushNodeState :=
  match pbFields b with
  | none => none
  | some fs => fs.foldlM step {}
end PbPushNodeState

/-- `message Alive`, messages.proto:83-91. -/
structure PbAlive where
  incarnation : Option Nat := none
  metadata : Bytes := []
  node : Option PbNode := none
  pv : Option Nat := none
  dv : Option Nat := none
  deriving DecidableEq, Repr

namespace PbAlive
/-- The fields written: messages.proto:83-91; generated codec, by the proto3 contract. -/
def toFields (m : PbAlive) : List Field :=
  optU32 1 m.incarnation ++ impLen 2 m.metadata ++ optLen 3 (m.node.map (fun n => encodeFields n.toFields))
    ++ optU32 4 m.pv ++ optU32 5 m.dv

/-- What one field read does: messages.proto:83-91; generated codec, by the proto3 contract. -/
def step (m : PbAlive) (f : Field) : Option PbAlive :=
  match f.1, f.2 with
  | 1, .varint v => some { m with incarnation := some (asU32 v) }
  | 1, _ => none
  | 2, .len b => some { m with metadata := b }
  | 2, _ => none
  | 3, .len b => (PbNode.merge m.node b).map (fun n => { m with node := some n })
  | 3, _ => none
  | 4, .varint v => some { m with pv := some (asU32 v) }
  | 4, _ => none
  | 5, .varint v => some { m with dv := some (asU32 v) }
  | 5, _ => none
  | _, _ => some m
end PbAlive

/-- `message Suspect` and `message Dead`, messages.proto:95-107. -/
structure PbBad where
  incarnation : Option Nat := none
  node : Option Bytes := none
  src : Option Bytes := none
  deriving DecidableEq, Repr

namespace PbBad
/-- The fields written: messages.proto:95-107; generated codec, by the proto3 contract. -/
def toFields (m : PbBad) : List Field :=
  optU32 1 m.incarnation ++ optLen 2 m.node ++ optLen 3 m.src

/-- What one field read does: messages.proto:95-107; generated codec, by the proto3 contract. -/
def step (m : PbBad) (f : Field) : Option PbBad :=
  match f.1, f.2 with
  | 1, .varint v => some { m with incarnation := some (asU32 v) }
  | 1, _ => none
  | 2, .len b => some { m with node := some b }
  | 2, _ => none
  | 3, .len b => some { m with src := some b }
  | 3, _ => none
  | _, _ => some m
end PbBad

/-- `message Ping` and `message IndirectPing`, messages.proto:111-123. -/
structure PbPing where
  seq : Option Nat := none
  source : Option PbNode := none
  target : Option PbNode := none
  deriving DecidableEq, Repr

namespace PbPing
/-- The fields written: messages.proto:111-123; generated codec, by the proto3 contract. -/
def toFields (m : PbPing) : List Field :=
  optU32 1 m.seq ++ optLen 2 (m.source.map (fun n => encodeFields n.toFields))
    ++ optLen 3 (m.target.map (fun n => encodeFields n.toFields))

/-- What one field read does: messages.proto:111-123; generated codec, by the proto3 contract. -/
def step (m : PbPing) (f : Field) : Option PbPing :=
  match f.1, f.2 with
  | 1, .varint v => some { m with seq := some (asU32 v) }
  | 1, _ => none
  | 2, .len b => (PbNode.merge m.source b).map (fun n => { m with source := some n })
  | 2, _ => none
  | 3, .len b => (PbNode.merge m.target b).map (fun n => { m with target := some n })
  | 3, _ => none
  | _, _ => some m
end PbPing

/-- `message Ack`, messages.proto:127-130 (`Nack`, 135-137, is the same without payload). -/
structure PbAck where
  seq : Nat := 0
  payload : Bytes := []
  deriving DecidableEq, Repr

namespace PbAck
/-- The fields written: messages.proto:127-130; generated codec, by the proto3 contract. -/
def toFields (m : PbAck) : List Field := impU32 1 m.seq ++ impLen 2 m.payload

/-- What one field read does: messages.proto:127-130; generated codec, by the proto3 contract. -/
def step (m : PbAck) (f : Field) : Option PbAck :=
  match f.1, f.2 with
  | 1, .varint v => some { m with seq := asU32 v }
  | 1, _ => none
  | 2, .len b => some { m with payload := b }
  | 2, _ => none
  | _, _ => some m
end PbAck

/-- `message Nack`, messages.proto:135-137. -/
structure PbNack where
  seq : Nat := 0
  deriving DecidableEq, Repr

namespace PbNack
/-- The fields written: messages.proto:135-137; generated codec, by the proto3 contract. -/
def toFields (m : PbNack) : List Field := impU32 1 m.seq

/-- What one field read does: messages.proto:135-137; generated codec, by the proto3 contract. -/
def step (m : PbNack) (f : Field) : Option PbNack :=
  match f.1, f.2 with
  | 1, .varint v => some { m with seq := asU32 v }
  | 1, _ => none
  | _, _ => some m
end PbNack

/-- `message PushPull`, messages.proto:141-145. -/
structure PbPushPull where
  join : Bool := false
  states : List PbPushNodeState := []
  userData : Bytes := []
  deriving DecidableEq, Repr

namespace PbPushPull
/-- The fields written: messages.proto:141-145; generated codec, by the proto3 contract. -/
def toFields (m : PbPushPull) : List Field :=
  (if m.join then [(1, .varint 1)] else [])
    ++ m.states.map (fun s => (2, .len (encodeFields s.toFields)))
    ++ impLen 3 m.userData

/-- What one field read does: messages.proto:141-145; generated codec, by the proto3 contract. -/
def step (m : PbPushPull) (f : Field) : Option PbPushPull :=
  match f.1, f.2 with
  | 1, .varint v => some { m with join := v ≠ 0 }
  | 1, _ => none
  | 2, .len b => (PbPushNodeState.decode b).map (fun s => { m with states := m.states ++ [s] })
  | 2, _ => none
  | 3, .len b => some { m with userData := b }
  | 3, _ => none
  | _, _ => some m
end PbPushPull

/-- `message UserData`, messages.proto:148-150. -/
structure PbUserData where
  data : Bytes := []
  deriving DecidableEq, Repr

namespace PbUserData
/-- The fields written: messages.proto:148-150; generated codec, by the proto3 contract. -/
def toFields (m : PbUserData) : List Field := impLen 1 m.data

/-- What one field read does: messages.proto:148-150; generated codec, by the proto3 contract. -/
def step (m : PbUserData) (f : Field) : Option PbUserData :=
  match f.1, f.2 with
  | 1, .len b => some { m with data := b }
  | 1, _ => none
  | _, _ => some m
end PbUserData

/-- `message ErrorResponse`, messages.proto:155-157; a `string` must be UTF-8. -/
structure PbErrorResponse where
  error : Bytes := []
  deriving DecidableEq, Repr

namespace PbErrorResponse
/-- The fields written: messages.proto:155-157; generated codec, by the proto3 contract. -/
def toFields (m : PbErrorResponse) : List Field := impLen 1 m.error

/-- What one field read does: messages.proto:155-157; generated codec, by the proto3 contract. -/
def step (m : PbErrorResponse) (f : Field) : Option PbErrorResponse :=
  match f.1, f.2 with
  | 1, .len b => if isUtf8 b then some { m with error := b } else none
  | 1, _ => none
  | _, _ => some m
end PbErrorResponse

/-- `AnyMessage`, framing/mod.rs:152-176. -/
inductive AnyMessage where
  | alive (m : PbAlive)
  | suspect (m : PbBad)
  | dead (m : PbBad)
  | ping (m : PbPing)
  | indirectPing (m : PbPing)
  | ack (m : PbAck)
  | nack (m : PbNack)
  | pushPull (m : PbPushPull)
  | userData (m : PbUserData)
  | errorResponse (m : PbErrorResponse)
  deriving DecidableEq, Repr

/-- `MessageTag::for_message`, framing/mod.rs:88-104. -/
def AnyMessage.tag : AnyMessage → MessageTag
  | .alive _ => .alive
  | .suspect _ => .suspect
  | .dead _ => .dead
  | .ping _ => .ping
  | .indirectPing _ => .indirectPing
  | .ack _ => .ack
  | .nack _ => .nack
  | .pushPull _ => .pushPull
  | .userData _ => .userData
  | .errorResponse _ => .errorResponse

/-- The protobuf fields of a message, in field-number order. Generated codec (protobuf wire format), used at
framing/mod.rs:328. -/
def AnyMessage.toFields : AnyMessage → List Field
  | .alive m => m.toFields
  | .suspect m => m.toFields
  | .dead m => m.toFields
  | .ping m => m.toFields
  | .indirectPing m => m.toFields
  | .ack m => m.toFields
  | .nack m => m.toFields
  | .pushPull m => m.toFields
  | .userData m => m.toFields
  | .errorResponse m => m.toFields

/-- `encode_body_into`, framing/mod.rs:309-322. The sizes of nested messages are exact; the library
computes them in `u32`, which only matters when the body reaches 2^32 bytes, and such a body is
refused by `encodeFrame`. -/
def AnyMessage.body (m : AnyMessage) : Bytes := encodeFields m.toFields

/-- Decode a body of message type `tag`: the dispatch of framing/mod.rs:356-409; `none` is
`FrameError::Decode`. -/
def decodeBodyFields (tag : MessageTag) (fs : List Field) : Option AnyMessage :=
  match tag with
  | .alive => (fs.foldlM PbAlive.step {}).map .alive
  | .suspect => (fs.foldlM PbBad.step {}).map .suspect
  | .dead => (fs.foldlM PbBad.step {}).map .dead
  | .ping => (fs.foldlM PbPing.step {}).map .ping
  | .indirectPing => (fs.foldlM PbPing.step {}).map .indirectPing
  | .ack => (fs.foldlM PbAck.step {}).map .ack
  | .nack => (fs.foldlM PbNack.step {}).map .nack
  | .pushPull => (fs.foldlM PbPushPull.step {}).map .pushPull
  | .userData => (fs.foldlM PbUserData.step {}).map .userData
  | .errorResponse => (fs.foldlM PbErrorResponse.step {}).map .errorResponse
  | .compound | .encrypted | .compressed | .checksumed => none

/-- Decode a body of message type `tag`, framing/mod.rs:356-393. -/
def decodeBody (tag : MessageTag) (body : Bytes) : Except FrameError AnyMessage :=
  match tag with
  | .compound | .encrypted | .compressed | .checksumed => .error (.unknownTag tag.toByte)
  | _ =>
    match pbFields body with
    | none => .error .decode
    | some fs =>
      match decodeBodyFields tag fs with
      | none => .error .decode
      | some m => .ok m

/-- `encode_message`, framing/mod.rs:328-349. -/
def encodeMessage (m : AnyMessage) : Except FrameError Bytes := encodeFrame (m.tag, m.body)

/-- `decode_message` / `decode_message_zerocopy`, framing/mod.rs:356-464 (the two differ only in
whether byte fields share the input buffer). -/
def decodeMessage (buf : Bytes) : Except FrameError (Nat × AnyMessage) :=
  match decodePlainFrame buf with
  | .error e => .error e
  | .ok (tag, body, consumed) =>
    match decodeBody tag body with
    | .error e => .error e
    | .ok m => .ok (consumed, m)

/-- The `Data` codec of an id or address type, data/mod.rs:110-240: `encode` into a buffer of
`encoded_len` bytes (`none` is `EncodeError`), `decode` returns the bytes read and the value. -/
structure DataCodec (T : Type) where
  encode : T → Option Bytes
  decode : Bytes → Option (Nat × T)

/-- `BridgeError`, bridge/mod.rs:17-38. -/
inductive BridgeError where
  | encode
  | decode
  | missingField (name : String)
  deriving DecidableEq, Repr

/-- `data_to_bytes`, bridge/mod.rs:46-53. -/
def dataToBytes {T : Type} (C : DataCodec T) (v : T) : Except BridgeError Bytes :=
  match C.encode v with
  | none => .error .encode
  | some b => .ok b

/-- `data_from_bytes`, bridge/mod.rs:61-73. -/
def dataFromBytes {T : Type} (C : DataCodec T) (b : Bytes) : Except BridgeError T :=
  match C.decode b with
  | none => .error .decode
  | some (n, v) => if n ≠ b.length then .error .decode else .ok v

/-- `require_bytes` / `ok_or(MissingField)`, bridge/mod.rs:78-80. -/
def require {T : Type} (f : Option T) (name : String) : Except BridgeError T :=
  match f with
  | none => .error (.missingField name)
  | some v => .ok v

/-- `meta_from_wire`, bridge/mod.rs:99-101, with `TryFrom<Bytes> for Meta` (typed/meta.rs). -/
def metaFromWire (b : Bytes) : Except BridgeError Bytes :=
  if b.length > META_MAX_SIZE then .error .decode else .ok b

/-- `state_from_buffa`, bridge/mod.rs:143-151. -/
def stateFromPb (raw : Int) : Except BridgeError NState :=
  if 0 ≤ raw ∧ raw ≤ 255 then .ok (NState.ofByte (UInt8.ofNat raw.toNat)) else .error .decode

/-- `checked_version_byte` and `versioned`, bridge/mod.rs:157-182. -/
def versioned (v : Option Nat) : Except BridgeError Version :=
  match v with
  | none => .ok .v1
  | some v => if v ≤ 255 then .ok (Version.ofByte (UInt8.ofNat v)) else .error .decode

section Bridge
variable {I A : Type} (CI : DataCodec I) (CA : DataCodec A)

/-- `node_to_buffa`, bridge/mod.rs:187-197. -/
def nodeToPb (n : TNode I A) : Except BridgeError PbNode := do
  let id ← dataToBytes CI n.id
  let addr ← dataToBytes CA n.addr
  pure { id := some id, addr := some addr }

/-- `node_from_buffa`, bridge/mod.rs:200-208. -/
def nodeFromPb (b : PbNode) : Except BridgeError (TNode I A) := do
  let id ← dataFromBytes CI (← require b.id "Node.id")
  let addr ← dataFromBytes CA (← require b.addr "Node.addr")
  pure { id, addr }

/-- `push_node_state_to_buffa`, bridge/mod.rs:267-284. -/
def pushNodeStateToPb (p : PushNodeState I A) : Except BridgeError PbPushNodeState := do
  let id ← dataToBytes CI p.id
  let addr ← dataToBytes CA p.addr
  pure { id := some id, addr := some addr, metadata := p.metadata, incarnation := some p.incarnation,
         state := some (p.state.toByte.toNat : Int), pv := some p.pv.toByte.toNat,
         dv := some p.dv.toByte.toNat }

/-- `push_node_state_from_buffa`, bridge/mod.rs:287-312. -/
def pushNodeStateFromPb (b : PbPushNodeState) : Except BridgeError (PushNodeState I A) := do
  let id ← dataFromBytes CI (← require b.id "PushNodeState.id")
  let addr ← dataFromBytes CA (← require b.addr "PushNodeState.addr")
  let incarnation ← require b.incarnation "PushNodeState.incarnation"
  let state ← stateFromPb (← require b.state "PushNodeState.state")
  let mta ← metaFromWire b.metadata
  let pv ← versioned b.pv
  let dv ← versioned b.dv
  pure { id, addr, metadata := mta, incarnation, state, pv, dv }

/-- `alive_to_buffa`, bridge/mod.rs:317-331. -/
def aliveToPb (t : Alive I A) : Except BridgeError PbAlive := do
  let n ← nodeToPb CI CA t.node
  pure { incarnation := some t.incarnation, metadata := t.metadata, node := some n,
         pv := some t.pv.toByte.toNat, dv := some t.dv.toByte.toNat }

/-- `alive_from_buffa`, bridge/mod.rs:334-356. -/
def aliveFromPb (b : PbAlive) : Except BridgeError (Alive I A) := do
  let n ← require b.node "Alive.node"
  let node ← nodeFromPb CI CA n
  let mta ← metaFromWire b.metadata
  let pv ← versioned b.pv
  let dv ← versioned b.dv
  let incarnation ← require b.incarnation "Alive.incarnation"
  pure { incarnation, metadata := mta, node, pv, dv }

/-- `suspect_to_buffa` / `dead_to_buffa`, bridge/mod.rs:361-371, 388-398. -/
def badToPb (t : BadState I) : Except BridgeError PbBad := do
  let node ← dataToBytes CI t.node
  let src ← dataToBytes CI t.src
  pure { incarnation := some t.incarnation, node := some node, src := some src }

/-- `suspect_from_buffa` / `dead_from_buffa`, bridge/mod.rs:374-384, 401-411; `kind` is the message
name in the error. -/
def badFromPb (kind : String) (b : PbBad) : Except BridgeError (BadState I) := do
  let node ← dataFromBytes CI (← require b.node (kind ++ ".node"))
  let src ← dataFromBytes CI (← require b.src (kind ++ ".from"))
  let incarnation ← require b.incarnation (kind ++ ".incarnation")
  pure { incarnation, node, src }

/-- `ping_to_buffa` / `indirect_ping_to_buffa`, bridge/mod.rs:416-427, 456-468. -/
def pingToPb (t : Ping I A) : Except BridgeError PbPing := do
  let source ← nodeToPb CI CA t.source
  let target ← nodeToPb CI CA t.target
  pure { seq := some t.seq, source := some source, target := some target }

/-- `ping_from_buffa` / `indirect_ping_from_buffa`, bridge/mod.rs:430-451, 471-494. -/
def pingFromPb (kind : String) (b : PbPing) : Except BridgeError (Ping I A) := do
  let s ← require b.source (kind ++ ".source")
  let t ← require b.target (kind ++ ".target")
  let seq ← require b.seq (kind ++ ".sequence_number")
  let source ← nodeFromPb CI CA s
  let target ← nodeFromPb CI CA t
  pure { seq, source, target }

/-- `push_pull_to_buffa`, bridge/mod.rs:533-549. -/
def pushPullToPb (t : PushPull I A) : Except BridgeError PbPushPull := do
  let states ← t.states.mapM (pushNodeStateToPb CI CA)
  pure { join := t.join, states, userData := t.userData }

/-- `push_pull_from_buffa`, bridge/mod.rs:552-565 (`app_field` copies or shares, same bytes). -/
def pushPullFromPb (b : PbPushPull) : Except BridgeError (PushPull I A) := do
  let states ← b.states.mapM (pushNodeStateFromPb CI CA)
  pure { join := b.join, states, userData := b.userData }

/-- `message_to_any`, bridge/mod.rs:604-621. -/
def messageToAny : Message I A → Except BridgeError AnyMessage
  | .ping p => (pingToPb CI CA p).map .ping
  | .indirectPing p => (pingToPb CI CA p).map .indirectPing
  | .ack s p => .ok (.ack { seq := s, payload := p })
  | .suspect s => (badToPb CI s).map .suspect
  | .alive a => (aliveToPb CI CA a).map .alive
  | .dead d => (badToPb CI d).map .dead
  | .pushPull p => (pushPullToPb CI CA p).map .pushPull
  | .userData d => .ok (.userData { data := d })
  | .nack s => .ok (.nack { seq := s })
  | .errorResponse t => .ok (.errorResponse { error := t })

/-- `message_from_any`, bridge/mod.rs:627-644. -/
def messageFromAny : AnyMessage → Except BridgeError (Message I A)
  | .ping b => (pingFromPb CI CA "Ping" b).map .ping
  | .indirectPing b => (pingFromPb CI CA "IndirectPing" b).map .indirectPing
  | .ack b => .ok (.ack b.seq b.payload)
  | .suspect b => (badFromPb CI "Suspect" b).map .suspect
  | .alive b => (aliveFromPb CI CA b).map .alive
  | .dead b => (badFromPb CI "Dead" b).map .dead
  | .pushPull b => (pushPullFromPb CI CA b).map .pushPull
  | .userData b => .ok (.userData b.data)
  | .nack b => .ok (.nack b.seq)
  | .errorResponse b => .ok (.errorResponse b.error)

/-- `CodecError`, codec/mod.rs:32-80 (the variants of the message parsers). -/
inductive CodecError where
  | frame (e : FrameError)
  | trailingData (consumed total : Nat)
  | bridge (e : BridgeError)
  | label (e : CodecLabelError)
  deriving DecidableEq, Repr

/-- `encode_outgoing` before labelling: bridge then frame, codec/mod.rs:203-210. -/
def encodeTyped (m : Message I A) : Except CodecError Bytes :=
  match messageToAny CI CA m with
  | .error e => .error (.bridge e)
  | .ok a =>
    match encodeMessage a with
    | .error e => .error (.frame e)
    | .ok b => .ok b

/-- The conversion loop of `encode_outgoing_compound`, codec/mod.rs:225-228. -/
def toAnys : List (Message I A) → Except BridgeError (List AnyMessage)
  | [] => .ok []
  | m :: ms =>
    match messageToAny CI CA m with
    | .error e => .error e
    | .ok a =>
      match toAnys ms with
      | .error e => .error e
      | .ok as => .ok (a :: as)

/-- `encode_outgoing_compound` before labelling, codec/mod.rs:217-231. -/
def encodeTypedCompound (ms : List (Message I A)) : Except CodecError Bytes :=
  match toAnys CI CA ms with
  | .error e => .error (.bridge e)
  | .ok as =>
    match encodeCompound (as.map (fun a => (a.tag, a.body))) with
    | .error e => .error (.frame e)
    | .ok b => .ok b

/-- `encode_outgoing`, codec/mod.rs:203-210. -/
def encodeOutgoing (label : Option Bytes) (m : Message I A) : Except CodecError Bytes :=
  match encodeTyped CI CA m with
  | .error e => .error e
  | .ok b =>
    match wrapLabel b label with
    | .error e => .error (.label (.label e))
    | .ok d => .ok d

/-- `encode_outgoing_compound`, codec/mod.rs:217-231. -/
def encodeOutgoingCompound (label : Option Bytes) (ms : List (Message I A)) : Except CodecError Bytes :=
  match encodeTypedCompound CI CA ms with
  | .error e => .error e
  | .ok b =>
    match wrapLabel b label with
    | .error e => .error (.label (.label e))
    | .ok d => .ok d

/-- `parse_message`, codec/mod.rs:277-294 (`FrameError::Incomplete` has its own `CodecError` variant in
the code; kept under `frame`). -/
def parseMessage (plain : Bytes) : Except CodecError (Message I A) :=
  match decodeMessage plain with
  | .error e => .error (.frame e)
  | .ok (consumed, any) =>
    if consumed ≠ plain.length then .error (.trailingData consumed plain.length)
    else
      match messageFromAny CI CA any with
      | .error e => .error (.bridge e)
      | .ok m => .ok m

/-- The parts loop of `parse_messages`, codec/mod.rs:330-345: each part is one whole frame. -/
def parseParts : List Bytes → Except CodecError (List (Message I A))
  | [] => .ok []
  | p :: ps =>
    match parseMessage CI CA p with
    | .error e => .error e
    | .ok m =>
      match parseParts ps with
      | .error e => .error e
      | .ok ms => .ok (m :: ms)

/-- `parse_messages`, codec/mod.rs:312-349. -/
def parseMessages (plain : Bytes) : Except CodecError (List (Message I A)) :=
  if plain.head? = some MessageTag.compound.toByte then
    match decodeCompound plain with
    | .error e => .error (.frame e)
    | .ok parts => parseParts CI CA parts
  else
    match parseMessage CI CA plain with
    | .error e => .error e
    | .ok m => .ok [m]

/-- A received datagram, after the transforms: strip the label (`decode_incoming`, codec/mod.rs:248-266)
then parse (`parse_messages`). -/
def receiveDatagram (label : Option Bytes) (raw : Bytes) : Except CodecError (List (Message I A)) :=
  match decodeIncoming raw label with
  | .error e => .error (.label e)
  | .ok inner => parseMessages CI CA inner

end Bridge
end Verif
