import Verif.Model.Varint
/-
Model of the cluster label: header codec, datagram entry point, and the
streaming gate in front of reliable exchanges.
Source: /repo/memberlist-proto/src/label/mod.rs, codec/mod.rs, streams/label.rs,
streams/labeled/mod.rs
-/
namespace Verif

/-- UTF-8 continuation byte. Part of the model of `core::str::from_utf8`. See `isUtf8` (label/mod.rs:118 and
200). -/
def utf8Cont (b : UInt8) : Bool := 0x80 ≤ b && b ≤ 0xbf

/-- `core::str::from_utf8(bytes).is_ok()`: well-formed UTF-8 (Unicode table 3-7). Standard-library
function called at label/mod.rs:118 and 200; modelled by its specification. -/
def isUtf8 : Bytes → Bool
  | [] => true
  | b :: rest =>
    if b < 0x80 then isUtf8 rest
    else if 0xc2 ≤ b && b ≤ 0xdf then
      match rest with
      | c :: r => utf8Cont c && isUtf8 r
      | _ => false
    else if 0xe0 ≤ b && b ≤ 0xef then
      match rest with
      | c :: d :: r =>
        (if b = 0xe0 then 0xa0 ≤ c && c ≤ 0xbf
         else if b = 0xed then 0x80 ≤ c && c ≤ 0x9f
         else utf8Cont c) && utf8Cont d && isUtf8 r
      | _ => false
    else if 0xf0 ≤ b && b ≤ 0xf4 then
      match rest with
      | c :: d :: e :: r =>
        (if b = 0xf0 then 0x90 ≤ c && c ≤ 0xbf
         else if b = 0xf4 then 0x80 ≤ c && c ≤ 0x8f
         else utf8Cont c) && utf8Cont d && utf8Cont e && isUtf8 r
      | _ => false
    else false

/-- `LABELED_TAG`, label/mod.rs:39. -/
def LABELED_TAG : UInt8 := 12
/-- `LABEL_OVERHEAD`, label/mod.rs:42. -/
def LABEL_OVERHEAD : Nat := 2
/-- `MAX_LABEL_LEN`, label/mod.rs:50. -/
def MAX_LABEL_LEN : Nat := 255 - 2

/-- `LabelError`, label/mod.rs:55-75. -/
inductive LabelError where
  | tooLong (n : Nat)
  | notUtf8
  | mismatch
  | doubleLabel
  deriving DecidableEq, Repr

/-- `LabelVerdict`, label/mod.rs:80-91. -/
inductive LabelVerdict where
  | accepted (n : Nat)
  | incomplete
  | rejected (e : LabelError)
  deriving DecidableEq, Repr

/-- `effective_label`, label/mod.rs:98-103. -/
def effectiveLabel : Option Bytes → Option Bytes
  | some l => if l.isEmpty then none else some l
  | none => none

/-- `validate_label`, label/mod.rs:114-122. -/
def validateLabel (label : Bytes) : Except LabelError Unit :=
  if label.length > MAX_LABEL_LEN then .error (.tooLong label.length)
  else if !isUtf8 label then .error .notUtf8
  else .ok ()

/-- `encode_label_prefix`, label/mod.rs:132-141. `label.len() as u8` truncates modulo 256. -/
def encodeLabelPrefix (label : Bytes) : Bytes :=
  LABELED_TAG :: UInt8.ofNat label.length :: label

/-- `classify_header`, label/mod.rs:176-228. -/
def classifyHeader (buf : Bytes) (expected : Option Bytes) (skip : Bool) : LabelVerdict :=
  match buf with
  | [] => .incomplete
  | b0 :: _ =>
    if b0 = LABELED_TAG then
      match buf with
      | _ :: b1 :: body =>
        let len := b1.toNat
        if len > MAX_LABEL_LEN then .rejected (.tooLong len)
        else if buf.length < LABEL_OVERHEAD + len then .incomplete
        else
          let headerLabel := body.take len
          if !isUtf8 headerLabel then .rejected .notUtf8
          else
            match expected with
            | some exp => if exp = headerLabel then .accepted (LABEL_OVERHEAD + len)
                          else .rejected .mismatch
            | none => .rejected .doubleLabel
      | _ => .incomplete
    else
      match expected with
      | none => .accepted 0
      | some _ => if skip then .accepted 0 else .rejected .mismatch

/-- Errors of `decode_incoming` / `wrap_label`: `CodecError::Label` and
`CodecError::Truncated(TruncatedInput)`, codec/mod.rs:32-80. -/
inductive CodecLabelError where
  | label (e : LabelError)
  | emptyInput
  | emptyInnerFrame
  | labelHeader
  deriving DecidableEq, Repr

/-- `wrap_label`, codec/mod.rs:184-196. -/
def wrapLabel (inner : Bytes) (label : Option Bytes) : Except LabelError Bytes :=
  match effectiveLabel label with
  | some l =>
    match validateLabel l with
    | .error e => .error e
    | .ok () => .ok (encodeLabelPrefix l ++ inner)
  | none => .ok inner

/-- `decode_incoming`, codec/mod.rs:248-266 (datagram path, `skip = false`). -/
def decodeIncoming (raw : Bytes) (label : Option Bytes) : Except CodecLabelError Bytes :=
  match classifyHeader raw (effectiveLabel label) false with
  | .accepted consumed =>
    let inner := raw.drop consumed
    if inner.isEmpty then
      if consumed > 0 then .error .emptyInnerFrame else .error .emptyInput
    else .ok inner
  | .incomplete => .error .labelHeader
  | .rejected e => .error (.label e)

/-- `Role`, streams/label.rs:61-64. -/
inductive GateRole where
  | dialer | acceptor
  deriving DecidableEq, Repr

/-- `LabelGate`, streams/label.rs:92-132. -/
structure LabelGate where
  label : Option Bytes
  skip : Bool
  role : GateRole
  outboundPrefix : Bytes
  prefixQueued : Bool
  inboundRaw : Bytes
  validated : Bool
  deriving DecidableEq, Repr

/-- `LabelIntake`, streams/label.rs:68-84. -/
inductive LabelIntake where
  | buffering
  | validated (tail : Bytes)
  | rejected
  deriving DecidableEq, Repr

/-- `queue_outbound_prefix_if_needed`, streams/label.rs:197-205. -/
def LabelGate.queuePrefix (g : LabelGate) : LabelGate :=
  if g.prefixQueued then g
  else
    { g with
      outboundPrefix := match g.label with
        | some l => g.outboundPrefix ++ encodeLabelPrefix l
        | none => g.outboundPrefix
      prefixQueued := true }

/-- `LabelGate::acceptor`, streams/label.rs:176-188; the label is normalised with
`filter(|l| !l.is_empty())`. -/
def LabelGate.newAcceptor (label : Option Bytes) (skip : Bool) : LabelGate :=
  { label := effectiveLabel label, skip, role := .acceptor, outboundPrefix := [],
    prefixQueued := false, inboundRaw := [], validated := false }

/-- `LabelGate::dialer`, streams/label.rs:146-164. -/
def LabelGate.newDialer (label : Option Bytes) (skip : Bool) : LabelGate :=
  LabelGate.queuePrefix { LabelGate.newAcceptor label skip with role := .dialer }

/-- `take_outbound_prefix`, streams/label.rs:211-215. -/
def LabelGate.takePrefix (g : LabelGate) : LabelGate × Bytes :=
  ({ g with outboundPrefix := [] }, g.outboundPrefix)

/-- `is_validating`, streams/label.rs:231-233. -/
def LabelGate.isValidating (g : LabelGate) : Bool :=
  g.label.isSome && g.role = .acceptor && !g.validated

/-- `consume_inbound`, streams/label.rs:257-297. -/
def LabelGate.consumeInbound (g : LabelGate) (chunk : Bytes) : LabelGate × LabelIntake :=
  match g.label with
  | none => (({ g with validated := true }).queuePrefix, .validated chunk)
  | some _ =>
    let raw := g.inboundRaw ++ chunk
    match classifyHeader raw g.label g.skip with
    | .accepted consumed =>
      (({ g with inboundRaw := [], validated := true }).queuePrefix, .validated (raw.drop consumed))
    | .incomplete => ({ g with inboundRaw := raw }, .buffering)
    | .rejected _ => ({ g with inboundRaw := raw }, .rejected)

/-- `LabelGate::clear`, streams/label.rs:314-316. -/
def LabelGate.clear (g : LabelGate) : LabelGate := { g with outboundPrefix := [] }

/-- `Labeled<Passthrough>`, streams/labeled/mod.rs:56-63 and 301-317: the plain-TCP record layer. The
inner record layer is the byte pipe `Passthrough`; `inbound`/`outbound` are its two buffers. -/
structure Labeled where
  gate : LabelGate
  inbound : Bytes
  outbound : Bytes
  prefixEmitted : Bool
  postLabelTail : Bytes
  deriving DecidableEq, Repr

/-- `flush_outbound_label_into_inner`, streams/labeled/mod.rs:335-353. -/
def Labeled.flushLabel (s : Labeled) : Labeled :=
  if s.prefixEmitted then s
  else
    let (gate, pre) := s.gate.takePrefix
    if pre.length = 0 then { s with gate := gate }
    else { s with gate := gate, outbound := s.outbound ++ pre, prefixEmitted := true }

/-- `StreamTransport::dialer` for `Labeled`, streams/labeled/mod.rs:443-461. -/
def Labeled.newDialer (label : Option Bytes) (skip : Bool) : Labeled :=
  Labeled.flushLabel
    { gate := .newDialer label skip, inbound := [], outbound := [], prefixEmitted := false,
      postLabelTail := [] }

/-- `StreamTransport::acceptor` for `Labeled`, streams/labeled/mod.rs:463-477. -/
def Labeled.newAcceptor (label : Option Bytes) (skip : Bool) : Labeled :=
  { gate := .newAcceptor label skip, inbound := [], outbound := [], prefixEmitted := false,
    postLabelTail := [] }

/-- `consume_inbound_label`, streams/labeled/mod.rs:367-391; the flag is `true` on rejection. -/
def Labeled.consumeLabel (s : Labeled) : Labeled × Bool :=
  let surfaced := s.inbound
  let s := { s with inbound := [] }
  if surfaced.isEmpty then (s, false)
  else
    match s.gate.consumeInbound surfaced with
    | (gate, .validated tail) =>
      (({ s with gate := gate, postLabelTail := s.postLabelTail ++ tail }).flushLabel, false)
    | (gate, .buffering) => ({ s with gate := gate }, false)
    | (gate, .rejected) => ({ s with gate := gate }, true)

/-- `handle_transport_data`, streams/labeled/mod.rs:479-493 over `Passthrough` (95-100). The flag
is `true` for `Intake::Failed`. -/
def Labeled.recv (s : Labeled) (input : Bytes) : Labeled × Bool :=
  let s := { s with inbound := s.inbound ++ input }
  if !s.gate.validated then s.consumeLabel else (s, false)

/-- `read_plaintext`, streams/labeled/mod.rs:509-517. -/
def Labeled.read (s : Labeled) : Labeled × Bytes :=
  ({ s with postLabelTail := [], inbound := [] }, s.postLabelTail ++ s.inbound)

/-- `write_plaintext`, streams/labeled/mod.rs:519-521 over `Passthrough` (118-123). -/
def Labeled.write (s : Labeled) (bs : Bytes) : Labeled :=
  { s with outbound := s.outbound ++ bs }

/-- `poll_transport_transmit`, streams/labeled/mod.rs:495-503 over `Passthrough` (102-106). -/
def Labeled.transmit (s : Labeled) : Labeled × Bytes :=
  ({ s with outbound := [] }, s.outbound)

/-- `clear_outbound`, streams/labeled/mod.rs:538-550. -/
def Labeled.clearOutbound (s : Labeled) : Labeled :=
  { s with gate := s.gate.clear, outbound := [] }

end Verif
