import Verif.Model.Varint
/-
Model of the outer plain-frame and compound-frame layer.
Source: /repo/memberlist-proto/src/framing/mod.rs
-/
namespace Verif

/-- `MessageTag`, framing/mod.rs:44-86. -/
inductive MessageTag where
  | compound | ping | indirectPing | ack | suspect | alive | dead | pushPull | userData | nack
  | errorResponse | encrypted | compressed | checksumed
  deriving DecidableEq, Repr

/-- `tag as u8`, framing/mod.rs:44-86 (the enum discriminants). -/
def MessageTag.toByte : MessageTag → UInt8
  | .compound => 1
  | .ping => 2
  | .indirectPing => 3
  | .ack => 4
  | .suspect => 5
  | .alive => 6
  | .dead => 7
  | .pushPull => 8
  | .userData => 9
  | .nack => 10
  | .errorResponse => 11
  | .encrypted => 13
  | .compressed => 14
  | .checksumed => 15

/-- `impl TryFrom<u8> for MessageTag`, framing/mod.rs:106-128. -/
def MessageTag.ofByte (b : UInt8) : Except FrameError MessageTag :=
  match b.toNat with
  | 1 => .ok .compound
  | 2 => .ok .ping
  | 3 => .ok .indirectPing
  | 4 => .ok .ack
  | 5 => .ok .suspect
  | 6 => .ok .alive
  | 7 => .ok .dead
  | 8 => .ok .pushPull
  | 9 => .ok .userData
  | 10 => .ok .nack
  | 11 => .ok .errorResponse
  | 13 => .ok .encrypted
  | 14 => .ok .compressed
  | 15 => .ok .checksumed
  | _ => .error (.unknownTag b)

/-- `COMPOUND_TAG_LEN`, framing/mod.rs:131. -/
def COMPOUND_TAG_LEN : Nat := 1
/-- `COMPOUND_MAX_COUNT_PREFIX_LEN`, framing/mod.rs:137. -/
def COMPOUND_MAX_COUNT_PREFIX_LEN : Nat := 5
/-- `COMPOUND_MAX_PART_PREFIX_LEN`, framing/mod.rs:142. -/
def COMPOUND_MAX_PART_PREFIX_LEN : Nat := 5

/-- `encode_plain_frame`, framing/mod.rs:748-759. -/
def encodePlainFrame (tag : MessageTag) (body : Bytes) : Except FrameError Bytes :=
  if body.length ≥ 2 ^ 32 then .error (.frameTooLarge body.length)
  else .ok (tag.toByte :: (encodeVarint body.length ++ body))

/-- `decode_plain_frame`, framing/mod.rs:766-797. Returns tag, body slice and bytes consumed.
`header_len.saturating_add(body_len)` is plain addition (64-bit `usize`, `body_len < 2^32`). -/
def decodePlainFrame (buf : Bytes) : Except FrameError (MessageTag × Bytes × Nat) :=
  match buf with
  | [] => .error .empty
  | b0 :: tail =>
    match MessageTag.ofByte b0 with
    | .error e => .error e
    | .ok tag =>
      match decodeVarint tail with
      | .error (.incomplete _ _) => .error (.incomplete buf.length (buf.length + 1))
      | .error e => .error e
      | .ok (bodyLen, varintBytes) =>
        let headerLen := 1 + varintBytes
        let bodyEnd := headerLen + bodyLen
        if buf.length < bodyEnd then .error (.incomplete buf.length bodyEnd)
        else .ok (tag, (buf.drop headerLen).take bodyLen, bodyEnd)

/-- One message handed to the frame encoder: its tag and the bytes its body encoder writes. (`AnyMessage` is
abstracted to the pair `MessageTag::for_message(m)`, body bytes; the body codec itself is modelled in
`Verif.Model.Messages`.). framing/mod.rs:149-176, 328. -/
abbrev RawMsg := MessageTag × Bytes

/-- `encode_message`, framing/mod.rs:328-349. `encoded_len()` is a `u32`, so the announced
`body_len` is the true length modulo 2^32; a disagreement with the bytes written is rejected. -/
def encodeFrame (m : RawMsg) : Except FrameError Bytes :=
  let bodyLen := m.2.length % 2 ^ 32
  let written := m.2.length
  if written ≠ bodyLen then .error (.frameTooLarge written)
  else .ok (m.1.toByte :: (encodeVarint bodyLen ++ m.2))

/-- Size pass of `encode_compound`, framing/mod.rs:478-494: each part's `body_len` and
`frame_len` must fit a `u32`. Returns the per-part `(body_len, frame_len)`. The `usize` overflow
check of the capacity accumulator is not modelled (`Nat`). -/
def compoundSizes : List RawMsg → Except FrameError (List (Nat × Nat))
  | [] => .ok []
  | m :: ms =>
    let bodyLen := m.2.length % 2 ^ 32
    let frameLen := 1 + varintLen bodyLen + bodyLen
    if frameLen ≥ 2 ^ 32 then .error (.frameTooLarge frameLen)
    else
      match compoundSizes ms with
      | .error e => .error e
      | .ok rest => .ok ((bodyLen, frameLen) :: rest)

/-- Write pass of `encode_compound`, framing/mod.rs:498-509. -/
def compoundWrite : List (RawMsg × (Nat × Nat)) → Except FrameError Bytes
  | [] => .ok []
  | (m, (bodyLen, frameLen)) :: ms =>
    if m.2.length ≠ bodyLen then .error (.frameTooLarge m.2.length)
    else
      match compoundWrite ms with
      | .error e => .error e
      | .ok rest =>
        .ok (encodeVarint frameLen ++ (m.1.toByte :: (encodeVarint bodyLen ++ m.2)) ++ rest)

/-- `encode_compound`, framing/mod.rs:466-511. -/
def encodeCompound (msgs : List RawMsg) : Except FrameError Bytes :=
  if msgs.length < 2 then .error .decode
  else if msgs.length ≥ 2 ^ 32 then .error (.frameTooLarge msgs.length)
  else
    match compoundSizes msgs with
    | .error e => .error e
    | .ok sizes =>
      match compoundWrite (msgs.zip sizes) with
      | .error e => .error e
      | .ok body => .ok (MessageTag.compound.toByte :: (encodeVarint msgs.length ++ body))

/-- Part loop of `decode_compound`, framing/mod.rs:551-582, run `n` times on the unread suffix
`rest = buf[cursor..]`; `total = buf.len()`. Ends with the trailing-bytes check (583-585). -/
def decodeParts (total : Nat) : (n : Nat) → (rest : Bytes) → Except FrameError (List Bytes)
  | 0, rest => if rest.length ≠ 0 then .error .decode else .ok []
  | n + 1, rest =>
    match decodeVarint rest with
    | .error (.incomplete _ _) => .error (.incomplete total (total + 1))
    | .error e => .error e
    | .ok (innerLen, lenBytes) =>
      if rest.length < lenBytes + innerLen then
        .error (.incomplete total (total - rest.length + lenBytes + innerLen))
      else
        match decodeParts total n (rest.drop (lenBytes + innerLen)) with
        | .error e => .error e
        | .ok ps => .ok ((rest.drop lenBytes).take innerLen :: ps)

/-- `decode_compound`, framing/mod.rs:522-587. -/
def decodeCompound (buf : Bytes) : Except FrameError (List Bytes) :=
  match buf with
  | [] => .error .empty
  | b0 :: tail =>
    match MessageTag.ofByte b0 with
    | .error e => .error e
    | .ok tag =>
      if tag ≠ .compound then .error (.unknownTag b0)
      else
        match decodeVarint tail with
        | .error (.incomplete _ _) => .error (.incomplete buf.length (buf.length + 1))
        | .error e => .error e
        | .ok (count, countBytes) =>
          if count < 2 then .error .decode
          else if count > buf.length - (1 + countBytes) then .error .decode
          else decodeParts buf.length count (buf.drop (1 + countBytes))

end Verif
