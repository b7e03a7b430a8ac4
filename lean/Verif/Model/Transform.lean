import Verif.Model.Framing
import Verif.Model.Keyring
/-
Model of the payload transforms (checksum, compression, encryption), the sender pipeline and the
receiver's unwrap loop.
Source: /repo/memberlist-proto/src/{checksum,compression,encryption,framing,streams}/mod.rs
All backend features (crc32, xxhash, murmur3, zstd, lz4, snappy, brotli, aes-gcm,
chacha20-poly1305) are on, so `UnsupportedTransform` and `Disabled` do not occur.
-/
namespace Verif

/-- `ChecksumAlgorithm`, checksum/mod.rs:24-57. -/
inductive ChkAlgo where
  | crc32 | xxHash32 | xxHash64 | xxHash3 | murmur3
  | unknown (b : UInt8)
  deriving DecidableEq, Repr

/-- `ChecksumAlgorithm::tag`, checksum/mod.rs:72-86. -/
def ChkAlgo.tag : ChkAlgo → UInt8
  | .crc32 => 1
  | .xxHash32 => 2
  | .xxHash64 => 3
  | .xxHash3 => 4
  | .murmur3 => 5
  | .unknown b => b

/-- `ChecksumAlgorithm::from_tag`, checksum/mod.rs:92-106. -/
def ChkAlgo.ofTag (b : UInt8) : ChkAlgo :=
  match b.toNat with
  | 1 => .crc32
  | 2 => .xxHash32
  | 3 => .xxHash64
  | 4 => .xxHash3
  | 5 => .murmur3
  | _ => .unknown b

/-- `ChecksumAlgorithm::digest_size`, checksum/mod.rs:112-126. -/
def ChkAlgo.digestSize : ChkAlgo → Nat
  | .crc32 => 4
  | .xxHash32 => 4
  | .xxHash64 => 8
  | .xxHash3 => 8
  | .murmur3 => 4
  | .unknown _ => 0

/-- `CompressAlgorithm`, compression/mod.rs:162-184; `zstd level` with level 1-22. -/
inductive CmpAlgo where
  | zstd (level : Nat) (h : 1 ≤ level ∧ level ≤ 22)
  | lz4 | snappy | brotli
  | unknown (b : UInt8)
  deriving DecidableEq, Repr

/-- `CompressAlgorithm::tag`, compression/mod.rs:197-209. -/
def CmpAlgo.tag : CmpAlgo → UInt8
  | .zstd l _ => UInt8.ofNat l
  | .lz4 => 23
  | .snappy => 24
  | .brotli => 25
  | .unknown b => b

/-- `CompressAlgorithm::from_tag`, compression/mod.rs:215-229. -/
def CmpAlgo.ofTag (b : UInt8) : CmpAlgo :=
  if h : 1 ≤ b.toNat ∧ b.toNat ≤ 22 then .zstd b.toNat h
  else if b = 23 then .lz4
  else if b = 24 then .snappy
  else if b = 25 then .brotli
  else .unknown b

/-- `EncryptionError`, encryption/mod.rs:407-450. -/
inductive EncErr where
  | authFailed
  | unsupportedAlgorithm (b : UInt8)
  | oversize (claimed max : Nat)
  | noMatchingKey
  | keyMismatch
  | malformedFrame
  | encryptionRequired
  deriving DecidableEq, Repr

/-- `CompressionError`, compression/mod.rs:316-338 (the backend's message text is dropped). -/
inductive CmpErr where
  | unsupportedAlgorithm (b : UInt8)
  | backend
  | oversizeOriginal (claimed max : Nat)
  | malformedFrame
  | unitLenExceedsMax (unitLen max : Nat)
  deriving DecidableEq, Repr

/-- `ChecksumError`, checksum/mod.rs (without `Disabled`: all backends are built in). checksum/mod.rs:223-234.
-/
inductive ChkErr where
  | mismatch
  | unknownAlgorithm (b : UInt8)
  deriving DecidableEq, Repr

/-- The part of `FrameError` the transform layer produces, framing/mod.rs:207-289. -/
inductive TransformError where
  | empty
  | nonCanonical
  | oversizePlaintext (n : Nat)
  | frame (e : FrameError)
  | checksum (e : ChkErr)
  | compression (e : CmpErr)
  | encryption (e : EncErr)
  deriving DecidableEq, Repr

/-- The external primitives, as opaque functions. `digest a p` is the digest of `p` for a known algorithm;
`compress` may fail; `decompress a body n` is what the backend produces for `body` when given an `n`-byte output
bound (`none` = backend error); `aeadSeal k nonce pt aad` is ciphertext with the authentication tag; `aeadOpen k
nonce ct aad` is `none` when authentication fails. No law is assumed here: theorems that need one state it as a
hypothesis. External crates behind compression/mod.rs, checksum/mod.rs and encryption/mod.rs. -/
structure Backends where
  digest : ChkAlgo → Bytes → Bytes
  compress : CmpAlgo → Bytes → Option Bytes
  decompress : CmpAlgo → Bytes → Nat → Option Bytes
  aeadSeal : SecretKey → Bytes → Bytes → Bytes → Bytes
  aeadOpen : SecretKey → Bytes → Bytes → Bytes → Option Bytes

/-! ### Checksum wrapper -/

/-- `CHECKSUMED_TAG`, checksum/mod.rs:362. -/
def CHECKSUMED_TAG : UInt8 := 15
/-- `CHECKSUMED_WRAPPER_OVERHEAD`, checksum/mod.rs:378. -/
def CHECKSUMED_WRAPPER_OVERHEAD : Nat := 2 + 8

/-- `digest`, checksum/mod.rs:294-327: unknown algorithms are an error. -/
def chkDigest (B : Backends) (a : ChkAlgo) (payload : Bytes) : Except ChkErr Bytes :=
  match a with
  | .unknown b => .error (.unknownAlgorithm b)
  | a => .ok (B.digest a payload)

/-- `verify`, checksum/mod.rs:333-344. -/
def chkVerify (B : Backends) (a : ChkAlgo) (payload expected : Bytes) : Except ChkErr Unit :=
  match chkDigest B a payload with
  | .error e => .error e
  | .ok got => if got = expected then .ok () else .error .mismatch

/-- `encode_checksummed_frame`, checksum/mod.rs:389-403. -/
def encodeChecksummedFrame (B : Backends) (a : ChkAlgo) (payload : Bytes) : Except ChkErr Bytes :=
  match chkDigest B a payload with
  | .error e => .error e
  | .ok d => .ok (CHECKSUMED_TAG :: a.tag :: (d ++ payload))

/-- `decode_checksummed_frame`, checksum/mod.rs:418-448. -/
def decodeChecksummedFrame (B : Backends) (frame : Bytes) : Except TransformError Bytes :=
  match frame with
  | [] => .error (.checksum (.unknownAlgorithm 0))
  | [b0] => .error (.checksum (.unknownAlgorithm b0))
  | b0 :: b1 :: rest =>
    if b0 ≠ CHECKSUMED_TAG then .error (.checksum (.unknownAlgorithm b0))
    else
      match ChkAlgo.ofTag b1 with
      | .unknown t => .error (.checksum (.unknownAlgorithm t))
      | a =>
        if rest.length < a.digestSize then .error (.checksum .mismatch)
        else
          match chkVerify B a (rest.drop a.digestSize) (rest.take a.digestSize) with
          | .error e => .error (.checksum e)
          | .ok _ => .ok (rest.drop a.digestSize)

/-! ### Compression wrapper -/

/-- `COMPRESSED_TAG`, compression/mod.rs:711. -/
def COMPRESSED_TAG : UInt8 := 14

/-- `compress`, compression/mod.rs:360-391. -/
def cmpCompress (B : Backends) (a : CmpAlgo) (input : Bytes) : Except CmpErr Bytes :=
  match a with
  | .unknown b => .error (.unsupportedAlgorithm b)
  | a =>
    match B.compress a input with
    | none => .error .backend
    | some out => .ok out

/-- `decompress`, compression/mod.rs:402-484: the backend's output must have exactly the declared
length. -/
def cmpDecompress (B : Backends) (a : CmpAlgo) (input : Bytes) (origLen : Nat) :
    Except CmpErr Bytes :=
  match a with
  | .unknown b => .error (.unsupportedAlgorithm b)
  | a =>
    match B.decompress a input origLen with
    | none => .error .backend
    | some out => if out.length ≠ origLen then .error .backend else .ok out

/-- `CompressionOptions`, compression/mod.rs:531-534. -/
structure CmpOptions where
  algorithm : Option CmpAlgo
  threshold : Nat
  deriving DecidableEq, Repr

/-- `apply_compression`, compression/mod.rs:505-518; `none` is `CompressionOutput::Plain`. -/
def applyCompression (B : Backends) (a : CmpAlgo) (threshold : Nat) (input : Bytes) :
    Except CmpErr (Option Bytes) :=
  if input.length < threshold then .ok none
  else
    match cmpCompress B a input with
    | .error e => .error e
    | .ok packed => if packed.length < input.length then .ok (some packed) else .ok none

/-- `CompressionOptions::apply`, compression/mod.rs:625-630. -/
def CmpOptions.apply (B : Backends) (o : CmpOptions) (payload : Bytes) :
    Except CmpErr (Option Bytes) :=
  match o.algorithm with
  | some a => applyCompression B a o.threshold payload
  | none => .ok none

/-- `encode_compressed_frame`, compression/mod.rs:718-729 (`orig_len as u32` truncates). -/
def encodeCompressedFrame (a : CmpAlgo) (origLen : Nat) (compressed : Bytes) : Bytes :=
  COMPRESSED_TAG :: a.tag :: (encodeVarint (origLen % 2 ^ 32) ++ compressed)

/-- `decode_compressed_frame`, compression/mod.rs:740-765. -/
def decodeCompressedFrame (B : Backends) (frame : Bytes) (max : Nat) : Except CmpErr Bytes :=
  match frame with
  | b0 :: b1 :: rest =>
    if b0 ≠ COMPRESSED_TAG then .error .malformedFrame
    else
      match CmpAlgo.ofTag b1 with
      | .unknown t => .error (.unsupportedAlgorithm t)
      | a =>
        match decodeVarint rest with
        | .error _ => .error .backend
        | .ok (origLen, varintBytes) =>
          if origLen > max then .error (.oversizeOriginal origLen max)
          else cmpDecompress B a (rest.drop varintBytes) origLen
  | _ => .error .malformedFrame

/-- `compress_reliable_payload`, compression/mod.rs:794-819, and `compress_gossip_datagram`,
streams/mod.rs:407-425 (the same body; also `QuicEndpoint::compress_gossip`, quic/mod.rs:1312).
`opts.algorithm().expect(..)` cannot fail: a compressed outcome implies an algorithm. -/
def compressPayload (B : Backends) (o : CmpOptions) (framed : Bytes) : Bytes :=
  match o.apply B framed with
  | .ok (some packed) =>
    match o.algorithm with
    | some a =>
      let wrapped := encodeCompressedFrame a framed.length packed
      if wrapped.length < framed.length then wrapped else framed
    | none => framed
  | _ => framed

/-! ### Encryption wrapper -/

/-- `ENCRYPTED_TAG`, encryption/mod.rs:914. -/
def ENCRYPTED_TAG : UInt8 := 13
/-- `NONCE_LEN`, encryption/mod.rs:918. -/
def NONCE_LEN : Nat := 12
/-- `AUTH_TAG_LEN`, encryption/mod.rs:922. -/
def AUTH_TAG_LEN : Nat := 16
/-- `WRAPPER_HEADER_LEN`, encryption/mod.rs:927. -/
def WRAPPER_HEADER_LEN : Nat := 2 + NONCE_LEN
/-- `ENCRYPTED_WRAPPER_OVERHEAD`, encryption/mod.rs:939. -/
def ENCRYPTED_WRAPPER_OVERHEAD : Nat := WRAPPER_HEADER_LEN + AUTH_TAG_LEN

/-- `key_matches_algorithm`, encryption/mod.rs:456-467. -/
def keyMatchesAlgorithm (a : EncAlgo) (k : SecretKey) : Bool :=
  match a with
  | .aesGcm => k.kind == .aes128 || k.kind == .aes192 || k.kind == .aes256
  | .chacha => k.kind == .chacha
  | .unknown _ => true

/-- `encrypt`, encryption/mod.rs:477-496. -/
def encEncrypt (B : Backends) (a : EncAlgo) (k : SecretKey) (nonce pt aad : Bytes) :
    Except EncErr Bytes :=
  if !keyMatchesAlgorithm a k then .error .keyMismatch
  else
    match a with
    | .unknown t => .error (.unsupportedAlgorithm t)
    | _ => .ok (B.aeadSeal k nonce pt aad)

/-- `decrypt`, encryption/mod.rs:503-522. -/
def encDecrypt (B : Backends) (a : EncAlgo) (k : SecretKey) (nonce ct aad : Bytes) :
    Except EncErr Bytes :=
  if !keyMatchesAlgorithm a k then .error .keyMismatch
  else
    match a with
    | .unknown t => .error (.unsupportedAlgorithm t)
    | _ =>
      match B.aeadOpen k nonce ct aad with
      | none => .error .authFailed
      | some pt => .ok pt

/-- `encode_encrypted_frame`, encryption/mod.rs:949-979. The random nonce is an argument; failure of
the entropy source is not modelled. -/
def encodeEncryptedFrame (B : Backends) (a : EncAlgo) (k : SecretKey) (nonce pt : Bytes) :
    Except EncErr Bytes :=
  match encEncrypt B a k nonce pt [ENCRYPTED_TAG, a.tag] with
  | .error e => .error e
  | .ok ct => .ok (ENCRYPTED_TAG :: a.tag :: (nonce ++ ct))

/-- The key-trial loop of `decode_encrypted_frame`, encryption/mod.rs:1066-1103, over the keys in
trial order; `tried` counts the attempts. The primary's attempt (1067-1075) and the secondaries'
loop (1076-1086) have the same body and are merged. -/
def tryKeys (B : Backends) (a : EncAlgo) (nonce ct aad : Bytes) :
    List SecretKey → (tried : Nat) → Except EncErr Bytes
  | [], tried => if tried = 1 then .error .authFailed else .error .noMatchingKey
  | k :: ks, tried =>
    if k.algorithm ≠ a then tryKeys B a nonce ct aad ks tried
    else
      match encDecrypt B a k nonce ct aad with
      | .ok pt => .ok pt
      | .error .authFailed => tryKeys B a nonce ct aad ks (tried + 1)
      | .error other => .error other

/-- `decode_encrypted_frame`, encryption/mod.rs:1028-1105. `ring = none` is encryption disabled. -/
def decodeEncryptedFrame (B : Backends) (ring : Option Keyring) (frame : Bytes) (maxPlain : Nat) :
    Except EncErr Bytes :=
  match frame with
  | b0 :: b1 :: rest =>
    if b0 ≠ ENCRYPTED_TAG then .error .malformedFrame
    else
      match EncAlgo.ofTag b1 with
      | .unknown t => .error (.unsupportedAlgorithm t)
      | a =>
        if frame.length < WRAPPER_HEADER_LEN + AUTH_TAG_LEN then .error .malformedFrame
        else
          let nonce := rest.take NONCE_LEN
          let ct := rest.drop NONCE_LEN
          let ptLen := ct.length - AUTH_TAG_LEN
          if ptLen > maxPlain then .error (.oversize ptLen maxPlain)
          else
            match ring with
            | none => .error .noMatchingKey
            | some r => tryKeys B a nonce ct [ENCRYPTED_TAG, a.tag] r.keys 0
  | _ => .error .malformedFrame

/-! ### Receiver: the unwrap loop -/

/-- `unwrap_transforms`, framing/mod.rs:670-741; `stage` is the loop variable (initially 1). -/
def unwrapLoop (B : Backends) (max : Nat) (cur : Bytes) (stage : Nat) :
    Except TransformError Bytes :=
  match cur with
  | [] => .error .empty
  | lead :: _ =>
    if lead = ENCRYPTED_TAG then .error .nonCanonical
    else if lead = CHECKSUMED_TAG then
      if _h : stage > 1 then .error .nonCanonical
      else
        match decodeChecksummedFrame B cur with
        | .error e => .error e
        | .ok inner => unwrapLoop B max inner 2
    else if lead = COMPRESSED_TAG then
      if _h : stage > 2 then .error .nonCanonical
      else
        match decodeCompressedFrame B cur max with
        | .error e => .error (.compression e)
        | .ok inner => unwrapLoop B max inner 3
    else if cur.length > max then .error (.oversizePlaintext cur.length)
    else .ok cur
termination_by 3 - stage

/-- `unwrap_transforms`, framing/mod.rs:670-741. -/
def unwrapTransforms (B : Backends) (buf : Bytes) (max : Nat) : Except TransformError Bytes :=
  unwrapLoop B max buf 1

/-- `unwrap_transforms_with_encryption`, framing/mod.rs:611-653; also the body of
`decrypt_gossip` (streams/mod.rs:632-647, with `max` the gossip MTU). -/
def unwrapWithEncryption (B : Backends) (ring : Option Keyring) (buf : Bytes) (max : Nat) :
    Except TransformError Bytes :=
  match buf with
  | [] =>
    if ring.isSome then .error .empty else unwrapTransforms B buf max
  | lead :: _ =>
    if ring.isSome ∧ lead ≠ ENCRYPTED_TAG then .error (.encryption .encryptionRequired)
    else if lead = ENCRYPTED_TAG then
      match decodeEncryptedFrame B ring buf (max + CHECKSUMED_WRAPPER_OVERHEAD) with
      | .error e => .error (.encryption e)
      | .ok decoded => unwrapTransforms B decoded max
    else unwrapTransforms B buf max

/-! ### Sender pipelines -/

/-- A sender's transform configuration (`CompressionOptions`, `ChecksumOptions`,
`EncryptionOptions` of a coordinator, streams/mod.rs:266-300). -/
structure TransformConfig where
  compression : CmpOptions
  checksum : Option ChkAlgo
  ring : Option Keyring

/-- `checksum_gossip_datagram`, streams/mod.rs:441-449, with `ChecksumOptions::apply`,
checksum/mod.rs:552-559. -/
def checksumGossip (B : Backends) (algo : Option ChkAlgo) (d : Bytes) : Except ChkErr Bytes :=
  match algo with
  | some a => encodeChecksummedFrame B a d
  | none => .ok d

/-- `encrypt_gossip_datagram`, streams/mod.rs:459-469, and `encrypt_reliable_payload`,
encryption/mod.rs:987-999 (same body). -/
def encryptPayload (B : Backends) (ring : Option Keyring) (nonce d : Bytes) : Except EncErr Bytes :=
  match ring with
  | none => .ok d
  | some r => encodeEncryptedFrame B r.primary.algorithm r.primary nonce d

/-- The outbound gossip pipeline `compress_gossip` → `checksum_gossip` → `encrypt_gossip`
(streams/mod.rs:522, 562, 597; order documented at 621-625). The datagram it is given
already carries the cluster label (`Verif.Model.Label`). -/
def sendGossip (B : Backends) (c : TransformConfig) (nonce datagram : Bytes) :
    Except TransformError Bytes :=
  match checksumGossip B c.checksum (compressPayload B c.compression datagram) with
  | .error e => .error (.checksum e)
  | .ok d =>
    match encryptPayload B c.ring nonce d with
    | .error e => .error (.encryption e)
    | .ok w => .ok w

/-- `reliable_unit`, streams/bridge.rs:256-288 (with `response_precompressed = false`), and
`encode_reliable_unit_with_encryption`, compression/mod.rs:879-927: header chunk ++ payload chunk.
`payload.len() as u32` truncates. -/
def reliableUnit (B : Backends) (cmp : CmpOptions) (ring : Option Keyring) (nonce framed : Bytes) :
    Except TransformError Bytes :=
  match encryptPayload B ring nonce (compressPayload B cmp framed) with
  | .error e => .error (.encryption e)
  | .ok payload => .ok (encodeVarint (payload.length % 2 ^ 32) ++ payload)

/-- `take_reliable_unit`, streams/bridge.rs:293-336 (`FrameTooLarge` for an oversized unit;
`take_reliable_unit_with_encryption`, compression/mod.rs:940-982, differs only in that error). -/
def takeReliableUnit (B : Backends) (ring : Option Keyring) (buf : Bytes) (max : Nat) :
    Except TransformError (Option (Bytes × Nat)) :=
  match decodeVarint buf with
  | .error (.incomplete _ _) => .ok none
  | .error .empty => .ok none
  | .error e => .error (.frame e)
  | .ok (unitLen, vbytes) =>
    let unitMax := if ring.isSome then max + ENCRYPTED_WRAPPER_OVERHEAD else max
    if unitLen > unitMax then .error (.frame (.frameTooLarge unitLen))
    else if buf.length < vbytes + unitLen then .ok none
    else
      match unwrapWithEncryption B ring ((buf.drop vbytes).take unitLen) max with
      | .error e => .error e
      | .ok plain => .ok (some (plain, vbytes + unitLen))

end Verif
