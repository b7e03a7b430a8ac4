import Verif.Spec.Framing
import Verif.Model.Transform
/-
The wire grammar of wrapped payloads, written independently of the unwrap loop and the codecs.
Only the data types (algorithms, keys, the interface `Backends` of external primitives) come from the
model.

  checksummed ::= 15  algorithm  digest  payload
  compressed  ::= 14  algorithm  length  body        (length = LEB128 of the payload's length)
  encrypted   ::= 13  algorithm  nonce(12)  ciphertext-with-tag(≥ 16)
-/
namespace Verif.Spec

/-- Checksum algorithm bytes with the digest length of each. -/
def chkTable : List (UInt8 × ChkAlgo × Nat) :=
  [(1, .crc32, 4), (2, .xxHash32, 4), (3, .xxHash64, 8), (4, .xxHash3, 8), (5, .murmur3, 4)]

/-- Compression algorithm bytes: 1-22 zstd at that level, 23 lz4, 24 snappy, 25 brotli. -/
inductive CmpByte : UInt8 → CmpAlgo → Prop
  | zstd (b : UInt8) (h : 1 ≤ b.toNat ∧ b.toNat ≤ 22) : CmpByte b (.zstd b.toNat h)
  | lz4 : CmpByte 23 .lz4
  | snappy : CmpByte 24 .snappy
  | brotli : CmpByte 25 .brotli

/-- Cipher byte of a key: 1 for the AES keys, 2 for ChaCha20-Poly1305 keys. -/
def cipherByte (k : SecretKey) : UInt8 := if k.kind = .chacha then 2 else 1

/-- The three wrappers. -/
inductive Layer
  | encrypted | checksummed | compressed
  deriving DecidableEq, Repr

/-- `Peel B keys max l x y`: `x` is a wrapper of kind `l` around `y`, valid for a receiver that holds
`keys` (tried in order) and bounds payloads by `max`. -/
inductive Peel (B : Backends) (keys : List SecretKey) (max : Nat) : Layer → Bytes → Bytes → Prop
  | checksummed (t : UInt8) (a : ChkAlgo) (n : Nat) (d y : Bytes) (ht : (t, a, n) ∈ chkTable)
      (hn : d.length = n) (hd : B.digest a y = d) :
      Peel B keys max .checksummed (15 :: t :: (d ++ y)) y
  | compressed (t : UInt8) (a : CmpAlgo) (len body y : Bytes) (ht : CmpByte t a)
      (hl : LenField len y.length) (hm : y.length ≤ max)
      (hd : B.decompress a body y.length = some y) :
      Peel B keys max .compressed (14 :: t :: (len ++ body)) y
  | encrypted (nonce ct y : Bytes) (before after : List SecretKey) (k : SecretKey)
      (hk : keys = before ++ k :: after)
      (hn : nonce.length = 12) (hc : 16 ≤ ct.length) (hm : ct.length - 16 ≤ max + 10)
      (ho : B.aeadOpen k nonce ct [13, cipherByte k] = some y)
      (hb : ∀ k' ∈ before, cipherByte k' = cipherByte k →
        B.aeadOpen k' nonce ct [13, cipherByte k] = none) :
      Peel B keys max .encrypted (13 :: cipherByte k :: (nonce ++ ct)) y

/-- Peel a sequence of wrappers, outermost first. -/
inductive Peels (B : Backends) (keys : List SecretKey) (max : Nat) :
    List Layer → Bytes → Bytes → Prop
  | nil (x : Bytes) : Peels B keys max [] x x
  | cons (l : Layer) (ls : List Layer) (x y z : Bytes) (h : Peel B keys max l x y)
      (t : Peels B keys max ls y z) : Peels B keys max (l :: ls) x z

/-- The first byte names no wrapper, and there is one. -/
def PlainLead (y : Bytes) : Prop := ∃ b rest, y = b :: rest ∧ b ≠ 13 ∧ b ≠ 14 ∧ b ≠ 15

/-- The order in which a receiver may meet wrappers, outermost first. -/
def canonicalOrder : List Layer := [.encrypted, .checksummed, .compressed]

/-- The contract of the external primitives needed for a round trip. -/
structure Lawful (B : Backends) : Prop where
  digest_len : ∀ t a n p, (t, a, n) ∈ chkTable → (B.digest a p).length = n
  decompress_compress : ∀ a p c, B.compress a p = some c → B.decompress a c p.length = some p
  open_seal : ∀ k nonce p aad, B.aeadOpen k nonce (B.aeadSeal k nonce p aad) aad = some p
  seal_len : ∀ k nonce p aad, (B.aeadSeal k nonce p aad).length = p.length + 16

/-- What sealing under one key yields does not authenticate under another key of `keys`. -/
def NoCrossKey (B : Backends) (keys : List SecretKey) (k : SecretKey) (nonce p aad : Bytes) : Prop :=
  ∀ k' ∈ keys, k' ≠ k → B.aeadOpen k' nonce (B.aeadSeal k nonce p aad) aad = none

/-- Sender and receiver agree on encryption: both have it off, or the receiver holds the key the
sender encrypts with and no other key of the receiver authenticates the sender's frames. -/
def RingsAgree (B : Backends) (tx rx : Option Keyring) (nonce : Bytes) : Prop :=
  (tx = none ∧ rx = none) ∨
    ∃ s r, tx = some s ∧ rx = some r ∧ s.primary ∈ r.primary :: r.secondaries ∧
      ∀ p, NoCrossKey B (r.primary :: r.secondaries) s.primary nonce p [13, cipherByte s.primary]

/-- The keys a receiver holds, in trial order; none when encryption is off. -/
def heldKeys : Option Keyring → List SecretKey
  | none => []
  | some r => r.primary :: r.secondaries

end Verif.Spec
