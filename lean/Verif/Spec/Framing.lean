import Verif.Spec.Varint
/-
The wire grammar of frames, written down independently of the encoder and decoder.

  frame    ::= tag-byte  length  body           (length = LEB128 numeral, at most 5 bytes)
  compound ::= 1  count  part*                  (count = LEB128 numeral of the number of parts)
  part     ::= length  bytes
-/
namespace Verif.Spec

/-- A length field: a LEB128 numeral of at most five bytes whose value fits 32 bits. -/
def LenField (bs : List UInt8) (n : Nat) : Prop :=
  Leb128 bs n ∧ bs.length ≤ 5 ∧ n < 2 ^ 32

/-- `Frame tagByte body bytes`: `bytes` is exactly one frame. -/
def Frame (tagByte : UInt8) (body bytes : List UInt8) : Prop :=
  ∃ len, LenField len body.length ∧ bytes = tagByte :: (len ++ body)

/-- `Parts ps bytes`: `bytes` is the concatenation of the length-prefixed parts `ps`. -/
inductive Parts : List (List UInt8) → List UInt8 → Prop
  | nil : Parts [] []
  | cons (p : List UInt8) (ps : List (List UInt8)) (len rest : List UInt8)
      (hl : LenField len p.length) (t : Parts ps rest) : Parts (p :: ps) (len ++ p ++ rest)

/-- `Compound ps bytes`: `bytes` is exactly one compound packet with parts `ps`. -/
def Compound (ps : List (List UInt8)) (bytes : List UInt8) : Prop :=
  ∃ cnt body, LenField cnt ps.length ∧ Parts ps body ∧ bytes = 1 :: (cnt ++ body)

end Verif.Spec
