/-
Reference semantics of LEB128 (little-endian base 128), independent of the code:
every byte but the last has its top bit set, and the value is the little-endian
base-128 number formed by the low seven bits.
-/
namespace Verif.Spec

/-- `Leb128 bs v`: the byte string `bs` is a LEB128 numeral of value `v`. -/
inductive Leb128 : List UInt8 → Nat → Prop
  | last (b : UInt8) (h : b.toNat < 128) : Leb128 [b] b.toNat
  | more (b : UInt8) (bs : List UInt8) (v : Nat) (h : 128 ≤ b.toNat) (t : Leb128 bs v) :
      Leb128 (b :: bs) (b.toNat % 128 + 128 * v)

end Verif.Spec
