/-
Model of the LEB128 length prefix used by the outer wire framing.
Source: /repo/memberlist-proto/src/framing/mod.rs
-/
deriving instance DecidableEq for Except

namespace Verif

/-- A byte string (`&[u8]`, `Vec<u8>`, `Bytes`). Standard library and the `bytes` crate. -/
abbrev Bytes := List UInt8

/-- Errors of the framing layer.
Models `FrameError`, framing/mod.rs:207-289 (only the variants reachable from the modelled
functions; the payloads of the checksum/compression/encryption errors are in
`Verif.Model.Transforms`). -/
inductive FrameError where
  | empty
  | unknownTag (b : UInt8)
  | incomplete (have_ need : Nat)
  | varintOverflow
  | decode
  | frameTooLarge (n : Nat)
  deriving DecidableEq, Repr

/-- `encode_varint_u32`, framing/mod.rs:801-807.
The `u32` argument is a `Nat`; callers pass values `< 2^32`. `out.push` becomes list construction. -/
def encodeVarint (v : Nat) : Bytes :=
  if _h : v ≥ 0x80 then
    UInt8.ofNat ((v &&& 0x7f) ||| 0x80) :: encodeVarint (v >>> 7)
  else
    [UInt8.ofNat v]
termination_by v
decreasing_by
  simp only [Nat.shiftRight_eq_div_pow]
  omega

/-- Loop of `decode_varint_u32`, framing/mod.rs:809-837, from index `i` with accumulator `value`
and `shift`. `total` is `buf.len()`, reported by the `Incomplete` error. The shift is written as in
the code: the shifted group is truncated to 32 bits (`% 2^32`) because `value` is a `u32`. -/
def decodeVarintLoop (total : Nat) : Bytes → (i shift value : Nat) → Except FrameError (Nat × Nat)
  | [], _, _, _ => .error (.incomplete total (total + 1))
  | b :: bs, i, shift, value =>
    if i ≥ 5 then .error (.incomplete total (total + 1))
    else if i = 4 ∧ b > 0x0f then .error .varintOverflow
    else
      let value' := value ||| (((b &&& 0x7f).toNat <<< shift) % 2 ^ 32)
      if b &&& 0x80 = 0 then .ok (value', i + 1)
      else decodeVarintLoop total bs (i + 1) (shift + 7) value'

/-- `decode_varint_u32`, framing/mod.rs:809-837. Returns the value and the number of bytes
consumed. -/
def decodeVarint (buf : Bytes) : Except FrameError (Nat × Nat) :=
  decodeVarintLoop buf.length buf 0 0 0

/-- `encoded_u32_varint_len` of the external `varing` crate, used by `encode_compound`
(framing/mod.rs:478-490): the number of 7-bit groups of the value, at least 1. -/
def varintLen (v : Nat) : Nat :=
  if _h : v ≥ 0x80 then 1 + varintLen (v >>> 7) else 1
termination_by v
decreasing_by
  simp only [Nat.shiftRight_eq_div_pow]
  omega

end Verif
