import Verif.Model.Varint
/-
Model of the two socket-address codecs: the boundary helpers of `convert` and the `Data` codec used
inside messages.
Source: /repo/memberlist-proto/src/convert/mod.rs, data/primitives.rs, bridge/mod.rs
-/
namespace Verif

/-- A `[u8; n]` array. The octets of `Ipv4Addr`/`Ipv6Addr`, data/primitives.rs (standard library). -/
abbrev Octets (n : Nat) := { l : Bytes // l.length = n }

/-- `core::net::SocketAddr`: the IP octets in network order, the port (`u16`), and for IPv6 the
flow label and scope id (`u32`, as naturals). -/
inductive SocketAddr where
  | v4 (ip : Octets 4) (port : UInt16)
  | v6 (ip : Octets 16) (port : UInt16) (flowinfo scopeId : Nat)
  deriving DecidableEq

/-- `u16::to_be_bytes`. -/
def portBytes (p : UInt16) : Bytes := [UInt8.ofNat (p.toNat / 256), UInt8.ofNat (p.toNat % 256)]

/-- `u16::from_be_bytes`. -/
def portOfBytes (hi lo : UInt8) : UInt16 := UInt16.ofNat (hi.toNat * 256 + lo.toNat)

/-- `ConvertError`, convert/mod.rs:91-117 (address variants). -/
inductive ConvertError where
  | addrEmpty
  | addrUnknownVersion (b : UInt8)
  | addrScopedV6
  | addrLengthMismatch (version : UInt8) (expected actual : Nat)
  deriving DecidableEq, Repr

/-- `ADDR_V4_LEN`, convert/mod.rs:120. -/
def ADDR_V4_LEN : Nat := 1 + 4 + 2
/-- `ADDR_V6_LEN`, convert/mod.rs:122. -/
def ADDR_V6_LEN : Nat := 1 + 16 + 2

/-- `socket_addr_to_bytes`, convert/mod.rs:184-205. -/
def socketAddrToBytes : SocketAddr → Except ConvertError Bytes
  | .v4 ip port => .ok (0 :: (ip.1 ++ portBytes port))
  | .v6 ip port flow scope =>
    if flow ≠ 0 ∨ scope ≠ 0 then .error .addrScopedV6
    else .ok (1 :: (ip.1 ++ portBytes port))

/-- `socket_addr_from_bytes`, convert/mod.rs:139-175. The slices `buf[1..5]`, `buf[5]`, `buf[6]` are
`take`/`drop` of the tail; the length test that precedes them makes them total, which the type of
`Octets` checks here. -/
def socketAddrFromBytes : Bytes → Except ConvertError SocketAddr
  | [] => .error .addrEmpty
  | tag :: rest =>
    if tag.toNat = 0 then
      match h : rest with
      | [a, b, c, d, p, q] => .ok (.v4 ⟨[a, b, c, d], rfl⟩ (portOfBytes p q))
      | _ => .error (.addrLengthMismatch 0 ADDR_V4_LEN (rest.length + 1))
    else if tag.toNat = 1 then
      if hl : rest.length + 1 = ADDR_V6_LEN then
        .ok (.v6 ⟨rest.take 16, by simp only [ADDR_V6_LEN] at hl; rw [List.length_take]; omega⟩
          (portOfBytes (rest[16]'(by simp only [ADDR_V6_LEN] at hl; omega))
            (rest[17]'(by simp only [ADDR_V6_LEN] at hl; omega))) 0 0)
      else .error (.addrLengthMismatch 1 ADDR_V6_LEN (rest.length + 1))
    else .error (.addrUnknownVersion tag)

/-- `DecodeError`, data/mod.rs (the variants reached by the address codec). data/mod.rs:515-550. -/
inductive DataDecodeError where
  | bufferUnderflow
  | unknownTag (b : UInt8)
  | trailing (read total : Nat)
  deriving DecidableEq, Repr

/-- `<SocketAddr as DataRef>::decode`, data/primitives.rs:245-266, with the V4 and V6 decoders it
calls (140-157, 186-202). Reads a prefix and returns the number of bytes read. -/
def dataDecodeAddr : Bytes → Except DataDecodeError (Nat × SocketAddr)
  | [] => .error .bufferUnderflow
  | tag :: rest =>
    if tag.toNat = 0 then
      if h : rest.length < 4 + 2 then .error .bufferUnderflow
      else .ok (4 + 2 + 1, .v4 ⟨rest.take 4, by rw [List.length_take]; omega⟩
        (portOfBytes (rest[4]'(by omega)) (rest[5]'(by omega))))
    else if tag.toNat = 1 then
      if h : rest.length < 16 + 2 then .error .bufferUnderflow
      else .ok (16 + 2 + 1, .v6 ⟨rest.take 16, by rw [List.length_take]; omega⟩
        (portOfBytes (rest[16]'(by omega)) (rest[17]'(by omega))) 0 0)
    else .error (.unknownTag tag)

/-- `<SocketAddr as Data>::encode` into a buffer of `encoded_len` bytes, data/primitives.rs:268-311,
226-243; `none` is `EncodeError::custom` for a scoped IPv6 address. -/
def dataEncodeAddr : SocketAddr → Option Bytes
  | .v4 ip port => some (0 :: (ip.1 ++ portBytes port))
  | .v6 ip port flow scope =>
    if flow ≠ 0 ∨ scope ≠ 0 then none else some (1 :: (ip.1 ++ portBytes port))

/-- `data_from_bytes::<SocketAddr>`, bridge/mod.rs:61-73: the decoder must consume the whole
field. -/
def dataFromBytesAddr (buf : Bytes) : Except DataDecodeError SocketAddr :=
  match dataDecodeAddr buf with
  | .error e => .error e
  | .ok (n, a) => if n ≠ buf.length then .error (.trailing n buf.length) else .ok a

end Verif
