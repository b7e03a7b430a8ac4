import Verif.Proof.Addr
import Verif.Proof.Cidr
/-
C13: socket-address codecs.  C14: CIDR admission policy.
-/
namespace Verif.Props
open Spec

/-- The addresses the wire can carry: every IPv4 address, and IPv6 without flow label and scope. -/
def Unscoped : SocketAddr → Prop
  | .v4 .. => True
  | .v6 _ _ flow scope => flow = 0 ∧ scope = 0

instance : DecidablePred Unscoped := fun a => by
  cases a <;> simp only [Unscoped] <;> infer_instance

/-- C13: encoding succeeds exactly on unscoped addresses and gives the documented layout of 7 or 19
bytes: family byte, address octets, big-endian port. -/
theorem C13_encode (a : SocketAddr) (b : Bytes) :
    socketAddrToBytes a = .ok b ↔
      Unscoped a ∧
        match a with
        | .v4 ip port =>
          b = 0 :: ip.1 ++ [UInt8.ofNat (port.toNat / 256), UInt8.ofNat (port.toNat % 256)] ∧ b.length = 7
        | .v6 ip port _ _ =>
          b = 1 :: ip.1 ++ [UInt8.ofNat (port.toNat / 256), UInt8.ofNat (port.toNat % 256)] ∧
            b.length = 19 := by
  cases a with
  | v4 ip port =>
    simp only [socketAddrToBytes, Unscoped, true_and, Except.ok.injEq, portBytes, List.cons_append]
    constructor
    · rintro rfl; exact ⟨rfl, by simp [ip.2]⟩
    · rintro ⟨rfl, _⟩; rfl
  | v6 ip port f s =>
    simp only [socketAddrToBytes, Unscoped, portBytes, List.cons_append]
    split
    · rename_i h
      constructor
      · intro h'; simp at h'
      · rintro ⟨⟨rfl, rfl⟩, _⟩; simp at h
    · rename_i h
      simp only [ne_eq, not_or, Decidable.not_not] at h
      simp only [Except.ok.injEq]
      constructor
      · rintro rfl; exact ⟨h, rfl, by simp [ip.2]⟩
      · rintro ⟨_, rfl, _⟩; rfl

/-- C13: what was encoded decodes back to the same address. -/
theorem C13_roundtrip (a : SocketAddr) (b : Bytes) (h : socketAddrToBytes a = .ok b) :
    socketAddrFromBytes b = .ok a := by
  cases a with
  | v4 ip port =>
    simp only [socketAddrToBytes, Except.ok.injEq] at h
    subst h
    exact fromBytes_v4 ip port
  | v6 ip port f s =>
    simp only [socketAddrToBytes] at h
    split at h
    · simp at h
    · rename_i hs
      simp only [ne_eq, not_or, Decidable.not_not] at hs
      obtain ⟨rfl, rfl⟩ := hs
      simp only [Except.ok.injEq] at h
      subst h
      exact fromBytes_v6 ip port

/-- C13: decoding is exact: a byte string is accepted only if it is the encoding of the address
returned (so nothing is ignored or normalised), and that address is unscoped. -/
theorem C13_decode_exact (a : SocketAddr) (b : Bytes) :
    socketAddrFromBytes b = .ok a ↔ socketAddrToBytes a = .ok b :=
  ⟨toBytes_of_fromBytes, C13_roundtrip a b⟩

/-- C13: distinct addresses have distinct encodings. -/
theorem C13_injective (a a' : SocketAddr) (b : Bytes)
    (h : socketAddrToBytes a = .ok b) (h' : socketAddrToBytes a' = .ok b) : a = a' := by
  have h1 := C13_roundtrip a b h
  rw [C13_roundtrip a' b h'] at h1
  exact (Except.ok.inj h1).symm

/-- C13: every other length or family tag is rejected, and every string of the right length with a
known family tag is accepted. -/
theorem C13_accepts_iff (b : Bytes) :
    (∃ a, socketAddrFromBytes b = .ok a) ↔
      (b.length = 7 ∧ b.head? = some 0) ∨ (b.length = 19 ∧ b.head? = some 1) := by
  constructor
  · rintro ⟨a, h⟩
    have := (C13_encode a b).1 (toBytes_of_fromBytes h)
    cases a with
    | v4 ip port => exact .inl ⟨this.2.2, by rw [this.2.1]; rfl⟩
    | v6 ip port f s => exact .inr ⟨this.2.2, by rw [this.2.1]; rfl⟩
  · rintro (⟨hl, hh⟩ | ⟨hl, hh⟩)
    · match b, hl, hh with
      | [t, a, b, c, d, p, q], _, hh =>
        simp only [List.head?_cons, Option.some.injEq] at hh
        subst hh
        exact ⟨_, rfl⟩
    · match b, hl, hh with
      | t :: rest, hl, hh =>
        simp only [List.head?_cons, Option.some.injEq] at hh
        subst hh
        simp only [socketAddrFromBytes]
        rw [if_neg (by decide), if_pos (by decide), dif_pos (by simpa [ADDR_V6_LEN] using hl)]
        exact ⟨_, rfl⟩

/-- C13: a scoped IPv6 address is refused. -/
theorem C13_scoped_refused (ip : Octets 16) (port : UInt16) (flow scope : Nat)
    (h : flow ≠ 0 ∨ scope ≠ 0) :
    socketAddrToBytes (.v6 ip port flow scope) = .error .addrScopedV6 := by
  simp only [socketAddrToBytes, if_pos h]

/-- C13: the codec used inside messages produces and accepts exactly the same bytes. -/
theorem C13_codecs_agree :
    (∀ a b, dataEncodeAddr a = some b ↔ socketAddrToBytes a = .ok b) ∧
      (∀ b a, dataFromBytesAddr b = .ok a ↔ socketAddrFromBytes b = .ok a) := by
  refine ⟨fun a b => ?_, dataFromBytes_iff⟩
  rw [dataEncode_eq]
  cases socketAddrToBytes a <;> simp [Except.toOption]

/-- The hypotheses hold of a concrete IPv6 address with a port above 255. -/
example : socketAddrToBytes (.v6 ⟨[0x20, 1, 0xd, 0xb8, 0, 0, 0, 0, 0, 0, 0, 0, 0, 0, 0, 1], rfl⟩ 7946 0 0)
      = .ok [1, 0x20, 1, 0xd, 0xb8, 0, 0, 0, 0, 0, 0, 0, 0, 0, 0, 0, 1, 31, 10] ∧
    Unscoped (.v6 ⟨[0x20, 1, 0xd, 0xb8, 0, 0, 0, 0, 0, 0, 0, 0, 0, 0, 0, 1], rfl⟩ 7946 0 0) := by
  decide +kernel

example : socketAddrFromBytes [0, 10, 0, 0, 1, 31, 10] = .ok (.v4 ⟨[10, 0, 0, 1], rfl⟩ 7946) ∧
    socketAddrFromBytes [0, 10, 0, 0, 1, 31, 10, 0] = .error (.addrLengthMismatch 0 7 8) ∧
    socketAddrFromBytes [2, 10, 0, 0, 1, 31, 10] = .error (.addrUnknownVersion 2) := by
  decide +kernel

/-- C14: a single network admits an address exactly when the families agree and the first
`prefixLen` bits agree. -/
theorem C14_net_contains (n : IpNet) (a : Ip) : n.contains a = true ↔ InNet n a := contains_iff n a

/-- C14: after any history the policy admits an address exactly when it was never restricted, or a
network that is still listed contains the address. -/
theorem C14_admits_iff (p : CidrPolicy) (ops : List CidrOp) (ip : Ip) :
    (runCidr p ops).isAllowed ip = true ↔
      (p = CidrPolicy.allowAll ∧ ¬ AddsSome ops) ∨ ∃ n, Listed (initialNets p) ops n ∧ InNet n ip := by
  rw [isAllowed_iff, none_run]
  have : p.allowed = none ↔ p = CidrPolicy.allowAll := by
    obtain ⟨al⟩ := p
    simp [CidrPolicy.allowAll]
  rw [this]
  simp only [mem_run]

/-- C14: the networks of a policy built from a collection are exactly the collected ones, and the
policy is in effect even if the collection is empty. -/
theorem C14_from_collection (nets : List IpNet) :
    (CidrPolicy.ofList nets).isAllowAll = false ∧
      (∀ n, n ∈ initialNets (CidrPolicy.ofList nets) ↔ n ∈ nets) ∧
      (∀ ip, (CidrPolicy.ofList nets).isAllowed ip = true ↔ ∃ n ∈ nets, InNet n ip) := by
  have hm : ∀ n, n ∈ initialNets (CidrPolicy.ofList nets) ↔ n ∈ nets := by
    intro n
    simp [initialNets, CidrPolicy.ofList, mem_foldl_setInsert]
  refine ⟨rfl, hm, ?_⟩
  intro ip
  rw [isAllowed_iff]
  simp only [hm]
  simp [CidrPolicy.ofList]

/-- C14: a restricted policy stays restricted under every history; in particular removing every
network leaves block-all, never allow-all. -/
theorem C14_stays_restricted (p : CidrPolicy) (ops : List CidrOp) (h : p.isAllowAll = false) :
    (runCidr p ops).isAllowAll = false ∧
      ((∀ n, ¬ Listed (initialNets p) ops n) →
        (runCidr p ops).isBlockAll = true ∧ ∀ ip, (runCidr p ops).isAllowed ip = false) := by
  have hn : (runCidr p ops).allowed ≠ none := by
    intro e
    have := ((none_run ops p).1 e).1
    simp [CidrPolicy.isAllowAll, this] at h
  refine ⟨?_, ?_⟩
  · cases e : (runCidr p ops).allowed with
    | none => exact absurd e hn
    | some s => simp [CidrPolicy.isAllowAll, e]
  · intro hl
    have hnil : ∀ n, n ∉ initialNets (runCidr p ops) := fun n hm => hl n ((mem_run ops p n).1 hm)
    cases e : (runCidr p ops).allowed with
    | none => exact absurd e hn
    | some s =>
      have hs : s = [] := by
        apply List.eq_nil_iff_forall_not_mem.2
        intro n hm
        exact hnil n (by simp [initialNets, e, hm])
      subst hs
      refine ⟨by simp [CidrPolicy.isBlockAll, e], ?_⟩
      intro ip
      simp [CidrPolicy.isAllowed, e]

/-- C14: removing by address leaves no listed network containing it, keeps every other network, and
blocks the address unless the policy was unrestricted. -/
theorem C14_remove_by_ip (p : CidrPolicy) (ip : Ip) :
    (∀ n, n ∈ initialNets (p.removeByIp ip) ↔ n ∈ initialNets p ∧ ¬ InNet n ip) ∧
      (p.isAllowAll = false → (p.removeByIp ip).isAllowed ip = false) := by
  have hm : ∀ n, n ∈ initialNets (p.removeByIp ip) ↔ n ∈ initialNets p ∧ ¬ InNet n ip := by
    intro n
    have := mem_step p (.removeByIp ip) n
    simpa [applyCidr, Removes] using this
  refine ⟨hm, ?_⟩
  intro h
  rw [Bool.eq_false_iff]
  intro ha
  rcases (isAllowed_iff _ _).1 ha with h' | ⟨n, h1, h2⟩
  · have := (none_step p (.removeByIp ip)).1 h'
    simp [CidrPolicy.isAllowAll, this.1] at h
  · exact ((hm n).1 h1).2 h2

/-- C14: the exact-network query answers membership in the current list. -/
theorem C14_net_query (p : CidrPolicy) (n : IpNet) :
    p.isAllowedNet n = true ↔ p.isAllowAll = true ∨ n ∈ initialNets p := by
  obtain ⟨al⟩ := p
  cases al <;> simp [CidrPolicy.isAllowedNet, CidrPolicy.isAllowAll, initialNets]

/-- C14: composed with another delegate, a peer is admitted exactly when both admit it. -/
theorem C14_composition (p : CidrPolicy) (inner : Bool) (ip : Ip) :
    cidrAnd p inner ip = true ↔
      (p = CidrPolicy.allowAll ∨ ∃ n ∈ initialNets p, InNet n ip) ∧ inner = true := by
  have : p.allowed = none ↔ p = CidrPolicy.allowAll := by
    obtain ⟨al⟩ := p
    simp [CidrPolicy.allowAll]
  simp only [cidrAnd, Bool.and_eq_true, isAllowed_iff, this]

/-- A concrete history: from block-all, add 10.0.0.0/8 and 10.1.0.0/16, then drop the networks that
contain 10.1.2.3; 10.2.0.1 is then refused too and the policy is still in effect. -/
example :
    let net8 := IpNet.v4 0x0a000000#32 8
    let net16 := IpNet.v4 0x0a010000#32 16
    let net12 := IpNet.v4 0xac100000#32 12
    let ops := [CidrOp.add net8, .add net16, .add net12]
    (runCidr .blockAll ops).isAllowed (.v4 0x0a020001#32) = true ∧
      (runCidr .blockAll ops).isAllowed (.v4 0x0b020001#32) = false ∧
      (runCidr .blockAll (ops ++ [.removeByIp (.v4 0x0a010203#32)])).isAllowed (.v4 0x0a020001#32) = false ∧
      (runCidr .blockAll (ops ++ [.removeByIp (.v4 0x0a010203#32)])).isAllowed (.v4 0xac1fffff#32) = true ∧
      (CidrPolicy.blockAll).isAllowAll = false := by
  decide +kernel

end Verif.Props
