import Verif.Proof.TransformSend
import Verif.Proof.Keyring
import Verif.Spec.Keyring
/-
Properties C09-C12: payload transforms and keyring rotation.
Specification: `Verif.Spec.Transform` (wrapper grammar, laws of the primitives), `Verif.Spec.Keyring`.
-/
namespace Verif.Props
open Verif Verif.Spec

/-- A toy set of primitives that satisfies the laws, used by the examples: constant digests, a
run-length compressor for one byte value, and a cipher that appends the key's first byte 16 times. -/
def toyB : Backends where
  digest a _ := List.replicate a.digestSize 7
  compress _ p :=
    if p.length < 100 ∧ 3 < p.length ∧ p = p.head?.toList ++ List.replicate (p.length - 1) 5
    then some (p.head?.toList) else none
  decompress _ b n := some (b ++ List.replicate (n - 1) 5)
  aeadSeal k _ p _ := p ++ List.replicate 16 (k.bytes.headD 0)
  aeadOpen k _ c _ :=
    if 16 ≤ c.length ∧ c.drop (c.length - 16) = List.replicate 16 (k.bytes.headD 0)
    then some (c.take (c.length - 16)) else none

theorem toyB_lawful : Lawful toyB where
  digest_len := by
    intro t a n p h
    simp only [toyB, List.length_replicate]
    exact ((chk_ofTag_iff _ _ _).1 h).2.2
  decompress_compress := by
    intro a p c h
    simp only [toyB] at h ⊢
    split at h
    · rename_i hc
      injection h with h
      rw [← h, ← hc.2.2]
    · cases h
  open_seal := by
    intro k nonce p aad
    simp [toyB]
  seal_len := by
    intro k nonce p aad
    simp [toyB]

def toyKey1 : SecretKey := ⟨.aes128, [1, 1]⟩
def toyKey2 : SecretKey := ⟨.aes256, [2, 2]⟩
def toyKey3 : SecretKey := ⟨.chacha, [2, 2]⟩

/-! ### C09 the transform pipeline is canonical -/

/-- C09. A datagram is accepted, with output `y`, exactly when it is a nest of wrappers around `y` in
which each kind occurs at most once, in the order encryption, checksum, compression; encryption is
present exactly when the receiver has it enabled; and `y` is plain and within the maximum. -/
theorem C09_accepts_iff (B : Backends) (ring : Option Keyring) (x y : Bytes) (max : Nat) :
    unwrapWithEncryption B ring x max = .ok y ↔
      ∃ ls, ls.Sublist canonicalOrder ∧ (Layer.encrypted ∈ ls ↔ ring.isSome = true) ∧
        Peels B (heldKeys ring) max ls x y ∧
        PlainLead y ∧ y.length ≤ max :=
  unwrapWithEncryption_ok_iff B ring x y max

/-- C09. A datagram that nests wrappers in any other way (one repeated, or the order changed) is
rejected, however deep the nesting continues. -/
theorem C09_noncanonical_rejected (B : Backends) (ring : Option Keyring) (x z : Bytes) (max : Nat)
    (ls : List Layer)
    (hp : Peels B (heldKeys ring) max ls x z)
    (hn : ¬ ls.Sublist canonicalOrder) : ∃ e, unwrapWithEncryption B ring x max = .error e := by
  cases h : unwrapWithEncryption B ring x max with
  | error e => exact ⟨e, rfl⟩
  | ok y =>
    obtain ⟨ls', h1, _, h2, h3, _⟩ := (C09_accepts_iff B ring x y max).1 h
    exact absurd ((hp.prefix h2 h3).sublist.trans h1) hn

/-- C09. Output is never longer than the configured maximum, never empty, and is not itself a
wrapper, whatever the primitives return. -/
theorem C09_output_bounded (B : Backends) (ring : Option Keyring) (x y : Bytes) (max : Nat)
    (h : unwrapWithEncryption B ring x max = .ok y) : y.length ≤ max ∧ PlainLead y := by
  obtain ⟨_, _, _, _, h3, h4⟩ := (C09_accepts_iff B ring x y max).1 h
  exact ⟨h4, h3⟩

/-- C09. The encryption-unaware entry point accepts at most checksum then compression. -/
theorem C09_base_accepts_iff (B : Backends) (x y : Bytes) (max : Nat) :
    unwrapTransforms B x max = .ok y ↔
      ∃ ls, ls.Sublist [Layer.checksummed, .compressed] ∧ Peels B [] max ls x y ∧
        PlainLead y ∧ y.length ≤ max :=
  unwrap_ok_iff B [] x y max

/-- C09. A declared decompressed size above the maximum is refused before the backend is asked to
decompress: the verdict does not depend on the decompressor. -/
theorem C09_bomb_guard (B : Backends) (t : UInt8) (a : CmpAlgo) (len body : Bytes) (n max : Nat)
    (ht : CmpByte t a) (hl : LenField len n) (hn : max < n) :
    decodeCompressedFrame B (14 :: t :: (len ++ body)) max = .error (.oversizeOriginal n max) := by
  obtain ⟨h1, h2⟩ := (cmp_ofTag_iff _ _).1 ht
  have hv := decodeVarint_of_lenField hl body
  unfold decodeCompressedFrame
  simp only [COMPRESSED_TAG, ne_eq, not_true, if_false]
  rw [h1]
  cases a <;> first
    | exact absurd rfl (h2 _)
    | (simp only [hv, hn, if_true])

-- checksum (crc32, toy digest 7777) around compression (lz4, 6 bytes) around a ping frame
example : unwrapTransforms toyB [15, 1, 7, 7, 7, 7, 14, 23, 6, 2] 100 = .ok [2, 5, 5, 5, 5, 5] := by
  decide +kernel
-- compression around checksum
example : unwrapTransforms toyB [14, 23, 6, 15, 1] 100 ≠ .ok [2] := by decide +kernel
-- a nest of two checksums satisfies the hypotheses of `C09_noncanonical_rejected`
example : ∃ z, Peels toyB [] 100 [.checksummed, .checksummed]
    [15, 1, 7, 7, 7, 7, 15, 1, 7, 7, 7, 7, 2] z ∧
    ¬ [Layer.checksummed, .checksummed].Sublist canonicalOrder := by
  refine ⟨[2], .cons _ _ _ _ _
    (.checksummed 1 .crc32 4 [7, 7, 7, 7] [15, 1, 7, 7, 7, 7, 2] (by decide) rfl rfl)
    (.cons _ _ _ _ _ (.checksummed 1 .crc32 4 [7, 7, 7, 7] [2] (by decide) rfl rfl) (.nil _)), ?_⟩
  decide
example : unwrapTransforms toyB [15, 1, 7, 7, 7, 7, 15, 1, 7, 7, 7, 7, 2] 100 = .error .nonCanonical := by
  decide +kernel
example : unwrapTransforms toyB [14, 23, 101, 2] 100 = .error (.compression (.oversizeOriginal 101 100)) := by
  decide +kernel

/-! ### C10 round trip -/

/-- C10. Whatever the sender's configuration, a receiver whose ring contains the sender's primary key
(or that, like the sender, has encryption off) recovers exactly the wrapped bytes. The payload is any
plain frame within the receiver's limit. -/
theorem C10_gossip_roundtrip (B : Backends) (hB : Lawful B) (cfg : TransformConfig)
    (rx : Option Keyring) (nonce payload wire : Bytes) (max : Nat)
    (hp : PlainLead payload) (hlen : payload.length ≤ max) (h32 : payload.length < 2 ^ 32)
    (hn : nonce.length = 12)
    (hsend : sendGossip B cfg nonce payload = .ok wire)
    (hring : RingsAgree B cfg.ring rx nonce) :
    unwrapWithEncryption B rx wire max = .ok payload := by
  unfold sendGossip at hsend
  split at hsend
  · cases hsend
  · rename_i d hd
    rw [encryptPayload_ok] at hsend
    simp only at hsend
    injection hsend with hsend
    -- the two inner stages
    have hinner : ∀ keys, ∃ ls, ls.Sublist [Layer.checksummed, .compressed] ∧
        Peels B keys max ls d payload ∧ d.length ≤ max + 10 := by
      intro keys
      have hcl := compressPayload_length B cfg.compression payload
      have hc := compressPayload_cases hB keys max cfg.compression payload hlen (by omega)
      rcases checksumGossip_ok hB keys max hd with ⟨_, rfl⟩ | ⟨hk, hkl⟩
      · rcases hc with h | ⟨h, _⟩
        · rw [h] at hcl ⊢
          exact ⟨[], List.nil_sublist _, .nil _, by omega⟩
        · exact ⟨[.compressed], by decide, .cons _ _ _ _ _ h (.nil _), by omega⟩
      · rcases hc with h | ⟨h, _⟩
        · rw [h] at hk
          exact ⟨[.checksummed], by decide, .cons _ _ _ _ _ hk (.nil _), by omega⟩
        · exact ⟨[.checksummed, .compressed], by decide, .cons _ _ _ _ _ hk (.cons _ _ _ _ _ h (.nil _)), by omega⟩
    rw [unwrapWithEncryption_ok_iff]
    rcases hring with ⟨h1, rfl⟩ | ⟨s, r, h1, rfl, hmem, hx⟩
    · rw [h1] at hsend
      simp only [sealedBytes] at hsend
      subst hsend
      obtain ⟨ls, h1, h2, _⟩ := hinner (heldKeys none)
      exact ⟨ls, List.Sublist.cons _ h1, ⟨fun hm => by simpa using h1.subset hm, by simp⟩, h2, hp, hlen⟩
    · rw [h1] at hsend
      simp only [sealedBytes] at hsend
      subst hsend
      obtain ⟨ls, h1, h2, h3⟩ := hinner (heldKeys (some r))
      refine ⟨.encrypted :: ls, List.Sublist.cons_cons _ h1, by simp, .cons _ _ _ _ _ ?_ h2, hp, hlen⟩
      exact peel_sealed hB r.keys max s.primary hmem nonce d hn h3 (hx d)

/-- C10. Sending succeeds for every configuration that names a known checksum algorithm, and the
wrapped datagram is at most 40 bytes longer than the payload (10 for a checksum, 30 for
encryption; compression never adds any). -/
theorem C10_gossip_send_total (B : Backends) (hB : Lawful B) (cfg : TransformConfig)
    (nonce payload : Bytes) (hn : nonce.length = 12) (hk : ∀ b, cfg.checksum ≠ some (.unknown b)) :
    ∃ wire, sendGossip B cfg nonce payload = .ok wire ∧
      wire.length ≤ payload.length + (if cfg.checksum.isSome then 10 else 0)
        + (if cfg.ring.isSome then 30 else 0) := by
  have hcl := compressPayload_length B cfg.compression payload
  generalize hcp : compressPayload B cfg.compression payload = cp at hcl
  have hck : ∃ d, checksumGossip B cfg.checksum cp = .ok d ∧
      d.length ≤ cp.length + (if cfg.checksum.isSome then 10 else 0) := by
    cases hc : cfg.checksum with
    | none => exact ⟨cp, rfl, by simp⟩
    | some a =>
      have ha : ∀ b, a ≠ .unknown b := fun b hb => hk b (by rw [hc, hb])
      refine ⟨CHECKSUMED_TAG :: a.tag :: (B.digest a cp ++ cp), ?_, ?_⟩
      · simp only [checksumGossip, encodeChecksummedFrame, chkDigest_known B ha]
      · have hlen := hB.digest_len _ _ _ cp (chk_tag_mem ha)
        have : a.digestSize ≤ 8 := by cases a <;> simp [ChkAlgo.digestSize]
        simp only [List.length_cons, List.length_append, Option.isSome_some, if_true]
        omega
  obtain ⟨d, h1, h2⟩ := hck
  unfold sendGossip
  rw [hcp, h1]
  simp only [encryptPayload_ok]
  refine ⟨_, rfl, ?_⟩
  cases cfg.ring with
  | none => simp [sealedBytes]; omega
  | some r =>
    have := hB.seal_len r.primary nonce d [13, cipherByte r.primary]
    simp only [sealedBytes, List.length_cons, List.length_append, Option.isSome_some, if_true]
    omega

/-- C10. Reliable exchanges: one unit written to a byte stream is taken back whole, whatever follows
it, and until its last byte has arrived the receiver only waits. -/
theorem C10_reliable_roundtrip (B : Backends) (hB : Lawful B) (cmp : CmpOptions)
    (tx rx : Option Keyring) (nonce payload wire : Bytes) (max : Nat)
    (hp : PlainLead payload) (hlen : payload.length ≤ max) (h32 : payload.length + 30 < 2 ^ 32)
    (hn : nonce.length = 12)
    (hsend : reliableUnit B cmp tx nonce payload = .ok wire)
    (hring : RingsAgree B tx rx nonce) :
    (∀ rest, takeReliableUnit B rx (wire ++ rest) max = .ok (some (payload, wire.length))) ∧
    (∀ pre ext, wire = pre ++ ext → ext ≠ [] → takeReliableUnit B rx pre max = .ok none) := by
  unfold reliableUnit at hsend
  rw [encryptPayload_ok] at hsend
  simp only at hsend
  injection hsend with hsend
  generalize hpl : sealedBytes B tx nonce (compressPayload B cmp payload) = body at hsend
  have hcl := compressPayload_length B cmp payload
  have hbody : body.length ≤ payload.length + (if rx.isSome then 30 else 0) := by
    rcases hring with ⟨rfl, rfl⟩ | ⟨s, r, rfl, rfl, hmem, hx⟩
    · subst hpl
      simp only [sealedBytes]
      simp; omega
    · have := hB.seal_len s.primary nonce (compressPayload B cmp payload) [13, cipherByte s.primary]
      subst hpl
      simp only [sealedBytes, List.length_cons, List.length_append, Option.isSome_some, if_true]
      omega
  have hb32 : body.length < 2 ^ 32 := by
    split at hbody <;> omega
  rw [Nat.mod_eq_of_lt hb32] at hsend
  have hbm : ¬ body.length > (if rx.isSome = true then max + ENCRYPTED_WRAPPER_OVERHEAD else max) := by
    simp only [ENCRYPTED_WRAPPER_OVERHEAD, WRAPPER_HEADER_LEN, NONCE_LEN, AUTH_TAG_LEN]
    split at hbody <;> (split <;> simp_all <;> omega)
  have hun : unwrapWithEncryption B rx body max = .ok payload := by
    refine C10_gossip_roundtrip B hB ⟨⟨cmp.algorithm, cmp.threshold⟩, none, tx⟩ rx nonce payload body
      (max := max) hp hlen (by omega) hn ?_ hring
    simp only [sendGossip, checksumGossip, encryptPayload_ok]
    rw [← hpl]
  have hdec : ∀ rest, decodeVarint (encodeVarint body.length ++ rest)
      = .ok (body.length, (encodeVarint body.length).length) :=
    fun rest => decodeVarint_encodeVarint _ hb32 rest
  subst hsend
  constructor
  · intro rest
    unfold takeReliableUnit
    rw [List.append_assoc, hdec]
    simp only [hbm, if_false]
    rw [if_neg (by simp only [List.length_append]; omega)]
    have e : ((encodeVarint body.length ++ (body ++ rest)).drop (encodeVarint body.length).length).take body.length = body := by
      simp
    rw [e, hun]
    simp [List.length_append]
  · intro pre ext he hne
    unfold takeReliableUnit
    have hlt : pre.length < (encodeVarint body.length ++ body).length := by
      rw [he, List.length_append]
      have := List.length_pos_iff.2 hne
      omega
    cases hd : decodeVarint pre with
    | ok vn =>
      obtain ⟨v, n⟩ := vn
      have := decodeVarint_append hd ext
      rw [← he, hdec] at this
      injection this with this; injection this with e1 e2
      subst e1 e2
      simp only [hbm, if_false]
      rw [if_pos (by rw [List.length_append] at hlt; exact hlt)]
    | error e =>
      rcases decodeVarint_err _ _ hd with rfl | rfl
      · have := decodeVarint_overflow_append hd ext
        rw [← he, hdec] at this
        cases this
      · rfl

/-- C10. Message frames and compound packets are payloads the round trip covers: their first byte
names no wrapper (message frames: unless the message tag itself is a wrapper tag, which the message
encoder never uses). -/
theorem C10_frames_are_plain (m : RawMsg) (msgs : List RawMsg) (bytes : Bytes)
    (h : (encodeFrame m = .ok bytes ∧ m.1 ∉ [MessageTag.encrypted, .compressed, .checksumed]) ∨
      encodeCompound msgs = .ok bytes) : PlainLead bytes := by
  rcases h with ⟨h, hm⟩ | h
  · obtain ⟨_, rfl⟩ := (encodeFrame_ok_iff m bytes).1 h
    refine ⟨_, _, rfl, ?_⟩
    revert hm
    cases m.1 <;> decide
  · obtain ⟨_, _, _, rfl⟩ := encodeCompound_ok h
    exact ⟨_, _, rfl, by decide, by decide, by decide⟩

example : sendGossip toyB ⟨⟨some .lz4, 0⟩, some .crc32, some ⟨toyKey1, []⟩⟩ (List.replicate 12 9)
      [2, 5, 5, 5, 5, 5] =
    .ok ([13, 1] ++ List.replicate 12 9 ++ [15, 1, 7, 7, 7, 7, 14, 23, 6, 2] ++ List.replicate 16 1) := by
  simp [sendGossip, checksumGossip, encodeChecksummedFrame, chkDigest, compressPayload,
    CmpOptions.apply, applyCompression, cmpCompress, toyB, encryptPayload, encodeEncryptedFrame,
    encEncrypt, keyMatchesAlgorithm, toyKey1, SecretKey.algorithm, encodeCompressedFrame, encodeVarint,
    ChkAlgo.digestSize, ChkAlgo.tag, CmpAlgo.tag, EncAlgo.tag, CHECKSUMED_TAG, COMPRESSED_TAG,
    ENCRYPTED_TAG]
example : unwrapWithEncryption toyB (some ⟨toyKey2, [toyKey1]⟩)
    ([13, 1] ++ List.replicate 12 9 ++ [15, 1, 7, 7, 7, 7, 14, 23, 6, 2] ++ List.replicate 16 1) 6 =
    .ok [2, 5, 5, 5, 5, 5] := by decide +kernel
example : RingsAgree toyB (some ⟨toyKey1, []⟩) (some ⟨toyKey2, [toyKey1]⟩) (List.replicate 12 9) := by
  refine .inr ⟨_, _, rfl, rfl, by decide, ?_⟩
  intro p k' hk' hne
  simp only [List.mem_cons, List.not_mem_nil, or_false] at hk'
  rcases hk' with rfl | rfl
  · simp [toyB, toyKey2, toyKey1]
  · exact absurd rfl hne

/-! ### C11 no cleartext on an encrypted node -/

/-- C11. With encryption enabled, whatever is accepted was a frame
`13, cipher, nonce, ciphertext` that authenticated, with the header as associated data, under a key
of the ring of that cipher. -/
theorem C11_accepted_authenticated (B : Backends) (r : Keyring) (x y : Bytes) (max : Nat)
    (h : unwrapWithEncryption B (some r) x max = .ok y) :
    ∃ k ∈ r.primary :: r.secondaries, ∃ nonce ct inner,
      x = 13 :: cipherByte k :: (nonce ++ ct) ∧ nonce.length = 12 ∧ 16 ≤ ct.length ∧
      B.aeadOpen k nonce ct [13, cipherByte k] = some inner ∧
      unwrapTransforms B inner max = .ok y := by
  obtain ⟨ls, hsub, henc, hp, hpl, hlen⟩ := (C09_accepts_iff _ _ _ _ _).1 h
  have henc := henc.2 rfl
  unfold canonicalOrder at hsub
  cases hsub with
  | cons _ hs => exact absurd (hs.subset henc) (by simp)
  | cons_cons _ hs =>
    cases hp with
    | cons l ls _ y1 _ hpeel ht =>
      cases hpeel with
      | encrypted nonce ct y2 bf af k hk hn hc hm ho hb =>
        simp only [heldKeys] at hk ht
        refine ⟨k, ?_, nonce, ct, y1, rfl, hn, hc, ho, ?_⟩
        · rw [hk]; simp
        · exact (unwrap_ok_iff B (r.primary :: r.secondaries) _ _ _).2 ⟨_, hs, ht, hpl, hlen⟩

/-- C11. For ciphers in which only sealed ciphertexts open (as for AES-GCM and ChaCha20-Poly1305,
whose tag is a function of key, nonce, data and plaintext), what is accepted was sealed under a ring
key. -/
theorem C11_accepted_sealed (B : Backends) (r : Keyring) (x y : Bytes) (max : Nat)
    (hideal : ∀ k n c aad p, B.aeadOpen k n c aad = some p → c = B.aeadSeal k n p aad)
    (h : unwrapWithEncryption B (some r) x max = .ok y) :
    ∃ k ∈ r.primary :: r.secondaries, ∃ nonce inner,
      x = 13 :: cipherByte k :: (nonce ++ B.aeadSeal k nonce inner [13, cipherByte k]) ∧
      nonce.length = 12 ∧ unwrapTransforms B inner max = .ok y := by
  obtain ⟨k, hk, nonce, ct, inner, hx, hn, _, ho, hu⟩ := C11_accepted_authenticated B r x y max h
  rw [hideal _ _ _ _ _ ho] at hx
  exact ⟨k, hk, nonce, inner, hx, hn, hu⟩

/-- C11. Contrapositive form: no key of the ring opens it, or it is not an encryption frame; then no
plaintext. -/
theorem C11_rejected (B : Backends) (r : Keyring) (x : Bytes) (max : Nat)
    (h : ∀ k ∈ r.primary :: r.secondaries, ∀ nonce ct, x = 13 :: cipherByte k :: (nonce ++ ct) →
      nonce.length = 12 → B.aeadOpen k nonce ct [13, cipherByte k] = none) :
    ∃ e, unwrapWithEncryption B (some r) x max = .error e := by
  cases hu : unwrapWithEncryption B (some r) x max with
  | error e => exact ⟨e, rfl⟩
  | ok y =>
    obtain ⟨k, hk, nonce, ct, inner, hx, hn, _, ho, _⟩ := C11_accepted_authenticated B r x y max hu
    rw [h k hk nonce ct hx hn] at ho
    cases ho

/-- C11. The same for reliable exchanges: a unit taken from a byte stream by an encrypting node was
authenticated under a ring key. -/
theorem C11_reliable_authenticated (B : Backends) (r : Keyring) (buf y : Bytes) (n max : Nat)
    (h : takeReliableUnit B (some r) buf max = .ok (some (y, n))) :
    ∃ pre unit post, buf = pre ++ unit ++ post ∧ (pre ++ unit).length = n ∧
      LenField pre unit.length ∧
      ∃ k ∈ r.primary :: r.secondaries, ∃ nonce ct inner,
        unit = 13 :: cipherByte k :: (nonce ++ ct) ∧
        B.aeadOpen k nonce ct [13, cipherByte k] = some inner ∧
        unwrapTransforms B inner max = .ok y := by
  unfold takeReliableUnit at h
  split at h
  · cases h
  · cases h
  · cases h
  · rename_i ul vb hv
    simp only [Option.isSome_some, if_true] at h
    by_cases hmx : ul > max + ENCRYPTED_WRAPPER_OVERHEAD
    · rw [if_pos hmx] at h; cases h
    · rw [if_neg hmx] at h
      split at h
      · cases h
      · rename_i hl
        split at h
        · cases h
        · rename_i plain hu
          injection h with h; injection h with h; injection h with h1 h2
          subst h1 h2
          obtain ⟨pre, post, e1, e2, e3, e4, e5⟩ := (decodeVarint_ok_iff _ _ _).1 hv
          subst e1 e3
          have e : (pre ++ post).drop pre.length = post := by simp
          rw [e] at hu
          rw [List.length_append] at hl
          have hlen : (post.take ul).length = ul := by rw [List.length_take]; omega
          refine ⟨pre, post.take ul, post.drop ul, ?_, ?_, ?_, ?_⟩
          · rw [List.append_assoc, List.take_append_drop]
          · rw [List.length_append, hlen]
          · rw [hlen]; exact ⟨e2, e4, e5⟩
          · obtain ⟨k, hk, nonce, ct, inner, hx, hn, _, ho, hu'⟩ :=
              C11_accepted_authenticated B r _ _ _ hu
            exact ⟨k, hk, nonce, ct, inner, hx, ho, hu'⟩

/-- C11. A node without a keyring never turns an encryption frame into plaintext. -/
theorem C11_disabled_rejects (B : Backends) (tl : Bytes) (max : Nat) :
    ∃ e, unwrapWithEncryption B none (13 :: tl) max = .error e := by
  cases hu : unwrapWithEncryption B none (13 :: tl) max with
  | error e => exact ⟨e, rfl⟩
  | ok y =>
    exfalso
    obtain ⟨ls, _, henc, hp, hpl, _⟩ := (C09_accepts_iff _ _ _ _ _).1 hu
    cases hp with
    | nil => obtain ⟨b, r, e, h1, _⟩ := hpl; injection e with e _; exact h1 e.symm
    | cons l ls _ y1 _ hpeel _ =>
      obtain ⟨r, e⟩ := hpeel.lead
      injection e with e _
      cases l
      · simp at henc
      · exact absurd e (by decide)
      · exact absurd e (by decide)

example : unwrapWithEncryption toyB (some ⟨toyKey1, []⟩) [2, 5] 100 =
    .error (.encryption .encryptionRequired) := by decide +kernel
-- sealed under a key outside the ring
example : unwrapWithEncryption toyB (some ⟨toyKey1, []⟩)
    ([13, 1] ++ List.replicate 12 9 ++ [2] ++ List.replicate 16 2) 100 =
    .error (.encryption .authFailed) := by decide +kernel
-- the cipher byte is swapped
example : unwrapWithEncryption toyB (some ⟨toyKey1, []⟩)
    ([13, 2] ++ List.replicate 12 9 ++ [2] ++ List.replicate 16 1) 100 =
    .error (.encryption .noMatchingKey) := by decide +kernel
example : takeReliableUnit toyB (some ⟨toyKey1, []⟩)
    ([31] ++ [13, 1] ++ List.replicate 12 9 ++ [2] ++ List.replicate 16 1 ++ [99]) 100 =
    .ok (some ([2], 32)) := by decide +kernel

/-! ### C12 keyring rotation -/

/-- C12. The keyring never holds two copies of a key, after any construction and any sequence of
calls. -/
theorem C12_no_duplicates (primary : SecretKey) (secondaries : List SecretKey) (ops : List KeyringOp) :
    let r := ops.foldl KeyringOp.apply (Keyring.withSecondaries primary secondaries)
    (r.primary :: r.secondaries).Nodup := by
  rw [Keyring.withSecondaries_eq]
  refine Keyring.foldl_nodup (Keyring.foldl_nodup ?_ _) ops
  simp [Keyring.new, Keyring.keys]

/-- C12. Construction: the named primary, and all the given keys usable. -/
theorem C12_construction (primary : SecretKey) (secondaries : List SecretKey) (x : SecretKey) :
    (Keyring.withSecondaries primary secondaries).primary = primary ∧
    (x ∈ (Keyring.withSecondaries primary secondaries).primary ::
        (Keyring.withSecondaries primary secondaries).secondaries ↔
      x = primary ∨ x ∈ secondaries) := by
  unfold Keyring.withSecondaries
  suffices H : ∀ (ss : List SecretKey) (r : Keyring),
      (ss.foldl Keyring.insertSecondary r).primary = r.primary ∧
      (x ∈ (ss.foldl Keyring.insertSecondary r).keys ↔ x ∈ r.keys ∨ x ∈ ss) by
    have := H secondaries (Keyring.new primary)
    simpa [Keyring.keys, Keyring.new] using this
  intro ss
  induction ss with
  | nil => intro r; simp
  | cons s ss ih =>
    intro r
    obtain ⟨h1, h2⟩ := ih (r.insertSecondary s)
    refine ⟨?_, ?_⟩
    · rw [List.foldl_cons, h1, Keyring.insert_primary]
    · rw [List.foldl_cons, h2, Keyring.insert_keys]
      split
      · rename_i hs
        simp only [List.mem_cons]
        constructor
        · rintro (h | h)
          · exact .inl h
          · exact .inr (.inr h)
        · rintro (h | rfl | h)
          · exact .inl h
          · exact .inl hs
          · exact .inr h
      · simp [or_assoc]

/-- C12. Insertion keeps the primary and every key, and makes the new key usable. -/
theorem C12_insert (r : Keyring) (k x : SecretKey) :
    (r.insertSecondary k).primary = r.primary ∧
    (x ∈ (r.insertSecondary k).primary :: (r.insertSecondary k).secondaries ↔
      x ∈ r.primary :: r.secondaries ∨ x = k) := by
  refine ⟨Keyring.insert_primary r k, ?_⟩
  show x ∈ (r.insertSecondary k).keys ↔ x ∈ r.keys ∨ x = k
  rw [Keyring.insert_keys]
  split
  · rename_i hs
    constructor
    · exact .inl
    · rintro (h | rfl)
      · exact h
      · exact hs
  · simp

/-- C12. Promotion permutes the ring: the usable keys stay the same. It succeeds exactly when some
key of the ring has the named bytes, and then the primary has those bytes; on failure nothing
changes (the caller keeps its ring). -/
theorem C12_promote (r : Keyring) (key : Bytes) :
    (∀ r', r.promote key = .ok r' →
      (r'.primary :: r'.secondaries).Perm (r.primary :: r.secondaries) ∧ r'.primary.bytes = key) ∧
    ((∃ r', r.promote key = .ok r') ↔ ∃ k ∈ r.primary :: r.secondaries, k.bytes = key) := by
  have h1 : ∀ r', r.promote key = .ok r' →
      (r'.primary :: r'.secondaries).Perm (r.primary :: r.secondaries) ∧ r'.primary.bytes = key := by
    intro r' h
    refine ⟨Keyring.promote_perm h, ?_⟩
    rcases Keyring.promote_ok h with ⟨hb, rfl⟩ | ⟨_, pre, k, post, e, hb, _, rfl⟩
    · exact hb
    · exact hb
  refine ⟨h1, ?_, ?_⟩
  · rintro ⟨r', h⟩
    exact ⟨r'.primary, (h1 r' h).1.subset List.mem_cons_self, (h1 r' h).2⟩
  · rintro ⟨k, hk, hb⟩
    cases hp : r.promote key with
    | ok r' => exact ⟨r', rfl⟩
    | error e => exact absurd hb ((Keyring.promote_err hp).2 k hk)

/-- C12. Removal never touches the primary and takes away exactly one key, one that has the named
bytes; it fails exactly when the bytes are the primary's or no key has them. -/
theorem C12_remove (r : Keyring) (key : Bytes) :
    (∀ r', r.removeSecondary key = .ok r' →
      r'.primary = r.primary ∧ ∃ k, k.bytes = key ∧
        (r.primary :: r.secondaries).Perm (k :: r'.primary :: r'.secondaries)) ∧
    (r.removeSecondary key = .error .isPrimary ↔ r.primary.bytes = key) ∧
    (r.removeSecondary key = .error .notInRing ↔
      ∀ k ∈ r.primary :: r.secondaries, k.bytes ≠ key) := by
  refine ⟨?_, ?_, ?_⟩
  · intro r' h
    obtain ⟨k, h1, _, h2, h3⟩ := Keyring.remove_perm h
    exact ⟨h2, k, h1, h3⟩
  · constructor
    · intro h
      rcases Keyring.removeSecondary_err h with ⟨_, h⟩ | ⟨h, _⟩
      · exact h
      · cases h
    · intro h
      simp [Keyring.removeSecondary, h]
  · constructor
    · intro h
      rcases Keyring.removeSecondary_err h with ⟨h, _⟩ | ⟨_, h⟩
      · cases h
      · exact h
    · intro h
      unfold Keyring.removeSecondary
      rw [if_neg (h _ List.mem_cons_self),
        Keyring.position_none.2 (fun k hk => h k (List.mem_cons_of_mem _ hk))]

/-- C12. Histories: as long as no two different keys share their bytes, every sequence of calls has
exactly the documented effect on the primary and on the set of usable keys. -/
theorem C12_history (r : Keyring) (ops : List KeyringOp) (hnd : (r.primary :: r.secondaries).Nodup)
    (hd : DistinctBytes (everKeys (r.primary :: r.secondaries) ops)) :
    ∃ R : Ring, RingRun ⟨r.primary, fun x => x ∈ r.primary :: r.secondaries⟩ ops R ∧
      (ops.foldl KeyringOp.apply r).primary = R.primary ∧
      ∀ x, x ∈ (ops.foldl KeyringOp.apply r).primary :: (ops.foldl KeyringOp.apply r).secondaries ↔
        R.usable x := by
  induction ops generalizing r with
  | nil => exact ⟨_, .nil _, rfl, fun x => Iff.rfl⟩
  | cons op ops ih =>
    have hnd' : (op.apply r).keys.Nodup := Keyring.apply_nodup hnd op
    -- the ring after the first call only holds keys that ever entered
    have hsub : ∀ k ∈ everKeys (op.apply r).keys ops, k ∈ everKeys r.keys (op :: ops) := by
      intro k hk
      unfold everKeys at hk ⊢
      rw [List.mem_append] at hk ⊢
      rcases hk with hk | hk
      · cases op with
        | insert k0 =>
          simp only [KeyringOp.apply] at hk
          rcases (C12_insert r k0 k).2.1 hk with h | rfl
          · exact .inl h
          · right; simp
        | remove key =>
          simp only [KeyringOp.apply] at hk
          cases hr : r.removeSecondary key with
          | ok r' =>
            rw [hr] at hk
            obtain ⟨k1, _, _, _, hp⟩ := Keyring.remove_perm hr
            exact .inl (hp.symm.subset (List.mem_cons_of_mem _ hk))
          | error e => rw [hr] at hk; exact .inl hk
        | promote key =>
          simp only [KeyringOp.apply] at hk
          cases hr : r.promote key with
          | ok r' => rw [hr] at hk; exact .inl ((Keyring.promote_perm hr).subset hk)
          | error e => rw [hr] at hk; exact .inl hk
      · right
        rw [List.filterMap_cons]
        cases op <;> simp_all
    have hd' : DistinctBytes (everKeys (op.apply r).keys ops) :=
      fun k hk k' hk' hb => hd k (hsub k hk) k' (hsub k' hk') hb
    have hdr : ∀ k ∈ r.keys, ∀ k' ∈ r.keys, k.bytes = k'.bytes → k = k' := by
      intro k hk k' hk'
      exact hd k (List.mem_append_left _ hk) k' (List.mem_append_left _ hk')
    obtain ⟨R, hrun, h1, h2⟩ := ih (op.apply r) hnd' hd'
    refine ⟨R, .cons _ _ _ _ _ ?_ hrun, h1, h2⟩
    cases op with
    | insert k0 =>
      have e : (fun x => x ∈ r.primary :: r.secondaries ∨ x = k0) =
          fun x => x ∈ (r.insertSecondary k0).primary :: (r.insertSecondary k0).secondaries := by
        funext x; exact propext (C12_insert r k0 x).2.symm
      have := RingStep.insert ⟨r.primary, fun x => x ∈ r.primary :: r.secondaries⟩ k0
      simp only at this
      rw [e] at this
      rw [show (KeyringOp.insert k0).apply r = r.insertSecondary k0 from rfl]
      rw [show (⟨(r.insertSecondary k0).primary, fun x => x ∈ (r.insertSecondary k0).primary ::
        (r.insertSecondary k0).secondaries⟩ : Ring) = ⟨r.primary, fun x => x ∈
        (r.insertSecondary k0).primary :: (r.insertSecondary k0).secondaries⟩ from by
          congr 1; exact Keyring.insert_primary r k0]
      exact this
    | remove key =>
      simp only [KeyringOp.apply]
      cases hr : r.removeSecondary key with
      | ok r' =>
        obtain ⟨k1, hb, hne, hpr, hp⟩ := Keyring.remove_perm hr
        have hpk := (Keyring.removeSecondary_ok hr).1
        have e : (fun x => x ∈ r.primary :: r.secondaries ∧ x.bytes ≠ key) =
            fun x => x ∈ r'.primary :: r'.secondaries := by
          funext x
          apply propext
          constructor
          · rintro ⟨hx, hxb⟩
            rcases List.mem_cons.1 (hp.subset hx) with rfl | h
            · exact absurd hb hxb
            · exact h
          · intro hx
            have hx' : x ∈ r.keys := hp.symm.subset (List.mem_cons_of_mem _ hx)
            refine ⟨hx', fun hxb => ?_⟩
            have := hdr x hx' k1 (hp.symm.subset List.mem_cons_self) (hxb.trans hb.symm)
            subst this
            exact (List.nodup_cons.1 (hp.nodup_iff.1 hnd)).1 hx
        have := RingStep.remove ⟨r.primary, fun x => x ∈ r.primary :: r.secondaries⟩ key hpk
        simp only at this
        rw [e] at this
        show RingStep _ _ (⟨r'.primary, fun x => x ∈ r'.primary :: r'.secondaries⟩ : Ring)
        rw [show (⟨r'.primary, fun x => x ∈ r'.primary :: r'.secondaries⟩ : Ring) =
          ⟨r.primary, fun x => x ∈ r'.primary :: r'.secondaries⟩ from by congr 1]
        exact this
      | error er =>
        rcases Keyring.removeSecondary_err hr with ⟨_, h⟩ | ⟨_, h⟩
        · exact RingStep.removePrimary _ _ h
        · have e : (fun x => x ∈ r.primary :: r.secondaries ∧ x.bytes ≠ key) =
              fun x => x ∈ r.primary :: r.secondaries := by
            funext x
            exact propext ⟨fun hx => hx.1, fun hx => ⟨hx, h x hx⟩⟩
          have := RingStep.remove ⟨r.primary, fun x => x ∈ r.primary :: r.secondaries⟩ key
            (h _ List.mem_cons_self)
          rw [e] at this
          exact this
    | promote key =>
      simp only [KeyringOp.apply]
      cases hr : r.promote key with
      | ok r' =>
        have hp := Keyring.promote_perm hr
        have hb := ((C12_promote r key).1 r' hr).2
        have e : (fun x => x ∈ r.primary :: r.secondaries) =
            fun x => x ∈ r'.primary :: r'.secondaries := by
          funext x; exact propext hp.symm.mem_iff
        have := RingStep.promote ⟨r.primary, fun x => x ∈ r.primary :: r.secondaries⟩ r'.primary
          (hp.subset List.mem_cons_self)
        rw [hb] at this
        simp only at this
        rw [e] at this ⊢
        exact this
      | error er =>
        exact RingStep.promoteAbsent _ _ (Keyring.promote_err hr).2

/-- C12. A frame sealed under any key still in the ring still decrypts, to what was sealed (as long as
no other ring key happens to authenticate it). With `C12_history` this covers every rotation. -/
theorem C12_still_decrypts (B : Backends) (hB : Lawful B) (r : Keyring) (ops : List KeyringOp)
    (k : SecretKey) (nonce d : Bytes) (max : Nat)
    (hk : k ∈ (ops.foldl KeyringOp.apply r).primary :: (ops.foldl KeyringOp.apply r).secondaries)
    (hn : nonce.length = 12) (hd : d.length ≤ max + 10)
    (hx : NoCrossKey B ((ops.foldl KeyringOp.apply r).primary ::
      (ops.foldl KeyringOp.apply r).secondaries) k nonce d [13, cipherByte k]) :
    decodeEncryptedFrame B (some (ops.foldl KeyringOp.apply r))
      (13 :: cipherByte k :: (nonce ++ B.aeadSeal k nonce d [13, cipherByte k])) (max + 10) = .ok d :=
  (decodeEncrypted_ok_iff B _ max _ _).2 (peel_sealed hB _ max k hk nonce d hn hd hx)

/-- C12. Finding: keys of different ciphers with equal bytes are not told apart by removal. The
hypothesis `DistinctBytes` of `C12_history` cannot be dropped: here removing the bytes of two ring
keys leaves one of them usable. -/
theorem C12_collision_witness :
    (KeyringOp.remove [2, 2]).apply ⟨toyKey1, [toyKey2, toyKey3]⟩ = ⟨toyKey1, [toyKey3]⟩ ∧
      toyKey3.bytes = [2, 2] := by decide

example : DistinctBytes (everKeys [toyKey1] [.insert toyKey2, .promote [2, 2], .remove [1, 1]]) := by
  unfold DistinctBytes; decide
example : [KeyringOp.insert toyKey2, .promote [2, 2], .remove [1, 1]].foldl KeyringOp.apply
    (Keyring.new toyKey1) = ⟨toyKey2, []⟩ := by decide
example : [KeyringOp.insert toyKey2, .promote [2, 2], .insert toyKey1].foldl KeyringOp.apply
    (Keyring.new toyKey1) = ⟨toyKey2, [toyKey1]⟩ := by decide

end Verif.Props
