import Verif.Proof.Transform
/- Helper lemmas for C10: what the sender's stages produce. -/
namespace Verif
open Spec

theorem applyCompression_some {B : Backends} {a : CmpAlgo} {thr : Nat} {p packed : Bytes}
    (h : applyCompression B a thr p = .ok (some packed)) :
    (∀ b, a ≠ .unknown b) ∧ B.compress a p = some packed ∧ packed.length < p.length := by
  unfold applyCompression at h
  split at h
  · cases h
  · split at h
    · cases h
    · rename_i out hc
      split at h
      · rename_i hl
        injection h with h; injection h with h; subst h
        unfold cmpCompress at hc
        split at hc
        · cases hc
        · rename_i hk
          split at hc
          · cases hc
          · rename_i hcc
            injection hc with hc; subst hc
            exact ⟨fun b hb => hk b hb, hcc, hl⟩
      · cases h

/-- The compression stage either leaves the payload alone or wraps it, strictly shrinking it. -/
theorem compressPayload_cases {B : Backends} (hB : Lawful B) (keys : List SecretKey) (max : Nat)
    (o : CmpOptions) (p : Bytes) (hm : p.length ≤ max) (h32 : p.length < 2 ^ 32) :
    compressPayload B o p = p ∨
      (Peel B keys max .compressed (compressPayload B o p) p ∧
        (compressPayload B o p).length < p.length) := by
  unfold compressPayload
  split
  · rename_i packed ho
    split
    · rename_i a ha
      simp only
      split
      · rename_i hl
        right
        refine ⟨?_, hl⟩
        unfold CmpOptions.apply at ho
        rw [ha] at ho
        obtain ⟨h1, h2, _⟩ := applyCompression_some ho
        unfold encodeCompressedFrame
        rw [Nat.mod_eq_of_lt h32]
        exact Peel.compressed _ a _ packed p (cmp_tag_byte h1) (lenField_encodeVarint h32) hm
          (hB.decompress_compress _ _ _ h2)
      · exact .inl rfl
    · exact .inl rfl
  · exact .inl rfl

theorem compressPayload_length (B : Backends) (o : CmpOptions) (p : Bytes) :
    (compressPayload B o p).length ≤ p.length := by
  unfold compressPayload
  split
  · split
    · simp only
      split <;> omega
    · omega
  · omega

theorem checksumGossip_ok {B : Backends} (hB : Lawful B) (keys : List SecretKey) (max : Nat)
    {algo : Option ChkAlgo} {d w : Bytes} (h : checksumGossip B algo d = .ok w) :
    (algo = none ∧ w = d) ∨
      (Peel B keys max .checksummed w d ∧ w.length ≤ d.length + 10) := by
  unfold checksumGossip at h
  split at h
  · rename_i a
    right
    unfold encodeChecksummedFrame at h
    split at h
    · cases h
    · rename_i dg hd
      injection h with h; subst h
      have hk : ∀ b, a ≠ .unknown b := by
        intro b hb; subst hb; simp [chkDigest] at hd
      rw [chkDigest_known B hk] at hd
      injection hd with hd
      have hlen := hB.digest_len _ _ _ d (chk_tag_mem hk)
      rw [hd] at hlen
      refine ⟨Peel.checksummed _ a _ dg d (chk_tag_mem hk) hlen hd, ?_⟩
      have : a.digestSize ≤ 8 := by cases a <;> simp [ChkAlgo.digestSize]
      simp only [List.length_cons, List.length_append]
      omega
  · injection h with h; exact .inl ⟨rfl, h.symm⟩

/-- What `encryptPayload` produces. -/
def sealedBytes (B : Backends) (ring : Option Keyring) (nonce d : Bytes) : Bytes :=
  match ring with
  | none => d
  | some r => 13 :: cipherByte r.primary ::
      (nonce ++ B.aeadSeal r.primary nonce d [13, cipherByte r.primary])

theorem encryptPayload_ok (B : Backends) (ring : Option Keyring) (nonce d : Bytes) :
    encryptPayload B ring nonce d = .ok (sealedBytes B ring nonce d) := by
  unfold encryptPayload
  split
  · rfl
  · unfold encodeEncryptedFrame
    rw [encEncrypt_eq, algorithm_tag]
    rfl

/-- A frame sealed under a key of the receiver's ring peels for that receiver. -/
theorem peel_sealed {B : Backends} (hB : Lawful B) (keys : List SecretKey) (max : Nat) (k : SecretKey)
    (hk : k ∈ keys) (nonce d : Bytes) (hn : nonce.length = 12) (hd : d.length ≤ max + 10)
    (hx : NoCrossKey B keys k nonce d [13, cipherByte k]) :
    Peel B keys max .encrypted
      (13 :: cipherByte k :: (nonce ++ B.aeadSeal k nonce d [13, cipherByte k])) d := by
  obtain ⟨bf, af, e, hnot⟩ : ∃ bf af, keys = bf ++ k :: af ∧ k ∉ bf := by
    clear hx
    induction keys with
    | nil => simp at hk
    | cons k0 ks ih =>
      by_cases h0 : k0 = k
      · subst h0; exact ⟨[], ks, rfl, by simp⟩
      · have : k ∈ ks := by
          rcases List.mem_cons.1 hk with h | h
          · exact absurd h.symm h0
          · exact h
        obtain ⟨bf, af, e, hn⟩ := ih this
        exact ⟨k0 :: bf, af, by rw [e]; rfl, by simp [hn, Ne.symm h0]⟩
  have hlen := hB.seal_len k nonce d [13, cipherByte k]
  refine Peel.encrypted nonce _ d bf af k e hn (by omega) (by omega) (hB.open_seal _ _ _ _) ?_
  intro k' hk' _
  refine hx k' (by rw [e]; simp [hk']) ?_
  rintro rfl
  exact hnot hk'

end Verif
