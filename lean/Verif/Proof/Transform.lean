import Verif.Proof.Framing
import Verif.Spec.Transform
/- Helper lemmas for C09-C11. -/
namespace Verif
open Spec

theorem chk_ofTag_iff (t : UInt8) (a : ChkAlgo) (n : Nat) :
    (t, a, n) ∈ chkTable ↔ ChkAlgo.ofTag t = a ∧ (∀ b, a ≠ .unknown b) ∧ a.digestSize = n := by
  constructor
  · intro h
    simp only [chkTable, List.mem_cons, Prod.mk.injEq, List.not_mem_nil, or_false] at h
    rcases h with ⟨rfl, rfl, rfl⟩ | ⟨rfl, rfl, rfl⟩ | ⟨rfl, rfl, rfl⟩ | ⟨rfl, rfl, rfl⟩ | ⟨rfl, rfl, rfl⟩ <;>
      exact ⟨rfl, by simp, rfl⟩
  · rintro ⟨rfl, h2, rfl⟩
    unfold ChkAlgo.ofTag at *
    split <;> rename_i h
    · obtain rfl : t = 1 := UInt8.toNat_inj.1 h; simp [chkTable, ChkAlgo.digestSize]
    · obtain rfl : t = 2 := UInt8.toNat_inj.1 h; simp [chkTable, ChkAlgo.digestSize]
    · obtain rfl : t = 3 := UInt8.toNat_inj.1 h; simp [chkTable, ChkAlgo.digestSize]
    · obtain rfl : t = 4 := UInt8.toNat_inj.1 h; simp [chkTable, ChkAlgo.digestSize]
    · obtain rfl : t = 5 := UInt8.toNat_inj.1 h; simp [chkTable, ChkAlgo.digestSize]
    · exfalso
      apply h2 t
      split <;> first | rfl | (rename_i h'; simp_all)

theorem chk_tag_mem {a : ChkAlgo} (h : ∀ b, a ≠ .unknown b) : (a.tag, a, a.digestSize) ∈ chkTable := by
  cases a <;> simp [chkTable, ChkAlgo.tag, ChkAlgo.digestSize] at *

theorem cmp_ofTag_iff (t : UInt8) (a : CmpAlgo) :
    CmpByte t a ↔ CmpAlgo.ofTag t = a ∧ ∀ b, a ≠ .unknown b := by
  constructor
  · intro h
    cases h with
    | zstd b h => unfold CmpAlgo.ofTag; rw [dif_pos h]; exact ⟨rfl, by simp⟩
    | lz4 => exact ⟨rfl, by simp⟩
    | snappy => exact ⟨rfl, by simp⟩
    | brotli => exact ⟨rfl, by simp⟩
  · rintro ⟨rfl, h2⟩
    unfold CmpAlgo.ofTag at *
    split
    · constructor
    · rename_i h
      simp only [h, dite_false] at h2
      split
      · rename_i h1; subst h1; constructor
      · split
        · rename_i h1; subst h1; constructor
        · split
          · rename_i h1; subst h1; constructor
          · rename_i a1 a2 a3; simp [a1, a2, a3] at h2

theorem cmp_tag_byte {a : CmpAlgo} (h : ∀ b, a ≠ .unknown b) : CmpByte a.tag a := by
  cases a with
  | zstd l hl =>
    have : (UInt8.ofNat l).toNat = l := by simp; omega
    have hl' : 1 ≤ (UInt8.ofNat l).toNat ∧ (UInt8.ofNat l).toNat ≤ 22 := by rw [this]; exact hl
    have e : CmpAlgo.zstd l hl = .zstd (UInt8.ofNat l).toNat hl' := by simp [this]
    have e2 : (CmpAlgo.zstd l hl).tag = UInt8.ofNat l := rfl
    rw [e2, e]
    exact CmpByte.zstd _ hl'
  | lz4 => constructor
  | snappy => constructor
  | brotli => constructor
  | unknown b => exact absurd rfl (h b)

theorem algorithm_tag (k : SecretKey) : k.algorithm.tag = cipherByte k := by
  obtain ⟨kind, bytes⟩ := k
  cases kind <;> rfl

theorem algorithm_known (k : SecretKey) (b : UInt8) : k.algorithm ≠ .unknown b := by
  obtain ⟨kind, bytes⟩ := k
  cases kind <;> simp [SecretKey.algorithm]

theorem enc_ofTag_algorithm (k : SecretKey) : EncAlgo.ofTag (cipherByte k) = k.algorithm := by
  obtain ⟨kind, bytes⟩ := k
  cases kind <;> rfl

theorem algorithm_eq_iff (k k' : SecretKey) : k.algorithm = k'.algorithm ↔ cipherByte k = cipherByte k' := by
  obtain ⟨kind, bytes⟩ := k
  obtain ⟨kind', bytes'⟩ := k'
  cases kind <;> cases kind' <;> simp [SecretKey.algorithm, cipherByte]

theorem enc_ofTag_known {t : UInt8} {a : EncAlgo} (h : EncAlgo.ofTag t = a) (hk : ∀ b, a ≠ .unknown b) :
    a.tag = t := by
  subst h
  unfold EncAlgo.ofTag at *
  split
  · rename_i h; subst h; rfl
  · rename_i h
    simp only [h, ite_false] at hk
    split
    · rename_i h; subst h; rfl
    · rename_i h2; simp [h2] at hk

theorem keyMatches_algorithm (k : SecretKey) : keyMatchesAlgorithm k.algorithm k = true := by
  obtain ⟨kind, bytes⟩ := k
  cases kind <;> rfl

theorem encDecrypt_eq (B : Backends) (k : SecretKey) (nonce ct aad : Bytes) :
    encDecrypt B k.algorithm k nonce ct aad =
      match B.aeadOpen k nonce ct aad with
      | none => .error .authFailed
      | some pt => .ok pt := by
  unfold encDecrypt
  rw [keyMatches_algorithm]
  simp only [Bool.not_true, Bool.false_eq_true, if_false]
  have := algorithm_known k
  split
  · rename_i t h; exact absurd h (this t)
  · rfl

theorem encEncrypt_eq (B : Backends) (k : SecretKey) (nonce pt aad : Bytes) :
    encEncrypt B k.algorithm k nonce pt aad = .ok (B.aeadSeal k nonce pt aad) := by
  unfold encEncrypt
  rw [keyMatches_algorithm]
  simp only [Bool.not_true, Bool.false_eq_true, if_false]
  have := algorithm_known k
  split
  · rename_i t h; exact absurd h (this t)
  · rfl

/-- The trial loop returns exactly the first key (of the right cipher) that opens. -/
theorem tryKeys_ok_iff (B : Backends) (a : EncAlgo) (nonce ct aad y : Bytes) (keys : List SecretKey) :
    ∀ tried, tryKeys B a nonce ct aad keys tried = .ok y ↔
      ∃ before k after, keys = before ++ k :: after ∧ k.algorithm = a ∧
        B.aeadOpen k nonce ct aad = some y ∧
        ∀ k' ∈ before, k'.algorithm = a → B.aeadOpen k' nonce ct aad = none := by
  induction keys with
  | nil =>
    intro tried
    simp only [tryKeys]
    constructor
    · intro h; split at h <;> cases h
    · rintro ⟨b, k, c, h, _⟩; simp at h
  | cons k ks ih =>
    intro tried
    simp only [tryKeys]
    by_cases hk : k.algorithm = a
    · subst hk
      simp only [ne_eq, not_true, if_false, encDecrypt_eq]
      cases ho : B.aeadOpen k nonce ct aad with
      | some pt =>
        simp only [Except.ok.injEq]
        constructor
        · rintro rfl
          exact ⟨[], k, ks, rfl, rfl, ho, by simp⟩
        · rintro ⟨b, k1, c, h, h1, h2, h3⟩
          cases b with
          | nil =>
            simp only [List.nil_append, List.cons.injEq] at h
            obtain ⟨rfl, rfl⟩ := h
            rw [ho] at h2; exact Option.some.inj h2
          | cons b0 bs =>
            simp only [List.cons_append, List.cons.injEq] at h
            obtain ⟨rfl, rfl⟩ := h
            have := h3 k (by simp) rfl
            rw [ho] at this; cases this
      | none =>
        simp only
        rw [ih]
        constructor
        · rintro ⟨b, k1, c, rfl, h1, h2, h3⟩
          refine ⟨k :: b, k1, c, rfl, h1, h2, ?_⟩
          intro k' hk' hka
          rcases List.mem_cons.1 hk' with rfl | hm
          · exact ho
          · exact h3 k' hm hka
        · rintro ⟨b, k1, c, h, h1, h2, h3⟩
          cases b with
          | nil =>
            simp only [List.nil_append, List.cons.injEq] at h
            obtain ⟨rfl, rfl⟩ := h
            rw [ho] at h2; cases h2
          | cons b0 bs =>
            simp only [List.cons_append, List.cons.injEq] at h
            obtain ⟨rfl, rfl⟩ := h
            exact ⟨bs, k1, c, rfl, h1, h2, fun k' hk' => h3 k' (by simp [hk'])⟩
    · simp only [ne_eq, hk, not_false_eq_true, if_true]
      rw [ih]
      constructor
      · rintro ⟨b, k1, c, rfl, h1, h2, h3⟩
        refine ⟨k :: b, k1, c, rfl, h1, h2, ?_⟩
        intro k' hk' hka
        rcases List.mem_cons.1 hk' with rfl | hm
        · exact absurd hka hk
        · exact h3 k' hm hka
      · rintro ⟨b, k1, c, h, h1, h2, h3⟩
        cases b with
        | nil =>
          simp only [List.nil_append, List.cons.injEq] at h
          obtain ⟨rfl, rfl⟩ := h
          exact absurd h1 hk
        | cons b0 bs =>
          simp only [List.cons_append, List.cons.injEq] at h
          obtain ⟨rfl, rfl⟩ := h
          exact ⟨bs, k1, c, rfl, h1, h2, fun k' hk' => h3 k' (by simp [hk'])⟩

/-! ### Wrapper decoders against the grammar -/

theorem chkDigest_known (B : Backends) {a : ChkAlgo} (h : ∀ b, a ≠ .unknown b) (p : Bytes) :
    chkDigest B a p = .ok (B.digest a p) := by
  cases a <;> first | rfl | exact absurd rfl (h _)

theorem decodeChecksummed_ok_iff (B : Backends) (keys : List SecretKey) (max : Nat) (x y : Bytes) :
    decodeChecksummedFrame B x = .ok y ↔ Peel B keys max .checksummed x y := by
  constructor
  · intro h
    unfold decodeChecksummedFrame at h
    split at h
    · cases h
    · cases h
    · rename_i b0 b1 rest
      split at h
      · cases h
      · rename_i hb
        simp only [ne_eq, Decidable.not_not] at hb
        generalize ha : ChkAlgo.ofTag b1 = a at h
        have hk : ∀ b, a ≠ .unknown b := by
          intro b hb'; subst hb'; simp only at h; cases h
        have h' : (if rest.length < a.digestSize then (.error (.checksum .mismatch) : Except TransformError Bytes)
            else match chkVerify B a (rest.drop a.digestSize) (rest.take a.digestSize) with
              | .error e => .error (.checksum e)
              | .ok _ => .ok (rest.drop a.digestSize)) = .ok y := by
          cases a <;> first | exact h | exact absurd rfl (hk _)
        clear h
        split at h'
        · cases h'
        · rename_i hl
          unfold chkVerify at h'
          rw [chkDigest_known B hk] at h'
          simp only at h'
          split at h'
          · cases h'
          · rename_i hv
            split at hv
            · rename_i heq
              injection h' with h'
              subst h' hb
              have := Peel.checksummed (B := B) (keys := keys) (max := max) b1 a a.digestSize
                (rest.take a.digestSize) (rest.drop a.digestSize)
                ((chk_ofTag_iff _ _ _).2 ⟨ha, hk, rfl⟩) (by rw [List.length_take]; omega) heq
              rw [List.take_append_drop] at this
              exact this
            · cases hv
  · intro h
    cases h with
    | checksummed t a n d y ht hn hd =>
      obtain ⟨h1, h2, h3⟩ := (chk_ofTag_iff _ _ _).1 ht
      have e1 : (d ++ y).take a.digestSize = d := by rw [h3, ← hn]; simp
      have e2 : (d ++ y).drop a.digestSize = y := by rw [h3, ← hn]; simp
      have e3 : ¬ (d ++ y).length < a.digestSize := by rw [List.length_append]; omega
      unfold decodeChecksummedFrame
      simp only [CHECKSUMED_TAG, ne_eq, not_true, if_false]
      rw [h1]
      have hv : chkVerify B a y d = .ok () := by
        unfold chkVerify
        rw [chkDigest_known B h2]
        simp [hd]
      cases a <;> first
        | exact absurd rfl (h2 _)
        | (simp only [e1, e2, e3, if_false, hv])

theorem cmpDecompress_ok_iff (B : Backends) {a : CmpAlgo} (h : ∀ b, a ≠ .unknown b) (body y : Bytes)
    (n : Nat) : cmpDecompress B a body n = .ok y ↔ B.decompress a body n = some y ∧ y.length = n := by
  have : cmpDecompress B a body n = (match B.decompress a body n with
    | none => .error .backend
    | some out => if out.length ≠ n then .error .backend else .ok out) := by
    cases a <;> first | rfl | exact absurd rfl (h _)
  rw [this]
  split
  · rename_i h1; rw [h1]; simp
  · rename_i out h1
    rw [h1]
    split
    · rename_i h2
      simp only [Option.some.injEq]
      constructor
      · intro h; cases h
      · rintro ⟨rfl, h3⟩; exact absurd h3 h2
    · rename_i h2
      simp only [ne_eq, Decidable.not_not] at h2
      simp only [Except.ok.injEq, Option.some.injEq]
      constructor
      · rintro rfl; exact ⟨rfl, h2⟩
      · exact fun h => h.1

theorem decodeCompressed_ok_iff (B : Backends) (keys : List SecretKey) (max : Nat) (x y : Bytes) :
    decodeCompressedFrame B x max = .ok y ↔ Peel B keys max .compressed x y := by
  constructor
  · intro h
    unfold decodeCompressedFrame at h
    split at h
    · rename_i b0 b1 rest
      split at h
      · cases h
      · rename_i hb
        simp only [ne_eq, Decidable.not_not] at hb
        generalize ha : CmpAlgo.ofTag b1 = a at h
        have hk : ∀ b, a ≠ .unknown b := by
          intro b hb'; subst hb'; simp only at h; cases h
        have h' : (match decodeVarint rest with
          | .error _ => (.error .backend : Except CmpErr Bytes)
          | .ok (origLen, varintBytes) =>
            if origLen > max then .error (.oversizeOriginal origLen max)
            else cmpDecompress B a (rest.drop varintBytes) origLen) = .ok y := by
          cases a <;> first | exact h | exact absurd rfl (hk _)
        clear h
        split at h'
        · cases h'
        · rename_i n vb hv
          split at h'
          · cases h'
          · rename_i hm
            obtain ⟨h1, h2⟩ := (cmpDecompress_ok_iff B hk _ _ _).1 h'
            obtain ⟨pre, post, e1, e2, e3, e4, e5⟩ := (decodeVarint_ok_iff _ _ _).1 hv
            subst e1 hb
            have : (pre ++ post).drop vb = post := by rw [← e3]; simp
            rw [this] at h1
            subst h2
            exact Peel.compressed b1 a pre post y ((cmp_ofTag_iff _ _).2 ⟨ha, hk⟩)
              ⟨e2, by omega, e5⟩ (by omega) h1
    · cases h
  · intro h
    cases h with
    | compressed t a len body y ht hl hm hd =>
      obtain ⟨h1, h2⟩ := (cmp_ofTag_iff _ _).1 ht
      have hv := decodeVarint_of_lenField hl body
      have e : (len ++ body).drop len.length = body := by simp
      have hd' := (cmpDecompress_ok_iff B h2 body y y.length).2 ⟨hd, rfl⟩
      unfold decodeCompressedFrame
      simp only [COMPRESSED_TAG, ne_eq, not_true, if_false]
      rw [h1]
      have hm' : ¬ y.length > max := by omega
      cases a <;> first
        | exact absurd rfl (h2 _)
        | (simp only [hv, e, hm', if_false, hd'])

theorem decodeEncrypted_ok_iff (B : Backends) (r : Keyring) (max : Nat) (x y : Bytes) :
    decodeEncryptedFrame B (some r) x (max + 10) = .ok y ↔ Peel B r.keys max .encrypted x y := by
  constructor
  · intro h
    unfold decodeEncryptedFrame at h
    split at h
    · rename_i b0 b1 rest
      split at h
      · cases h
      · rename_i hb
        simp only [ne_eq, Decidable.not_not] at hb
        generalize ha : EncAlgo.ofTag b1 = a at h
        have hk : ∀ b, a ≠ .unknown b := by
          intro b hb'; subst hb'; simp only at h; cases h
        have h' : (if (b0 :: b1 :: rest).length < WRAPPER_HEADER_LEN + AUTH_TAG_LEN then
              (.error .malformedFrame : Except EncErr Bytes)
            else if (rest.drop NONCE_LEN).length - AUTH_TAG_LEN > max + 10 then
              .error (.oversize ((rest.drop NONCE_LEN).length - AUTH_TAG_LEN) (max + 10))
            else tryKeys B a (rest.take NONCE_LEN) (rest.drop NONCE_LEN) [ENCRYPTED_TAG, a.tag] r.keys 0) = .ok y := by
          cases a <;> first | exact h | exact absurd rfl (hk _)
        clear h
        split at h'
        · cases h'
        · rename_i hlen
          split at h'
          · cases h'
          · rename_i hmx
            obtain ⟨bf, k, af, h1, h2, h3, h4⟩ := (tryKeys_ok_iff _ _ _ _ _ _ _ _).1 h'
            have htag := enc_ofTag_known ha hk
            subst h2
            rw [algorithm_tag] at htag
            subst htag hb
            simp only [List.length_cons, WRAPPER_HEADER_LEN, AUTH_TAG_LEN, NONCE_LEN] at hlen hmx
            rw [algorithm_tag] at h3 h4
            have := Peel.encrypted (B := B) (keys := r.keys) (max := max) (rest.take NONCE_LEN)
              (rest.drop NONCE_LEN) y bf af k h1 (by rw [List.length_take]; simp only [NONCE_LEN]; omega)
              (by rw [List.length_drop]; simp only [NONCE_LEN]; omega)
              (by simp only [NONCE_LEN]; omega) h3
              (fun k' hk' hc => h4 k' hk' ((algorithm_eq_iff _ _).2 hc))
            rw [List.take_append_drop] at this
            exact this
    · cases h
  · intro h
    cases h with
    | encrypted nonce ct y bf af k hk hn hc hm ho hb =>
      unfold decodeEncryptedFrame
      simp only [ENCRYPTED_TAG, ne_eq, not_true, if_false]
      rw [enc_ofTag_algorithm]
      have e1 : (nonce ++ ct).take NONCE_LEN = nonce := by simp only [NONCE_LEN]; rw [← hn]; simp
      have e2 : (nonce ++ ct).drop NONCE_LEN = ct := by simp only [NONCE_LEN]; rw [← hn]; simp
      have e3 : ¬ (13 :: cipherByte k :: (nonce ++ ct)).length < WRAPPER_HEADER_LEN + AUTH_TAG_LEN := by
        simp only [List.length_cons, List.length_append, WRAPPER_HEADER_LEN, AUTH_TAG_LEN, NONCE_LEN]; omega
      have e4 : ¬ ct.length - AUTH_TAG_LEN > max + 10 := by simp only [AUTH_TAG_LEN]; omega
      have hkn := algorithm_known k
      have ht := (tryKeys_ok_iff B k.algorithm nonce ct [13, cipherByte k] y r.keys 0).2
        ⟨bf, k, af, hk, rfl, ho, fun k' hk' hc => hb k' hk' ((algorithm_eq_iff _ _).1 hc)⟩
      have hat := algorithm_tag k
      cases ha : k.algorithm <;> first
        | (rw [ha] at ht hat; simp only [e1, e2, e3, e4, if_false, hat]; exact ht)
        | exact absurd ha (hkn _)

theorem decodeEncrypted_none (B : Backends) (x y : Bytes) (m : Nat) :
    decodeEncryptedFrame B none x m ≠ .ok y := by
  intro h
  unfold decodeEncryptedFrame at h
  split at h
  · split at h
    · cases h
    · split at h
      · cases h
      · split at h
        · cases h
        · simp only at h
          split at h <;> cases h
  · cases h

/-! ### Determinism of the grammar -/

/-- The tag byte of a wrapper. -/
def layerByte : Layer → UInt8
  | .encrypted => 13
  | .checksummed => 15
  | .compressed => 14

theorem Spec.Peel.lead {B keys max l x y} (h : Peel B keys max l x y) :
    ∃ rest, x = layerByte l :: rest := by
  cases h <;> exact ⟨_, rfl⟩

theorem Spec.Peel.layer_inj {B keys max l l' x y y'} (h : Peel B keys max l x y)
    (h' : Peel B keys max l' x y') : l = l' := by
  obtain ⟨r, e⟩ := h.lead
  obtain ⟨r', e'⟩ := h'.lead
  rw [e] at e'
  cases l <;> cases l' <;> simp_all [layerByte]

theorem Spec.Peel.det {B keys max l x y y'} (h : Peel B keys max l x y)
    (h' : Peel B keys max l x y') : y = y' := by
  cases l with
  | checksummed =>
    have a := (decodeChecksummed_ok_iff B keys max x y).2 h
    have b := (decodeChecksummed_ok_iff B keys max x y').2 h'
    rw [a] at b; exact Except.ok.inj b
  | compressed =>
    have a := (decodeCompressed_ok_iff B keys max x y).2 h
    have b := (decodeCompressed_ok_iff B keys max x y').2 h'
    rw [a] at b; exact Except.ok.inj b
  | encrypted =>
    cases keys with
    | nil =>
      cases h with
      | encrypted nonce ct y bf af k hk => simp at hk
    | cons k ks =>
      have a := (decodeEncrypted_ok_iff B ⟨k, ks⟩ max x y).2 h
      have b := (decodeEncrypted_ok_iff B ⟨k, ks⟩ max x y').2 h'
      rw [a] at b; exact Except.ok.inj b

theorem Spec.Peel.not_plain {B keys max l x y} (h : Peel B keys max l x y) : ¬ PlainLead x := by
  obtain ⟨r, e⟩ := h.lead
  rintro ⟨b, rest, e', h1, h2, h3⟩
  rw [e] at e'
  injection e' with e' _
  subst e'
  cases l <;> simp_all [layerByte]

/-- Any peeling of a datagram is a prefix of the peeling that reaches plain bytes. -/
theorem Spec.Peels.prefix {B keys max ls ls' x y z} (h : Peels B keys max ls x z)
    (h' : Peels B keys max ls' x y) (hp : PlainLead y) : ls <+: ls' := by
  induction h generalizing ls' y with
  | nil x => exact List.nil_prefix
  | cons l ls x y1 z1 hpeel ht ih =>
    cases h' with
    | nil => exact absurd hp hpeel.not_plain
    | cons l' ls' _ y2 _ hpeel' ht' =>
      obtain rfl := hpeel.layer_inj hpeel'
      obtain rfl := hpeel.det hpeel'
      exact List.cons_prefix_cons.2 ⟨rfl, ih ht' hp⟩

/-! ### The unwrap loop -/

/-- What the base loop still permits at each stage. -/
def stageLayers : Nat → List Layer
  | 0 => [.checksummed, .compressed]
  | 1 => [.checksummed, .compressed]
  | 2 => [.compressed]
  | _ => []

theorem unwrapLoop_plain {B : Backends} {max : Nat} {cur : Bytes} {stage : Nat} (h : PlainLead cur) :
    unwrapLoop B max cur stage = if cur.length > max then .error (.oversizePlaintext cur.length) else .ok cur := by
  obtain ⟨b, rest, rfl, h1, h2, h3⟩ := h
  rw [unwrapLoop]
  simp only [ENCRYPTED_TAG, CHECKSUMED_TAG, COMPRESSED_TAG, h1, h2, h3, if_false]

theorem unwrapLoop_ok_iff (B : Backends) (keys : List SecretKey) (max : Nat) :
    ∀ (d : Nat) (stage : Nat), stage ≤ 3 → 3 - stage = d → 1 ≤ stage → ∀ (cur y : Bytes),
    unwrapLoop B max cur stage = .ok y ↔
      ∃ ls, ls.Sublist (stageLayers stage) ∧ Peels B keys max ls cur y ∧ PlainLead y ∧ y.length ≤ max := by
  intro d
  induction d using Nat.strongRecOn with
  | _ d ih =>
    intro stage hs hd h1 cur y
    cases cur with
    | nil =>
      rw [unwrapLoop]
      constructor
      · intro h; cases h
      · rintro ⟨ls, _, hp, ⟨b, r, hy, _⟩, _⟩
        exfalso
        cases hp with
        | nil => cases hy
        | cons l ls _ y1 _ hpeel _ => obtain ⟨r, e⟩ := hpeel.lead; cases e
    | cons lead tl =>
      by_cases hE : lead = 13
      · subst hE
        rw [unwrapLoop]
        simp only [ENCRYPTED_TAG, if_true]
        constructor
        · intro h; cases h
        · rintro ⟨ls, hsub, hp, hpl, _⟩
          exfalso
          cases hp with
          | nil => obtain ⟨b, r, e, h1, _⟩ := hpl; injection e with e _; exact h1 e.symm
          | cons l ls _ y1 _ hpeel _ =>
            obtain ⟨r, e⟩ := hpeel.lead
            injection e with e _
            have hl : l ∈ stageLayers stage := hsub.subset (by simp)
            cases l
            · rcases (by omega : stage = 1 ∨ stage = 2 ∨ stage = 3) with rfl | rfl | rfl <;>
                simp [stageLayers] at hl
            · exact absurd e (by decide)
            · exact absurd e (by decide)
      · by_cases hC : lead = 15
        · subst hC
          rw [unwrapLoop]
          simp only [ENCRYPTED_TAG, CHECKSUMED_TAG, hE, if_false, if_true]
          by_cases hst : stage > 1
          · rw [dif_pos hst]
            constructor
            · intro h; cases h
            · rintro ⟨ls, hsub, hp, hpl, _⟩
              exfalso
              cases hp with
              | nil => obtain ⟨b, r, e, _, _, h1⟩ := hpl; injection e with e _; exact h1 e.symm
              | cons l ls _ y1 _ hpeel _ =>
                obtain ⟨r, e⟩ := hpeel.lead
                injection e with e _
                have hl : l ∈ stageLayers stage := hsub.subset (by simp)
                cases l
                · exact absurd e (by decide)
                · rcases (by omega : stage = 2 ∨ stage = 3) with rfl | rfl <;>
                    simp [stageLayers] at hl
                · exact absurd e (by decide)
          · rw [dif_neg hst]
            obtain rfl : stage = 1 := by omega
            have IH := ih 1 (by omega) 2 (by omega) rfl (by omega)
            constructor
            · intro h
              split at h
              · cases h
              · rename_i inner hdec
                obtain ⟨ls, hsub, hp, hpl, hlen⟩ := (IH _ _).1 h
                exact ⟨.checksummed :: ls, List.Sublist.cons_cons _ hsub,
                  .cons _ _ _ _ _ ((decodeChecksummed_ok_iff B keys max _ _).1 hdec) hp, hpl, hlen⟩
            · rintro ⟨ls, hsub, hp, hpl, hlen⟩
              cases hp with
              | nil => exfalso; obtain ⟨b, r, e, _, _, h1⟩ := hpl; injection e with e _; exact h1 e.symm
              | cons l ls _ y1 _ hpeel ht =>
                obtain ⟨r, e⟩ := hpeel.lead
                injection e with e _
                cases l
                · exact absurd e (by decide)
                · rw [(decodeChecksummed_ok_iff B keys max _ _).2 hpeel]
                  simp only
                  refine (IH _ _).2 ⟨ls, ?_, ht, hpl, hlen⟩
                  simp only [stageLayers] at hsub ⊢
                  exact List.cons_sublist_cons.1 hsub
                · exact absurd e (by decide)
        · by_cases hK : lead = 14
          · subst hK
            rw [unwrapLoop]
            simp only [ENCRYPTED_TAG, CHECKSUMED_TAG, COMPRESSED_TAG, hE, hC, if_false, if_true]
            by_cases hst : stage > 2
            · rw [dif_pos hst]
              constructor
              · intro h; cases h
              · rintro ⟨ls, hsub, hp, hpl, _⟩
                exfalso
                cases hp with
                | nil => obtain ⟨b, r, e, _, h1, _⟩ := hpl; injection e with e _; exact h1 e.symm
                | cons l ls _ y1 _ hpeel _ =>
                  have hl : l ∈ stageLayers stage := hsub.subset (by simp)
                  obtain rfl : stage = 3 := by omega
                  simp [stageLayers] at hl
            · rw [dif_neg hst]
              have IH := ih 0 (by omega) 3 (by omega) rfl (by omega)
              constructor
              · intro h
                split at h
                · cases h
                · rename_i inner hdec
                  obtain ⟨ls, hsub, hp, hpl, hlen⟩ := (IH _ _).1 h
                  have hnil : ls = [] := by simpa [stageLayers] using hsub
                  subst hnil
                  refine ⟨[.compressed], ?_, .cons _ _ _ _ _ ((decodeCompressed_ok_iff B keys max _ _).1 hdec) hp, hpl, hlen⟩
                  rcases (by omega : stage = 1 ∨ stage = 2) with rfl | rfl
                  · exact List.Sublist.cons _ (List.Sublist.refl _)
                  · exact List.Sublist.refl _
              · rintro ⟨ls, hsub, hp, hpl, hlen⟩
                cases hp with
                | nil => exfalso; obtain ⟨b, r, e, _, h1, _⟩ := hpl; injection e with e _; exact h1 e.symm
                | cons l ls _ y1 _ hpeel ht =>
                  obtain ⟨r, e⟩ := hpeel.lead
                  injection e with e _
                  cases l
                  · exact absurd e (by decide)
                  · exact absurd e (by decide)
                  · rw [(decodeCompressed_ok_iff B keys max _ _).2 hpeel]
                    simp only
                    refine (IH _ _).2 ⟨ls, ?_, ht, hpl, hlen⟩
                    rcases (by omega : stage = 1 ∨ stage = 2) with rfl | rfl
                    · simp only [stageLayers] at hsub ⊢
                      cases hsub with
                      | cons _ h => exact List.cons_sublist_cons.1 h
                    · simp only [stageLayers] at hsub ⊢
                      exact List.cons_sublist_cons.1 hsub
          · have hpl : PlainLead (lead :: tl) := ⟨lead, tl, rfl, hE, hK, hC⟩
            rw [unwrapLoop_plain hpl]
            constructor
            · intro h
              split at h
              · cases h
              · injection h with h
                subst h
                exact ⟨[], List.nil_sublist _, .nil _, hpl, by omega⟩
            · rintro ⟨ls, hsub, hp, hpl', hlen⟩
              cases hp with
              | nil => rw [if_neg (by omega)]
              | cons l ls _ y1 _ hpeel _ => exact absurd hpl hpeel.not_plain

theorem unwrap_ok_iff (B : Backends) (keys : List SecretKey) (x y : Bytes) (max : Nat) :
    unwrapTransforms B x max = .ok y ↔
      ∃ ls, ls.Sublist [.checksummed, .compressed] ∧ Peels B keys max ls x y ∧ PlainLead y ∧ y.length ≤ max :=
  unwrapLoop_ok_iff B keys max 2 1 (by omega) rfl (by omega) x y

theorem sublist_no_enc {ls : List Layer} (h : ls.Sublist canonicalOrder) (hn : Layer.encrypted ∉ ls) :
    ls.Sublist [.checksummed, .compressed] := by
  unfold canonicalOrder at h
  cases h with
  | cons _ h => exact h
  | cons_cons _ h => simp at hn

theorem unwrapWithEncryption_ok_iff (B : Backends) (ring : Option Keyring) (x y : Bytes) (max : Nat) :
    unwrapWithEncryption B ring x max = .ok y ↔
      ∃ ls, ls.Sublist canonicalOrder ∧ (Layer.encrypted ∈ ls ↔ ring.isSome = true) ∧
        Peels B (heldKeys ring) max ls x y ∧ PlainLead y ∧ y.length ≤ max := by
  cases x with
  | nil =>
    constructor
    · intro h
      unfold unwrapWithEncryption at h
      simp only at h
      split at h
      · cases h
      · obtain ⟨ls, _, hp, ⟨b, r, hy, _⟩, _⟩ := (unwrap_ok_iff B [] _ _ _).1 h
        exfalso
        cases hp with
        | nil => cases hy
        | cons l ls _ y1 _ hpeel _ => obtain ⟨r, e⟩ := hpeel.lead; cases e
    · rintro ⟨ls, _, _, hp, ⟨b, r, hy, _⟩, _⟩
      exfalso
      cases hp with
      | nil => cases hy
      | cons l ls _ y1 _ hpeel _ => obtain ⟨r, e⟩ := hpeel.lead; cases e
  | cons lead tl =>
    cases ring with
    | none =>
      unfold unwrapWithEncryption
      simp only [Option.isSome_none, Bool.false_eq_true, false_and, if_false, iff_false]
      by_cases hE : lead = ENCRYPTED_TAG
      · rw [if_pos hE]
        constructor
        · intro h
          split at h
          · cases h
          · rename_i hdec
            exact absurd hdec (decodeEncrypted_none _ _ _ _)
        · rintro ⟨ls, hsub, hne, hp, hpl, _⟩
          exfalso
          cases hp with
          | nil => obtain ⟨b, r, e, h1, _⟩ := hpl; injection e with e _; exact h1 (e.symm.trans hE)
          | cons l ls _ y1 _ hpeel _ =>
            obtain ⟨r, e⟩ := hpeel.lead
            injection e with e _
            rw [hE] at e
            cases l
            · simp at hne
            · exact absurd e (by decide)
            · exact absurd e (by decide)
      · rw [if_neg hE, unwrap_ok_iff B (heldKeys none)]
        constructor
        · rintro ⟨ls, h1, h2⟩
          exact ⟨ls, List.Sublist.cons _ h1, fun hm => by simpa using h1.subset hm, h2⟩
        · rintro ⟨ls, h1, h2, h3⟩
          exact ⟨ls, sublist_no_enc h1 h2, h3⟩
    | some r =>
      unfold unwrapWithEncryption
      simp only [Option.isSome_some, true_and, iff_true]
      by_cases hE : lead = ENCRYPTED_TAG
      · simp only [hE, ne_eq, not_true, if_false, if_true]
        have hd := decodeEncrypted_ok_iff B r max (ENCRYPTED_TAG :: tl)
        constructor
        · intro h
          split at h
          · cases h
          · rename_i inner hdec
            obtain ⟨ls, h1, h2, h3⟩ := (unwrap_ok_iff B r.keys _ _ _).1 h
            exact ⟨.encrypted :: ls, List.Sublist.cons_cons _ h1, by simp,
              .cons _ _ _ _ _ ((hd _).1 hdec) h2, h3⟩
        · rintro ⟨ls, hsub, hne, hp, hpl, hlen⟩
          cases hp with
          | nil => simp at hne
          | cons l ls _ y1 _ hpeel ht =>
            obtain ⟨r', e⟩ := hpeel.lead
            injection e with e _
            cases l
            · have := (hd _).2 hpeel
              simp only [CHECKSUMED_WRAPPER_OVERHEAD, Nat.reduceAdd]
              rw [this]
              exact (unwrap_ok_iff B r.keys _ _ _).2 ⟨ls, by
                unfold canonicalOrder at hsub
                exact List.cons_sublist_cons.1 hsub, ht, hpl, hlen⟩
            · exact absurd e (by decide)
            · exact absurd e (by decide)
      · rw [if_pos hE]
        constructor
        · intro h; cases h
        · rintro ⟨ls, hsub, hne, hp, hpl, hlen⟩
          exfalso
          cases hp with
          | nil => simp at hne
          | cons l ls _ y1 _ hpeel ht =>
            obtain ⟨r', e⟩ := hpeel.lead
            injection e with e _
            have : l = .encrypted := by
              unfold canonicalOrder at hsub
              cases hsub with
              | cons _ h => exact absurd (h.subset hne) (by simp)
              | cons_cons _ h => rfl
            subst this
            exact hE e

end Verif
