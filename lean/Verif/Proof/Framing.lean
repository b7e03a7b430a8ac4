import Verif.Model.Framing
import Verif.Spec.Framing
import Verif.Proof.Varint
/-
Helper lemmas about plain and compound frames.
-/
namespace Verif
open Spec

theorem MessageTag.ofByte_toByte (t : MessageTag) : MessageTag.ofByte t.toByte = .ok t := by
  cases t <;> rfl

theorem MessageTag.ofByte_ok_iff (b : UInt8) (t : MessageTag) :
    MessageTag.ofByte b = .ok t ↔ b = t.toByte := by
  constructor
  · intro h
    apply UInt8.toNat_inj.1
    unfold MessageTag.ofByte at h
    split at h
    all_goals first
      | (cases h; done)
      | (cases h; assumption)
  · rintro rfl; exact MessageTag.ofByte_toByte t

theorem MessageTag.ofByte_err (b : UInt8) (e : FrameError) (h : MessageTag.ofByte b = .error e) :
    e = .unknownTag b := by
  unfold MessageTag.ofByte at h
  split at h
  all_goals first
    | (cases h; done)
    | (cases h; rfl)

theorem lenField_encodeVarint {n : Nat} (h : n < 2 ^ 32) : LenField (encodeVarint n) n :=
  ⟨encodeVarint_leb128 n, by rw [encodeVarint_length]; exact varintLen_le_five h, h⟩

theorem decodeVarint_of_lenField {len : Bytes} {n : Nat} (h : LenField len n) (rest : Bytes) :
    decodeVarint (len ++ rest) = .ok (n, len.length) := by
  rw [decodeVarint_ok_iff]; exact ⟨len, rest, rfl, h.1, rfl, h.2.1, h.2.2⟩

theorem lenField_of_decodeVarint {buf : Bytes} {v n : Nat} (h : decodeVarint buf = .ok (v, n)) :
    LenField (buf.take n) v ∧ (buf.take n).length = n := by
  rw [decodeVarint_ok_iff] at h
  obtain ⟨pre, rest, h1, h2, h3, h4, h5⟩ := h
  subst h1 h3
  rw [List.take_left]
  exact ⟨⟨h2, h4, h5⟩, rfl⟩

theorem take_append_take_drop {α} (l : List α) (n m : Nat) :
    l.take n ++ ((l.drop n).take m ++ l.drop (n + m)) = l := by
  rw [← List.drop_drop, List.take_append_drop, List.take_append_drop]

theorem decodePlainFrame_ok_iff (buf : Bytes) (tag : MessageTag) (body : Bytes) (n : Nat) :
    decodePlainFrame buf = .ok (tag, body, n) ↔
      ∃ frame rest, buf = frame ++ rest ∧ Frame tag.toByte body frame ∧ frame.length = n := by
  cases buf with
  | nil =>
    simp only [decodePlainFrame]
    constructor
    · intro h; cases h
    · rintro ⟨frame, rest, h, ⟨len, _, hf⟩, _⟩
      subst hf; simp at h
  | cons b0 tail =>
    simp only [decodePlainFrame]
    constructor
    · intro h
      split at h
      · cases h
      rename_i tag' ht
      split at h
      · cases h
      · cases h
      rename_i bl vb hd
      split at h
      · cases h
      rename_i hlen
      injection h with h; injection h with h1 h; injection h with h2 h3
      subst h1
      have hb := (MessageTag.ofByte_ok_iff _ _).1 ht
      obtain ⟨hf, hfl⟩ := lenField_of_decodeVarint hd
      simp only [List.length_cons] at hlen
      have hdrop : (b0 :: tail).drop (1 + vb) = tail.drop vb := by
        rw [Nat.add_comm]; rfl
      rw [hdrop] at h2
      have hbl : body.length = bl := by
        rw [← h2, List.length_take, List.length_drop]; omega
      refine ⟨b0 :: (tail.take vb ++ body), tail.drop (vb + bl), ?_, ⟨tail.take vb, ?_, ?_⟩, ?_⟩
      · rw [← h2, List.cons_append, List.append_assoc, take_append_take_drop]
      · rw [hbl]; exact hf
      · rw [hb]
      · rw [List.length_cons, List.length_append, hfl, hbl]; omega
    · rintro ⟨frame, rest, h, ⟨len, hl, hf⟩, hn⟩
      subst hf
      simp only [List.cons_append, List.cons.injEq] at h
      obtain ⟨rfl, rfl⟩ := h
      rw [MessageTag.ofByte_toByte, List.append_assoc, decodeVarint_of_lenField hl]
      simp only [List.length_cons, List.length_append] at hn ⊢
      rw [if_neg (by omega)]
      have hdrop : (tag.toByte :: (len ++ (body ++ rest))).drop (1 + len.length) = body ++ rest := by
        rw [Nat.add_comm]; simp
      rw [hdrop]
      simp; omega

theorem decodePlainFrame_incomplete_iff (buf : Bytes) (hne : buf ≠ []) :
    (∃ a b, decodePlainFrame buf = .error (.incomplete a b)) ↔
      ∃ tag body ext, ext ≠ [] ∧ Frame (MessageTag.toByte tag) body (buf ++ ext) := by
  cases buf with
  | nil => exact absurd rfl hne
  | cons b0 tail =>
    constructor
    · rintro ⟨a, b, h⟩
      simp only [decodePlainFrame] at h
      split at h
      · rename_i e ht
        have := MessageTag.ofByte_err _ _ ht
        subst this; cases h
      rename_i tag ht
      have hb := (MessageTag.ofByte_ok_iff _ _).1 ht
      split at h
      · rename_i x y hd
        have hinc := decodeVarint_err _ _ hd
        rcases hinc with hinc | hinc
        · cases hinc
        injection hinc with hx hy
        subst hx hy
        have ⟨hc, hlen⟩ := (decodeVarint_incomplete_iff _).1 hd
        -- extend with a terminator byte 0
        have key : ∀ (bs : Bytes), AllCont bs → bs.length ≤ 4 → ∃ v, Leb128 (bs ++ [0]) v ∧ v < 2 ^ (7 * bs.length) := by
          intro bs
          induction bs with
          | nil => intro _ _; exact ⟨0, .last 0 (by decide), by simp⟩
          | cons c cs ih =>
            intro h1 h2
            obtain ⟨v, hv, hv'⟩ := ih (fun b hb => h1 b (by simp [hb])) (by simp at h2; omega)
            refine ⟨_, .more c _ v (h1 c (by simp)) hv, ?_⟩
            rw [List.length_cons, show 7 * (cs.length + 1) = 7 * cs.length + 7 by omega, Nat.pow_add]
            have := Nat.mod_lt c.toNat (y := 128) (by omega)
            omega
        obtain ⟨v, hv, hv'⟩ := key tail hc hlen
        have hv32 : v < 2 ^ 32 :=
          Nat.lt_of_lt_of_le hv' (Nat.pow_le_pow_right (by omega) (by omega))
        refine ⟨tag, List.replicate v 0, [0] ++ List.replicate v 0, by simp, tail ++ [0],
          ⟨by simpa using hv, by simp; omega, by simpa using hv32⟩, ?_⟩
        rw [hb]; simp
      · rename_i e he hd
        exfalso
        rcases decodeVarint_err _ _ hd with hinc | hinc
        · subst hinc; cases h
        · exact he _ _ hinc
      · rename_i bl vb hd
        split at h
        · rename_i hlt
          obtain ⟨hf, hfl⟩ := lenField_of_decodeVarint hd
          have hbd := decodeVarint_bounds hd
          simp only [List.length_cons] at hlt
          have hk : tail.length - vb < bl := by omega
          refine ⟨tag, tail.drop vb ++ List.replicate (bl - (tail.length - vb)) 0,
            List.replicate (bl - (tail.length - vb)) 0, ?_, tail.take vb, ?_, ?_⟩
          · intro hz
            have := congrArg List.length hz
            simp at this; omega
          · have : (tail.drop vb ++ List.replicate (bl - (tail.length - vb)) 0).length = bl := by
              simp; omega
            rw [this]; exact hf
          · rw [hb, List.cons_append, ← List.append_assoc, List.take_append_drop]
        · cases h
    · rintro ⟨tag, body, ext, hext, len, hl, hf⟩
      simp only [List.cons_append, List.cons.injEq] at hf
      obtain ⟨rfl, hf⟩ := hf
      simp only [decodePlainFrame, MessageTag.ofByte_toByte]
      rcases List.append_eq_append_iff.1 hf with ⟨a, ha, hb⟩ | ⟨c, hc, hd⟩
      · -- len = tail ++ a
        cases hd : decodeVarint tail with
        | ok r =>
          obtain ⟨bl, vb⟩ := r
          have h1 := decodeVarint_append hd a
          have h2 := decodeVarint_of_lenField hl []
          rw [List.append_nil, ha] at h2
          rw [h1] at h2
          injection h2 with h2; injection h2 with h2 h3
          have hbd := decodeVarint_bounds hd
          have ha0 : a = [] := by
            have : (tail ++ a).length = vb := h3.symm
            simp at this
            have : a.length = 0 := by omega
            exact List.length_eq_zero_iff.1 this
          subst ha0
          simp at hb
          subst hb
          have hpos : 0 < ext.length := List.length_pos_iff.2 hext
          simp only
          simp only [List.append_nil] at h3
          rw [if_pos (by simp only [List.length_cons]; omega)]
          exact ⟨_, _, rfl⟩
        | error e =>
          rcases decodeVarint_err _ _ hd with he | he
          · subst he
            have h1 := decodeVarint_overflow_append hd a
            have h2 := decodeVarint_of_lenField hl []
            rw [List.append_nil, ha, h1] at h2
            cases h2
          · subst he; exact ⟨_, _, rfl⟩
      · rw [hc, decodeVarint_of_lenField hl]
        have hpos : 0 < ext.length := List.length_pos_iff.2 hext
        have := congrArg List.length hd
        simp only [List.length_append] at this
        simp only
        rw [if_pos (by simp only [List.length_cons, List.length_append]; omega)]
        exact ⟨_, _, rfl⟩

theorem decodeParts_ok_iff (total n : Nat) (rest : Bytes) (ps : List Bytes) :
    decodeParts total n rest = .ok ps ↔ ps.length = n ∧ Parts ps rest := by
  induction n generalizing rest ps with
  | zero =>
    simp only [decodeParts]
    split
    · rename_i h
      constructor
      · intro h; cases h
      · rintro ⟨h1, h2⟩
        have := List.length_eq_zero_iff.1 h1
        subst this
        cases h2
        simp at h
    · rename_i h
      constructor
      · intro h'; cases h'
        have : rest = [] := by
          apply List.length_eq_zero_iff.1; omega
        subst this
        exact ⟨rfl, .nil⟩
      · rintro ⟨h1, h2⟩
        have := List.length_eq_zero_iff.1 h1
        rw [this]
  | succ n ih =>
    rw [decodeParts]
    constructor
    · intro h
      split at h
      · cases h
      · cases h
      rename_i il lb hd
      split at h
      · cases h
      rename_i hlen
      split at h
      · cases h
      rename_i ps' hrec
      injection h with h
      subst h
      obtain ⟨h1, h2⟩ := (ih _ _).1 hrec
      obtain ⟨hf, hfl⟩ := lenField_of_decodeVarint hd
      have hpl : ((rest.drop lb).take il).length = il := by
        rw [List.length_take, List.length_drop]; omega
      refine ⟨by simp [h1], ?_⟩
      have := Parts.cons ((rest.drop lb).take il) ps' (rest.take lb) (rest.drop (lb + il))
        (by rw [hpl]; exact hf) h2
      rwa [List.append_assoc, take_append_take_drop] at this
    · rintro ⟨h1, h2⟩
      cases h2 with
      | nil => simp at h1
      | cons p ps' len rest' hl t =>
        rw [List.append_assoc, decodeVarint_of_lenField hl]
        simp only [List.length_append]
        rw [if_neg (by omega)]
        have hd : (len ++ (p ++ rest')).drop (len.length + p.length) = rest' := by
          rw [← List.append_assoc, ← List.length_append, List.drop_left]
        rw [hd, (ih rest' ps').2 ⟨by simpa using h1, t⟩]
        simp

theorem Spec.Parts.length_le {ps : List Bytes} {bs : Bytes} (h : Parts ps bs) :
    ps.length ≤ bs.length := by
  induction h with
  | nil => simp
  | cons p ps len rest hl t ih =>
    have := hl.1.length_pos
    simp; omega

theorem Spec.Parts.flatten_le {ps : List Bytes} {bs : Bytes} (h : Parts ps bs) :
    ps.flatten.length ≤ bs.length := by
  induction h with
  | nil => simp
  | cons p ps len rest hl t ih =>
    simp only [List.flatten_cons, List.length_append]; omega

theorem Spec.Parts.no_trailing {ps qs : List Bytes} {bs ext : Bytes} (h1 : Parts ps bs)
    (h2 : Parts qs (bs ++ ext)) (hlen : qs.length = ps.length) : ext = [] := by
  induction h1 generalizing qs with
  | nil =>
    cases qs with
    | nil =>
      generalize hx : ([] : Bytes) ++ ext = x at h2
      cases h2
      simpa using hx
    | cons _ _ => simp at hlen
  | cons p ps len rest hl t ih =>
    generalize hx : len ++ p ++ rest ++ ext = x at h2
    cases h2 with
    | nil => simp at hlen
    | cons p' ps' len' rest' hl' t' =>
      have d1 := decodeVarint_of_lenField hl (p ++ rest ++ ext)
      have d2 := decodeVarint_of_lenField hl' (p' ++ rest')
      simp only [List.append_assoc] at hx d1 d2
      rw [hx, d2] at d1
      injection d1 with d1; injection d1 with hpl hll
      obtain ⟨h3, h4⟩ := List.append_inj hx hll.symm
      obtain ⟨h5, h6⟩ := List.append_inj h4 hpl.symm
      subst h6
      exact ih t' (by simpa using hlen)

theorem decodeCompound_ok_iff (buf : Bytes) (ps : List Bytes) :
    decodeCompound buf = .ok ps ↔ 2 ≤ ps.length ∧ Compound ps buf := by
  cases buf with
  | nil =>
    simp only [decodeCompound]
    constructor
    · intro h; cases h
    · rintro ⟨_, c, b, _, _, h⟩; cases h
  | cons b0 tail =>
    simp only [decodeCompound]
    constructor
    · intro h
      split at h
      · cases h
      rename_i tag ht
      have hb := (MessageTag.ofByte_ok_iff _ _).1 ht
      split at h
      · cases h
      rename_i htag
      have htag : tag = .compound := by
        cases tag <;> simp_all
      subst htag
      split at h
      · cases h
      · cases h
      rename_i count cb hd
      split at h
      · cases h
      rename_i hc2
      split at h
      · cases h
      obtain ⟨h1, h2⟩ := (decodeParts_ok_iff _ _ _ _).1 h
      obtain ⟨hf, hfl⟩ := lenField_of_decodeVarint hd
      refine ⟨by omega, tail.take cb, _, by rw [h1]; exact hf, h2, ?_⟩
      have hdrop : (b0 :: tail).drop (1 + cb) = tail.drop cb := by
        rw [Nat.add_comm]; rfl
      rw [hdrop, List.take_append_drop, hb]; rfl
    · rintro ⟨h2, cnt, body, hl, hp, h⟩
      simp only [List.cons.injEq] at h
      obtain ⟨rfl, rfl⟩ := h
      have : MessageTag.ofByte 1 = .ok .compound := rfl
      rw [this, decodeVarint_of_lenField hl]
      simp only [List.length_cons, List.length_append, ne_eq, not_true_eq_false, if_false]
      have hle := hp.length_le
      rw [if_neg (by omega), if_neg (by omega), decodeParts_ok_iff]
      refine ⟨rfl, ?_⟩
      rw [Nat.add_comm]; simpa using hp

theorem compoundSizes_ok {ms : List RawMsg} {szs : List (Nat × Nat)}
    (h : compoundSizes ms = .ok szs) :
    szs = ms.map (fun m => (m.2.length % 2 ^ 32,
      1 + varintLen (m.2.length % 2 ^ 32) + m.2.length % 2 ^ 32)) ∧
    ∀ m ∈ ms, 1 + varintLen (m.2.length % 2 ^ 32) + m.2.length % 2 ^ 32 < 2 ^ 32 := by
  induction ms generalizing szs with
  | nil => simp [compoundSizes] at h; subst h; simp
  | cons m ms ih =>
    simp only [compoundSizes] at h
    split at h
    · cases h
    rename_i hlt
    split at h
    · cases h
    rename_i rest hr
    injection h with h
    obtain ⟨h1, h2⟩ := ih hr
    subst h1 h
    refine ⟨by simp, ?_⟩
    intro m' hm'
    cases hm' with
    | head => omega
    | tail _ hm' => exact h2 m' hm'

/-- The plain frame of a message, when it is encodable. -/
def plainFrame (m : RawMsg) : Bytes := m.1.toByte :: (encodeVarint m.2.length ++ m.2)

theorem plainFrame_length (m : RawMsg) :
    (plainFrame m).length = 1 + varintLen m.2.length + m.2.length := by
  simp [plainFrame, encodeVarint_length]; omega

theorem encodeFrame_ok_iff (m : RawMsg) (bs : Bytes) :
    encodeFrame m = .ok bs ↔ m.2.length < 2 ^ 32 ∧ bs = plainFrame m := by
  simp only [encodeFrame, plainFrame]
  by_cases h : m.2.length < 2 ^ 32
  · rw [Nat.mod_eq_of_lt h]
    simp [h, eq_comm]
  · have : m.2.length ≠ m.2.length % 2 ^ 32 := by
      have := Nat.mod_lt m.2.length (y := 2 ^ 32) (by omega)
      omega
    simp [h, this]

theorem compoundWrite_ok {ms : List RawMsg} {szs : List (Nat × Nat)} {body : Bytes}
    (hs : compoundSizes ms = .ok szs) (h : compoundWrite (ms.zip szs) = .ok body) :
    (∀ m ∈ ms, m.2.length < 2 ^ 32 ∧ (plainFrame m).length < 2 ^ 32) ∧
      body = (ms.map (fun m => encodeVarint (plainFrame m).length ++ plainFrame m)).flatten := by
  obtain ⟨h1, h2⟩ := compoundSizes_ok hs
  subst h1
  clear hs
  induction ms generalizing body with
  | nil => simp [compoundWrite] at h; subst h; simp
  | cons m ms ih =>
    simp only [List.map_cons, List.zip_cons_cons, compoundWrite] at h
    split at h
    · cases h
    rename_i heq
    split at h
    · cases h
    rename_i rest hr
    injection h with h
    have hh : m.2.length = m.2.length % 2 ^ 32 := by omega
    obtain ⟨i1, i2⟩ := ih (fun m' hm' => h2 m' (List.mem_cons_of_mem _ hm')) hr
    have hlt : m.2.length < 2 ^ 32 := by rw [hh]; exact Nat.mod_lt _ (by omega)
    have hfl := h2 m List.mem_cons_self
    rw [← hh, ← plainFrame_length] at hfl
    constructor
    · intro m' hm'
      cases hm' with
      | head => exact ⟨hlt, hfl⟩
      | tail _ hm' => exact i1 m' hm'
    · rw [← h, i2, ← hh, ← plainFrame_length]
      simp [plainFrame]

theorem encodeCompound_ok {ms : List RawMsg} {bs : Bytes} (h : encodeCompound ms = .ok bs) :
    2 ≤ ms.length ∧ ms.length < 2 ^ 32 ∧
    (∀ m ∈ ms, m.2.length < 2 ^ 32 ∧ (plainFrame m).length < 2 ^ 32) ∧
    bs = 1 :: (encodeVarint ms.length ++
      (ms.map (fun m => encodeVarint (plainFrame m).length ++ plainFrame m)).flatten) := by
  simp only [encodeCompound] at h
  split at h
  · cases h
  split at h
  · cases h
  split at h
  · cases h
  rename_i szs hs
  split at h
  · cases h
  rename_i body hb
  injection h with h
  obtain ⟨h1, h2⟩ := compoundWrite_ok hs hb
  refine ⟨by omega, by omega, h1, ?_⟩
  rw [← h, h2]; rfl

theorem compoundSizes_of_fits {ms : List RawMsg}
    (h : ∀ m ∈ ms, (plainFrame m).length < 2 ^ 32) :
    compoundSizes ms = .ok (ms.map (fun m => (m.2.length, (plainFrame m).length))) := by
  induction ms with
  | nil => rfl
  | cons m ms ih =>
    have hm := h m List.mem_cons_self
    have hl := plainFrame_length m
    have hmod : m.2.length % 2 ^ 32 = m.2.length := Nat.mod_eq_of_lt (by omega)
    simp only [compoundSizes]
    rw [hmod, ← hl, if_neg (by omega), ih (fun m' hm' => h m' (List.mem_cons_of_mem _ hm'))]
    rfl

theorem compoundWrite_of_sizes (ms : List RawMsg) :
    compoundWrite (ms.zip (ms.map (fun m => (m.2.length, (plainFrame m).length)))) =
      .ok (ms.map (fun m => encodeVarint (plainFrame m).length ++ plainFrame m)).flatten := by
  induction ms with
  | nil => rfl
  | cons m ms ih =>
    simp only [List.map_cons, List.zip_cons_cons, compoundWrite, ih]
    simp [plainFrame]

theorem encodeCompound_of_fits {ms : List RawMsg} (h2 : 2 ≤ ms.length) (hc : ms.length < 2 ^ 32)
    (h : ∀ m ∈ ms, (plainFrame m).length < 2 ^ 32) :
    encodeCompound ms = .ok (1 :: (encodeVarint ms.length ++
      (ms.map (fun m => encodeVarint (plainFrame m).length ++ plainFrame m)).flatten)) := by
  simp only [encodeCompound]
  rw [if_neg (by omega), if_neg (by omega), compoundSizes_of_fits h]
  simp only [compoundWrite_of_sizes]
  rfl

theorem parts_of_frames (ms : List RawMsg) (h : ∀ m ∈ ms, (plainFrame m).length < 2 ^ 32) :
    Parts (ms.map plainFrame)
      (ms.map (fun m => encodeVarint (plainFrame m).length ++ plainFrame m)).flatten := by
  induction ms with
  | nil => exact .nil
  | cons m ms ih =>
    simp only [List.map_cons, List.flatten_cons]
    exact .cons _ _ _ _ (lenField_encodeVarint (h m List.mem_cons_self))
      (ih (fun m' hm' => h m' (List.mem_cons_of_mem _ hm')))

theorem frame_plainFrame {m : RawMsg} (h : m.2.length < 2 ^ 32) :
    Frame m.1.toByte m.2 (plainFrame m) :=
  ⟨_, lenField_encodeVarint h, rfl⟩

theorem decodePlainFrame_plainFrame {m : RawMsg} (h : m.2.length < 2 ^ 32) (rest : Bytes) :
    decodePlainFrame (plainFrame m ++ rest) = .ok (m.1, m.2, (plainFrame m).length) := by
  rw [decodePlainFrame_ok_iff]
  exact ⟨_, rest, rfl, frame_plainFrame h, rfl⟩

end Verif
