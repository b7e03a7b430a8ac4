import Verif.Model.Varint
import Verif.Spec.Varint
/-
Helper lemmas about the varint codec.
-/
namespace Verif
open Spec

theorem UInt8.and_7f_toNat (b : UInt8) : (b &&& 0x7f).toNat = b.toNat % 128 := by
  rw [UInt8.toNat_and]
  exact Nat.and_two_pow_sub_one_eq_mod b.toNat 7

theorem UInt8.and_80_eq_zero (b : UInt8) : b &&& 0x80 = 0 ↔ b.toNat < 128 := by
  have key : ∀ n, n < 256 → ((n &&& 128 = 0) ↔ n < 128) := by decide +kernel
  have h := key b.toNat b.toNat_lt
  rw [← h, ← UInt8.toNat_inj, UInt8.toNat_and]
  simp

theorem UInt8.gt_0f (b : UInt8) : b > 0x0f ↔ 15 < b.toNat := by
  rw [gt_iff_lt, UInt8.lt_iff_toNat_lt]; simp

theorem Spec.Leb128.ne_nil {bs v} (h : Leb128 bs v) : bs ≠ [] := by
  cases h <;> simp

theorem Spec.Leb128.length_pos {bs v} (h : Leb128 bs v) : 0 < bs.length := by
  cases h <;> simp

theorem or_shift_eq_add {value x s : Nat} (h : value < 2 ^ s) :
    value ||| (x <<< s) = value + x * 2 ^ s := by
  rw [Nat.or_comm, ← Nat.shiftLeft_add_eq_or_of_lt h, Nat.shiftLeft_eq]; omega

/-- One iteration of the loop in arithmetic form. -/
theorem decodeVarintLoop_cons (total : Nat) (b : UInt8) (bs : Bytes) (i value : Nat) (hi : i ≤ 4)
    (hv : value < 2 ^ (7 * i)) :
    decodeVarintLoop total (b :: bs) i (7 * i) value =
      if i = 4 ∧ 15 < b.toNat then .error .varintOverflow
      else if b.toNat < 128 then .ok (value + b.toNat % 128 * 2 ^ (7 * i), i + 1)
      else decodeVarintLoop total bs (i + 1) (7 * (i + 1)) (value + b.toNat % 128 * 2 ^ (7 * i)) := by
  rw [decodeVarintLoop]
  have h5 : ¬ (i ≥ 5) := by omega
  simp only [h5, if_false, UInt8.gt_0f, UInt8.and_80_eq_zero, UInt8.and_7f_toNat]
  by_cases ho : i = 4 ∧ 15 < b.toNat
  · simp [ho]
  · rw [if_neg ho, if_neg ho]
    have ho' : i = 4 → b.toNat ≤ 15 := by intro h; rw [Nat.le_iff_lt_or_eq]; omega
    have hlt : (b.toNat % 128) <<< (7 * i) < 2 ^ 32 := by
      rw [Nat.shiftLeft_eq]
      have hb : b.toNat % 128 < 128 := Nat.mod_lt _ (by omega)
      rcases (by omega : i = 0 ∨ i = 1 ∨ i = 2 ∨ i = 3 ∨ i = 4) with h | h | h | h | h <;> subst h <;>
        simp only [Nat.reduceMul, Nat.reducePow, forall_const] at * <;> omega
    rw [Nat.mod_eq_of_lt hlt, or_shift_eq_add hv]
    rfl

theorem decodeVarintLoop_five (total : Nat) (bs : Bytes) (shift value : Nat) :
    decodeVarintLoop total bs 5 shift value = .error (.incomplete total (total + 1)) := by
  cases bs <;> simp [decodeVarintLoop]

/-- Acceptance of the loop, characterised by the reference semantics. -/
theorem decodeVarintLoop_ok (total : Nat) (bs : Bytes) (i value v n : Nat) (hi : i ≤ 5)
    (hv : value < 2 ^ (7 * i)) :
    decodeVarintLoop total bs i (7 * i) value = .ok (v, n) ↔
      ∃ pre rest w, bs = pre ++ rest ∧ Leb128 pre w ∧ n = i + pre.length ∧ n ≤ 5 ∧
        v = value + w * 2 ^ (7 * i) ∧ v < 2 ^ 32 := by
  induction bs generalizing i value with
  | nil =>
    simp only [decodeVarintLoop]
    constructor
    · intro h; cases h
    · rintro ⟨pre, rest, w, h, hl, _⟩
      have := hl.length_pos
      have h2 := congrArg List.length h
      simp at h2; omega
  | cons b bs ih =>
    rcases Nat.lt_or_ge i 5 with hlt | hge
    · rw [decodeVarintLoop_cons total b bs i value (by omega) hv]
      have hbm : b.toNat % 128 < 128 := Nat.mod_lt _ (by omega)
      have hbl := b.toNat_lt
      by_cases ho : i = 4 ∧ 15 < b.toNat
      · simp only [ho, and_self, if_true]
        constructor
        · intro h; cases h
        · rintro ⟨pre, rest, w, h, hl, hn, hn5, hvv, hv32⟩
          exfalso
          obtain ⟨rfl, hb⟩ := ho
          cases hl with
          | last b' hb' =>
            simp at h; obtain ⟨rfl, rfl⟩ := h
            simp only [Nat.reduceMul, Nat.reducePow] at *; omega
          | more b' bs' w' hb' t =>
            have := t.length_pos
            simp at hn; omega
      · rw [if_neg ho]
        have ho' : i = 4 → b.toNat ≤ 15 := by intro h; rw [Nat.le_iff_lt_or_eq]; omega
        by_cases hb : b.toNat < 128
        · rw [if_pos hb]
          constructor
          · intro h
            injection h with h; injection h with h1 h2
            refine ⟨[b], bs, b.toNat, rfl, .last b hb, by simp; omega, by omega, ?_, ?_⟩
            · rw [← h1, Nat.mod_eq_of_lt hb]
            · rw [← h1, Nat.mod_eq_of_lt hb]
              rcases (by omega : i = 0 ∨ i = 1 ∨ i = 2 ∨ i = 3 ∨ i = 4) with h | h | h | h | h <;>
                subst h <;> simp only [Nat.reduceMul, Nat.reducePow, forall_const] at * <;> omega
          · rintro ⟨pre, rest, w, h, hl, hn, hn5, hvv, hv32⟩
            cases hl with
            | last b' hb' =>
              simp at h; obtain ⟨rfl, rfl⟩ := h
              simp at hn
              rw [hvv, hn, Nat.mod_eq_of_lt hb]
            | more b' bs' w' hb' t =>
              simp at h; obtain ⟨rfl, _⟩ := h; omega
        · rw [if_neg hb]
          have hv' : value + b.toNat % 128 * 2 ^ (7 * i) < 2 ^ (7 * (i + 1)) := by
            have e : 2 ^ (7 * (i + 1)) = 128 * 2 ^ (7 * i) := by
              rw [show 7 * (i + 1) = 7 * i + 7 by omega, Nat.pow_add]; omega
            rw [e]
            have : b.toNat % 128 * 2 ^ (7 * i) ≤ 127 * 2 ^ (7 * i) :=
              Nat.mul_le_mul_right _ (by omega)
            omega
          rw [ih (i + 1) _ (by omega) hv']
          have e : ∀ w, w * 2 ^ (7 * (i + 1)) = (128 * w) * 2 ^ (7 * i) := by
            intro w
            rw [show 7 * (i + 1) = 7 * i + 7 by omega, Nat.pow_add]
            rw [Nat.mul_comm 128 w, Nat.mul_assoc, Nat.mul_comm (2 ^ (7 * i))]
          constructor
          · rintro ⟨pre, rest, w, h, hl, hn, hn5, hvv, hv32⟩
            refine ⟨b :: pre, rest, _, by rw [h]; rfl, .more b pre w (by omega) hl,
              by simp; omega, hn5, ?_, hv32⟩
            rw [hvv, e, Nat.add_mul]; omega
          · rintro ⟨pre, rest, w, h, hl, hn, hn5, hvv, hv32⟩
            cases hl with
            | last b' hb' => simp at h; obtain ⟨rfl, _⟩ := h; omega
            | more b' bs' w' hb' t =>
              simp at h; obtain ⟨rfl, rfl⟩ := h
              refine ⟨bs', rest, w', rfl, t, by simp at hn; omega, hn5, ?_, hv32⟩
              rw [hvv, e, Nat.add_mul]; omega
    · have : i = 5 := by omega
      subst this
      rw [decodeVarintLoop_five]
      constructor
      · intro h; cases h
      · rintro ⟨pre, rest, w, h, hl, hn, hn5, _⟩
        have := hl.length_pos; omega

theorem decodeVarint_ok_iff (buf : Bytes) (v n : Nat) :
    decodeVarint buf = .ok (v, n) ↔
      ∃ pre rest, buf = pre ++ rest ∧ Leb128 pre v ∧ pre.length = n ∧ n ≤ 5 ∧ v < 2 ^ 32 := by
  rw [decodeVarint, show (0 : Nat) = 7 * 0 from rfl, decodeVarintLoop_ok _ _ 0 0 v n (by omega) (by simp)]
  constructor
  · rintro ⟨pre, rest, w, h, hl, hn, hn5, hvv, hv32⟩
    simp at hvv hn
    subst hvv
    exact ⟨pre, rest, h, hl, hn.symm, hn5, hv32⟩
  · rintro ⟨pre, rest, h, hl, hn, hn5, hv⟩
    exact ⟨pre, rest, v, h, hl, by omega, hn5, by simp, hv⟩

/-- Only three outcomes. -/
theorem decodeVarintLoop_err (total : Nat) (bs : Bytes) (i shift value : Nat) (e : FrameError)
    (h : decodeVarintLoop total bs i shift value = .error e) :
    e = .varintOverflow ∨ e = .incomplete total (total + 1) := by
  induction bs generalizing i shift value with
  | nil => simp [decodeVarintLoop] at h; exact .inr h.symm
  | cons b bs ih =>
    rw [decodeVarintLoop] at h
    split at h
    · cases h; exact .inr rfl
    · split at h
      · cases h; exact .inl rfl
      · simp only at h
        split at h
        · cases h
        · exact ih _ _ _ h

/-- Bytes all of which carry the continuation bit. -/
def AllCont (bs : Bytes) : Prop := ∀ b ∈ bs, 128 ≤ b.toNat

theorem decodeVarintLoop_incomplete (total : Nat) (bs : Bytes) (i value : Nat) (hi : i ≤ 4)
    (hv : value < 2 ^ (7 * i)) :
    decodeVarintLoop total bs i (7 * i) value = .error (.incomplete total (total + 1)) ↔
      AllCont bs ∧ i + bs.length ≤ 4 := by
  induction bs generalizing i value with
  | nil => simp [decodeVarintLoop, AllCont, hi]
  | cons b bs ih =>
    rw [decodeVarintLoop_cons total b bs i value hi hv]
    by_cases ho : i = 4 ∧ 15 < b.toNat
    · simp [ho, AllCont]
    · rw [if_neg ho]
      by_cases hb : b.toNat < 128
      · simp only [hb, if_true]
        constructor
        · intro h; cases h
        · rintro ⟨h, _⟩
          have := h b (by simp); omega
      · rw [if_neg hb]
        have hb2 := b.toNat_lt
        have hi3 : i ≤ 3 := by omega
        have hv' : value + b.toNat % 128 * 2 ^ (7 * i) < 2 ^ (7 * (i + 1)) := by
          have e : 2 ^ (7 * (i + 1)) = 128 * 2 ^ (7 * i) := by
            rw [show 7 * (i + 1) = 7 * i + 7 by omega, Nat.pow_add]; omega
          rw [e]
          have : b.toNat % 128 * 2 ^ (7 * i) ≤ 127 * 2 ^ (7 * i) :=
            Nat.mul_le_mul_right _ (by omega)
          omega
        rw [ih (i + 1) _ (by omega) hv']
        simp only [AllCont, List.mem_cons, forall_eq_or_imp, List.length_cons]
        constructor
        · rintro ⟨h1, h2⟩; exact ⟨⟨by omega, h1⟩, by omega⟩
        · rintro ⟨⟨_, h1⟩, h2⟩; exact ⟨h1, by omega⟩

theorem decodeVarint_incomplete_iff (buf : Bytes) :
    decodeVarint buf = .error (.incomplete buf.length (buf.length + 1)) ↔
      AllCont buf ∧ buf.length ≤ 4 := by
  rw [decodeVarint, show (0 : Nat) = 7 * 0 from rfl,
    decodeVarintLoop_incomplete _ _ 0 0 (by omega) (by simp)]
  simp

theorem decodeVarint_err (buf : Bytes) (e : FrameError) (h : decodeVarint buf = .error e) :
    e = .varintOverflow ∨ e = .incomplete buf.length (buf.length + 1) :=
  decodeVarintLoop_err _ _ _ _ _ _ h

/-- The encoder produces a LEB128 numeral of the value. -/
theorem encodeVarint_leb128 (v : Nat) : Leb128 (encodeVarint v) v := by
  induction v using Nat.strongRecOn with
  | ind v ih =>
    rw [encodeVarint]
    split
    · rename_i h
      have hlt : v >>> 7 < v := by simp only [Nat.shiftRight_eq_div_pow]; omega
      have hb : (UInt8.ofNat ((v &&& 0x7f) ||| 0x80)).toNat = v % 128 + 128 := by
        have h1 : v &&& 0x7f = v % 128 := Nat.and_two_pow_sub_one_eq_mod v 7
        have h2 : v % 128 ||| 0x80 = v % 128 + 128 := by
          have := or_shift_eq_add (value := v % 128) (x := 1) (s := 7) (Nat.mod_lt _ (by omega))
          simpa using this
        rw [h1, h2, UInt8.toNat_ofNat_of_lt']
        have : v % 128 < 128 := Nat.mod_lt _ (by omega)
        have : UInt8.size = 256 := rfl
        omega
      have := Leb128.more (UInt8.ofNat ((v &&& 0x7f) ||| 0x80)) _ _ (by omega) (ih _ hlt)
      rw [hb] at this
      have e : (v % 128 + 128) % 128 + 128 * (v >>> 7) = v := by
        simp only [Nat.shiftRight_eq_div_pow]; omega
      rwa [e] at this
    · rename_i h
      have hb : (UInt8.ofNat v).toNat = v := by
        rw [UInt8.toNat_ofNat_of_lt']
        have : UInt8.size = 256 := rfl
        omega
      have := Leb128.last (UInt8.ofNat v) (by omega)
      rwa [hb] at this

theorem encodeVarint_length (v : Nat) : (encodeVarint v).length = varintLen v := by
  induction v using Nat.strongRecOn with
  | ind v ih =>
    rw [encodeVarint, varintLen]
    split
    · rename_i h
      have hlt : v >>> 7 < v := by simp only [Nat.shiftRight_eq_div_pow]; omega
      rw [List.length_cons, ih _ hlt]; omega
    · rfl

theorem varintLen_pos (v : Nat) : 1 ≤ varintLen v := by
  rw [varintLen]; split <;> omega

theorem varintLen_le_of_lt (k : Nat) : ∀ v, v < 2 ^ (7 * (k + 1)) → varintLen v ≤ k + 1 := by
  induction k with
  | zero =>
    intro v h; rw [varintLen]
    simp only [Nat.zero_add, Nat.mul_one, Nat.reducePow] at h
    split <;> omega
  | succ k ih =>
    intro v h
    rw [varintLen]
    split
    · have : v >>> 7 < 2 ^ (7 * (k + 1)) := by
        rw [Nat.shiftRight_eq_div_pow]
        apply Nat.div_lt_of_lt_mul
        rw [← Nat.pow_add]
        rwa [show 7 + 7 * (k + 1) = 7 * (k + 1 + 1) by omega]
      have := ih _ this
      omega
    · omega

theorem varintLen_le_five {v : Nat} (h : v < 2 ^ 32) : varintLen v ≤ 5 :=
  varintLen_le_of_lt 4 v (Nat.lt_of_lt_of_le h (Nat.pow_le_pow_right (by omega) (by omega)))

theorem decodeVarint_encodeVarint (v : Nat) (h : v < 2 ^ 32) (rest : Bytes) :
    decodeVarint (encodeVarint v ++ rest) = .ok (v, (encodeVarint v).length) := by
  rw [decodeVarint_ok_iff]
  exact ⟨_, rest, rfl, encodeVarint_leb128 v, rfl,
    by rw [encodeVarint_length]; exact varintLen_le_five h, h⟩

theorem decodeVarint_append {buf : Bytes} {v n : Nat} (h : decodeVarint buf = .ok (v, n))
    (ext : Bytes) : decodeVarint (buf ++ ext) = .ok (v, n) := by
  rw [decodeVarint_ok_iff] at h ⊢
  obtain ⟨pre, rest, h1, h2⟩ := h
  exact ⟨pre, rest ++ ext, by rw [h1, List.append_assoc], h2⟩

theorem decodeVarint_bounds {buf : Bytes} {v n : Nat} (h : decodeVarint buf = .ok (v, n)) :
    1 ≤ n ∧ n ≤ 5 ∧ n ≤ buf.length ∧ v < 2 ^ 32 := by
  rw [decodeVarint_ok_iff] at h
  obtain ⟨pre, rest, h1, h2, h3, h4, h5⟩ := h
  have := h2.length_pos
  subst h1
  simp; omega

/-- The decoder's result depends only on the bytes it consumed. -/
theorem decodeVarint_take {buf : Bytes} {v n : Nat} (h : decodeVarint buf = .ok (v, n)) :
    decodeVarint (buf.take n) = .ok (v, n) := by
  rw [decodeVarint_ok_iff] at h ⊢
  obtain ⟨pre, rest, h1, h2, h3, h4⟩ := h
  refine ⟨pre, [], ?_, h2, h3, h4⟩
  subst h1 h3
  simp

theorem decodeVarint_overflow_append {buf : Bytes} (h : decodeVarint buf = .error .varintOverflow)
    (ext : Bytes) : decodeVarint (buf ++ ext) = .error .varintOverflow := by
  cases hd : decodeVarint (buf ++ ext) with
  | error e =>
    rcases decodeVarint_err _ _ hd with he | he
    · rw [he]
    · exfalso
      subst he
      have := (decodeVarint_incomplete_iff (buf ++ ext)).1 hd
      have h2 : decodeVarint buf = .error (.incomplete buf.length (buf.length + 1)) := by
        rw [decodeVarint_incomplete_iff]
        refine ⟨fun b hb => this.1 b (by simp [hb]), ?_⟩
        have := this.2; simp at this; omega
      rw [h2] at h; cases h
  | ok r =>
    exfalso
    obtain ⟨v, n⟩ := r
    obtain ⟨pre, rest, h1, h2, h3, h4, h5⟩ := (decodeVarint_ok_iff _ _ _).1 hd
    rcases List.append_eq_append_iff.1 h1 with ⟨a, ha, hb⟩ | ⟨c, hc, hd⟩
    · -- pre = buf ++ a
      cases a with
      | nil =>
        simp at ha
        have : decodeVarint buf = .ok (v, n) := by
          rw [decodeVarint_ok_iff]; exact ⟨pre, [], by simp [ha], h2, h3, h4, h5⟩
        rw [this] at h; cases h
      | cons x xs =>
        -- buf is a strict prefix of a LEB128 numeral: all continuation bytes
        have hcont : ∀ (bs ys : Bytes) (w : Nat), Leb128 (bs ++ ys) w → ys ≠ [] → AllCont bs := by
          intro bs
          induction bs with
          | nil => intro _ _ _ _ b hb; cases hb
          | cons c cs ih =>
            intro ys w hl hy b hb
            generalize hq : c :: cs ++ ys = q at hl
            cases hl with
            | last b' hb' =>
              simp at hq; exact absurd hq.2.2 hy
            | more b' bs' w' hb' t =>
              simp at hq; obtain ⟨rfl, rfl⟩ := hq
              cases hb with
              | head => exact hb'
              | tail _ hb => exact ih ys w' t hy b hb
        rw [ha] at h2
        have hc := hcont _ _ _ h2 (by simp)
        have h2' : decodeVarint buf = .error (.incomplete buf.length (buf.length + 1)) := by
          rw [decodeVarint_incomplete_iff]
          refine ⟨hc, ?_⟩
          rw [ha] at h3; simp at h3; omega
        rw [h2'] at h; cases h
    · have : decodeVarint buf = .ok (v, n) := by
        rw [decodeVarint_ok_iff]; exact ⟨pre, c, hc, h2, h3, h4, h5⟩
      rw [this] at h; cases h

end Verif
