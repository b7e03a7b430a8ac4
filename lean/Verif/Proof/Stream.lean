import Verif.Model.Stream
import Verif.Proof.Messages
namespace Verif
open Spec

/-! ### The frame detector -/

/-- What the detector does once the length is known. -/
def verdict (tag : UInt8) (bufLen maxFrame n v : Nat) : Except Unit (Option (UInt8 × Nat)) :=
  if 1 + n + v > maxFrame then .error ()
  else if bufLen ≥ 1 + n + v then .ok (some (tag, 1 + n + v)) else .ok none

theorem probeLoop_eq (tag : UInt8) (bufLen maxFrame total : Nat) : ∀ (bs : Bytes) (i value : Nat),
    i ≤ 4 → value < 2 ^ (7 * i) →
    probeLoop tag bufLen maxFrame i value (bs.take (5 - i)) =
      match decodeVarintLoop total bs i (7 * i) value with
      | .ok (v, n) => verdict tag bufLen maxFrame n v
      | .error .varintOverflow => .error ()
      | .error _ => .ok none := by
  intro bs
  induction bs with
  | nil => intro i value hi hv; simp [probeLoop, decodeVarintLoop]
  | cons b bs ih =>
    intro i value hi hv
    have hb := b.toNat_lt
    have ht : (b :: bs).take (5 - i) = b :: bs.take (4 - i) := by
      rw [show 5 - i = (4 - i) + 1 by omega]; rfl
    have hmod : b.toNat % 128 < 128 := Nat.mod_lt _ (by omega)
    have hadd : value + b.toNat % 128 * 2 ^ (7 * i) < 2 ^ (7 * (i + 1)) := by
      have : b.toNat % 128 * 2 ^ (7 * i) ≤ 127 * 2 ^ (7 * i) := Nat.mul_le_mul_right _ (by omega)
      rw [show 7 * (i + 1) = 7 * i + 7 by omega, Nat.pow_add]
      omega
    rw [decodeVarintLoop_cons total b bs i value hi hv, ht]
    simp only [probeLoop, UInt8.and_7f_toNat, or_shift_eq_add hv, UInt8.and_80_eq_zero]
    by_cases hlt : b.toNat < 128
    · rw [if_pos hlt]
      by_cases h4 : i = 4 ∧ 15 < b.toNat
      · rw [if_pos h4, if_pos]
        obtain ⟨rfl, h15⟩ := h4
        rw [Nat.mod_eq_of_lt hlt]
        have : 16 * 2 ^ (7 * 4) ≤ b.toNat * 2 ^ (7 * 4) := Nat.mul_le_mul_right _ (by omega)
        omega
      · rw [if_neg h4, if_pos hlt]
        have hle : value + b.toNat % 128 * 2 ^ (7 * i) ≤ 2 ^ 32 - 1 := by
          by_cases hi4 : i = 4
          · subst hi4
            have : b.toNat % 128 ≤ 15 := by
              have : ¬ 15 < b.toNat := fun h => h4 ⟨rfl, h⟩
              omega
            have : b.toNat % 128 * 2 ^ (7 * 4) ≤ 15 * 2 ^ (7 * 4) := Nat.mul_le_mul_right _ this
            omega
          · have : 2 ^ (7 * (i + 1)) ≤ 2 ^ 28 := Nat.pow_le_pow_right (by omega) (by omega)
            omega
        rw [if_neg (by omega)]
        rfl
    · rw [if_neg hlt]
      by_cases h4 : i = 4
      · subst h4
        rw [if_pos (by omega), if_pos (by omega)]
      · rw [if_neg (by omega), if_neg (by omega), if_neg (by omega)]
        have := ih (i + 1) _ (by omega) hadd
        rw [show 5 - (i + 1) = 4 - i by omega] at this
        rw [this, show 7 * (i + 1) = 7 * i + 7 by omega]

theorem probeFrame_cons (maxFrame : Nat) (tag : UInt8) (tail : Bytes) :
    probeFrame maxFrame (tag :: tail) =
      match decodeVarint tail with
      | .ok (v, n) => verdict tag (tail.length + 1) maxFrame n v
      | .error .varintOverflow => .error ()
      | .error _ => .ok none := by
  have := probeLoop_eq tag (tail.length + 1) maxFrame tail.length tail 0 0 (by omega) (by simp)
  simpa only [probeFrame, decodeVarint, List.length_cons, Nat.sub_zero, Nat.mul_zero] using this

/-- A complete frame: the detector's answer in wire terms. -/
theorem probeFrame_some_iff (maxFrame : Nat) (buf : Bytes) (t : UInt8) (n : Nat) :
    probeFrame maxFrame buf = .ok (some (t, n)) ↔
      ∃ body frame rest, buf = frame ++ rest ∧ Frame t body frame ∧ frame.length = n ∧ n ≤ maxFrame := by
  cases buf with
  | nil =>
    simp only [probeFrame]
    constructor
    · intro h; cases h
    · rintro ⟨body, frame, rest, h, ⟨len, _, hf⟩, _⟩
      subst hf
      simp at h
  | cons b0 tail =>
    rw [probeFrame_cons]
    constructor
    · intro h
      cases hd : decodeVarint tail with
      | error e =>
        rw [hd] at h
        rcases decodeVarint_err _ _ hd with rfl | rfl <;> simp at h
      | ok r =>
        obtain ⟨v, k⟩ := r
        simp only [hd, verdict] at h
        split at h
        · cases h
        · split at h
          · rename_i h1 h2
            injection h with h; injection h with h; injection h with ht hn
            subst ht
            obtain ⟨pre, rest, e1, e2, e3, e4, e5⟩ := (decodeVarint_ok_iff _ _ _).1 hd
            subst e1
            have hl : v ≤ rest.length := by
              simp only [List.length_append] at h2; omega
            refine ⟨rest.take v, b0 :: (pre ++ rest.take v), rest.drop v, ?_, ?_, ?_, by omega⟩
            · simp [List.take_append_drop]
            · refine ⟨pre, ⟨?_, by omega, ?_⟩, rfl⟩
              · rw [List.length_take, Nat.min_eq_left hl]; exact e2
              · rw [List.length_take, Nat.min_eq_left hl]; exact e5
            · simp only [List.length_cons, List.length_append, List.length_take, Nat.min_eq_left hl]
              omega
          · cases h
    · rintro ⟨body, frame, rest, h, ⟨len, hl, rfl⟩, rfl, hn⟩
      simp only [List.cons_append, List.cons.injEq, List.append_assoc] at h
      obtain ⟨rfl, rfl⟩ := h
      rw [decodeVarint_of_lenField hl (body ++ rest)]
      simp only [verdict, List.length_cons, List.length_append] at hn ⊢
      rw [if_neg (by omega), if_pos (by omega)]
      simp only [Except.ok.injEq, Option.some.injEq, Prod.mk.injEq, true_and]
      omega

/-- A detector error is final: no extension holds a frame within the limit. -/
theorem probeFrame_error (maxFrame : Nat) (buf ext : Bytes) (h : probeFrame maxFrame buf = .error ()) :
    probeFrame maxFrame (buf ++ ext) = .error () := by
  cases buf with
  | nil => simp [probeFrame] at h
  | cons b0 tail =>
    rw [List.cons_append, probeFrame_cons]
    rw [probeFrame_cons] at h
    cases hd : decodeVarint tail with
    | error e =>
      rcases decodeVarint_err _ _ hd with rfl | rfl
      · rw [decodeVarint_overflow_append hd ext]
      · simp [hd] at h
    | ok r =>
      obtain ⟨v, k⟩ := r
      rw [decodeVarint_append hd ext]
      simp only [hd, verdict] at h ⊢
      split at h
      · rename_i hgt; rw [if_pos hgt]
      · split at h <;> cases h

theorem probeFrame_some_append (maxFrame : Nat) (buf ext : Bytes) {x : UInt8 × Nat}
    (h : probeFrame maxFrame buf = .ok (some x)) :
    probeFrame maxFrame (buf ++ ext) = .ok (some x) := by
  obtain ⟨t, n⟩ := x
  rw [probeFrame_some_iff] at h ⊢
  obtain ⟨body, frame, rest, rfl, h⟩ := h
  exact ⟨body, frame, rest ++ ext, by simp, h⟩

theorem probeFrame_some_le (maxFrame : Nat) (buf : Bytes) {t : UInt8} {n : Nat}
    (h : probeFrame maxFrame buf = .ok (some (t, n))) : 2 ≤ n ∧ n ≤ buf.length ∧ n ≤ maxFrame := by
  obtain ⟨body, frame, rest, rfl, ⟨len, hl, rfl⟩, rfl, hn⟩ := (probeFrame_some_iff _ _ _ _).1 h
  have := hl.1.length_pos
  simp only [List.length_append, List.length_cons] at *
  omega

/-- A buffer over the limit always has a verdict. -/
theorem probeFrame_full (maxFrame : Nat) (buf : Bytes) (h5 : 6 ≤ buf.length) (hm : maxFrame ≤ buf.length) :
    probeFrame maxFrame buf ≠ .ok none := by
  cases buf with
  | nil => simp at h5
  | cons b0 tail =>
    rw [probeFrame_cons]
    intro h
    cases hd : decodeVarint tail with
    | error e =>
      rcases decodeVarint_err _ _ hd with rfl | rfl
      · simp [hd] at h
      · have := (decodeVarint_incomplete_iff tail).1 hd
        simp only [List.length_cons] at h5
        omega
    | ok r =>
      obtain ⟨v, k⟩ := r
      simp only [hd, verdict] at h
      split at h
      · cases h
      · split at h
        · cases h
        · simp only [List.length_cons] at *; omega

end Verif
