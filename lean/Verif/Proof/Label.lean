import Verif.Model.Label
import Verif.Spec.Label
/-
Helper lemmas about label classification and the label gate.
-/
namespace Verif
open Spec

theorem UInt8.ofNat_toNat_eq (b : UInt8) : UInt8.ofNat b.toNat = b := by
  simp

theorem UInt8.toNat_ofNat_lt {n : Nat} (h : n < 256) : (UInt8.ofNat n).toNat = n := by
  rw [UInt8.toNat_ofNat_of_lt']; exact h

/-- Classification in the labelled-header case. -/
theorem classify_labelled (b1 : UInt8) (body : Bytes) (expected : Option Bytes) (skip : Bool) :
    classifyHeader (LABELED_TAG :: b1 :: body) expected skip =
      if b1.toNat > MAX_LABEL_LEN then .rejected (.tooLong b1.toNat)
      else if body.length < b1.toNat then .incomplete
      else if !isUtf8 (body.take b1.toNat) then .rejected .notUtf8
      else
        match expected with
        | some exp => if exp = body.take b1.toNat then .accepted (LABEL_OVERHEAD + b1.toNat)
                      else .rejected .mismatch
        | none => .rejected .doubleLabel := by
  simp only [classifyHeader, if_true, List.length_cons, LABEL_OVERHEAD]
  have : (body.length + 1 + 1 < 2 + b1.toNat) = (body.length < b1.toNat) := by
    apply propext; omega
  simp only [this]
  cases expected <;> rfl

theorem classify_unlabelled (b0 : UInt8) (body : Bytes) (h : b0 ≠ LABELED_TAG)
    (expected : Option Bytes) (skip : Bool) :
    classifyHeader (b0 :: body) expected skip =
      match expected with
      | none => .accepted 0
      | some _ => if skip then .accepted 0 else .rejected .mismatch := by
  simp only [classifyHeader, if_neg h]
  cases expected <;> rfl

theorem classify_admits (wire : Bytes) (label : Option Bytes) (skip : Bool) (payload : Bytes) :
    (∃ n, classifyHeader wire label skip = .accepted n ∧ wire.drop n = payload) ↔
      Admits isUtf8 label skip wire payload := by
  match wire with
  | [] =>
    simp only [classifyHeader, Admits]
    cases label <;> simp [labelHeader]
  | b0 :: tl =>
    by_cases hb : b0 = LABELED_TAG
    · subst hb
      match tl with
      | [] =>
        simp only [classifyHeader, Admits]
        cases label <;> simp [labelHeader, LABELED_TAG]
      | b1 :: body =>
        rw [classify_labelled]
        cases label with
        | none =>
          simp only [Admits, LABELED_TAG]
          constructor
          · rintro ⟨n, h, _⟩
            split at h; · cases h
            split at h; · cases h
            split at h; · cases h
            cases h
          · rintro ⟨_, _, h⟩; exact absurd rfl h
        | some l =>
          simp only [Admits, LABELED_TAG]
          constructor
          · rintro ⟨n, h, hd⟩
            split at h; · cases h
            rename_i h1
            split at h; · cases h
            rename_i h2
            split at h; · cases h
            rename_i h3
            split at h
            · rename_i h4
              injection h with h
              left
              have hl : l.length = b1.toNat := by
                rw [h4, List.length_take]; omega
              refine ⟨?_, ?_, ?_⟩
              · rw [labelHeader, hl, UInt8.ofNat_toNat_eq, ← hd, ← h, h4]
                simp [LABEL_OVERHEAD, Nat.add_comm 2]
              · simp only [MAX_LABEL_LEN] at h1; omega
              · rw [h4]; simpa using h3
            · cases h
          · rintro (⟨h, hl, hu⟩ | ⟨_, _, _, h⟩)
            · simp only [labelHeader, List.cons_append, List.cons.injEq, true_and] at h
              obtain ⟨h1, h2⟩ := h
              have hb1 : b1.toNat = l.length := by
                rw [h1]; exact UInt8.toNat_ofNat_lt (by omega)
              refine ⟨LABEL_OVERHEAD + b1.toNat, ?_, ?_⟩
              · rw [hb1, h2, if_neg (by simp only [MAX_LABEL_LEN]; omega),
                  if_neg (by simp), List.take_left, hu]
                simp
              · rw [hb1, h2]; simp [LABEL_OVERHEAD, Nat.add_comm 2]
            · exact absurd rfl h
    · rw [classify_unlabelled _ _ hb]
      have hb' : b0 ≠ 12 := hb
      cases label with
      | none => simp [Admits, hb']
      | some l =>
        simp only [Admits, labelHeader]
        cases skip <;> simp [hb']

theorem classify_accepted_le (wire : Bytes) (label : Option Bytes) (skip : Bool) (n : Nat)
    (h : classifyHeader wire label skip = .accepted n) : n ≤ wire.length := by
  match wire with
  | [] => simp [classifyHeader] at h
  | b0 :: tl =>
    by_cases hb : b0 = LABELED_TAG
    · subst hb
      match tl with
      | [] => simp [classifyHeader] at h
      | b1 :: body =>
        rw [classify_labelled] at h
        split at h; · cases h
        split at h; · cases h
        split at h; · cases h
        split at h
        · split at h
          · injection h with h; simp [LABEL_OVERHEAD] at h ⊢; omega
          · cases h
        · cases h
    · rw [classify_unlabelled _ _ hb] at h
      split at h
      · injection h with h; omega
      · split at h
        · injection h with h; omega
        · cases h

/-- A decided classification is not changed by later bytes. -/
theorem classify_append (wire ext : Bytes) (label : Option Bytes) (skip : Bool)
    (h : classifyHeader wire label skip ≠ .incomplete) :
    classifyHeader (wire ++ ext) label skip = classifyHeader wire label skip := by
  match wire with
  | [] => simp [classifyHeader] at h
  | b0 :: tl =>
    by_cases hb : b0 = LABELED_TAG
    · subst hb
      match tl with
      | [] => simp [classifyHeader] at h
      | b1 :: body =>
        simp only [List.cons_append]
        rw [classify_labelled] at h ⊢
        rw [classify_labelled]
        by_cases h1 : b1.toNat > MAX_LABEL_LEN
        · simp [h1]
        · rw [if_neg h1] at h ⊢
          rw [if_neg h1]
          by_cases h2 : body.length < b1.toNat
          · simp [h2] at h
          · have : ¬ (body ++ ext).length < b1.toNat := by simp; omega
            rw [if_neg h2, if_neg this, List.take_append_of_le_length (by omega)]
    · simp only [List.cons_append]
      rw [classify_unlabelled _ _ hb, classify_unlabelled _ _ hb]

/-- While undecided, fewer than 255 bytes have been seen. -/
theorem classify_incomplete_short (wire : Bytes) (label : Option Bytes) (skip : Bool)
    (h : classifyHeader wire label skip = .incomplete) : wire.length < 255 := by
  match wire with
  | [] => simp
  | b0 :: tl =>
    by_cases hb : b0 = LABELED_TAG
    · subst hb
      match tl with
      | [] => simp
      | b1 :: body =>
        rw [classify_labelled] at h
        split at h; · cases h
        rename_i h1
        split at h
        · rename_i h2
          simp only [MAX_LABEL_LEN] at h1
          simp; omega
        · split at h; · cases h
          split at h
          · split at h <;> cases h
          · cases h
    · rw [classify_unlabelled _ _ hb] at h
      split at h
      · cases h
      · split at h <;> cases h

theorem effectiveLabel_some_ne {l : Option Bytes} {x : Bytes} (h : effectiveLabel l = some x) :
    x ≠ [] := by
  cases l with
  | none => simp [effectiveLabel] at h
  | some y =>
    simp only [effectiveLabel] at h
    split at h
    · cases h
    · rename_i hne
      injection h with h; subst h
      intro he; subst he; simp at hne

theorem encodeLabelPrefix_eq (l : Bytes) : encodeLabelPrefix l = labelHeader l := rfl

theorem decodeIncoming_ok_iff (raw : Bytes) (label : Option Bytes) (inner : Bytes) :
    decodeIncoming raw label = .ok inner ↔
      inner ≠ [] ∧ Admits isUtf8 (effectiveLabel label) false raw inner := by
  rw [← classify_admits]
  simp only [decodeIncoming]
  constructor
  · intro h
    split at h
    · rename_i n hc
      split at h
      · split at h <;> cases h
      · rename_i hne
        injection h with h
        subst h
        exact ⟨by simpa using hne, n, hc, rfl⟩
    · cases h
    · cases h
  · rintro ⟨hne, n, hc, hd⟩
    rw [hc]
    simp only [hd]
    cases inner with
    | nil => exact absurd rfl hne
    | cons a b => simp

end Verif
