import Verif.Model.Deadline
import Verif.Proof.Map
/- Invariant of the deadline index. -/
namespace Verif.DeadlineIndex
variable {K : Type} [DecidableEq K]
open Map

/-- The two maps mirror each other. -/
structure Inv (s : DeadlineIndex K) : Prop where
  nd : NodupKeys s.byDeadline
  nc : NodupKeys s.current
  mirror : ∀ d q k, s.byDeadline.get? (d, q) = some k ↔ s.current.get? k = some (d, q)
  fresh : ∀ d q k, s.byDeadline.get? (d, q) = some k → q ≤ s.seq

theorem inv_new : Inv (new : DeadlineIndex K) :=
  ⟨nodup_nil, nodup_nil, by simp [new], by simp [new]⟩

theorem inv_clear {s : DeadlineIndex K} (_ : Inv s) : Inv s.clear :=
  ⟨nodup_nil, nodup_nil, by simp [clear], by simp [clear]⟩

theorem inv_set {s : DeadlineIndex K} (I : Inv s) (key : K) (dl : Option Nat) :
    Inv (s.set key dl) := by
  cases dl with
  | none =>
    simp only [set]
    cases h : s.current.get? key with
    | none =>
      refine ⟨I.nd, nodup_erase I.nc _, ?_, I.fresh⟩
      intro d q k
      simp only [get?_erase, I.mirror]
      split
      · subst_vars; simp [h]
      · rfl
    | some old =>
      obtain ⟨od, oq⟩ := old
      refine ⟨nodup_erase I.nd _, nodup_erase I.nc _, ?_, ?_⟩
      · intro d q k
        simp only [get?_erase]
        by_cases h1 : (od, oq) = (d, q)
        · injection h1 with a b; subst a; subst b
          have := (I.mirror _ _ _).2 h
          simp only [if_true]
          by_cases hk : key = k
          · simp [hk]
          · simp only [hk, if_false, reduceCtorEq, false_iff]
            intro hc
            have h2 := (I.mirror _ _ _).2 hc
            rw [this] at h2; injection h2 with h2; exact hk h2
        · simp only [h1, if_false]
          by_cases hk : key = k
          · subst hk
            simp only [if_true, reduceCtorEq, iff_false]
            intro hc
            have := (I.mirror _ _ _).1 hc
            rw [h] at this; injection this with this; exact h1 this
          · simp only [hk, if_false]; exact I.mirror _ _ _
      · intro d q k hh
        simp only [get?_erase] at hh
        split at hh
        · cases hh
        · exact I.fresh _ _ _ hh
  | some d0 =>
    have hfresh : ∀ d, s.byDeadline.get? (d, s.seq + 1) = none := by
      intro d
      cases hg : s.byDeadline.get? (d, s.seq + 1) with
      | none => rfl
      | some k => have := I.fresh _ _ _ hg; omega
    simp only [set]
    cases h : s.current.get? key with
    | none =>
      refine ⟨nodup_insert I.nd _ _, nodup_insert I.nc _ _, ?_, ?_⟩
      · intro d q k
        simp only [get?_insert]
        by_cases h1 : (d0, s.seq + 1) = (d, q)
        · injection h1 with a b; subst a; subst b
          simp only [if_true, Option.some.injEq]
          by_cases hk : key = k
          · simp [hk]
          · simp only [hk, if_false, false_iff]
            intro hc
            have := (I.mirror _ _ _).2 hc
            rw [hfresh] at this; cases this
        · simp only [h1, if_false, I.mirror]
          by_cases hk : key = k
          · subst hk; simp [h, h1]
          · simp [hk]
      · intro d q k hh
        simp only [get?_insert] at hh
        split at hh
        · rename_i h1; injection h1 with a b; subst b; simp
        · have := I.fresh _ _ _ hh; simp only; omega
    | some old =>
      obtain ⟨od, oq⟩ := old
      simp only
      by_cases hd : od = d0
      · simp only [hd, if_true]; exact I
      · simp only [hd, if_false]
        refine ⟨nodup_insert (nodup_erase I.nd _) _ _, nodup_insert I.nc _ _, ?_, ?_⟩
        · intro d q k
          simp only [get?_insert, get?_erase]
          by_cases h1 : (d0, s.seq + 1) = (d, q)
          · injection h1 with a b; subst a; subst b
            simp only [if_true, Option.some.injEq]
            by_cases hk : key = k
            · simp [hk]
            · simp only [hk, if_false, false_iff]
              intro hc
              have := (I.mirror _ _ _).2 hc
              rw [hfresh] at this; cases this
          · simp only [h1, if_false]
            by_cases h2 : (od, oq) = (d, q)
            · injection h2 with a b; subst a; subst b
              have := (I.mirror _ _ _).2 h
              simp only [if_true]
              by_cases hk : key = k
              · subst hk; simp [h1]
              · simp only [hk, if_false, reduceCtorEq, false_iff]
                intro hc
                have h2 := (I.mirror _ _ _).2 hc
                rw [this] at h2; injection h2 with h2; exact hk h2
            · simp only [h2, if_false, I.mirror]
              by_cases hk : key = k
              · subst hk; simp only [if_true, h, Option.some.injEq, h1, h2]
              · simp [hk]
        · intro d q k hh
          simp only [get?_insert, get?_erase] at hh
          split at hh
          · rename_i h1; injection h1 with a b; subst b; simp
          · split at hh
            · cases hh
            · have := I.fresh _ _ _ hh; simp only; omega

theorem keyLe_total (a b : Nat × Nat) : keyLe a b = true ∨ keyLe b a = true := by
  simp only [keyLe, Bool.or_eq_true, decide_eq_true_eq, Bool.and_eq_true, beq_iff_eq]; omega

theorem keyLe_fst {a b : Nat × Nat} (h : keyLe a b = true) : a.1 ≤ b.1 := by
  simp only [keyLe, Bool.or_eq_true, decide_eq_true_eq, Bool.and_eq_true, beq_iff_eq] at h; omega

theorem firstKey_spec (m : Map (Nat × Nat) K) :
    match firstKey m with
    | none => m = []
    | some k => (∃ v, (k, v) ∈ m) ∧ ∀ e ∈ m, k.1 ≤ e.1.1 := by
  induction m with
  | nil => simp [firstKey]
  | cons e m ih =>
    simp only [firstKey]
    cases hf : firstKey m with
    | none =>
      rw [hf] at ih
      simp only at ih
      subst ih
      simp
    | some k =>
      rw [hf] at ih
      simp only at ih ⊢
      obtain ⟨⟨v, hv⟩, hall⟩ := ih
      by_cases hle : keyLe e.1 k = true
      · simp only [hle, if_true]
        refine ⟨⟨e.2, by simp⟩, ?_⟩
        intro x hx
        rcases List.mem_cons.1 hx with rfl | hx
        · exact Nat.le_refl _
        · exact Nat.le_trans (keyLe_fst hle) (hall x hx)
      · have hge := (keyLe_total e.1 k).resolve_left hle
        simp only [hle]
        refine ⟨⟨v, by simp [hv]⟩, ?_⟩
        intro x hx
        rcases List.mem_cons.1 hx with rfl | hx
        · exact keyLe_fst hge
        · exact hall x hx

/-- The deadline registered for `k`. -/
def deadlineOf (s : DeadlineIndex K) (k : K) : Option Nat := (s.current.get? k).map Prod.fst

theorem deadlineOf_set {s : DeadlineIndex K} (key : K) (dl : Option Nat) (k : K) :
    (s.set key dl).deadlineOf k = if key = k then dl else s.deadlineOf k := by
  cases dl with
  | none =>
    simp only [set, deadlineOf]
    split <;> simp only [get?_erase] <;> split <;> simp
  | some d =>
    simp only [set, deadlineOf]
    split
    · rename_i od oq h
      split
      · rename_i hd; subst hd
        split
        · rename_i hk; subst hk; simp [h]
        · rfl
      · simp only [get?_insert]; split <;> simp
    · simp only [get?_insert]; split <;> simp

theorem earliest_spec {s : DeadlineIndex K} (I : Inv s) (d : Nat) :
    s.earliest = some d ↔
      (∃ k, s.deadlineOf k = some d) ∧ ∀ k d', s.deadlineOf k = some d' → d ≤ d' := by
  have hmem : ∀ k x, s.deadlineOf k = some x ↔ ∃ q, ((x, q), k) ∈ s.byDeadline := by
    intro k x
    simp only [deadlineOf, Option.map_eq_some_iff, Prod.exists]
    constructor
    · rintro ⟨a, b, h, rfl⟩
      exact ⟨b, mem_of_get? ((I.mirror _ _ _).2 h)⟩
    · rintro ⟨q, h⟩
      exact ⟨x, q, (I.mirror _ _ _).1 (get?_of_mem I.nd h), rfl⟩
  have hs := firstKey_spec s.byDeadline
  simp only [earliest]
  cases hf : firstKey s.byDeadline with
  | none =>
    rw [hf] at hs
    simp only at hs
    simp [hmem, hs]
  | some k0 =>
    rw [hf] at hs
    obtain ⟨⟨v, hv⟩, hall⟩ := hs
    simp only [Option.map_some, Option.some.injEq]
    constructor
    · rintro rfl
      refine ⟨⟨v, (hmem _ _).2 ⟨k0.2, hv⟩⟩, ?_⟩
      intro k d' h
      obtain ⟨q, hq⟩ := (hmem _ _).1 h
      exact hall _ hq
    · rintro ⟨⟨k, hk⟩, hmin⟩
      obtain ⟨q, hq⟩ := (hmem _ _).1 hk
      have h1 := hall _ hq
      have h2 := hmin v k0.1 ((hmem _ _).2 ⟨k0.2, hv⟩)
      simp only at h1
      omega

theorem earliest_none {s : DeadlineIndex K} (I : Inv s) :
    s.earliest = none ↔ ∀ k, s.deadlineOf k = none := by
  constructor
  · intro h k
    cases hd : s.deadlineOf k with
    | none => rfl
    | some d =>
      exfalso
      simp only [deadlineOf, Option.map_eq_some_iff, Prod.exists] at hd
      obtain ⟨a, b, hg, rfl⟩ := hd
      have := mem_of_get? ((I.mirror _ _ _).2 hg)
      have hs := firstKey_spec s.byDeadline
      simp only [earliest, Option.map_eq_none_iff] at h
      rw [h] at hs
      simp only at hs
      rw [hs] at this
      simp at this
  · intro h
    cases he : s.earliest with
    | none => rfl
    | some d =>
      obtain ⟨⟨k, hk⟩, _⟩ := (earliest_spec I d).1 he
      rw [h] at hk; cases hk

end Verif.DeadlineIndex
