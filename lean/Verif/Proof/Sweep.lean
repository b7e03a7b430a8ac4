import Verif.Spec.Sweep
import Verif.Proof.Waiters

/-!
Lemmas behind C124.
-/

namespace Verif.Sweep

open Verif.Pending (Answer joinReply)
open Verif.Embassy (swapRemove swapRemove_perm)

variable {A : Type}

theorem swapRemove_take {α : Type} (l : List α) (i : Nat) (h : i < l.length) :
    (swapRemove l i).take i = l.take i := by
  rcases List.eq_nil_or_concat l with rfl | ⟨a, z, rfl⟩
  · simp at h
  · simp only [List.concat_eq_append, List.length_append, List.length_singleton] at h ⊢
    unfold swapRemove
    rw [List.getLast?_append]
    simp only [List.getLast?_singleton, Option.or_some, Option.some_or]
    rw [List.dropLast_eq_take, List.take_take, List.length_set]
    simp only [List.length_append, List.length_singleton, Nat.add_sub_cancel]
    rw [Nat.min_eq_left (by omega), List.take_set_of_le (Nat.le_refl _)]

theorem reapFrom_spec (now : Nat) (l : List (Join A)) (i : Nat) (h : ∀ j ∈ l.take i, isDue now j = false) :
    (reapFrom now l i).1.Perm (l.filter fun j => !isDue now j) ∧
      (reapFrom now l i).2.Perm ((l.filter (isDue now)).map owed) := by
  induction l, i using reapFrom.induct now with
  | case1 l i hi hd ih =>
    have hdue : isDue now l[i] = true := by
      rcases hd with hd | hd
      · simp [isDue, hd]
      · simp [isDue]; right; exact hd
    have hp := swapRemove_perm l i hi
    obtain ⟨h1, h2⟩ := ih (by rw [swapRemove_take l i hi]; exact h)
    have hf := hp.filter fun j => !isDue now j
    have hg := (hp.filter (isDue now)).map owed
    rw [List.filter_cons_of_neg (by simp [hdue])] at hf
    rw [List.filter_cons_of_pos hdue, List.map_cons] at hg
    rw [reapFrom, dif_pos hi, if_pos hd]
    exact ⟨h1.trans hf, (h2.cons _).trans hg⟩
  | case2 l i hi hd ih =>
    rw [reapFrom, dif_pos hi, if_neg hd]
    refine ih fun j hj => ?_
    rw [List.take_succ_eq_append_getElem hi, List.mem_append] at hj
    rcases hj with hj | hj
    · exact h j hj
    · simp only [List.mem_singleton] at hj
      subst hj
      simp only [not_or, ge_iff_le] at hd
      simp [isDue, hd.1]
      omega
  | case3 l i hi =>
    rw [List.take_of_length_le (by omega)] at h
    rw [reapFrom, dif_neg hi]
    have h1 : l.filter (fun j => !isDue now j) = l := List.filter_eq_self.mpr fun j hj => by simp [h j hj]
    have h2 : l.filter (isDue now) = [] := List.filter_eq_nil_iff.mpr fun j hj => by simp [h j hj]
    rw [h1, h2]
    exact ⟨.refl _, .refl _⟩

theorem minimum_le (l : List (Option Nat)) (x : Nat) (h : some x ∈ l) : ∃ m, minimum l = some m ∧ m ≤ x := by
  induction l with
  | nil => simp at h
  | cons a l ih =>
    cases a with
    | none =>
      simp only [List.mem_cons, reduceCtorEq, false_or] at h
      exact ih h
    | some y =>
      simp only [minimum]
      rcases List.mem_cons.mp h with h | h
      · simp only [Option.some.injEq] at h
        subst h
        cases minimum l with
        | none => exact ⟨x, rfl, Nat.le_refl _⟩
        | some m => exact ⟨_, rfl, Nat.min_le_left _ _⟩
      · obtain ⟨m, hm, hle⟩ := ih h
        rw [hm]
        exact ⟨_, rfl, Nat.le_trans (Nat.min_le_right _ _) hle⟩

theorem minimum_mem (l : List (Option Nat)) (m : Nat) (h : minimum l = some m) : some m ∈ l := by
  induction l generalizing m with
  | nil => simp [minimum] at h
  | cons a l ih =>
    cases a with
    | none => exact List.mem_cons_of_mem _ (ih m h)
    | some y =>
      simp only [minimum] at h
      cases hl : minimum l with
      | none => rw [hl] at h; simp at h; simp [h]
      | some k =>
        rw [hl] at h
        simp only [Option.some.injEq] at h
        rcases Nat.le_total y k with hle | hle
        · rw [Nat.min_eq_left hle] at h; simp [h]
        · rw [Nat.min_eq_right hle] at h
          subst h
          exact List.mem_cons_of_mem _ (ih k hl)

theorem wakeAt_some (now idle : Nat) (e : Option Nat) (joins : List (Join A)) (leave : Option Leave) :
    minimum [some (e.getD (now + idle)), minimum (joins.map fun j => some j.deadline), leave.map (·.deadline)] =
      some (wakeAt now idle e joins leave) := by
  obtain ⟨m, hm, _⟩ := minimum_le
    [some (e.getD (now + idle)), minimum (joins.map fun j => some j.deadline), leave.map (·.deadline)] _
    List.mem_cons_self
  simp only [wakeAt, hm, Option.getD_some]

end Verif.Sweep
