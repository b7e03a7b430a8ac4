import Verif.Model.Core
/-
Lemmas about the member table as a list.
-/
namespace Verif.Table
open Verif
variable {I A : Type} [DecidableEq I]

theorem get_mem {t : Table I A} {id : I} {m : Member I A} (h : t.get id = some m) : m ∈ t :=
  List.mem_of_find?_eq_some h

theorem get_id {t : Table I A} {id : I} {m : Member I A} (h : t.get id = some m) : m.id = id := by
  have := List.find?_some h; simpa using this

theorem get_cons (m : Member I A) (t : Table I A) (id : I) :
    Table.get (m :: t) id = if m.id = id then some m else Table.get t id := by
  simp only [Table.get, List.find?_cons]; split <;> simp_all

theorem get_eq_none {t : Table I A} {id : I} : t.get id = none ↔ id ∉ t.map Member.id := by
  simp [Table.get, List.find?_eq_none]

theorem get_iff {t : Table I A} (h : (t.map Member.id).Nodup) {id : I} {m : Member I A} :
    t.get id = some m ↔ m ∈ t ∧ m.id = id := by
  constructor
  · exact fun hg => ⟨get_mem hg, get_id hg⟩
  · rintro ⟨hm, rfl⟩
    induction t with
    | nil => cases hm
    | cons a t ih =>
      rw [get_cons]
      simp only [List.map_cons, List.nodup_cons] at h
      rcases List.mem_cons.1 hm with rfl | hm
      · simp
      · have : a.id ≠ m.id := fun e => h.1 (e ▸ List.mem_map_of_mem hm)
        rw [if_neg this]; exact ih h.2 hm

theorem get_perm {t t' : Table I A} (h : (t.map Member.id).Nodup) (p : t'.Perm t) (id : I) :
    t'.get id = t.get id := by
  have h' : (t'.map Member.id).Nodup := (p.map _).nodup_iff.2 h
  cases hg : t.get id with
  | none =>
    rw [get_eq_none] at hg ⊢
    exact fun hm => hg ((p.map _).mem_iff.1 hm)
  | some m =>
    rw [get_iff h] at hg; rw [get_iff h']
    exact ⟨p.mem_iff.2 hg.1, hg.2⟩

theorem length_update (t : Table I A) (id : I) (f : Member I A → Member I A) :
    (t.update id f).length = t.length := by simp [Table.update]

theorem ids_update (t : Table I A) (id : I) (f : Member I A → Member I A)
    (hf : ∀ m, m.id = id → (f m).id = id) : (t.update id f).map Member.id = t.map Member.id := by
  simp only [Table.update, List.map_map]
  apply List.map_congr_left
  intro m _
  simp only [Function.comp]
  split
  · rename_i h; rw [hf m h, h]
  · rfl

theorem get_update (t : Table I A) (id id' : I) (f : Member I A → Member I A)
    (hf : ∀ m, m.id = id → (f m).id = id) :
    (t.update id f).get id' = if id' = id then (t.get id').map f else t.get id' := by
  induction t with
  | nil => simp [Table.update, Table.get]
  | cons a t ih =>
    have e : Table.update (a :: t) id f = (if a.id = id then f a else a) :: Table.update t id f := rfl
    rw [e, get_cons, get_cons, ih]
    by_cases h : a.id = id
    · rw [if_pos h, hf a h]
      by_cases h' : id' = id
      · subst h'; simp [h]
      · have : ¬ id = id' := fun e => h' e.symm
        have h2 : ¬ a.id = id' := fun e => h' (e.symm.trans h)
        rw [if_neg this, if_neg h', if_neg h2]; simp [h']
    · rw [if_neg h]
      by_cases h2 : a.id = id'
      · have : ¬ id' = id := fun e => h (h2.trans e)
        simp [h2, this]
      · rw [if_neg h2, if_neg h2]

theorem get_remove (t : Table I A) (id id' : I) :
    (t.remove id).get id' = if id' = id then none else t.get id' := by
  induction t with
  | nil => simp [Table.remove, Table.get]
  | cons a t ih =>
    by_cases h : a.id = id
    · have e : Table.remove (a :: t) id = Table.remove t id := by simp [Table.remove, h]
      rw [e, ih, get_cons]
      by_cases h' : id' = id
      · simp [h']
      · have h2 : ¬ a.id = id' := fun e => h' (e.symm.trans h)
        simp [h', h2]
    · have e : Table.remove (a :: t) id = a :: Table.remove t id := by simp [Table.remove, h]
      rw [e, get_cons, get_cons, ih]
      by_cases h2 : a.id = id'
      · have : ¬ id' = id := fun e => h (h2.trans e)
        simp [h2, this]
      · simp [h2]

theorem nodup_remove {t : Table I A} (h : (t.map Member.id).Nodup) (id : I) :
    ((t.remove id).map Member.id).Nodup :=
  List.Sublist.nodup (List.Sublist.map _ List.filter_sublist) h

theorem length_remove_le (t : Table I A) (id : I) : (t.remove id).length ≤ t.length :=
  List.length_filter_le _ _

omit [DecidableEq I] in
theorem swap_perm (t : Table I A) (i j : Nat) : (t.swap i j).Perm t := by
  unfold Table.swap
  split
  · rename_i a b ha hb
    obtain ⟨hi, rfl⟩ := List.getElem?_eq_some_iff.1 ha
    obtain ⟨hj, rfl⟩ := List.getElem?_eq_some_iff.1 hb
    exact List.set_set_perm hi hj
  · exact List.Perm.refl _

omit [DecidableEq I] in
theorem insertAt_perm (t : Table I A) (m : Member I A) (k : Nat) : (t.insertAt m k).Perm (m :: t) :=
  (swap_perm _ _ _).trans (by simpa using (List.perm_append_comm (l₁ := t) (l₂ := [m])))

omit [DecidableEq I] in
theorem shuffleLoop_perm (pick : Nat → Nat) (n : Nat) (t : Table I A) :
    (Table.shuffleLoop pick n t).Perm t := by
  induction n generalizing t with
  | zero => exact List.Perm.refl _
  | succ n ih => exact (ih _).trans (swap_perm _ _ _)

omit [DecidableEq I] in
theorem shuffle_perm (t : Table I A) (pick : Nat → Nat) : (t.shuffle pick).Perm t :=
  shuffleLoop_perm _ _ _

end Verif.Table
