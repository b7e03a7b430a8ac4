import Verif.Model.Map
/- Lemmas about finite maps. -/
set_option linter.unusedSectionVars false
namespace Verif.Map
variable {K V : Type} [DecidableEq K]

@[simp] theorem get?_nil (k : K) : get? ([] : Map K V) k = none := rfl

theorem get?_cons (k' : K) (v : V) (m : Map K V) (k : K) :
    get? ((k', v) :: m) k = if k' = k then some v else get? m k := rfl

theorem get?_insert (m : Map K V) (k k' : K) (v : V) :
    get? (insert m k v) k' = if k = k' then some v else get? m k' := by
  induction m with
  | nil => simp [insert, get?]
  | cons e m ih =>
    obtain ⟨a, b⟩ := e
    simp only [insert]
    by_cases h : a = k
    · subst h; simp only [if_true, get?_cons]; split <;> rfl
    · simp only [h, if_false, get?_cons, ih]
      by_cases h2 : a = k'
      · subst h2; simp [Ne.symm h]
      · simp [h2]

theorem get?_erase (m : Map K V) (k k' : K) :
    get? (erase m k) k' = if k = k' then none else get? m k' := by
  induction m with
  | nil => simp [erase, get?]
  | cons e m ih =>
    obtain ⟨a, b⟩ := e
    simp only [erase] at ih ⊢
    by_cases h : a = k
    · subst h
      simp only [List.filter, ne_eq, not_true_eq_false, decide_false, get?_cons, ih]
      split <;> simp_all
    · simp only [List.filter, ne_eq, h, not_false_eq_true, decide_true, get?_cons, ih]
      by_cases h2 : a = k'
      · subst h2; simp [Ne.symm h]
      · simp [h2]

theorem get?_modify (m : Map K V) (k k' : K) (f : V → V) :
    get? (modify m k f) k' = if k = k' then (get? m k').map f else get? m k' := by
  induction m with
  | nil => simp [modify, get?]
  | cons e m ih =>
    obtain ⟨a, b⟩ := e
    simp only [modify] at ih
    simp only [modify, List.map_cons]
    by_cases h : a = k
    · subst h
      simp only [if_true, get?_cons, ih]
      by_cases h2 : a = k' <;> simp [h2]
    · simp only [h, if_false, get?_cons, ih]
      by_cases h2 : a = k'
      · subst h2; simp [Ne.symm h]
      · simp [h2]

theorem mem_of_get? {m : Map K V} {k : K} {v : V} (h : get? m k = some v) : (k, v) ∈ m := by
  induction m with
  | nil => simp [get?] at h
  | cons e m ih =>
    obtain ⟨a, b⟩ := e
    simp only [get?_cons] at h
    split at h
    · injection h with h; subst_vars; simp
    · simp [ih h]

theorem mem_keys {m : Map K V} {k : K} : k ∈ keys m ↔ ∃ v, (k, v) ∈ m := by
  simp [keys]

theorem nodup_cons {a : K} {b : V} {m : Map K V} :
    NodupKeys ((a, b) :: m) ↔ (∀ v, (a, v) ∉ m) ∧ NodupKeys m := by
  simp [NodupKeys, keys]

theorem get?_of_mem {m : Map K V} (hn : NodupKeys m) {k : K} {v : V} (h : (k, v) ∈ m) :
    get? m k = some v := by
  induction m with
  | nil => simp at h
  | cons e m ih =>
    obtain ⟨a, b⟩ := e
    obtain ⟨h1, h2⟩ := nodup_cons.1 hn
    simp only [get?_cons]
    rcases List.mem_cons.1 h with h | h
    · injection h with ha hb; subst ha; subst hb; simp
    · have : a ≠ k := by rintro rfl; exact h1 _ h
      simp [this, ih h2 h]

theorem mem_iff_get? {m : Map K V} (hn : NodupKeys m) {k : K} {v : V} :
    (k, v) ∈ m ↔ get? m k = some v := ⟨get?_of_mem hn, mem_of_get?⟩

theorem mem_keys_iff {m : Map K V} {k : K} : k ∈ keys m ↔ (get? m k).isSome = true := by
  induction m with
  | nil => simp [keys]
  | cons e m ih =>
    obtain ⟨a, b⟩ := e
    simp only [keys, List.map_cons, List.mem_cons, get?_cons] at ih ⊢
    by_cases h : a = k
    · subst h; simp
    · simp [h, Ne.symm h, ih]

theorem get?_eq_none_iff {m : Map K V} {k : K} : get? m k = none ↔ k ∉ keys m := by
  rw [mem_keys_iff]; cases get? m k <;> simp

theorem nodup_nil : NodupKeys ([] : Map K V) := by simp [NodupKeys, keys]

theorem keys_erase (m : Map K V) (k : K) : keys (erase m k) = (keys m).filter (· ≠ k) := by
  simp only [keys, erase, List.filter_map]; rfl

theorem nodup_erase {m : Map K V} (h : NodupKeys m) (k : K) : NodupKeys (erase m k) := by
  rw [NodupKeys, keys_erase]; exact List.Nodup.sublist List.filter_sublist h

theorem keys_insert (m : Map K V) (k : K) (v : V) :
    keys (insert m k v) = if k ∈ keys m then keys m else keys m ++ [k] := by
  induction m with
  | nil => simp [insert, keys]
  | cons e m ih =>
    obtain ⟨a, b⟩ := e
    simp only [insert, keys, List.map_cons] at ih ⊢
    by_cases h : a = k
    · subst h; simp
    · simp only [h, if_false, List.map_cons, ih, List.mem_cons, Ne.symm h, false_or]
      split <;> simp_all

theorem nodup_insert {m : Map K V} (h : NodupKeys m) (k : K) (v : V) : NodupKeys (insert m k v) := by
  rw [NodupKeys, keys_insert]
  split
  · exact h
  · rename_i hk
    rw [List.nodup_append]
    refine ⟨h, by simp, ?_⟩
    intro a ha b hb
    simp at hb; subst hb; rintro rfl; exact hk ha

theorem keys_modify (m : Map K V) (k : K) (f : V → V) : keys (modify m k f) = keys m := by
  simp only [keys, modify, List.map_map]
  apply List.map_congr_left
  intro e _
  simp only [Function.comp]
  split <;> rfl

theorem nodup_modify {m : Map K V} (h : NodupKeys m) (k : K) (f : V → V) :
    NodupKeys (modify m k f) := by rw [NodupKeys, keys_modify]; exact h

theorem mem_erase {m : Map K V} {k : K} {e : K × V} : e ∈ erase m k ↔ e ∈ m ∧ e.1 ≠ k := by
  simp [erase]

theorem mem_insert {m : Map K V} (hn : NodupKeys m) {k : K} {v : V} {k' : K} {v' : V} :
    (k', v') ∈ insert m k v ↔ (k' = k ∧ v' = v) ∨ (k' ≠ k ∧ (k', v') ∈ m) := by
  rw [mem_iff_get? (nodup_insert hn k v), get?_insert, mem_iff_get? hn]
  by_cases h : k = k'
  · subst h; simp [eq_comm]
  · simp [h, Ne.symm h]

theorem length_insert_new {m : Map K V} {k : K} {v : V} (h : get? m k = none) :
    (insert m k v).length = m.length + 1 := by
  induction m with
  | nil => simp [insert]
  | cons e m ih =>
    obtain ⟨a, b⟩ := e
    simp only [get?_cons] at h
    split at h
    · cases h
    · rename_i hne; simp [insert, hne, ih h]

end Verif.Map
