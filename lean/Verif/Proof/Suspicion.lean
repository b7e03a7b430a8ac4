import Verif.Spec.Suspicion
import Verif.Model.SuspicionReal
import Mathlib.Algebra.Order.Floor.Semifield
namespace Verif
open Spec
variable {I : Type} [DecidableEq I]

namespace Suspicion

/-- Effective timeout after `n ≥ 1` confirmations. -/
def T (acc : Accel) (k min max n : Nat) : Nat :=
  if n = 0 then (if k < 1 then min else max)
  else if acc n k min max < min / MS then min else acc n k min max * MS

theorem T_lower {acc : Accel} {k min max n : Nat} (hd : MS ∣ min) (hm : min ≤ max) :
    min ≤ T acc k min max n := by
  obtain ⟨c, rfl⟩ := hd
  simp only [T]
  split
  · split <;> omega
  · split
    · exact Nat.le_refl _
    · rename_i h1 h
      have : MS * c / MS = c := Nat.mul_div_cancel_left c (by simp [MS])
      rw [this] at h
      calc MS * c = c * MS := Nat.mul_comm _ _
        _ ≤ _ := Nat.mul_le_mul_right _ (by omega)

theorem T_lower' {acc : Accel} {k min max n : Nat} (hm : min ≤ max) :
    min < T acc k min max n + MS := by
  have h0 : 0 < MS := by simp [MS]
  have hdm := Nat.div_add_mod min MS
  have hml := Nat.mod_lt min h0
  simp only [T]
  split
  · split <;> omega
  · split
    · omega
    · rename_i h
      have : MS * (min / MS) ≤ acc n k min max * MS := by
        rw [Nat.mul_comm]; exact Nat.mul_le_mul_right _ (by omega)
      omega

theorem T_upper {acc : Accel} {k min max n : Nat} (h : AccelOk acc k min max) (hn : n ≤ k)
    (hm : min ≤ max) : T acc k min max n ≤ max := by
  simp only [T]
  split
  · split <;> omega
  · split
    · exact hm
    · exact h.upper n (by omega) hn

theorem T_anti {acc : Accel} {k min max n : Nat} (h : AccelOk acc k min max) (hn : n < k)
    (hd : MS ∣ min) (hm : min ≤ max) : T acc k min max (n + 1) ≤ T acc k min max n := by
  by_cases h0 : n = 0
  · subst h0
    have : T acc k min max 0 = max := by simp only [T]; rw [if_pos trivial, if_neg (by omega)]
    rw [this]
    exact T_upper h (by omega) hm
  · have h1 := h.shrink n (by omega) hn
    have h2 := T_lower (acc := acc) (k := k) (n := n) hd hm
    simp only [T] at h2 ⊢
    rw [if_neg (by omega)]
    rw [if_neg h0] at h2 ⊢
    split
    · exact h2
    · rw [if_neg (by omega)]
      exact Nat.mul_le_mul_right _ h1

theorem T_final {acc : Accel} {k min max : Nat} (h : AccelOk acc k min max) (hd : MS ∣ min) :
    T acc k min max k = min := by
  obtain ⟨c, rfl⟩ := hd
  have e : MS * c / MS = c := Nat.mul_div_cancel_left c (by simp [MS])
  have hf := h.final
  simp only [T]
  split
  · rename_i h0; subst h0; simp
  · split
    · rfl
    · rename_i h1
      rw [e] at hf h1
      have : acc k k (MS * c) max = c := by omega
      rw [this, Nat.mul_comm]

/-- State after a history of confirmations. -/
def run (acc : Accel) (s : Suspicion I) (hist : List (I × Nat)) : Suspicion I :=
  hist.foldl (fun s e => (s.confirm acc e.1 e.2).1) s

/-- Invariant of a suspicion. -/
structure Ok (acc : Accel) (sender : I) (k min max start : Nat) (s : Suspicion I) : Prop where
  hk : s.k = k
  hmin : s.min = min
  hmax : s.max = max
  hstart : s.start = start
  hn : s.n ≤ k
  hlen : s.confirmations.length = s.n + 1
  hnd : s.confirmations.Nodup
  hmem : sender ∈ s.confirmations
  /-- deadline is the later of the start plus the effective timeout and the last confirmation -/
  hdl : s.deadline = start + T acc k min max s.n ∨
    (start + T acc k min max s.n < s.deadline)

theorem ok_new (acc : Accel) (sender : I) (k min max now : Nat) :
    Ok acc sender k min max now (new sender k min max now) :=
  ⟨rfl, rfl, rfl, rfl, Nat.zero_le _, rfl, by simp [new], by simp [new], .inl (by simp [new, T])⟩

theorem confirm_accept {acc : Accel} {s : Suspicion I} {f : I} {t : Nat} (h1 : s.n < s.k)
    (h2 : f ∉ s.confirmations) (ht : s.start ≤ t) :
    s.confirm acc f t = ({ s with
        confirmations := f :: s.confirmations
        n := s.n + 1
        deadline := Max.max t (s.start + T acc s.k s.min s.max (s.n + 1)) },
      .accepted (Max.max t (s.start + T acc s.k s.min s.max (s.n + 1)))) := by
  have e : t + remainingSuspicionTime acc (s.n + 1) s.k (t - s.start) s.min s.max =
      Max.max t (s.start + T acc s.k s.min s.max (s.n + 1)) := by
    simp only [remainingSuspicionTime, T, Nat.max_def]
    rw [if_neg (by omega : ¬ s.n + 1 = 0)]
    split <;> split <;> omega
  simp only [confirm]
  rw [if_neg (by omega), if_neg h2, e]

theorem confirm_ignore {acc : Accel} {s : Suspicion I} {f : I} {t : Nat}
    (h : s.k ≤ s.n ∨ f ∈ s.confirmations) : s.confirm acc f t = (s, .ignored) := by
  simp only [confirm]
  rcases h with h | h
  · rw [if_pos h]
  · rw [if_pos h, ite_self]

theorem Ok.confirm {acc : Accel} {sender : I} {k min max start : Nat} {s : Suspicion I}
    (h : Ok acc sender k min max start s) (f : I) {t : Nat} (ht : start ≤ t) :
    Ok acc sender k min max start (s.confirm acc f t).1 := by
  by_cases h1 : s.n < s.k
  · by_cases h2 : f ∈ s.confirmations
    · rw [confirm_ignore (.inr h2)]; exact h
    · rw [confirm_accept h1 h2 (by rw [h.hstart]; exact ht)]
      refine ⟨h.hk, h.hmin, h.hmax, h.hstart, ?_, ?_, ?_, ?_, ?_⟩
      · simp only; have := h.hk; omega
      · simp [h.hlen]
      · exact List.nodup_cons.2 ⟨h2, h.hnd⟩
      · exact List.mem_cons_of_mem _ h.hmem
      · simp only [h.hk, h.hmin, h.hmax, h.hstart, Nat.max_def]
        split <;> omega
  · rw [confirm_ignore (.inl (by omega))]; exact h

theorem ok_run {acc : Accel} {sender : I} {k min max start : Nat} (hist : List (I × Nat))
    (ht : ∀ e ∈ hist, start ≤ e.2) {s : Suspicion I} (h : Ok acc sender k min max start s) :
    Ok acc sender k min max start (run acc s hist) := by
  induction hist generalizing s with
  | nil => exact h
  | cons e hist ih =>
    exact ih (fun e he => ht e (by simp [he])) (h.confirm e.1 (ht e (by simp)))

theorem run_append (acc : Accel) (s : Suspicion I) (a b : List (I × Nat)) :
    run acc s (a ++ b) = run acc (run acc s a) b := by simp [run, List.foldl_append]

theorem snoc_ind {α : Type} {P : List α → Prop} (h0 : P []) (h1 : ∀ l a, P l → P (l ++ [a]))
    (l : List α) : P l := by
  have : ∀ l : List α, P l.reverse := by
    intro l
    induction l with
    | nil => exact h0
    | cons a l ih => rw [List.reverse_cons]; exact h1 _ a ih
  have := this l.reverse
  rwa [List.reverse_reverse] at this

/-- The confirmers recorded: all distinct others while fewer than `k`, else exactly `k` of them. -/
theorem confirmers (acc : Accel) (sender : I) (k min max start : Nat) (hist : List (I × Nat)) :
    let s := run acc (new sender k min max start) hist
    s.k = k ∧ s.n ≤ k ∧
    (s.n < k → ∀ x, x ∈ s.confirmations ↔ x = sender ∨ x ∈ hist.map (·.1)) ∧
      (∀ x ∈ s.confirmations, x = sender ∨ x ∈ hist.map (·.1)) ∧ s.confirmations.Nodup ∧
      s.confirmations.length = s.n + 1 ∧ sender ∈ s.confirmations := by
  induction hist using snoc_ind with
  | h0 => simp [run, new]
  | h1 hist e ih =>
    simp only [run_append]
    revert ih
    simp only
    generalize run acc (new sender k min max start) hist = s
    rintro ⟨hk, hn, h1, h2, h3, h4, h5⟩
    simp only [run, List.foldl_cons, List.foldl_nil, List.map_append, List.map_cons, List.map_nil]
    by_cases hlt : s.n < s.k
    · by_cases hm : e.1 ∈ s.confirmations
      · rw [confirm_ignore (.inr hm)]
        refine ⟨hk, hn, ?_, ?_, h3, h4, h5⟩
        · intro hl x
          rw [h1 hl x]
          have := (h1 hl e.1).1 hm
          simp only [List.mem_append, List.mem_singleton]
          constructor
          · rintro (h | h) <;> simp [h]
          · rintro (h | h | h)
            · exact .inl h
            · exact .inr h
            · subst h; exact this
        · intro x hx
          rcases h2 x hx with h | h
          · exact .inl h
          · exact .inr (List.mem_append_left _ h)
      · simp only [Suspicion.confirm]
        rw [if_neg (by omega), if_neg hm]
        refine ⟨hk, by simp only; omega, ?_, ?_, List.nodup_cons.2 ⟨hm, h3⟩, by simp [h4],
          List.mem_cons_of_mem _ h5⟩
        · intro _ x
          simp only [List.mem_cons, List.mem_append]
          rw [h1 (by omega) x]
          constructor
          · rintro (h | h | h)
            · exact .inr (.inr (.inl h))
            · exact .inl h
            · exact .inr (.inl h)
          · rintro (h | h | h | h)
            · exact .inr (.inl h)
            · exact .inr (.inr h)
            · exact .inl h
            · simp at h
        · intro x hx
          rcases List.mem_cons.1 hx with h | h
          · right; simp [h]
          · rcases h2 x h with h | h
            · exact .inl h
            · exact .inr (List.mem_append_left _ h)
    · rw [confirm_ignore (.inl (by omega))]
      refine ⟨hk, hn, fun h => by simp only at h; omega, ?_, h3, h4, h5⟩
      intro x hx
      rcases h2 x hx with h | h
      · exact .inl h
      · exact .inr (List.mem_append_left _ h)

theorem distinctOthers_spec (a : I) (l : List I) :
    (distinctOthers a l).Nodup ∧ ∀ x, x ∈ distinctOthers a l ↔ x ∈ l ∧ x ≠ a := by
  induction l with
  | nil => simp [distinctOthers]
  | cons y l ih =>
    simp only [distinctOthers]
    split
    · rename_i h
      refine ⟨ih.1, fun x => ?_⟩
      rw [ih.2]
      constructor
      · rintro ⟨h1, h2⟩; exact ⟨List.mem_cons_of_mem _ h1, h2⟩
      · rintro ⟨h1, h2⟩
        rcases List.mem_cons.1 h1 with e | h1
        · subst e
          rcases h with h | h
          · exact absurd h h2
          · exact ⟨h, h2⟩
        · exact ⟨h1, h2⟩
    · rename_i h
      refine ⟨List.nodup_cons.2 ⟨fun h1 => h (.inr ((ih.2 y).1 h1).1), ih.1⟩, fun x => ?_⟩
      simp only [List.mem_cons, ih.2]
      constructor
      · rintro (e | ⟨h1, h2⟩)
        · subst e; exact ⟨.inl rfl, fun e => h (.inl e)⟩
        · exact ⟨.inr h1, h2⟩
      · rintro ⟨e | h1, h2⟩
        · exact .inl e
        · exact .inr ⟨h1, h2⟩

theorem count_eq (acc : Accel) (sender : I) (k min max start : Nat) (hist : List (I × Nat)) :
    (run acc (new sender k min max start) hist).n =
      Nat.min k (distinctOthers sender (hist.map (·.1))).length := by
  obtain ⟨hk, hn, h1, h2, h3, h4, h5⟩ := confirmers acc sender k min max start hist
  revert hk hn h1 h2 h3 h4 h5
  generalize run acc (new sender k min max start) hist = s
  intro hk hn h1 h2 h3 h4 h5
  obtain ⟨d1, d2⟩ := distinctOthers_spec sender (hist.map (·.1))
  have herase : (s.confirmations.erase sender).length = s.n := by
    rw [List.length_erase_of_mem h5]; omega
  have hnd : (s.confirmations.erase sender).Nodup := h3.erase sender
  have hmem : ∀ x, x ∈ s.confirmations.erase sender ↔ x ≠ sender ∧ x ∈ s.confirmations := fun x =>
    List.Nodup.mem_erase_iff h3
  have hsub : ∀ x ∈ s.confirmations.erase sender, x ∈ distinctOthers sender (hist.map (·.1)) := by
    intro x hx
    obtain ⟨hx1, hx2⟩ := (hmem x).1 hx
    rw [d2]
    rcases h2 x hx2 with h | h
    · exact absurd h hx1
    · exact ⟨h, hx1⟩
  have hle : s.n ≤ (distinctOthers sender (hist.map (·.1))).length := by
    rw [← herase]
    exact (List.subperm_of_subset hnd hsub).length_le
  show s.n = Min.min k _
  rw [Nat.min_def]
  split
  · rename_i hk2
    rcases Nat.lt_or_ge s.n k with hlt | hge
    · have : (distinctOthers sender (hist.map (·.1))).length ≤ s.n := by
        rw [← herase]
        refine (List.subperm_of_subset d1 ?_).length_le
        intro x hx
        rw [d2] at hx
        exact (hmem x).2 ⟨hx.2, (h1 hlt x).2 (.inr hx.1)⟩
      omega
    · omega
  · rename_i hk2
    have hlt : s.n < k := by omega
    have : (distinctOthers sender (hist.map (·.1))).length ≤ s.n := by
      rw [← herase]
      refine (List.subperm_of_subset d1 ?_).length_le
      intro x hx
      rw [d2] at hx
      exact (hmem x).2 ⟨hx.2, (h1 hlt x).2 (.inr hx.1)⟩
    omega

end Suspicion

/-- The real formula meets the specification. -/
theorem realAccel_ok (k min max : Nat) (hk : 1 ≤ k) (hm : min ≤ max) : AccelOk realAccel k min max := by
  have hMS : (0 : ℝ) < (MS : ℝ) := by norm_num [MS]
  have hlk : 0 < Real.log ((k : ℝ) + 1) := by
    apply Real.log_pos
    have : (1 : ℝ) ≤ k := by exact_mod_cast hk
    linarith
  have hmm : (0 : ℝ) ≤ (max : ℝ) - min := by
    have : (min : ℝ) ≤ max := by exact_mod_cast hm
    linarith
  constructor
  · intro n h1 h2
    simp only [realAccel]
    apply Nat.floor_mono
    apply div_le_div_of_nonneg_right _ hMS.le
    have : Real.log ((n : ℝ) + 1) ≤ Real.log (((n + 1 : Nat) : ℝ) + 1) := by
      apply Real.log_le_log
      · positivity
      · push_cast; linarith
    have h3 : Real.log ((n : ℝ) + 1) / Real.log ((k : ℝ) + 1) ≤
        Real.log (((n + 1 : Nat) : ℝ) + 1) / Real.log ((k : ℝ) + 1) :=
      div_le_div_of_nonneg_right this hlk.le
    have := mul_le_mul_of_nonneg_right h3 hmm
    linarith
  · intro n h1 h2
    simp only [realAccel]
    have hfr0 : 0 ≤ Real.log ((n : ℝ) + 1) / Real.log ((k : ℝ) + 1) := by
      apply div_nonneg _ hlk.le
      apply Real.log_nonneg
      have : (0 : ℝ) ≤ n := by positivity
      linarith
    have hx : ((max : ℝ) - Real.log ((n : ℝ) + 1) / Real.log ((k : ℝ) + 1) * ((max : ℝ) - min)) / MS
        ≤ (max : ℝ) / MS := by
      apply div_le_div_of_nonneg_right _ hMS.le
      have := mul_nonneg hfr0 hmm
      linarith
    have h3 := Nat.floor_mono hx
    rw [Nat.floor_div_eq_div] at h3
    exact Nat.le_trans (Nat.mul_le_mul_right _ h3) (Nat.div_mul_le_self _ _)
  · simp only [realAccel]
    rw [div_self hlk.ne']
    have : ((max : ℝ) - 1 * ((max : ℝ) - min)) / MS = (min : ℝ) / MS := by ring
    rw [this, Nat.floor_div_eq_div]

end Verif
