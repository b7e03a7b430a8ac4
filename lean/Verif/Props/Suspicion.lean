import Verif.Proof.Suspicion
/- C22-C23: suspicion timer and health score. -/
namespace Verif.Props
open Spec Suspicion

variable {I : Type} [DecidableEq I]

/-- A concrete acceleration for the examples: linear from `max` to `min`. -/
def linAccel : Accel := fun n k min max => (max - n * (max - min) / k) / MS

/-- C22. The formula of the code, over the reals, shrinks with each confirmation, stays below the
maximum and reaches the minimum at `k` confirmations. -/
theorem C22_real_formula (k min max : Nat) (hk : 1 ≤ k) (hm : min ≤ max) : AccelOk realAccel k min max :=
  realAccel_ok k min max hk hm

example : AccelOk realAccel 2 (4 * MS) (24 * MS) := C22_real_formula _ _ _ (by decide) (by decide)

/-- C22. Never early: after any history of confirmations (none dated before the suspicion started), the
deadline is at least the minimum after the start. The minimum is a whole number of milliseconds, which
is what the endpoint always supplies (`C22_timeouts_whole_ms`). No assumption on the acceleration
formula. -/
theorem C22_not_before_min (acc : Accel) (sender : I) (k min max start : Nat) (hd : MS ∣ min)
    (hm : min ≤ max) (hist : List (I × Nat)) (ht : ∀ e ∈ hist, start ≤ e.2) :
    start + min ≤ (run acc (new sender k min max start) hist).deadline := by
  have h := ok_run hist ht (ok_new acc sender k min max start)
  have h1 := T_lower (acc := acc) (k := k) (n := (run acc (new sender k min max start) hist).n) hd hm
  have h2 := h.hdl
  omega

example : MS ∣ 4 * MS ∧ 4 * MS ≤ 24 * MS ∧ (∀ e ∈ [("b", 5 * MS), ("c", 30 * MS)], MS ≤ e.2) ∧
    (run linAccel (new "a" 2 (4 * MS) (24 * MS) MS) [("b", 5 * MS)]).deadline = 15 * MS ∧
    (run linAccel (new "a" 2 (4 * MS) (24 * MS) MS) [("b", 2 * MS), ("c", 3 * MS)]).deadline = 5 * MS := by
  refine ⟨by decide, by decide, by decide, by decide, by decide⟩

/-- C22. For an arbitrary minimum (not a whole number of milliseconds) the deadline may be early, but by
less than one millisecond. -/
theorem C22_not_before_min_general (acc : Accel) (sender : I) (k min max start : Nat)
    (hm : min ≤ max) (hist : List (I × Nat)) (ht : ∀ e ∈ hist, start ≤ e.2) :
    start + min < (run acc (new sender k min max start) hist).deadline + MS := by
  have h := ok_run hist ht (ok_new acc sender k min max start)
  have h1 := T_lower' (acc := acc) (k := k) (n := (run acc (new sender k min max start) hist).n) hm
  have h2 := h.hdl
  omega

/-- C22. The sub-millisecond slack is real: with the code's formula, minimum = maximum = 1.5 ms and one
confirmation, the suspicion expires after 1 ms. -/
theorem C22_sub_ms_witness :
    (run realAccel (new 0 1 1500000 1500000 0) [(1, 0)] : Suspicion Nat).deadline < 0 + 1500000 := by
  have h : realAccel 1 1 1500000 1500000 = 1 := by
    simp only [realAccel, sub_self, mul_zero, sub_zero, MS]
    have := Nat.floor_div_eq_div (K := ℝ) 1500000 1000000
    norm_num at this ⊢
  simp [run, new, confirm, remainingSuspicionTime, h, MS]

/-- C22. Never late: if every confirmation arrives no later than the deadline in force, the deadline is
at most the maximum after the start. -/
theorem C22_not_after_max (acc : Accel) (sender : I) (k min max start : Nat)
    (ha : 1 ≤ k → AccelOk acc k min max) (hm : min ≤ max) (hist : List (I × Nat))
    (ht : ∀ e ∈ hist, start ≤ e.2)
    (hin : ∀ pre f t post, hist = pre ++ (f, t) :: post →
      t ≤ (run acc (new sender k min max start) pre).deadline) :
    (run acc (new sender k min max start) hist).deadline ≤ start + max := by
  induction hist using snoc_ind with
  | h0 => simp only [run, new, List.foldl_nil]; split <;> omega
  | h1 hist e ih =>
    have IH := ih (fun x hx => ht x (by simp [hx]))
      (fun pre f t post he => hin pre f t (post ++ [e]) (by rw [he]; simp))
    have hte := ht e (by simp)
    have hle := hin hist e.1 e.2 [] (by simp)
    have hok := ok_run hist (fun x hx => ht x (by simp [hx])) (ok_new acc sender k min max start)
    rw [run_append]
    revert IH hle hok
    generalize run acc (new sender k min max start) hist = s
    intro IH hle hok
    simp only [run, List.foldl_cons, List.foldl_nil]
    by_cases h1 : s.n < s.k
    · by_cases h2 : e.1 ∈ s.confirmations
      · rw [confirm_ignore (.inr h2)]; exact IH
      · rw [confirm_accept h1 h2 (by rw [hok.hstart]; exact hte)]
        simp only [hok.hstart, hok.hk, hok.hmin, hok.hmax]
        have hk := hok.hk
        have := T_upper (ha (by omega)) (n := s.n + 1) (by omega) hm
        rw [Nat.max_def]; split <;> omega
    · rw [confirm_ignore (.inl (by omega))]; exact IH

example : (1 ≤ 2 → AccelOk realAccel 2 (4 * MS) (24 * MS)) ∧
    (∀ e ∈ [("b", 5 * MS)], 0 ≤ e.2) ∧ 5 * MS ≤ (new "a" 2 (4 * MS) (24 * MS) 0).deadline :=
  ⟨fun h => C22_real_formula _ _ _ h (by decide), by decide, by decide⟩

/-- C22. A confirmation can only bring the deadline forward: the new deadline is no later than the old
one, or than the time of the confirmation itself when that is already past the old deadline. -/
theorem C22_confirm_brings_forward (acc : Accel) (sender : I) (k min max start : Nat)
    (ha : 1 ≤ k → AccelOk acc k min max) (hd : MS ∣ min) (hm : min ≤ max) (hist : List (I × Nat))
    (ht : ∀ e ∈ hist, start ≤ e.2) (f : I) (t : Nat) (hft : start ≤ t) :
    (run acc (new sender k min max start) (hist ++ [(f, t)])).deadline ≤
      Max.max t (run acc (new sender k min max start) hist).deadline := by
  have hok := ok_run hist ht (ok_new acc sender k min max start)
  rw [run_append]
  revert hok
  generalize run acc (new sender k min max start) hist = s
  intro hok
  simp only [run, List.foldl_cons, List.foldl_nil]
  by_cases h1 : s.n < s.k
  · by_cases h2 : f ∈ s.confirmations
    · rw [confirm_ignore (.inr h2)]; exact Nat.le_max_right _ _
    · rw [confirm_accept h1 h2 (by rw [hok.hstart]; exact hft)]
      simp only [hok.hstart, hok.hk, hok.hmin, hok.hmax]
      have hk := hok.hk
      have h3 := T_anti (ha (by omega)) (n := s.n) (by omega) hd hm
      have h4 := hok.hdl
      rw [Nat.max_def]; split <;> omega
  · rw [confirm_ignore (.inl (by omega))]; exact Nat.le_max_right _ _

/-- C22. The original accuser, a repeat confirmer, and anyone once the expected number is reached, have
no effect at all. -/
theorem C22_no_effect (acc : Accel) (sender : I) (k min max start : Nat) (hist : List (I × Nat))
    (f : I) (t : Nat)
    (h : f = sender ∨ f ∈ hist.map (·.1) ∨ k ≤ (distinctOthers sender (hist.map (·.1))).length) :
    (run acc (new sender k min max start) hist).confirm acc f t =
      (run acc (new sender k min max start) hist, .ignored) := by
  have hc := count_eq acc sender k min max start hist
  obtain ⟨hk, hn, h1, _, _, _, h5⟩ := confirmers acc sender k min max start hist
  apply confirm_ignore
  rcases h with h | h | h
  · right; rw [h]; exact h5
  · rcases Nat.lt_or_ge (run acc (new sender k min max start) hist).n k with hlt | hge
    · exact .inr ((h1 hlt f).2 (.inr h))
    · left; rw [hk]; exact hge
  · left
    rw [hk, hc]
    show k ≤ Min.min _ _
    omega

example : "a" = "a" ∨ "a" ∈ [("b", 5)].map (·.1) ∨ 2 ≤ (distinctOthers "a" ([("b", 5)].map (·.1))).length :=
  .inl rfl

/-- C22. The number of confirmations counted is the number of distinct confirmers other than the
accuser, capped at the expected number. -/
theorem C22_counts_distinct (acc : Accel) (sender : I) (k min max start : Nat) (hist : List (I × Nat)) :
    (run acc (new sender k min max start) hist).n =
      Min.min k (distinctOthers sender (hist.map (·.1))).length :=
  count_eq acc sender k min max start hist

example : distinctOthers "a" (["b", "a", "c", "b"]) = ["c", "b"] := by decide

/-- C22. A new confirmer within the expected number is accepted, reports the deadline it set, and that
deadline is at or after the confirmation. -/
theorem C22_new_confirmer_accepted (acc : Accel) (sender : I) (k min max start : Nat)
    (hist : List (I × Nat)) (f : I) (t : Nat) (hf : f ≠ sender) (hn : f ∉ hist.map (·.1))
    (hk : (distinctOthers sender (hist.map (·.1))).length < k) :
    let r := (run acc (new sender k min max start) hist).confirm acc f t
    r.2 = .accepted r.1.deadline ∧ r.1.n = (distinctOthers sender (hist.map (·.1))).length + 1 ∧
      t ≤ r.1.deadline := by
  have hc := count_eq acc sender k min max start hist
  obtain ⟨hk', hn', h1, h2, _, _, h5⟩ := confirmers acc sender k min max start hist
  revert hc hk' hn' h1 h2 h5
  generalize run acc (new sender k min max start) hist = s
  intro hc hk' hn' h1 h2 h5
  have hc : s.n = Min.min k _ := hc
  simp only [confirm]
  rw [if_neg (by rw [hk', hc]; omega), if_neg (by intro h; rcases h2 f h with h | h <;> contradiction)]
  refine ⟨rfl, ?_, by simp⟩
  show s.n + 1 = _
  rw [hc]; omega

example : "c" ≠ "a" ∧ "c" ∉ [("b", 5)].map (·.1) ∧ (distinctOthers "a" ([("b", 5)].map (·.1))).length < 2 := by
  decide

/-- C22. Once `k` distinct others have confirmed, the deadline is the minimum after the start, or the
moment of the last counted confirmation if that was later. -/
theorem C22_full_confirmation (acc : Accel) (sender : I) (k min max start : Nat)
    (ha : AccelOk acc k min max) (hd : MS ∣ min) (hist : List (I × Nat))
    (ht : ∀ e ∈ hist, start ≤ e.2) (f : I) (t : Nat) (hft : start ≤ t) (hf : f ≠ sender)
    (hn : f ∉ hist.map (·.1)) (hk : (distinctOthers sender (hist.map (·.1))).length + 1 = k) :
    (run acc (new sender k min max start) (hist ++ [(f, t)])).deadline = Max.max t (start + min) := by
  have hok := ok_run hist ht (ok_new acc sender k min max start)
  have hc := count_eq acc sender k min max start hist
  obtain ⟨hk', hn', h1, h2, _, _, h5⟩ := confirmers acc sender k min max start hist
  rw [run_append]
  revert hok hc hk' hn' h1 h2 h5
  generalize run acc (new sender k min max start) hist = s
  intro hok hc hk' hn' h1 h2 h5
  have hc : s.n = Min.min k _ := hc
  simp only [run, List.foldl_cons, List.foldl_nil]
  have hsn : s.n + 1 = k := by rw [hc]; omega
  rw [confirm_accept (by omega) (by intro h; rcases h2 f h with h | h <;> contradiction)
    (by rw [hok.hstart]; exact hft)]
  simp only [hok.hstart, hok.hk, hok.hmin, hok.hmax, hsn]
  rw [T_final ha hd]

/-- C22. Without expected confirmations the timer is fixed at the minimum. -/
theorem C22_no_confirmations_expected (acc : Accel) (sender : I) (min max start : Nat)
    (hist : List (I × Nat)) : (run acc (new sender 0 min max start) hist).deadline = start + min := by
  have : ∀ hist, run acc (new sender 0 min max start) hist = new sender 0 min max start := by
    intro hist
    induction hist with
    | nil => rfl
    | cons e hist ih =>
      simp only [run, List.foldl_cons] at ih ⊢
      rw [confirm_ignore (.inl (Nat.zero_le _))]
      exact ih
  rw [this]; simp [new]

/-- C22. The timeouts the endpoint computes: the minimum is a whole number of milliseconds and at least
`suspicion_mult` probe intervals (rounded down to the millisecond, but never to zero); the maximum is
not below the minimum when its multiplier is at least one. -/
theorem C22_timeouts_whole_ms (pi mult maxMult members : Nat) (hm : 1 ≤ maxMult)
    (hpi : 0 < pi) (hsmall : (max (pi / MS) 1) * mult ≤ 2 ^ 64 - 1) :
    let r := realSuspicionTimeouts pi mult maxMult members
    MS ∣ r.1 ∧ r.1 ≤ r.2 ∧ (max (pi / MS) 1) * mult * MS ≤ r.1 := by
  simp only [realSuspicionTimeouts]
  refine ⟨Nat.dvd_mul_left _ _, ?_, ?_⟩
  · generalize Nat.min _ _ * MS = x
    split
    · exact Nat.le_mul_of_pos_right _ hm
    · exact Nat.le_refl _
  · apply Nat.mul_le_mul_right
    refine Nat.le_min.2 ⟨?_, hsmall⟩
    apply Nat.le_floor
    rw [if_neg (by omega)]
    have h1 : (1 : ℝ) ≤ max (Real.log ((Nat.max members 1 : Nat) : ℝ) / Real.log 10) 1 := le_max_right _ _
    rw [Nat.cast_mul, Nat.cast_max, Nat.cast_one]
    have h0 : (0 : ℝ) ≤ max ((pi / MS : Nat) : ℝ) 1 * (mult : ℝ) := by positivity
    exact le_mul_of_one_le_right h0 h1

example : 1 ≤ 6 ∧ 0 < 1000 * MS ∧ (max (1000 * MS / MS) 1) * 4 ≤ 2 ^ 64 - 1 := by decide

/-- C22. In a cluster of at most ten members (log scale 1) the minimum is exactly `suspicion_mult`
probe intervals and the maximum exactly `suspicion_max_timeout_mult` times that. -/
theorem C22_timeouts_small_cluster (ms mult maxMult members : Nat) (hms : 1 ≤ ms) (hn : members ≤ 10)
    (hsmall : ms * mult ≤ 2 ^ 64 - 1) (hbig : ms * mult * MS * maxMult ≤ DURATION_MAX) :
    realSuspicionTimeouts (ms * MS) mult maxMult members = (ms * mult * MS, ms * mult * MS * maxMult) := by
  have hMS : 0 < MS := by decide
  have h1 : max (Real.log ((Nat.max members 1 : Nat) : ℝ) / Real.log 10) 1 = 1 := by
    apply max_eq_right
    rw [div_le_one (Real.log_pos (by norm_num))]
    apply Real.log_le_log
    · have : 1 ≤ Nat.max members 1 := Nat.le_max_right _ _
      exact_mod_cast this
    · have : Nat.max members 1 ≤ 10 := Nat.max_le.2 ⟨hn, by decide⟩
      exact_mod_cast this
  have h2 : max (((ms * MS / MS : Nat)) : ℝ) 1 = ms := by
    rw [Nat.mul_div_cancel _ hMS]
    apply max_eq_left
    exact_mod_cast hms
  have h3 : ms * MS ≠ 0 := by
    have : 0 < ms * MS := Nat.mul_pos hms hMS
    omega
  have h4 : Nat.min ⌊(ms : ℝ) * mult * 1⌋₊ (2 ^ 64 - 1) = ms * mult := by
    rw [mul_one]
    have : ⌊(ms : ℝ) * mult⌋₊ = ms * mult := by
      have := Nat.floor_natCast (R := ℝ) (ms * mult)
      rwa [Nat.cast_mul] at this
    rw [this]
    exact Nat.min_eq_left hsmall
  simp only [realSuspicionTimeouts, h1, if_neg h3, h2, h4]
  rw [if_pos hbig]

example : 1 ≤ 1000 ∧ 5 ≤ 10 ∧ 1000 * 4 ≤ 2 ^ 64 - 1 ∧ 1000 * 4 * MS * 6 ≤ DURATION_MAX := by decide

/-- One health signal. -/
inductive HealthOp where
  | success
  | failure (severity : Nat)

def HealthOp.apply (a : Awareness) : HealthOp → Awareness
  | .success => a.recordSuccess
  | .failure s => a.recordFailure s

/-- C23. The score stays between 0 and `max - 1` after any sequence of signals. -/
theorem C23_in_range (max : Nat) (a : Awareness) (h : Awareness.new max = some a) (ops : List HealthOp) :
    (ops.foldl HealthOp.apply a).score ≤ max - 1 ∧ (ops.foldl HealthOp.apply a).max = max := by
  have key : ∀ (ops : List HealthOp) (a : Awareness), a.score ≤ a.max - 1 →
      (ops.foldl HealthOp.apply a).score ≤ a.max - 1 ∧ (ops.foldl HealthOp.apply a).max = a.max := by
    intro ops
    induction ops with
    | nil => intro a h; exact ⟨h, rfl⟩
    | cons o ops ih =>
      intro a h
      cases o with
      | success => exact ih a.recordSuccess (by simp only [Awareness.recordSuccess]; omega)
      | failure s => exact ih (a.recordFailure s) (Nat.min_le_right _ _)
  have h0 : a.score = 0 ∧ a.max = max := by
    simp only [Awareness.new] at h
    split at h
    · injection h with h; subst h; exact ⟨rfl, rfl⟩
    · exact absurd h (by simp)
  have := key ops a (by rw [h0.1]; exact Nat.zero_le _)
  rwa [h0.2] at this

example : Awareness.new 8 = some ⟨8, 0⟩ ∧
    ([HealthOp.failure 5, .failure 9, .success].foldl HealthOp.apply ⟨8, 0⟩).score = 6 := by decide

/-- C23. Construction is refused exactly for a zero maximum. -/
theorem C23_new (max : Nat) : (Awareness.new max = none ↔ max = 0) ∧
    ∀ a, Awareness.new max = some a → a.score = 0 := by
  simp only [Awareness.new]
  constructor
  · split <;> simp <;> omega
  · intro a h
    split at h
    · injection h with h; subst h; rfl
    · exact absurd h (by simp)

/-- C23. A success lowers the score by one (down to 0); a failure raises it by its severity (up to
`max - 1`, for any score in range that fits a `u32`). -/
theorem C23_steps (a : Awareness) (severity : Nat) (h : a.score ≤ a.max - 1) (hm : a.max ≤ U32_MAX) :
    a.recordSuccess.score = a.score - 1 ∧
      (a.recordFailure severity).score = Min.min (a.score + severity) (a.max - 1) ∧
      a.recordSuccess.score ≤ a.score ∧ a.score ≤ (a.recordFailure severity).score := by
  have e : (a.recordFailure severity).score = Min.min (Min.min (a.score + severity) U32_MAX) (a.max - 1) := rfl
  refine ⟨rfl, ?_, Nat.sub_le _ _, ?_⟩ <;> omega

example : (⟨8, 3⟩ : Awareness).score ≤ 8 - 1 ∧ 8 ≤ U32_MAX := by decide

/-- C23. A scaled timeout is `score + 1` times the base, whenever that is a representable duration; then
it is never shorter than the base. -/
theorem C23_scaled_timeout (a : Awareness) (t : Nat) (h : t * (a.score + 1) ≤ DURATION_MAX) :
    a.scaleTimeout t = t * (a.score + 1) ∧ t ≤ a.scaleTimeout t := by
  simp only [Awareness.scaleTimeout, if_pos h, true_and]
  exact Nat.le_mul_of_pos_right _ (by omega)

/-- C23. Otherwise the base timeout is used; scaling never overflows and never shortens. -/
theorem C23_scaled_timeout_total (a : Awareness) (t : Nat) (ht : t ≤ DURATION_MAX) :
    t ≤ a.scaleTimeout t ∧ a.scaleTimeout t ≤ DURATION_MAX ∧
      (a.scaleTimeout t = t * (a.score + 1) ∨ a.scaleTimeout t = t) := by
  simp only [Awareness.scaleTimeout]
  split
  · rename_i h; exact ⟨Nat.le_mul_of_pos_right _ (by omega), h, .inl rfl⟩
  · exact ⟨Nat.le_refl _, ht, .inr rfl⟩

example : 1000 * MS * ((⟨8, 3⟩ : Awareness).score + 1) ≤ DURATION_MAX ∧
    (⟨8, 3⟩ : Awareness).scaleTimeout (1000 * MS) = 4000 * MS := by decide

end Verif.Props
