import Verif.Model.Clock

/-!
C119: a driver that sleeps until the instant it was given wakes in time. Stated over every rate of the clock and
every deadline. Instants are nanoseconds since the origin; `machine hz tick` is the instant the machine is told
when the clock reads `tick`.
-/

namespace Verif.Props

open Verif.Clock

/-- C119, embassy. The timer is never set later than a tick at which the deadline has been reached. The clock's
reading fits its 64 bits, in ticks and in microseconds. -/
theorem C119_embassy_in_time (r : Rounding) (hz deadline tick : Nat) (hz0 : 0 < hz)
    (ht : tick ≤ 2 ^ 64 - 1) (hu : tick * 1000000 / hz ≤ 2 ^ 64 - 1) (hd : deadline ≤ machine hz tick) :
    machineToRaw r hz deadline ≤ tick := by
  unfold machine at hd
  have h1 : deadline / 1000 ≤ tick * 1000000 / hz := by omega
  have h2 : deadline / 1000 * hz ≤ tick * 1000000 := (Nat.le_div_iff_mul_le hz0).mp h1
  have h3 : ticksOf r hz (deadline / 1000) ≤ tick := by
    cases r <;> simp only [ticksOf]
    · exact Nat.le_trans (Nat.div_le_div_right h2) (by omega)
    · omega
  unfold machineToRaw maxU64
  simp only
  split
  · split
    · exact h3
    · next h => exact absurd (Nat.le_trans h3 ht) h
  · next h => exact absurd (Nat.le_trans h1 hu) h

example : (1500 : Nat) ≤ machine 1000000 2 ∧ machineToRaw .down 1000000 1500 = 1 := by decide

/-- C119, embassy. Nor is it set much too early: when the ticks of one more microsecond and one more have passed, the
deadline has been reached. Until then the pump finds nothing due and asks for the same deadline again. -/
theorem C119_embassy_soon (r : Rounding) (hz deadline tick : Nat) (hz0 : 0 < hz)
    (hs : machineToRaw r hz deadline < 2 ^ 64 - 1)
    (ht : machineToRaw r hz deadline + 1 + (hz + 999999) / 1000000 ≤ tick) : deadline ≤ machine hz tick := by
  have hraw : machineToRaw r hz deadline = ticksOf r hz (deadline / 1000) := by
    unfold machineToRaw maxU64 at hs ⊢
    simp only at hs ⊢
    split at hs
    · next h =>
      split at hs
      · next h' => rw [if_pos h, if_pos h']
      · omega
    · omega
  rw [hraw] at ht
  have h1 : deadline / 1000 * hz ≤ (ticksOf r hz (deadline / 1000) + 1) * 1000000 := by
    cases r <;> simp only [ticksOf] <;> omega
  have h2 : (deadline / 1000 + 1) * hz ≤ tick * 1000000 := by
    rw [Nat.add_mul, Nat.one_mul]
    omega
  have h3 : deadline / 1000 + 1 ≤ tick * 1000000 / hz := (Nat.le_div_iff_mul_le hz0).mpr h2
  unfold machine
  omega

/-- C119, embassy. If ticks are rounded up, as `embassy_time` documents, and the deadline is a whole number of
microseconds, the deadline has been reached as soon as the timer fires. -/
theorem C119_embassy_exact (hz us tick : Nat) (hz0 : 0 < hz)
    (hs : machineToRaw .up hz (us * 1000) < 2 ^ 64 - 1) (ht : machineToRaw .up hz (us * 1000) ≤ tick) :
    us * 1000 ≤ machine hz tick := by
  have hus : us * 1000 / 1000 = us := by omega
  have hraw : machineToRaw .up hz (us * 1000) = ticksOf .up hz us := by
    unfold machineToRaw maxU64 at hs ⊢
    simp only [hus] at hs ⊢
    split at hs
    · next h =>
      split at hs
      · next h' => rw [if_pos h, if_pos h']
      · omega
    · omega
  rw [hraw] at ht
  simp only [ticksOf] at ht
  have h2 : us * hz ≤ tick * 1000000 := by omega
  have h3 : us ≤ tick * 1000000 / hz := (Nat.le_div_iff_mul_le hz0).mpr h2
  unfold machine
  omega

/-- At 32768 ticks a second: the timer for 100 ms. -/
example : machineToRaw .up 32768 100000000 = 3277 ∧ machineToRaw .down 32768 100000000 = 3276 ∧
    machine 32768 3276 < 100000000 ∧ 100000000 ≤ machine 32768 3277 := by decide

/-- C119, embassy. A later deadline is never given an earlier timer, however far away. -/
theorem C119_embassy_order (r : Rounding) (hz d d' : Nat) (h : d ≤ d') :
    machineToRaw r hz d ≤ machineToRaw r hz d' := by
  have h1 : d / 1000 ≤ d' / 1000 := Nat.div_le_div_right h
  have h2 : d / 1000 * hz ≤ d' / 1000 * hz := Nat.mul_le_mul_right hz h1
  have h3 : ticksOf r hz (d / 1000) ≤ ticksOf r hz (d' / 1000) := by
    cases r <;> simp only [ticksOf]
    · exact Nat.div_le_div_right h2
    · exact Nat.div_le_div_right (by omega)
  unfold machineToRaw
  simp only
  split <;> split <;> (try split) <;> (try split) <;> omega

/-- Deadlines beyond the clock get its last tick. -/
example : machineToRaw .up 1000000 (2 ^ 75) = 2 ^ 64 - 1 ∧ machineToRaw .up 1000000 (2 ^ 73) < 2 ^ 64 - 1 := by
  decide

/-- C119, smoltcp. A caller that sleeps until the instant `poll` returned sleeps past no deadline of the engine. -/
theorem C119_smoltcp_engine (stack : Option Nat) (d : Nat) : ∃ w, pollWake stack (some d) = some w ∧ w ≤ d := by
  cases stack with
  | none => exact ⟨d, rfl, Nat.le_refl d⟩
  | some p => exact ⟨_, rfl, Nat.min_le_right _ _⟩

/-- C119, smoltcp. Nor past an instant at which the stack would see its own deadline `p` reached. -/
theorem C119_smoltcp_stack (next : Option Nat) (p : Nat) :
    ∃ w, pollWake (some p) next = some w ∧ ∀ now, p ≤ toSmoltcp now → w ≤ now := by
  have key : ∀ now, p ≤ toSmoltcp now → fromSmoltcp p ≤ now := by
    intro now h
    unfold toSmoltcp at h
    unfold fromSmoltcp
    omega
  cases next with
  | none => exact ⟨_, rfl, key⟩
  | some d => exact ⟨_, rfl, fun now h => Nat.le_trans (Nat.min_le_left _ _) (key now h)⟩

/-- C119, smoltcp. It is not woken for nothing: what it is woken for is a deadline of the engine, at that instant, or
one of the stack, which the stack sees reached within a millisecond. -/
theorem C119_smoltcp_soon (stack next : Option Nat) (w : Nat) (h : pollWake stack next = some w) :
    next = some w ∨ ∃ p, stack = some p ∧ ∀ now, w + 1000000 ≤ now → p ≤ toSmoltcp now := by
  have key : ∀ p now, fromSmoltcp p + 1000000 ≤ now → p ≤ toSmoltcp now := by
    intro p now h
    unfold fromSmoltcp at h
    unfold toSmoltcp
    omega
  cases stack with
  | none =>
    left
    cases next <;> exact h
  | some p =>
    cases next with
    | none =>
      right
      simp only [pollWake, Option.map_some, minOpt, Option.some.injEq] at h
      subst h
      exact ⟨p, rfl, key p⟩
    | some d =>
      simp only [pollWake, Option.map_some, minOpt, Option.some.injEq] at h
      by_cases hd : d ≤ fromSmoltcp p
      · left
        rw [Nat.min_eq_right hd] at h
        rw [h]
      · right
        rw [Nat.min_eq_left (by omega)] at h
        subst h
        exact ⟨p, rfl, key p⟩

/-- C119, smoltcp. It sleeps without end only if neither has a deadline. -/
theorem C119_smoltcp_none (stack next : Option Nat) :
    pollWake stack next = none ↔ stack = none ∧ next = none := by
  cases stack <;> cases next <;> simp [pollWake, minOpt]

example : pollWake (some 2500) (some 7000000) = some 2000000 ∧ toSmoltcp 2999999 = 2000 ∧
    2500 ≤ toSmoltcp 3000000 := by decide

end Verif.Props
