import Verif.Model.Suspicion
import Mathlib.Analysis.SpecialFunctions.Log.Basic
/-
The floating-point formulas of the suspicion timer over the real numbers. Rounding of `f64` is not
modelled.
Source: /repo/memberlist-proto/src/suspicion/mod.rs:24-26, endpoint/mod.rs:1221-1252
-/
namespace Verif

/-- suspicion/mod.rs:24-26 over the reals: `floor((max - ln(n+1)/ln(k+1) * (max - min)) * 1000)` with
`min`, `max` in seconds; here they are in nanoseconds, so the factor is `1/MS`. -/
noncomputable def realAccel : Accel := fun n k min max =>
  ⌊((max : ℝ) - Real.log (n + 1) / Real.log (k + 1) * ((max : ℝ) - min)) / MS⌋₊

/-- `suspicion_timeouts`, endpoint/mod.rs:1222-1252, for `members` tracked members; returns
`(min, max)` in nanoseconds. `as u64` saturates. -/
noncomputable def realSuspicionTimeouts (probeInterval suspicionMult maxTimeoutMult members : Nat) :
    Nat × Nat :=
  let n : ℝ := (Nat.max members 1 : Nat)
  let nodeScale : ℝ := max (Real.log n / Real.log 10) 1
  let intervalMs : ℝ := if probeInterval = 0 then 0 else max ((probeInterval / MS : Nat) : ℝ) 1
  let minMs : Nat := Nat.min ⌊intervalMs * suspicionMult * nodeScale⌋₊ (2 ^ 64 - 1)
  let min := minMs * MS
  let max := if min * maxTimeoutMult ≤ DURATION_MAX then min * maxTimeoutMult else min
  (min, max)

end Verif
