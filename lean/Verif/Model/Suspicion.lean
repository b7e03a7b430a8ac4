/-
Model of the suspicion timer and the health score.
Source: /repo/memberlist-proto/src/suspicion/mod.rs, awareness/mod.rs, endpoint/mod.rs:1221-1252
Durations and instants are natural numbers of nanoseconds.
-/
namespace Verif

/-- Nanoseconds per millisecond. Model only, no counterpart in the code: a unit of time. -/
def MS : Nat := 1000000

/-- `Duration::MAX` in nanoseconds. Standard library. -/
def DURATION_MAX : Nat := (2 ^ 64 - 1) * 1000000000 + 999999999

/-- `u32::MAX`. -/
def U32_MAX : Nat := 2 ^ 32 - 1

/-- The floating-point part of `remaining_suspicion_time`, suspicion/mod.rs:24-26: given `n`, `k`, `min`
and `max`, the value of `timeout_ms` (an integer number of milliseconds). A parameter, so that the rest
of the model is computable; `realAccel` in Model/SuspicionReal.lean is its value over the real
numbers. A negative value (only possible when `max < min`) counts as 0. -/
abbrev Accel := Nat → Nat → Nat → Nat → Nat

/-- `remaining_suspicion_time`, suspicion/mod.rs:17-32. -/
def remainingSuspicionTime (acc : Accel) (n k elapsed min max : Nat) : Nat :=
  let timeoutMs := acc n k min max
  if timeoutMs < min / MS then min - elapsed
  else timeoutMs * MS - elapsed

/-- `Suspicion<I>`, suspicion/mod.rs:40-57. -/
structure Suspicion (I : Type) where
  k : Nat
  min : Nat
  max : Nat
  start : Nat
  deadline : Nat
  confirmations : List I
  n : Nat
  deriving DecidableEq, Repr

/-- `Confirmation`, suspicion/mod.rs:63-70. -/
inductive Confirmation where
  | accepted (deadline : Nat)
  | ignored
  deriving DecidableEq, Repr

namespace Suspicion
variable {I : Type} [DecidableEq I]

/-- `Suspicion::new`, suspicion/mod.rs:110-123. -/
def new (sender : I) (k min max now : Nat) : Suspicion I :=
  { k, min, max, start := now
    deadline := now + (if k < 1 then min else max)
    confirmations := [sender]
    n := 0 }

/-- `Suspicion::confirm`, suspicion/mod.rs:133-146. -/
def confirm (acc : Accel) (s : Suspicion I) (sender : I) (now : Nat) : Suspicion I × Confirmation :=
  if s.n ≥ s.k then (s, .ignored)
  else if sender ∈ s.confirmations then (s, .ignored)
  else
    let n := s.n + 1
    let elapsed := now - s.start
    let remaining := remainingSuspicionTime acc n s.k elapsed s.min s.max
    ({ s with confirmations := sender :: s.confirmations, n, deadline := now + remaining },
      .accepted (now + remaining))

end Suspicion

/-- `Awareness`, awareness/mod.rs:13-16. -/
structure Awareness where
  max : Nat
  score : Nat
  deriving DecidableEq, Repr

namespace Awareness

/-- `Awareness::new`, awareness/mod.rs:22-25; `none` is the assertion failure. -/
def new (max : Nat) : Option Awareness := if max ≥ 1 then some { max, score := 0 } else none

/-- `record_success`, awareness/mod.rs:30-32. -/
def recordSuccess (a : Awareness) : Awareness := { a with score := a.score - 1 }

/-- `record_failure`, awareness/mod.rs:37-39 (`saturating_add` on `u32`). -/
def recordFailure (a : Awareness) (severity : Nat) : Awareness :=
  { a with score := Nat.min (Nat.min (a.score + severity) U32_MAX) (a.max - 1) }

/-- `scale_timeout`, awareness/mod.rs:61-63. -/
def scaleTimeout (a : Awareness) (timeout : Nat) : Nat :=
  let t := timeout * (a.score + 1)
  if t ≤ DURATION_MAX then t else timeout

end Awareness
end Verif
