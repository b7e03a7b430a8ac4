import Verif.Model.Waiters
import Verif.Model.Pending

/-!
How the compio driver ends joins and leaves that take too long: `reap_pending_joins`, `reap_pending_leave`, the
deadlines folded into the timer and `join_reply`, memberlist-compio/src/driver/stream/mod.rs:85-160, 903-923,
2735-2803 and memberlist-compio/src/driver/shared/mod.rs:124-136. Instants are numbers.
-/

namespace Verif.Sweep

open Verif.Pending (Answer JoinNote joinReply)
open Verif.Embassy (swapRemove)

/-- `PendingJoin`, driver/stream/mod.rs:91-117; `addr_by_eid` is left out. -/
structure Join (A : Type) where
  pending : List Nat
  contacted : List A
  requested : Nat
  deadline : Nat
  caller : Nat
deriving DecidableEq, Repr

variable {A : Type}

theorem swapRemove_length {α : Type} (l : List α) (i : Nat) : (swapRemove l i).length = l.length - 1 := by
  unfold swapRemove
  split
  · rename_i h
    simp [List.getLast?_eq_none_iff.mp h]
  · simp

/-- The loop of `reap_pending_joins`, driver/stream/mod.rs:2752-2767, from the index `i`: the joins left and the replies
sent, in order. -/
def reapFrom (now : Nat) (l : List (Join A)) (i : Nat) : List (Join A) × List (Nat × Answer A) :=
  if h : i < l.length then
    if l[i].pending = [] ∨ now ≥ l[i].deadline then
      let r := reapFrom now (swapRemove l i) i
      (r.1, (l[i].caller, joinReply ⟨l[i].contacted, l[i].requested⟩) :: r.2)
    else reapFrom now l (i + 1)
  else (l, [])
termination_by l.length - i
decreasing_by
  · rw [swapRemove_length]; omega
  · omega

/-- `reap_pending_joins`. -/
def reapJoins (now : Nat) (l : List (Join A)) : List (Join A) × List (Nat × Answer A) := reapFrom now l 0

/-- `PendingLeave`, driver/stream/mod.rs:138-150. -/
structure Leave where
  repliers : List Nat
  deadline : Nat
deriving DecidableEq, Repr

/-- `reap_pending_leave`, driver/stream/mod.rs:2785-2794: what is left, and who is told that it timed out. -/
def reapLeave (now : Nat) : Option Leave → Option Leave × List Nat
  | none => (none, [])
  | some p => if now ≥ p.deadline then (none, p.repliers) else (some p, [])

/-- `min` of an iterator of options, flattened. -/
def minimum : List (Option Nat) → Option Nat
  | [] => none
  | none :: l => minimum l
  | some x :: l =>
    match minimum l with
    | none => some x
    | some y => some (min x y)

/-- `timeout_deadline`, driver/stream/mod.rs:911-923, with `min_pending_join_deadline` and `min_pending_leave_deadline`,
2773-2775 and 2801-2803. `endpoint` is the engine's deadline, if any, and `idle` the interval of idle wakes. -/
def wakeAt (now idle : Nat) (endpoint : Option Nat) (joins : List (Join A)) (leave : Option Leave) : Nat :=
  let deadline := endpoint.getD (now + idle)
  (minimum [some deadline, minimum (joins.map fun j => some j.deadline), leave.map (·.deadline)]).getD deadline

end Verif.Sweep
