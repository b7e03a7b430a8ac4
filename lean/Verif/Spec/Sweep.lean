import Verif.Model.Sweep

/-!
What C124 speaks of.
-/

namespace Verif.Sweep

open Verif.Pending (Answer)

variable {A : Type}

/-- A join with nothing left to wait for, or out of time. -/
def isDue (now : Nat) (j : Join A) : Bool := j.pending.isEmpty || decide (j.deadline ≤ now)

/-- The answer a join is owed: the peers it has reached, or failure when there are none. -/
def owed (j : Join A) : Nat × Answer A :=
  (j.caller, if j.contacted = [] then .joinFailed j.requested else .joined j.contacted)

end Verif.Sweep
