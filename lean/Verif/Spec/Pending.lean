import Verif.Model.Pending

/-!
What C123 speaks of, read off a history of commands and events alone.
-/

namespace Verif.Pending

variable {A : Type}

/-- The answers a caller gets, in order. -/
def answersTo (c : Nat) (out : List (Nat × Answer A)) : List (Answer A) :=
  out.filterMap fun x => if x.1 = c then some x.2 else none

/-- The callers of a history. -/
def callers (ops : List (Op A)) : List Nat :=
  ops.filterMap fun | .join c _ _ _ => some c | .send c _ _ _ => some c | .leave c _ _ => some c | _ => none

/-- The exchanges the joins of a history start. -/
def joinStarted (ops : List (Op A)) : List Nat :=
  (ops.map fun | .join _ _ _ eids => eids | _ => []).flatten

/-- The exchanges the sends of a history start. -/
def sendStarted (ops : List (Op A)) : List Nat :=
  (ops.map fun | .send _ _ _ eids => eids | _ => []).flatten

/-- The push/pull exchanges that finish in a history. -/
def syncsDone (ops : List (Op A)) : List Nat := ops.filterMap fun | .pushPull e _ _ => some e | _ => none

/-- The message exchanges that finish in a history. -/
def sendsDone (ops : List (Op A)) : List Nat := ops.filterMap fun | .userMessage e _ => some e | _ => none

/-- The peers of those of the given exchanges that succeed in a history. -/
def reached (eids : List Nat) (ops : List (Op A)) : List A :=
  ops.filterMap fun | .pushPull e p true => if e ∈ eids then some p else none | _ => none

end Verif.Pending
