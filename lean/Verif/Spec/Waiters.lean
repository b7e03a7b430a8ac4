import Verif.Model.Waiters

/-! What C117 and C118 speak about. -/

namespace Verif.Embassy

variable {E : Type}

/-- The waiters of a history. -/
def waiters (ops : List (SOp E)) : List Nat :=
  ops.filterMap fun | .ping _ w => some w | .send _ w => some w | _ => none

/-- From a state, no ping begins under an id under which a ping waits, and no send under one under which a send
waits. -/
def Fresh : Shared E → List (SOp E) → Prop
  | _, [] => True
  | s, op :: ops =>
    (match op with
      | .ping id _ => id ∉ s.pings.map (·.1)
      | .send sid _ => sid ∉ s.sends.map (·.1)
      | _ => True) ∧ Fresh (s.step op).1 ops

/-- The engine's ids tell waiting calls apart, and every call waits on a signal of its own. -/
structure Distinct (ops : List (SOp E)) : Prop where
  fresh : Fresh (Shared.new E) ops
  waiters : (waiters ops).Nodup

/-- What an operation says about the ping `id`. -/
def pingNews (id : Nat) : SOp E → Option Answer
  | .event _ (.pingCompleted k rtt) => if k = id then some (.rtt rtt) else none
  | .event _ (.pingFailed k) => if k = id then some .pingTimeout else none
  | .stop => some .notRunning
  | _ => none

/-- What an operation says about the reliable send `sid`. -/
def sendNews (sid : Nat) : SOp E → Option Answer
  | .event _ (.sendDone (some k) ok) => if k = sid then some (if ok then .sent else .sendFailed) else none
  | .stop => some .notRunning
  | _ => none

/-- The answers a waiter is given. -/
def answersOf (w : Nat) (out : List (SOut E)) : List Answer :=
  out.filterMap fun | .answer v a => if v = w then some a else none | _ => none

/-- The events the engine has told, in order. -/
def told (ops : List (SOp E)) : List E := ops.filterMap fun | .event e _ => some e | _ => none

/-- The events the application was given, in order. -/
def polled (out : List (SOut E)) : List E := out.filterMap fun | .polled e => some e | _ => none

end Verif.Embassy
