import Verif.Model.Observe

/-! What C120 and C121 speak about. -/

namespace Verif.Observe

variable {E : Type}

/-- The event the driver has in hand, if it is neither passed on nor dropped. -/
def Sender.held : Sender E → List E
  | .checked e => [e]
  | .reserved e => [e]
  | _ => []

/-- The event the observation task has in hand, before its hook. -/
def Observer.held : Observer E → List E
  | .idle => []
  | .took e => [e]
  | .released e => [e]

/-- Events between the engine and the application's hooks. -/
def State.underway (s : State E) : List E := s.observer.held ++ s.chan ++ s.overflow ++ s.sender.held

/-- The payload bytes of some events. -/
def Setup.total (c : Setup E) (l : List E) : Nat := (l.map c.weight).sum

/-- An event without payload: of membership or control. -/
def Setup.control (c : Setup E) (e : E) : Bool := (c.payload e).isNone

/-- Reached from the start by some history. -/
def Reached (c : Setup E) (s : State E) : Prop := ∃ ops, s = ({} : State E).runs c ops

end Verif.Observe
