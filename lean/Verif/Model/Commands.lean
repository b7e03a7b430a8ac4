/-!
The queue of commands between the handles and the driver of the reactor driver: `Inner` with `push_command`,
`drain_commands`, `close_and_drain` and `wake_driver` of memberlist-reactor/src/shared/mod.rs:24-115, 179-183. Each
runs under one lock, so that a history is any sequence of them. Wakers are named by the task they wake: two are the
same number when one `will_wake` the other.
-/

namespace Verif.Commands

/-- `Inner`, shared/mod.rs:24-30. -/
structure Queue (K : Type) where
  commands : List K := []
  waker : Option Nat := none
  closed : Bool := false
deriving DecidableEq, Repr

/-- A call. -/
inductive Call (K : Type) where
  | push (k : K)
  | drain (task : Nat)
  | close
  | wake
deriving DecidableEq, Repr

/-- What comes of a call: whether a push is accepted, the commands the driver is handed, and a task woken. -/
inductive Out (K : Type) where
  | accepted (k : K)
  | refused (k : K)
  | handed (ks : List K)
  | woken (task : Nat)
deriving DecidableEq, Repr

variable {K : Type}

/-- `waker.take()` and the wake of what was there, shared/mod.rs:92-94, 180-182. -/
def Queue.rouse (q : Queue K) : Queue K × List (Out K) :=
  match q.waker with
  | some t => ({ q with waker := none }, [.woken t])
  | none => (q, [])

/-- One call. -/
def Queue.step (q : Queue K) : Call K → Queue K × List (Out K)
  -- `push_command`, shared/mod.rs:86-96
  | .push k =>
    if q.closed then (q, [.refused k])
    else
      let (q', out) := Queue.rouse { q with commands := q.commands ++ [k] }
      (q', .accepted k :: out)
  -- `drain_commands`, shared/mod.rs:100-107
  | .drain t =>
    let waker := match q.waker with
      | some w => if w = t then some w else some t
      | none => some t
    ({ q with commands := [], waker }, [.handed q.commands])
  -- `close_and_drain`, shared/mod.rs:111-115
  | .close => ({ q with commands := [], closed := true }, [.handed q.commands])
  -- `wake_driver`, shared/mod.rs:179-183
  | .wake => q.rouse

/-- A history. -/
def Queue.runs (q : Queue K) : List (Call K) → Queue K × List (Out K)
  | [] => (q, [])
  | c :: cs => (((q.step c).1.runs cs).1, (q.step c).2 ++ ((q.step c).1.runs cs).2)

end Verif.Commands
