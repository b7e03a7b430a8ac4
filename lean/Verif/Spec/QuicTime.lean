import Verif.Spec.Quic
import Verif.Spec.Node
/-
Specification vocabulary for the timers of the QUIC node.

`bridges` are the reliable exchanges in progress, each on its stream; `queued` marks one that has work and waits for its
turn. `lastNow` is the latest instant the node was told of. `eventful` are the connections with events not read yet.
What one call leaves undone because of its budgets is left for a later wake-up: `ready` (exchanges), `freed` and
`readyDials` (peers with dials); `catchupAt` is the time set for it.
-/
namespace Verif.Spec
variable {I A : Type} {Q : Quinn A}

/-- Work was left for a later wake-up. -/
def LeftOver (s : Quic I Q) : Prop := s.ready ≠ [] ∨ s.freed ≠ [] ∨ s.readyDials ≠ []

/-- A point in time at which the QUIC node has something to do: its endpoint has; an exchange runs out; a waiting dial is
to be tried again or given up; a timer of a QUIC connection fires; at once, for a dial never tried or unread events; or
the work that was left over is resumed. -/
inductive QDue [DecidableEq I] [DecidableEq A] (cfg : Cfg I A) (s : Quic I Q) : Nat → Prop
  | endpoint (t : Nat) : s.ep.isRunning = true → Due cfg s.ep t → QDue cfg s t
  | exchange (x : Nat) (b : QBridge I A) (t : Nat) : s.bridges.get? x = some b → b.queued = false → b.pollTimeout = some t →
      QDue cfg s t
  | dial (d : QDial A) : d ∈ waitingDials s → QDue cfg s d.wake
  | connection (ch : Nat) (e : QConn Q.C Q.V A) (t : Nat) : s.pool.table.conns.get? ch = some e → Q.pollTimeout e.conn = some t →
      QDue cfg s t
  | atOnce (t : Nat) : s.lastNow = some t → (∃ d ∈ waitingDials s, d.attempted = false) ∨ s.eventful ≠ [] → QDue cfg s t
  | leftOver (t : Nat) : s.catchupAt = some t → QDue cfg s t

/-- Something of the node has run out: an exchange that has not ended and has all its work done, or a waiting dial. -/
def Overdue (s : Quic I Q) (now : Nat) : Prop :=
  (∃ x b, s.bridges.get? x = some b ∧ b.isTerminal = false ∧ b.queued = false ∧ b.deadline ≤ now) ∨
  (∃ d ∈ waitingDials s, d.deadline ≤ now)

end Verif.Spec
