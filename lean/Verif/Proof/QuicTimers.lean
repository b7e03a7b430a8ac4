import Verif.Proof.QuicResidue
import Verif.Spec.QuicTime
/-
What the refreshed timers of the QUIC node are.
-/
namespace Verif.Quic
open Verif Spec
variable {I A : Type} [DecidableEq I] [DecidableEq A] {Q : Quinn A}

/-- What the timers of a refreshed node are. -/
theorem quic_timers (s : Quic I Q) (k : TimerKey) : s.refresh.index.deadlineOf k =
    match k with
    | .endpoint => s.ep.pollTimeout
    | .immediateDue => if s.unattempted > 0 ∨ s.eventful ≠ [] then s.lastNow else none
    | .catchup => s.catchupAt
    | k => s.index.deadlineOf k := by
  show (((s.index.set .endpoint s.ep.pollTimeout).set .immediateDue
    (if s.unattempted > 0 ∨ s.eventful ≠ [] then s.lastNow else none)).set .catchup s.catchupAt).deadlineOf k = _
  rw [DeadlineIndex.deadlineOf_set, DeadlineIndex.deadlineOf_set, DeadlineIndex.deadlineOf_set]
  cases k <;> simp

theorem quic_atOnce {s : Quic I Q} (hb : BooksInv s) (hh : s.hand = []) :
    s.unattempted > 0 ↔ ∃ d ∈ waitingDials s, d.attempted = false := by
  have hw : s.waiting = waitingDials s := by
    unfold Quic.waiting waitingDials flat; rw [hh, List.append_nil]
  rw [hb.un, hw]
  unfold untried
  rw [gt_iff_lt, List.countP_pos_iff]
  simp

end Verif.Quic
