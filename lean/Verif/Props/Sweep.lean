import Verif.Proof.Sweep

/-!
C124: on the compio driver a join, or a leave, waits no longer than its deadline. Stated over every table of waiting
joins and every instant.
-/

namespace Verif.Props

open Verif.Sweep
open Verif.Pending (joinReply)
open Verif.Embassy (swapRemove)

variable {A : Type}

/-- C124. A sweep answers every join that has nothing left to wait for or is out of time, once each, with the peers it
has reached; it leaves every other join as it is, and answers nobody else. -/
theorem C124_sweep (now : Nat) (l : List (Join A)) :
    (reapJoins now l).1.Perm (l.filter fun j => !isDue now j) ∧
      (reapJoins now l).2.Perm ((l.filter (isDue now)).map owed) :=
  reapFrom_spec now l 0 (by simp)

/-- C124. After a sweep no join is left whose deadline has come. -/
theorem C124_none_late (now : Nat) (l : List (Join A)) : ∀ j ∈ (reapJoins now l).1, now < j.deadline := by
  intro j hj
  have := (C124_sweep now l).1.mem_iff.mp hj
  simp [isDue] at this
  omega

/-- C124. A leave out of time is over: everyone who waits for it is told; before, nobody is. -/
theorem C124_leave (now : Nat) (p : Leave) :
    (p.deadline ≤ now → reapLeave now (some p) = (none, p.repliers)) ∧
      (now < p.deadline → reapLeave now (some p) = (some p, [])) := by
  constructor
  · intro h; simp [reapLeave, h]
  · intro h; simp [reapLeave, Nat.not_le.mpr h]

/-- C124. The driver sleeps past no deadline: not that of a waiting join, nor that of the leave, nor the engine's. -/
theorem C124_wakes (now idle : Nat) (e : Option Nat) (joins : List (Join A)) (leave : Option Leave) :
    (∀ j ∈ joins, wakeAt now idle e joins leave ≤ j.deadline) ∧
      (∀ p, leave = some p → wakeAt now idle e joins leave ≤ p.deadline) ∧
      (∀ d, e = some d → wakeAt now idle e joins leave ≤ d) ∧ (e = none → wakeAt now idle e joins leave ≤ now + idle) := by
  have hw := wakeAt_some now idle e joins leave
  have key : ∀ x, some x ∈ [some (e.getD (now + idle)), minimum (joins.map fun j => some j.deadline),
      leave.map (·.deadline)] → wakeAt now idle e joins leave ≤ x := by
    intro x hx
    obtain ⟨m, hm, hle⟩ := minimum_le _ x hx
    rw [hw] at hm
    simp only [Option.some.injEq] at hm
    omega
  refine ⟨fun j hj => ?_, fun p hp => ?_, fun d hd => ?_, fun hd => ?_⟩
  · obtain ⟨m, hm, hle⟩ := minimum_le (joins.map fun j => some j.deadline) j.deadline (List.mem_map_of_mem hj)
    exact Nat.le_trans (key m (by simp [hm])) hle
  · exact key _ (by simp [hp])
  · exact key _ (by simp [hd])
  · exact key _ (by simp [hd])

/-- C124. Nor does it spin on a join or a leave: after a sweep, the instant it sleeps to is yet to come, unless the
engine's own deadline is not. -/
theorem C124_no_spin (now idle : Nat) (e : Option Nat) (joins : List (Join A)) (leave : Option Leave)
    (he : now < e.getD (now + idle)) :
    now < wakeAt now idle e (reapJoins now joins).1 (reapLeave now leave).1 := by
  have hw := minimum_mem _ _ (wakeAt_some now idle e (reapJoins now joins).1 (reapLeave now leave).1)
  simp only [List.mem_cons, Option.some.injEq, List.not_mem_nil, or_false] at hw
  rcases hw with hw | hw | hw
  · omega
  · have := minimum_mem _ _ hw.symm
    obtain ⟨j, hj, h⟩ := List.mem_map.mp this
    have := C124_none_late now joins j hj
    simp only [Option.some.injEq] at h
    omega
  · cases leave with
    | none => simp [reapLeave] at hw
    | some p =>
      by_cases hp : now ≥ p.deadline
      · simp [reapLeave, hp] at hw
      · have hl : reapLeave now (some p) = (some p, []) := by simp [reapLeave, hp]
        rw [hl] at hw ⊢
        simp only [Option.map_some, Option.some.injEq] at hw ⊢
        omega

/-! ### A case -/

private def table : List (Join String) :=
  [⟨[1], ["a"], 2, 50, 1⟩, ⟨[2, 3], [], 2, 90, 2⟩, ⟨[], [], 1, 99, 3⟩, ⟨[4], [], 3, 40, 4⟩]

/-- At 50, the first is out of time having reached one peer, the third has nothing to wait for, the fourth is out of time
with nobody reached; the second goes on waiting. The driver then sleeps until the leave is due. -/
example : reapJoins 50 table = ([⟨[2, 3], [], 2, 90, 2⟩], [(1, .joined ["a"]), (4, .joinFailed 3), (3, .joinFailed 1)]) ∧
    wakeAt 50 100 none (reapJoins 50 table).1 (some ⟨[7, 8], 80⟩) = 80 ∧
    reapLeave 80 (some ⟨[7, 8], 80⟩) = (none, [7, 8]) := by
  simp [reapJoins, reapFrom, table, swapRemove, joinReply, wakeAt, minimum, reapLeave]

example : 50 < wakeAt 50 100 none (reapJoins 50 table).1 (reapLeave 50 (some ⟨[7, 8], 80⟩)).1 :=
  C124_no_spin 50 100 none table _ (by decide)

end Verif.Props
