/-
What a drain of a retransmit queue should return, independent of how the queue is stored.
-/
namespace Verif.Spec

/-- What the drain policy looks at in a queued entry: how often it was sent, its encoded size, and its
insertion stamp. -/
class Entry (α : Type) where
  transmits : α → Nat
  size : α → Nat
  stamp : α → Nat

variable {α : Type} [Entry α]
open Entry

/-- The policy's preference: sent less often, then larger, then newer. -/
def Preferred (a b : α) : Prop :=
  transmits a < transmits b ∨
    (transmits a = transmits b ∧ (size b < size a ∨ (size a = size b ∧ stamp b < stamp a)))

/-- `Greedy overhead limit queue used out`: with `used` bytes of the budget already spent, `out` is
what a drain of `queue` returns: repeatedly the preferred entry among those that still fit, until none
fits. -/
inductive Greedy (overhead limit : Nat) : List α → Nat → List α → Prop where
  | stop {q used} (h : ∀ y ∈ q, limit < used + (size y + overhead)) : Greedy overhead limit q used []
  | pick {q q' : List α} {used : Nat} {x : α} {out : List α}
      (hq : q.Perm (x :: q')) (hfit : used + (size x + overhead) ≤ limit)
      (hbest : ∀ y ∈ q', used + (size y + overhead) ≤ limit → Preferred x y)
      (hrest : Greedy overhead limit q' (used + (size x + overhead)) out) :
      Greedy overhead limit q used (x :: out)

/-- Total charge of a list of entries. -/
def charge (overhead : Nat) (l : List α) : Nat := (l.map (fun x => size x + overhead)).sum

end Verif.Spec
