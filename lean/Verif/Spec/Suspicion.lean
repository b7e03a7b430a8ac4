import Verif.Model.Suspicion
/-
What the acceleration formula of the suspicion timer must satisfy. The exact real formula does
(`Props.C22_real_formula`); so does any rounding of it that is monotone.
-/
namespace Verif.Spec

/-- With `k` expected confirmations the timeout (in whole milliseconds) shrinks as confirmations arrive,
never exceeds `max`, and is down to `min` once all `k` have arrived. -/
structure AccelOk (acc : Accel) (k min max : Nat) : Prop where
  shrink : ∀ n, 1 ≤ n → n < k → acc (n + 1) k min max ≤ acc n k min max
  upper : ∀ n, 1 ≤ n → n ≤ k → acc n k min max * MS ≤ max
  final : acc k k min max ≤ min / MS

/-- Distinct elements of a list other than `a`, in order of last occurrence. -/
def distinctOthers {I : Type} [DecidableEq I] (a : I) : List I → List I
  | [] => []
  | x :: l => if x = a ∨ x ∈ l then distinctOthers a l else x :: distinctOthers a l

end Verif.Spec
