import Mathlib.Data.Rat.Floor
import Mathlib.Algebra.BigOperators.Group.List.Basic
import Mathlib.Algebra.Order.Ring.Rat

/-!
# Specification: balls
-/

namespace Litl.Spec

/-- The `P`-th power of the `LP` distance of two positions. -/
def distancePow (P : Nat) (p q : List Int) : ℚ := ((List.zipWith (fun x y : Int => |(x : ℚ) - (y : ℚ)| ^ P) p q).sum)

/-- `p` is in the closed ball of radius `r >= 0` and given center, for the `LP` norm. -/
def InBall (P : Nat) (r : ℚ) (center p : List Int) : Prop :=
  p.length = center.length ∧ distancePow P p center ≤ r ^ P

end Litl.Spec
