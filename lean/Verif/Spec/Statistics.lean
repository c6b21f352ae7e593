import Mathlib.Algebra.Order.Field.Rat
import Mathlib.Algebra.BigOperators.Group.List.Basic

/-!
# Mean and variance
-/

namespace Litl.Spec

/-- The arithmetic mean. -/
def average (x : List ℚ) : ℚ := x.sum / x.length

/-- The variance, i.e. the mean of the squared deviations. -/
def dispersion (x : List ℚ) : ℚ := average (x.map fun y => (y - average x) ^ 2)

/-- The mean of the squares. -/
def power (x : List ℚ) : ℚ := average (x.map fun y => y ^ 2)

end Litl.Spec
