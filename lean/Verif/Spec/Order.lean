import Mathlib.Order.Defs.LinearOrder
import Mathlib.Data.List.Sort
import Mathlib.Data.Rat.Floor

/-!
# Specification of order statistics
-/

namespace Litl.Spec

variable {α : Type} [LinearOrder α]

/-- `x` is the `n`-th smallest value of `data` (from 0): at most `n` values are less than `x`, and more than `n` values
are less than or equal to `x`. -/
def IsNth (data : List α) (n : Nat) (x : α) : Prop :=
  data.countP (· < x) ≤ n ∧ n < data.countP (· ≤ x)

/-- `r` is the linear interpolation at abscissa `q * (size - 1)` of the sorted data. -/
def IsQuantile (data : List ℚ) (q r : ℚ) : Prop :=
  ∃ (k : Nat) (t x y : ℚ), 0 ≤ t ∧ t < 1 ∧ q * ((data.length : ℚ) - 1) = k + t ∧ IsNth data k x ∧
    (t = 0 ∨ IsNth data (k + 1) y) ∧ r = (1 - t) * x + t * y

/-- `m` is the median: the middle value, or the average of both middle values. -/
def IsMedian (data : List ℚ) (m : ℚ) : Prop :=
  (∃ k, data.length = 2 * k + 1 ∧ IsNth data k m) ∨
  (∃ k x y, data.length = 2 * k + 2 ∧ IsNth data k x ∧ IsNth data (k + 1) y ∧ m = (x + y) / 2)

/-- The number of values in `[a, b)`. -/
def countIn (data : List α) (a b : α) : Nat := data.countP fun x => a ≤ x ∧ x < b

/-- The number of values in `[a, b]`. -/
def countInClosed (data : List α) (a b : α) : Nat := data.countP fun x => a ≤ x ∧ x ≤ b

/-- The counts of the bins, all of them half-open. -/
def halfOpenCounts (data : List α) : List α → List Nat
  | [] => []
  | [_] => []
  | a :: b :: bins => countIn data a b :: halfOpenCounts data (b :: bins)

/-- The counts of the bins, half-open but for the last one. -/
def binCounts (data : List α) : List α → List Nat
  | [] => []
  | [_] => []
  | [a, b] => [countInClosed data a b]
  | a :: b :: bins => countIn data a b :: binCounts data (b :: bins)

end Litl.Spec
