import Mathlib.Algebra.Order.Field.Basic
import Mathlib.Algebra.Order.Ring.Abs
import Mathlib.Data.Rat.Cast.Order

/-!
# Specification of rounding to nearest, ties to even

Independent of the computation of `Binary.fl`: no exponent, no mantissa of the argument.
-/

namespace Litl.Spec

/-- The finite numbers of a binary format of `p` bits, whose smallest positive number is `2 ^ emin` (the largest exponent is
not bounded). -/
def IsNumber (p : Nat) (emin : Int) (y : ℚ) : Prop := ∃ m e : Int, |m| < 2 ^ p ∧ emin ≤ e ∧ y = m * 2 ^ e

/-- `y` is the number which is nearest to `x`; of two nearest numbers, it is the even one, i.e. an even multiple of their
distance. -/
def IsNearest (p : Nat) (emin : Int) (x y : ℚ) : Prop :=
  IsNumber p emin y ∧ ∀ z, IsNumber p emin z → |y - x| ≤ |z - x| ∧
    (z ≠ y → |y - x| = |z - x| → ∃ n : Int, y = 2 * n * |y - z|)

end Litl.Spec
