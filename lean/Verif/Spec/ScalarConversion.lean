import Mathlib.Data.Rat.Floor
import Verif.Model.ScalarConversion

/-!
# What scalar operators are documented to compute (C99)

`a += k` "is equivalent to" applying `e + k` to each element `e` (LitlDemo/tests/src/LitlDemoPixelwise_test.cpp:39-42, and
"holds for all operators" says doc/pixelwise.dox:14), where `k` is "some scalar".
-/

namespace Litl.Spec

open Container

/-- The number which the caller wrote. -/
def scalarValue : Scalar → ℚ
  | .int k => k
  | .real x => x

/-- The integer `r` is the number `y` without its fractional part. -/
def Truncates (y : ℚ) (r : Int) : Prop := (0 ≤ y → (r : ℚ) ≤ y ∧ y < r + 1) ∧ (y ≤ 0 → y ≤ r ∧ (r : ℚ) - 1 < y)

/-- The exact value of `e op x`; the remainder is not covered. -/
def applied (op : Op) (e x : ℚ) : Option ℚ :=
  match op with
  | .add => some (e + x)
  | .sub => some (e - x)
  | .mul => some (e * x)
  | .div => if x = 0 then none else some (e / x)
  | .rem => none

/-- The elements of `w` are the exact values of `e op x` for the elements `e` of `v`, stored as values of type `t` (of which
they are). -/
def Applies (t : IntType) (op : Op) (v : List Int) (x : ℚ) (w : List Int) : Prop :=
  List.Forall₂ (fun e r : Int => ∃ y, applied op e x = some y ∧ Truncates y r ∧ t.Mem r) v w

end Litl.Spec
