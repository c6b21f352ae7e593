import Verif.Model.InterpolationRounding

/-!
# Linear interpolation of values which are not `double`s

Model of LitlTransforms/LitlTransforms/InterpolationMethods.h:98-116, where the positions are `double`s (rounding `R`), the
values have another floating point type (`T = TypeTraits<Value>::Floating`, LitlTypes/LitlTypes/TypeUtils.h:105, rounding `S`),
and the operations on both have the common type (rounding `C`): `double` for `float`, and `long double` for `long double`.
The conversions to the common type are exact.
-/

namespace Litl

variable (R S C : Rounding ℚ)

/-- `d * (p - n) + n` (LitlTransforms/LitlTransforms/InterpolationMethods.h:104, 115): the difference has the type of the values,
the product and the sum have the common type, and the result is converted to the type of the values. -/
def lerpMixed (d : Fl R) (p n : Fl S) : Fl S := Fl.of (S.fl (C.fl (C.fl (d.val * (p - n).val) + n.val)))

/-- `Linear::at` (LitlTransforms/LitlTransforms/InterpolationMethods.h:98-116), see `linearFlRev`. -/
def linearMixedRev (r : Position → Res (Fl S)) : List ℚ → Position → Res (Fl S)
  | [], _ => .error .ub
  | [x], indices => do
    let f ← floorOf x
    let p ← r (f :: indices)
    let g ← Checked.ck (f + 1)
    let n ← r (g :: indices)
    return lerpMixed R S C (offsetOf R x f) p n
  | x :: y :: pos, indices => do
    let f ← floorOf x
    let p ← linearMixedRev r (y :: pos) (f :: indices)
    let g ← Checked.ck (f + 1)
    let n ← linearMixedRev r (y :: pos) (g :: indices)
    return lerpMixed R S C (offsetOf R x f) p n

/-- `Linear::at(raster, position)` (LitlTransforms/LitlTransforms/InterpolationMethods.h:98-116). -/
def linearMixed (r : Position → Res (Fl S)) (position : List ℚ) : Res (Fl S) := linearMixedRev R S C r position.reverse []

end Litl
