import Verif.Model.Interpolation
import Verif.Model.Overflow
import Verif.Model.Rounding

/-!
# Interpolation in floating point arithmetic

Model of LitlTransforms/LitlTransforms/InterpolationMethods.h, where positions and values are floating point numbers: the
operations are rounded, conversions to `Index` of numbers out of the range of the type are undefined behaviour, and so are
overflows of indices.
The value type is `double`, as the positions.

Simplification: there are no infinities or NaNs, and products and sums are not contracted.
-/

namespace Litl

variable {R : Rounding ℚ}

/-- `-pp` (LitlTransforms/LitlTransforms/InterpolationMethods.h:133, 146): not rounded. -/
instance : Neg (Fl R) := ⟨fun x => Fl.of (-x.val)⟩

theorem Fl.val_neg (x : Fl R) : (-x).val = -x.val := rfl

/-- Conversion of a `double` to `Index` (LitlTransforms/LitlTransforms/InterpolationMethods.h:61-64,
LitlTypes/LitlTypes/TypeUtils.h:167): the fractional part is discarded; the behaviour is undefined if the result is not a
value of the type. -/
def indexOf (x : ℚ) : Res Int := Checked.ck (toIndex x)

/-- `floor<Index>(in)` (LitlTypes/LitlTypes/TypeUtils.h:165-169). -/
def floorOf (x : ℚ) : Res Int := do
  let out ← indexOf x
  Checked.ck (out - (if x < 0 then 1 else 0))

/-- `NearestNeighbor::at` for real positions (LitlTransforms/LitlTransforms/InterpolationMethods.h:60-66), where `r` is
the subscript operator of the raster or extrapolator. -/
def nearestFl (R : Rounding ℚ) (r : Position → Res (Fl R)) (position : List ℚ) : Res (Fl R) := do
  let integral ← position.mapM fun e => indexOf (R.fl (e + 1 / 2))
  r integral

/-- `position.front() - f` (LitlTransforms/LitlTransforms/InterpolationMethods.h:101, 111, 128, 138), where `f` is converted
to `double`. -/
def offsetOf (R : Rounding ℚ) (x : ℚ) (f : Int) : Fl R := Fl.of (R.fl (x - R.fl f))

/-- `d * (p - n) + n` (LitlTransforms/LitlTransforms/InterpolationMethods.h:104, 115). -/
def linearFormulaFl (d p n : Fl R) : Fl R := d * (p - n) + n

/-- `Linear::at` (LitlTransforms/LitlTransforms/InterpolationMethods.h:98-116).  The position is reversed: the head is
the last axis; `indices` are those of the axes above.  Dimension 0 is not supported. -/
def linearFlRev (r : Position → Res (Fl R)) : List ℚ → Position → Res (Fl R)
  | [], _ => .error .ub
  | [x], indices => do
    let f ← floorOf x
    let p ← r (f :: indices)
    let g ← Checked.ck (f + 1)
    let n ← r (g :: indices)
    return linearFormulaFl (offsetOf R x f) p n
  | x :: y :: pos, indices => do
    let f ← floorOf x
    let p ← linearFlRev r (y :: pos) (f :: indices)
    let g ← Checked.ck (f + 1)
    let n ← linearFlRev r (y :: pos) (g :: indices)
    return linearFormulaFl (offsetOf R x f) p n

/-- `Linear::at(raster, position)` (LitlTransforms/LitlTransforms/InterpolationMethods.h:98-116). -/
def linearFl (r : Position → Res (Fl R)) (position : List ℚ) : Res (Fl R) := linearFlRev r position.reverse []

/-- The formula of `Cubic::at` (LitlTransforms/LitlTransforms/InterpolationMethods.h:133, 146); the integers are converted to
`double`. -/
def cubicFormulaFl (d pp p n nn : Fl R) : Fl R :=
  p + Fl.of (1 / 2) * (d * (-pp + n)
    + d * d * (((2 : Nat) : Fl R) * pp - ((5 : Nat) : Fl R) * p + ((4 : Nat) : Fl R) * n - nn)
    + d * d * d * (-pp + ((3 : Nat) : Fl R) * p - ((3 : Nat) : Fl R) * n + nn))

/-- `Cubic::at` (LitlTransforms/LitlTransforms/InterpolationMethods.h:125-147), see `linearFlRev`. -/
def cubicFlRev (r : Position → Res (Fl R)) : List ℚ → Position → Res (Fl R)
  | [], _ => .error .ub
  | [x], indices => do
    let f ← floorOf x
    let e ← Checked.ck (f - 1)
    let pp ← r (e :: indices)
    let p ← r (f :: indices)
    let g ← Checked.ck (f + 1)
    let n ← r (g :: indices)
    let h ← Checked.ck (f + 2)
    let nn ← r (h :: indices)
    return cubicFormulaFl (offsetOf R x f) pp p n nn
  | x :: y :: pos, indices => do
    let f ← floorOf x
    let e ← Checked.ck (f - 1)
    let pp ← cubicFlRev r (y :: pos) (e :: indices)
    let p ← cubicFlRev r (y :: pos) (f :: indices)
    let g ← Checked.ck (f + 1)
    let n ← cubicFlRev r (y :: pos) (g :: indices)
    let h ← Checked.ck (f + 2)
    let nn ← cubicFlRev r (y :: pos) (h :: indices)
    return cubicFormulaFl (offsetOf R x f) pp p n nn

/-- `Cubic::at(raster, position)` (LitlTransforms/LitlTransforms/InterpolationMethods.h:125-147). -/
def cubicFl (r : Position → Res (Fl R)) (position : List ℚ) : Res (Fl R) := cubicFlRev r position.reverse []

end Litl
