import Verif.Model.Raster
import Mathlib.Algebra.Order.Floor.Ring
import Mathlib.Algebra.Field.Defs

/-!
# Extrapolation and interpolation

Model of LitlTransforms/LitlTransforms/InterpolationMethods.h.
Doubles are exact: they are elements of an ordered field.  Conversions of doubles to `Index` are those of
unbounded integers.
-/

namespace Litl

section Extrapolation

variable {α : Type _}

/-- `OutOfBoundsConstant::at` (LitlTransforms/LitlTransforms/InterpolationMethods.h:28-33). -/
def constantAt (c : α) (r : Raster α) (p : Position) : Res α :=
  if Raster.contains r.shape p then r.get p else .ok c

/-- `NearestNeighbor::at` for integral positions (LitlTransforms/LitlTransforms/InterpolationMethods.h:51-54). -/
def nearestAt (r : Raster α) (p : Position) : Res α := r.get (clampShape p r.shape)

/-- The positive modulo of `Periodic::at` (LitlTransforms/LitlTransforms/InterpolationMethods.h:82-85);
`%` is the remainder of the truncated division, undefined for a null divisor. -/
def positiveMod (p s : Int) : Res Int :=
  if s = 0 then .error .ub
  else
    let q := p.tmod s
    .ok (if q < 0 then q + s else q)

/-- `inbounds.generate(..., position, raster.shape())` (LitlTransforms/LitlTransforms/InterpolationMethods.h:80-87). -/
def periodicPosition : Position → Position → Res Position
  | p :: ps, s :: ss => do
    let q ← positiveMod p s
    let qs ← periodicPosition ps ss
    return q :: qs
  | _, _ => .ok []

/-- `Periodic::at` (LitlTransforms/LitlTransforms/InterpolationMethods.h:79-89). -/
def periodicAt (r : Raster α) (p : Position) : Res α := do
  let q ← periodicPosition p r.shape
  r.get q

end Extrapolation

section Interpolation

variable {K : Type _} [Field K] [LinearOrder K] [FloorRing K]

/-- Conversion of a double to `Index`: truncation toward zero. -/
def toIndex (x : K) : Int := if 0 ≤ x then ⌊x⌋ else ⌈x⌉

/-- `floor<Index>(in)` (LitlTypes/LitlTypes/TypeUtils.h:165-169). -/
def floorIndex (x : K) : Int := toIndex x - (if x < 0 then 1 else 0)

/-- `NearestNeighbor::at` for real positions (LitlTransforms/LitlTransforms/InterpolationMethods.h:60-66), where `r` is
the subscript operator of the raster or extrapolator. -/
def nearestInterp (r : Position → Res K) (position : List K) : Res K :=
  r (position.map fun e => toIndex (e + 1 / 2))

/-- `d * (p - n) + n` (LitlTransforms/LitlTransforms/InterpolationMethods.h:104, 115). -/
def linearFormula (d p n : K) : K := d * (p - n) + n

/-- `Linear::at` (LitlTransforms/LitlTransforms/InterpolationMethods.h:98-116).  The position is reversed: the head is
the last axis; `indices` are those of the axes above.  Dimension 0 is not supported. -/
def linearRev (r : Position → Res K) : List K → Position → Res K
  | [], _ => .error .ub
  | [x], indices => do
    let f := floorIndex x
    let d := x - f
    let p ← r (f :: indices)
    let n ← r ((f + 1) :: indices)
    return linearFormula d p n
  | x :: y :: pos, indices => do
    let f := floorIndex x
    let d := x - f
    let p ← linearRev r (y :: pos) (f :: indices)
    let n ← linearRev r (y :: pos) ((f + 1) :: indices)
    return linearFormula d p n

/-- `Linear::at(raster, position)` (LitlTransforms/LitlTransforms/InterpolationMethods.h:98-116). -/
def linearAt (r : Position → Res K) (position : List K) : Res K := linearRev r position.reverse []

/-- The formula of `Cubic::at` (LitlTransforms/LitlTransforms/InterpolationMethods.h:133, 146). -/
def cubicFormula (d pp p n nn : K) : K :=
  p + 1 / 2 * (d * (-pp + n) + d * d * (2 * pp - 5 * p + 4 * n - nn) + d * d * d * (-pp + 3 * p - 3 * n + nn))

/-- `Cubic::at` (LitlTransforms/LitlTransforms/InterpolationMethods.h:125-147), see `linearRev`. -/
def cubicRev (r : Position → Res K) : List K → Position → Res K
  | [], _ => .error .ub
  | [x], indices => do
    let f := floorIndex x
    let d := x - f
    let pp ← r ((f - 1) :: indices)
    let p ← r (f :: indices)
    let n ← r ((f + 1) :: indices)
    let nn ← r ((f + 2) :: indices)
    return cubicFormula d pp p n nn
  | x :: y :: pos, indices => do
    let f := floorIndex x
    let d := x - f
    let pp ← cubicRev r (y :: pos) ((f - 1) :: indices)
    let p ← cubicRev r (y :: pos) (f :: indices)
    let n ← cubicRev r (y :: pos) ((f + 1) :: indices)
    let nn ← cubicRev r (y :: pos) ((f + 2) :: indices)
    return cubicFormula d pp p n nn

/-- `Cubic::at(raster, position)` (LitlTransforms/LitlTransforms/InterpolationMethods.h:125-147). -/
def cubicAt (r : Position → Res K) (position : List K) : Res K := cubicRev r position.reverse []

end Interpolation

end Litl
