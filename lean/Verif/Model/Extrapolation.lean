import Verif.Model.InterpolationRounding

/-!
# Extrapolators and interpolators on machine numbers

Model of the decorators of LitlTransforms/LitlTransforms/Interpolation.h, with positions of type `Index` or `double`: the
computations of the extrapolation methods of LitlTransforms/LitlTransforms/InterpolationMethods.h are those of 64-bit signed
integers, whose overflows are undefined behaviour.

Simplification: decorators are functions; which objects they refer to is the matter of Model/Lifetimes.
-/

namespace Litl

namespace Checked

section

variable {α : Type _}

/-- `Raster::operator[](position)` (LitlRaster/LitlRaster/impl/Raster.hpp:98-106): the index is computed by
`IndexRecursionImpl`. -/
def get (r : Raster α) (p : Position) : Res α := do
  let i ← index r.shape p
  readAt r.data i

/-- `OutOfBoundsConstant::at` (LitlTransforms/LitlTransforms/InterpolationMethods.h:27-33). -/
def constantAt (c : α) (r : Raster α) (p : Position) : Res α :=
  if Raster.contains r.shape p then get r p else .ok c

/-- `clamp(position, shape)` (LitlRaster/LitlRaster/Box.h:311-318): the upper bounds are computed. -/
def clampShape : Position → Position → Res Position
  | p :: ps, s :: ss => do
    let b ← ck (s - 1)
    let q ← clampShape ps ss
    return clamp1 p 0 b :: q
  | _, _ => .ok []

/-- `NearestNeighbor::at` for integral positions (LitlTransforms/LitlTransforms/InterpolationMethods.h:50-54). -/
def nearestAt (r : Raster α) (p : Position) : Res α := do
  let q ← clampShape p r.shape
  get r q

/-- The positive modulo of `Periodic::at` (LitlTransforms/LitlTransforms/InterpolationMethods.h:82-85): the behaviour of `%`
is undefined if the quotient is not a value of the type. -/
def positiveMod (p s : Int) : Res Int :=
  if s = 0 then .error .ub
  else do
    let _ ← ck (p.tdiv s)
    let q := p.tmod s
    if q < 0 then ck (q + s) else .ok q

/-- `inbounds.generate(..., position, raster.shape())` (LitlTransforms/LitlTransforms/InterpolationMethods.h:80-87). -/
def periodicPosition : Position → Position → Res Position
  | p :: ps, s :: ss => do
    let q ← positiveMod p s
    let qs ← periodicPosition ps ss
    return q :: qs
  | _, _ => .ok []

/-- `Periodic::at` (LitlTransforms/LitlTransforms/InterpolationMethods.h:78-89). -/
def periodicAt (r : Raster α) (p : Position) : Res α := do
  let q ← periodicPosition p r.shape
  get r q

end

end Checked

/-- The extrapolation methods (LitlTransforms/LitlTransforms/InterpolationMethods.h:16-39, 45-54, 73-90). -/
inductive ExtrapolationMethod (α : Type _) where
  /-- `OutOfBoundsConstant(v)`. -/
  | constant (v : α)
  /-- `NearestNeighbor`. -/
  | nearest
  /-- `Periodic`. -/
  | periodic

/-- `Extrapolator::operator[](position)` (LitlTransforms/LitlTransforms/Interpolation.h:70-72). -/
def ExtrapolationMethod.at {α : Type _} (r : Raster α) : ExtrapolationMethod α → Position → Res α
  | .constant v, p => Checked.constantAt v r p
  | .nearest, p => Checked.nearestAt r p
  | .periodic, p => Checked.periodicAt r p

/-- The interpolation methods (LitlTransforms/LitlTransforms/InterpolationMethods.h:59-67, 96-117, 123-148). -/
inductive InterpolationMethod where
  /-- `NearestNeighbor`. -/
  | nearest
  /-- `Linear`. -/
  | linear
  /-- `Cubic`. -/
  | cubic

/-- `Interpolator::operator()(position)` (LitlTransforms/LitlTransforms/Interpolation.h:165-167), where `r` is the subscript
operator of the raster or extrapolator. -/
def InterpolationMethod.at (R : Rounding ℚ) (r : Position → Res (Fl R)) : InterpolationMethod → List ℚ → Res (Fl R)
  | .nearest, position => nearestFl R r position
  | .linear, position => linearFl r position
  | .cubic, position => cubicFl r position

end Litl
