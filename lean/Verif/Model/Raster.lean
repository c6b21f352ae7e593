import Verif.Model.Box

/-!
# `Litl::Raster`: indexing, access

Model of LitlRaster/LitlRaster/Raster.h and LitlRaster/LitlRaster/impl/Raster.hpp.
-/

namespace Litl

/-- `Internal::IndexRecursionImpl<N, I>::index` for a fixed dimension `N >= 1`
(LitlRaster/LitlRaster/impl/Raster.hpp:25-50).  The head of the lists is axis `N - 1 - I`;
`I = 0` is the terminal case, which ignores the length of the last axis.
The last equation is unreachable: both lists have length `N >= 1`. -/
def index : Position → Position → Int
  | [_], [p] => p
  | s :: ss, p :: ps => p + s * index ss ps
  | _, _ => 0

/-- `Internal::IndexRecursionImpl<-1, I>::index` (LitlRaster/LitlRaster/impl/Raster.hpp:55-70):
the loop runs over the axes backward, `res = pos[n - 1 - j] + shape[n - 1 - j] * res`. -/
def indexVariable (shape pos : Position) : Res Int :=
  if pos.length ≠ shape.length then .error .sizeError
  else .ok ((List.zip pos.reverse shape.reverse).foldl (fun res ps => ps.1 + ps.2 * res) 0)

/-- `Litl::Raster<T, N>` (LitlRaster/LitlRaster/Raster.h:148-408): a shape and contiguous data. -/
structure Raster (α : Type _) where
  shape : Position
  data : List α
deriving DecidableEq, Repr

namespace Raster

variable {α : Type _}

/-- `Raster::dimension` (LitlRaster/LitlRaster/impl/Raster.hpp:88-90). -/
def dimension (r : Raster α) : Nat := r.shape.length

/-- `Raster::domain` of a raster of shape `s` (LitlRaster/LitlRaster/impl/Raster.hpp:83-85);
`N` is the template parameter (-1 for a variable dimension). -/
def domainOf (N : Int) (s : Position) : Box := Box.fromShape (Position.zero N) s

/-- `Raster::domain` for a fixed dimension (LitlRaster/LitlRaster/impl/Raster.hpp:83-85). -/
def domain (r : Raster α) : Box := domainOf r.shape.length r.shape

/-- `Raster::contains` for integral positions (LitlRaster/LitlRaster/Raster.h:254-262);
the position has the dimension of the raster. -/
def contains (s p : Position) : Bool :=
  (List.zip p s).all fun ps => !(ps.1 < 0 || ps.1 ≥ ps.2)

/-- `Raster::operator[](position)` (LitlRaster/LitlRaster/impl/Raster.hpp:104-111). -/
def get (r : Raster α) (p : Position) : Res α := readAt r.data (index r.shape p)

/-- `raster[position] = value` (LitlRaster/LitlRaster/impl/Raster.hpp:109-111). -/
def set (r : Raster α) (p : Position) (x : α) : Res (Raster α) := do
  let d ← writeAt r.data (index r.shape p) x
  return ⟨r.shape, d⟩

/-- The loop of `Raster::at` (LitlRaster/LitlRaster/impl/Raster.hpp:115-123):
computation of `boundedPos`, axis by axis, with bound checking. -/
def boundedPos : Position → Position → Res Position
  | s :: ss, p :: ps =>
    if p < -s ∨ p > s - 1 then .error .outOfBounds
    else do
      let b := if p < 0 then p + s else p
      let bs ← boundedPos ss ps
      return b :: bs
  | _, _ => .ok []

/-- `Raster::at(position)` (LitlRaster/LitlRaster/impl/Raster.hpp:114-130). -/
def «at» (r : Raster α) (p : Position) : Res α := do
  let b ← boundedPos r.shape p
  r.get b

end Raster

end Litl
