import Verif.Model.Raster
import Verif.Model.Machine

/-!
# `Litl::Raster`: construction and comparison

Model of LitlRaster/LitlRaster/Raster.h:190-227, 415-428 and LitlContainer/LitlContainer/Holders.h.
-/

namespace Litl

/-- `SizeError::mayThrow` (LitlContainer/LitlContainer/Holders.h:23-27); both arguments are converted to
`std::size_t`. -/
def SizeError.mayThrow (size ref : Int) : Res Unit :=
  if u64 size ≠ u64 ref then .error .sizeError else .ok ()

namespace Raster

variable {α β : Type _}

/-- `Raster(shape)` (LitlRaster/LitlRaster/Raster.h:190-191) with the default holder `std::vector`, which
value-initialises its elements (LitlContainer/LitlContainer/Holders.h:78).
The vector cannot be allocated if the size is above its maximum, 2^63 - 1. -/
def ofShape (zero : α) (s : Position) : Res (Raster α) :=
  let n := u64 (shapeSize s)
  if n ≥ 2 ^ 63 then .error .stdError else .ok ⟨s, List.replicate n.toNat zero⟩

/-- `Raster(shape, std::move(vector))` (LitlRaster/LitlRaster/Raster.h:190-191,
LitlContainer/LitlContainer/Holders.h:87-89): the size of the vector is compared to the size of the shape before
the latter is moved. -/
def ofContainer (s : Position) (values : List α) : Res (Raster α) := do
  SizeError.mayThrow values.length (shapeSize s)
  return ⟨s, values⟩

/-- What remains of a `Position<N>` after a move: a `std::array` is copied, a `std::vector` (`N = -1`) is left
empty (LitlRaster/LitlRaster/Vector.h:20, 61). -/
def movedFrom (N : Int) (s : Position) : Position := if N = -1 then [] else s

/-- `Raster(shape, list)` and `Raster(shape, iterable)` (LitlRaster/LitlRaster/Raster.h:206-209, 224-227):
the values are copied, the shape is moved to `m_shape`, and then the size of the moved-from parameter is checked. -/
def ofList (N : Int) (s : Position) (values : List α) : Res (Raster α) := do
  let r : Raster α := ⟨s, values⟩
  SizeError.mayThrow values.length (shapeSize (movedFrom N s))
  return r

/-- `Raster(shape, pointer)` (LitlRaster/LitlRaster/Raster.h:190-191,
LitlContainer/LitlContainer/Holders.h:78-82): as many elements as the shape has are copied from the pointed data. -/
def ofPointer (s : Position) (buffer : List α) : Res (Raster α) :=
  let n := u64 (shapeSize s)
  if n ≥ 2 ^ 63 then .error .stdError
  else if n.toNat ≤ buffer.length then .ok ⟨s, buffer.take n.toNat⟩
  else .error .ub

/-- `std::equal` on two pairs of random access iterators. -/
def stdEqual (eq : α → β → Bool) : List α → List β → Bool
  | [], [] => true
  | a :: l, b :: m => eq a b && stdEqual eq l m
  | _, _ => false

/-- `operator==` for rasters (LitlRaster/LitlRaster/Raster.h:415-420); shapes are compared with
`ContiguousContainerMixin::operator!=` (LitlContainer/LitlContainer/ContiguousContainer.h:198-207).
`eq` is the comparison of pixel values of types `T` and `U`. -/
def eq (eq : α → β → Bool) (lhs : Raster α) (rhs : Raster β) : Bool :=
  if !(lhs.shape.length == rhs.shape.length && stdEqual (· == ·) lhs.shape rhs.shape) then false
  else stdEqual eq lhs.data rhs.data

/-- `operator!=` for rasters (LitlRaster/LitlRaster/Raster.h:426-428). -/
def ne (eq' : α → β → Bool) (lhs : Raster α) (rhs : Raster β) : Bool := !(Raster.eq eq' lhs rhs)

end Raster

end Litl
