import Verif.Model.Core

/-!
# `Litl::Vector`, `Litl::Position`

Model of LitlRaster/LitlRaster/Vector.h.  A `Position<N>` is a list of `Index`, axis 0 first.
-/

namespace Litl

/-- `Litl::Position<N>`: a list of coordinates, axis 0 first
(LitlRaster/LitlRaster/Vector.h:20, 27, 195-196).
For `N >= 0` the length is `N`; for `N = -1` the length is only known at runtime. -/
abbrev Position := List Int

namespace Position

/-- `U + V` for two positions: `std::transform` over the elements of `U`
(LitlContainer/LitlContainer/Arithmetic.h:15-25).  When `V` is longer, its tail is ignored.
`V` shorter than `U` would be an out-of-bounds read; it is excluded by the type of `Position<N>`
for `N >= 0`, and modelled as a failure by `Container.vectorOp` (Verif/Model/Arithmetic.lean). -/
def add (u v : Position) : Position := List.zipWith (· + ·) u v

/-- `U - V`, see `add` (LitlContainer/LitlContainer/Arithmetic.h:15-25). -/
def sub (u v : Position) : Position := List.zipWith (· - ·) u v

/-- `V + a` (LitlContainer/LitlContainer/Arithmetic.h:27-37), `a` not aliased. -/
def addScalar (u : Position) (a : Int) : Position := u.map (· + a)

/-- `V - a` (LitlContainer/LitlContainer/Arithmetic.h:27-37), `a` not aliased. -/
def subScalar (u : Position) (a : Int) : Position := u.map (· - a)

/-- `-V` (LitlContainer/LitlContainer/Arithmetic.h:149-155). -/
def neg (u : Position) : Position := u.map (- ·)

/-- `Position<N>::zero()` (LitlRaster/LitlRaster/Vector.h:90-93): `std::abs(N)` zeros,
where `N` is the template parameter, i.e. one zero for the variable dimension `N = -1`. -/
def zero (N : Int) : Position := List.replicate N.natAbs 0

/-- `Position<N>::one()` (LitlRaster/LitlRaster/Vector.h:98-101). -/
def one (N : Int) : Position := List.replicate N.natAbs 1

/-- `Limits<Index>::inf()`: the maximum of a 64-bit signed integer
(LitlTypes/LitlTypes/TypeUtils.h:219-222). -/
def indexInf : Int := 2 ^ 63 - 1

/-- `Position<N>::inf()` (LitlRaster/LitlRaster/Vector.h:106-109): filled with `-Limits::inf()`. -/
def inf (N : Int) : Position := List.replicate N.natAbs (-indexInf)

/-- `isZero()` (LitlRaster/LitlRaster/Vector.h:114-121). -/
def isZero (u : Position) : Bool := u.all (· == 0)

/-- `isOne()` (LitlRaster/LitlRaster/Vector.h:126-133). -/
def isOne (u : Position) : Bool := u.all (· == 1)

/-- `isInf()` (LitlRaster/LitlRaster/Vector.h:138-145). -/
def isInf (u : Position) : Bool := u.all (· == indexInf)

end Position

/-- `shapeStride(shape, axis)` (LitlRaster/LitlRaster/Vector.h:203-205):
`std::accumulate` with `std::multiplies` over the first `axis` lengths. -/
def shapeStride (shape : Position) (axis : Nat) : Int :=
  (shape.take axis).foldl (· * ·) 1

/-- `shapeSize(shape)` (LitlRaster/LitlRaster/Vector.h:221-227). -/
def shapeSize (shape : Position) : Int :=
  if shape.length = 0 then 0 else shapeStride shape shape.length

end Litl
