import Verif.Model.Ball
import Verif.Model.Overflow

/-!
# The bounding box of balls on machine numbers

Model of LitlRaster/LitlRaster/Ball.h:55-56 and 74-119 for any radius of type `double`, and for coordinates of type `Index`.
-/

namespace Litl

/-- The values of type `double`, e.g. the radius of balls (LitlRaster/LitlRaster/Ball.h:55-56, 204). All rational numbers are accepted,
whether or not they are values of type `double`. -/
inductive Double
  | nan
  | inf (negative : Bool)
  | finite (x : ℚ)

/-- The conversion to `Index` (LitlRaster/LitlRaster/Ball.h:81, 110, 117): the value is truncated, and the behaviour is undefined if
the result is not a value of type `Index` ([conv.fpint]). -/
def Double.toIndex : Double → Res Int
  | .finite x => Checked.ck (truncRat x)
  | _ => .error .ub

/-- `Litl::Ball<N, P>` (LitlRaster/LitlRaster/Ball.h:40, 55-56, 200-209). -/
structure MachineBall where
  radius : Double
  center : Position

namespace MachineBall

/-- `Ball::box` (LitlRaster/LitlRaster/Ball.h:80-82) and `Box::fromCenter` (LitlRaster/LitlRaster/Box.h:51-53). -/
def box (b : MachineBall) : Res Box := do
  let r ← b.radius.toIndex
  let front ← b.center.mapM fun c => Checked.ck (c - r)
  let back ← b.center.mapM fun c => Checked.ck (c + r)
  return ⟨front, back⟩

/-- `Ball::length` (LitlRaster/LitlRaster/Ball.h:109-118). -/
def length (b : MachineBall) : Res Int := do
  let r ← b.radius.toIndex
  let d ← Checked.ck (2 * r)
  Checked.ck (d + 1)

/-- `Ball::shape` (LitlRaster/LitlRaster/Ball.h:87-89), for fixed dimensions, `N = b.center.length`, or for the variable dimension,
`N = -1`. In the latter case, the constructor of the vector throws, as it is given `std::size_t(-1)`
(LitlRaster/LitlRaster/Vector.h:74, LitlContainer/LitlContainer/Holders.h:78); whether the length is evaluated first depends on the
version of C++. -/
def Shapes (b : MachineBall) (isVariable : Bool) (res : Res Position) : Prop :=
  if isVariable then res = .error .stdError ∨ ∃ e, b.length = .error e ∧ res = .error e
  else res = do
    let l ← b.length
    return List.replicate b.center.length l

end MachineBall

end Litl
