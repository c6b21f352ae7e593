import Verif.Model.Matrix
import Verif.Model.Arithmetic

/-!
# Products of matrices, and affinities

Model of the multiplicative operators of LitlRaster/LitlRaster/Matrix.h, and of LitlTransforms/LitlTransforms/Affinity.h.

The operands are distinct objects, and the type of elements is any one with the operations: those of floating point
numbers are exact here.  The Eigen view of matrices (Verif.Model.MatrixEigen) plays no part in the operators.

`Affinity::operator()`, `transformTo()` and `inverse()` cannot be instantiated, because there is no product of a matrix
by a vector: they have no model, and the map of an affinity is that which `operator()` is meant to evaluate.
-/

namespace Litl

namespace Matrix

variable {α : Type}

/-- `Matrix::operator*=(const Matrix&)` (LitlContainer/LitlContainer/Arithmetic.h:15-26, 188, through
LitlRaster/LitlRaster/Matrix.h:27-33): that of `EuclidArithmetic`.  Both matrices are of the same type.
`a * b` is the same for a copy of `a` (LitlContainer/LitlContainer/Arithmetic.h:174). -/
def mulAssign [Mul α] (a b : Matrix α) : Res (Matrix α) := do
  let data ← Container.vectorOp (· * ·) a.data b.data
  return { a with data := data }

end Matrix

/-- `Affinity<N>` (LitlTransforms/LitlTransforms/Affinity.h:13-14, 76-79). -/
structure Affinity (α : Type) where
  map : Matrix α
  translation : List α
  center : List α
deriving DecidableEq

namespace Affinity

variable {α : Type}

/-- `Affinity(center)` (LitlTransforms/LitlTransforms/Affinity.h:17-18): the translation is value-initialised
(LitlContainer/LitlContainer/Holders.h:157). -/
def new [Zero α] [One α] (n : Nat) (center : List α) : Res (Affinity α) := do
  let map ← Matrix.identity α n n
  return ⟨map, List.replicate n 0, center⟩

/-- `operator+=(translation)` (LitlTransforms/LitlTransforms/Affinity.h:58-61). -/
def add [Add α] (a : Affinity α) (v : List α) : Res (Affinity α) := do
  let t ← Container.vectorOp (· + ·) a.translation v
  return { a with translation := t }

/-- `translate()` (LitlTransforms/LitlTransforms/Affinity.h:20-25); `isZero()` is
LitlRaster/LitlRaster/Vector.h:114-121. -/
def translate [Zero α] [Add α] [DecidableEq α] (a : Affinity α) (offset : List α) : Res (Affinity α) :=
  if offset.all (· == 0) then .ok a else add a offset

/-- `operator*=(map)` (LitlTransforms/LitlTransforms/Affinity.h:53-56). -/
def mul [Mul α] (a : Affinity α) (m : Matrix α) : Res (Affinity α) := do
  let map ← a.map.mulAssign m
  return { a with map := map }

/-- `scale()` (LitlTransforms/LitlTransforms/Affinity.h:27-34); `isOne()` is
LitlRaster/LitlRaster/Vector.h:126-133, and `-m_center` LitlContainer/LitlContainer/Arithmetic.h:151-157. -/
def scale [Zero α] [One α] [Add α] [Neg α] [Mul α] [DecidableEq α] (n : Nat) (a : Affinity α) (factor : List α) :
    Res (Affinity α) :=
  if factor.all (· == 1) then .ok a else do
    let a ← a.translate (a.center.map (- ·))
    let m ← Matrix.diagonal n n factor
    let a ← a.mul m
    a.translate a.center

/-- `rotate()` (LitlTransforms/LitlTransforms/Affinity.h:36-45): `turns` is `radians != 0`, and the axis is not
used. -/
def rotate [Zero α] [One α] [Add α] [Neg α] [Mul α] [DecidableEq α] (n : Nat) (a : Affinity α) (turns : Bool) :
    Res (Affinity α) :=
  if turns then do
    let a ← a.translate (a.center.map (- ·))
    let rotation ← Matrix.identity α n n
    let a ← a.mul rotation
    a.translate a.center
  else .ok a

/-- The modifiers of affinities. -/
inductive Op (α : Type) where
  | translate (offset : List α)
  | scale (factor : List α)
  | rotate (turns : Bool)
  | mul (map : Matrix α)
  | add (translation : List α)

/-- One call. -/
def exec [Zero α] [One α] [Add α] [Neg α] [Mul α] [DecidableEq α] (n : Nat) (a : Affinity α) : Op α → Res (Affinity α)
  | .translate v => a.translate v
  | .scale f => a.scale n f
  | .rotate r => a.rotate n r
  | .mul m => a.mul m
  | .add v => a.add v

/-- Successive calls. -/
def run [Zero α] [One α] [Add α] [Neg α] [Mul α] [DecidableEq α] (n : Nat) (a : Affinity α) : List (Op α) → Res (Affinity α)
  | [] => .ok a
  | op :: ops => do
    let a ← a.exec n op
    a.run n ops

end Affinity

end Litl
