import Verif.Model.Core
import Verif.Model.Rounding

/-!
# Element-wise operators of containers of floating point values

Model of the operators of LitlContainer/LitlContainer/Arithmetic.h for a floating point value type `T`, e.g. `float`: a binary
format of `p` bits whose smallest positive number is `2 ^ emin`.
Scalars are of any other type, e.g. `double`.

Simplification: a result which is not a finite number (division by zero) is `none`, and there is no overflow.
`%` does not compile for such types.
-/

namespace Litl.Container

/-- The operators of LitlContainer/LitlContainer/Arithmetic.h:98-106, 182-192 which exist for floating point values. -/
inductive RealOp where
  | add | sub | mul | div
deriving DecidableEq

/-- `e op f` and `e op rhs` (LitlContainer/LitlContainer/Arithmetic.h:23, 35), where both operands are of type `T`. -/
def RealOp.eval (p : Nat) (emin : Int) (op : RealOp) (e s : ℚ) : Option ℚ :=
  match op with
  | .add => some (Binary.fl p emin (e + s))
  | .sub => some (Binary.fl p emin (e - s))
  | .mul => some (Binary.fl p emin (e * s))
  | .div => if s = 0 then none else some (Binary.fl p emin (e / s))

/-- `V op= a` (LitlContainer/LitlContainer/Arithmetic.h:28-38): the new elements.
The parameter is a `const T&`: the scalar is first rounded to type `T`, since it binds to a temporary of this type. -/
def realScalarAssign (p : Nat) (emin : Int) (op : RealOp) (v : List ℚ) (a : ℚ) : List (Option ℚ) :=
  let rhs := Binary.fl p emin a
  v.map fun e => op.eval p emin e rhs

/-- `V op= U` (LitlContainer/LitlContainer/Arithmetic.h:15-26) for containers which do not share memory: the new elements.
The behaviour is undefined if `U` is shorter. -/
def realVectorAssign (p : Nat) (emin : Int) (op : RealOp) : List ℚ → List ℚ → Res (List (Option ℚ))
  | [], _ => .ok []
  | e :: v, f :: u => do
    let r ← realVectorAssign p emin op v u
    return op.eval p emin e f :: r
  | _ :: _, [] => .error .ub

/-- `++V` (LitlContainer/LitlContainer/Arithmetic.h:114-123): `++rhs` adds one and rounds. -/
def realIncrement (p : Nat) (emin : Int) (v : List ℚ) : List ℚ := v.map fun rhs => Binary.fl p emin (rhs + 1)

end Litl.Container
