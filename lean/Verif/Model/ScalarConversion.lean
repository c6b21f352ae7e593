import Verif.Model.Integers
import Verif.Model.Interpolation

/-!
# Scalar operators with scalars of another type

The scalar of `V op= a` is a `const T&` (LitlContainer/LitlContainer/Arithmetic.h:29), where `T` is the value type of
the container: a scalar of another type is first converted to a temporary of type `T`.
Here, the containers have integral values, e.g. the channels of LitlDemo/tests/src/LitlDemoChannels_test.cpp:158-178.
The temporary is not in the container, therefore it does not change during the loop (see C25 for scalars which do).
-/

namespace Litl.Container

/-- The operators of LitlContainer/LitlContainer/Arithmetic.h:182-195 (`rem` is `%`). -/
inductive Op where
  | add | sub | mul | div | rem
deriving DecidableEq

/-- The right operand of LitlContainer/LitlContainer/Arithmetic.h:29, as written by the caller: an integer of any integral
type, or a finite floating point number. -/
inductive Scalar where
  | int (k : Int)
  | real (x : ℚ)

/-- Conversion of the right operand to `const T&` (LitlContainer/LitlContainer/Arithmetic.h:29).
Integers are reduced modulo the number of values; floating point numbers are truncated toward zero, and the behaviour is
undefined if the result is not a value of `T`; conversion to `bool` compares to zero. -/
def Scalar.convert (t : IntType) : Scalar → Res Int
  | .int k => .ok (t.convert k)
  | .real x =>
    if t.digits = 1 ∧ t.signed = false then .ok (if x = 0 then 0 else 1)
    else if t.Mem (toIndex x) then .ok (toIndex x) else .error .ub

/-- `e op rhs` (LitlContainer/LitlContainer/Arithmetic.h:35) as a number of the promoted type: division truncates toward zero,
the remainder has the sign of the dividend, and both are undefined if the divisor is null. -/
def Op.eval (t : IntType) (op : Op) (e s : Int) : Option Int :=
  match op with
  | .add => t.promoted.result (e + s)
  | .sub => t.promoted.result (e - s)
  | .mul => t.promoted.result (e * s)
  | .div => if s = 0 then none else t.promoted.result (Int.tdiv e s)
  | .rem => if s = 0 then none else (t.promoted.result (Int.tdiv e s)).map fun _ => Int.tmod e s

/-- One element of the loop of LitlContainer/LitlContainer/Arithmetic.h:30-36: the result is converted to `T` when it is
assigned. -/
def scalarElement (t : IntType) (op : Op) (s e : Int) : Res Int :=
  match op.eval t e s with
  | none => .error .ub
  | some r => .ok (t.convert r)

/-- `V op= a` (LitlContainer/LitlContainer/Arithmetic.h:28-38) for a container of values of type `t`: the new elements. -/
def scalarAssign (t : IntType) (op : Op) (v : List Int) (a : Scalar) : Res (List Int) := do
  let s ← a.convert t
  v.mapM (scalarElement t op s)

end Litl.Container
