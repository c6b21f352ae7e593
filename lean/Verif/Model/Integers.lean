import Verif.Model.SeparableKernel
import Verif.Model.Limits

/-!
# Arithmetic of integral value types

The values of kernels and rasters may be of any integral type, e.g. `unsigned char` or `int`
(LitlTypes/LitlTypes/TypeUtils.h:17-19).
Operands which are narrower than `int` are converted to `int` by the language: the product and the sum of
`sum + a * b` are numbers of type `int`, and are converted back to the value type when they are assigned.
The overflow of a signed integer is undefined behaviour; unsigned integers are reduced modulo a power of two.
The target is LP64: `int` has 31 digits and a sign.
-/

namespace Litl

namespace IntType

/-- `int` (to which the operands of LitlTransforms/LitlTransforms/Kernel.h:122 are promoted). -/
def int : IntType := ⟨31, true⟩

/-- `x` is a value of the type (LitlTypes/LitlTypes/TypeUtils.h:205-214). -/
def Mem (t : IntType) (x : Int) : Prop := t.lowest ≤ x ∧ x ≤ t.highest

instance (t : IntType) (x : Int) : Decidable (t.Mem x) := inferInstanceAs (Decidable (_ ∧ _))

/-- Integral promotion of the operands of `+` and `*` (LitlTransforms/LitlTransforms/Kernel.h:122): the types whose values
all are values of `int` are converted to `int`, be they signed or not. -/
def promoted (t : IntType) : IntType := if t.digits ≤ 31 then int else t

/-- The result `x` of an operation whose operands are of the (promoted) type (LitlTransforms/LitlTransforms/Kernel.h:122):
undefined in case of overflow if the type is signed, and reduced if it is not. -/
def result (t : IntType) (x : Int) : Option Int :=
  if t.signed then if t.Mem x then some x else none else some (t.convert x)

end IntType

/-- The numbers of type `t` and of its promoted type, in LitlTransforms/LitlTransforms/Kernel.h:119-124 and
LitlTransforms/LitlTransforms/Kernel.h:144-157; `none` means that undefined behaviour occurred. -/
def Number (_ : IntType) : Type := Option Int

namespace Number

variable {t : IntType}

/-- A value as a number (LitlTransforms/LitlTransforms/Kernel.h:164). -/
def of (t : IntType) (x : Int) : Number t := some x

/-- Undefined behaviour (overflow in LitlTransforms/LitlTransforms/Kernel.h:122). -/
def undefined (t : IntType) : Number t := none

/-- `T sum {}` (LitlTransforms/LitlTransforms/Kernel.h:120). -/
instance : Zero (Number t) := ⟨of t 0⟩

/-- The product in `std::inner_product()` (LitlTransforms/LitlTransforms/Kernel.h:122, 157), of promoted type. -/
instance : Mul (Number t) := ⟨fun a b => Option.bind a fun a => Option.bind b fun b => t.promoted.result (a * b)⟩

/-- The sum in `std::inner_product()` (LitlTransforms/LitlTransforms/Kernel.h:122, 157), which is assigned to an
accumulator of the value type. -/
instance : Add (Number t) := ⟨fun s x =>
  Option.bind s fun s => Option.bind x fun x => (t.promoted.result (s + x)).map t.convert⟩

end Number

/-- A kernel of values of type `t` (LitlTransforms/LitlTransforms/Kernel.h:161-170). -/
def Kernel.numbers (t : IntType) (k : Kernel Int) : Kernel (Number t) := ⟨k.values.map (Number.of t), k.window⟩

/-- A raster of values of type `t` (LitlRaster/LitlRaster/Raster.h:148-408). -/
def Raster.numbers (t : IntType) (r : Raster Int) : Raster (Number t) := ⟨r.shape, r.data.map (Number.of t)⟩

/-- A line kernel of values of type `t` (LitlTransforms/LitlTransforms/LineKernel.h:28, 120-121). -/
def LineKernel.numbers (t : IntType) (k : LineKernel Int) : LineKernel (Number t) := ⟨k.values.map (Number.of t), k.origin⟩

/-- A separable kernel of values of type `t` (LitlTransforms/LitlTransforms/SeparableKernel.h:20-21, 253). -/
def SeparableKernel.numbers (t : IntType) (k : SeparableKernel Int) : SeparableKernel (Number t) :=
  ⟨k.axes, k.kernels.map fun iκ => (iκ.1, iκ.2.numbers t)⟩

end Litl
