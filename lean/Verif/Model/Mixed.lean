import Verif.Model.SeparableKernel
import Mathlib.Data.Rat.Floor

/-!
# Correlation of real rasters with integer kernels

The value type of kernels is a template parameter which is independent of that of rasters: with kernels of integers, the
accumulators of LitlTransforms/LitlTransforms/Kernel.h:119-124, 157 and LitlTransforms/LitlTransforms/LineKernel.h:99-115 are
integers, to which real numbers are converted.
Integers are unbounded here (see Verif/Model/Integers.lean for overflows), and operations on real numbers are exact (see
Verif/Model/Rounding.lean for rounding errors).
-/

namespace Litl

/-- The conversion of a real number to an integer, e.g. in LitlTransforms/LitlTransforms/Kernel.h:122: the fractional part is
discarded. -/
def truncate (x : ℚ) : ℚ := if 0 ≤ x then (⌊x⌋ : ℚ) else (⌈x⌉ : ℚ)

/-- The numbers of LitlTransforms/LitlTransforms/Kernel.h:119-124, 157 and LitlTransforms/LitlTransforms/LineKernel.h:99-115. -/
@[ext] structure Mixed where
  val : ℚ
deriving DecidableEq

namespace Mixed

/-- `T sum {}` (LitlTransforms/LitlTransforms/Kernel.h:119), `m_bias` (LitlTransforms/LitlTransforms/LineKernel.h:38). -/
instance : Zero Mixed := ⟨⟨0⟩⟩

/-- The product of a value of the kernel and of a pixel (LitlTransforms/LitlTransforms/Kernel.h:122). -/
instance : Mul Mixed := ⟨fun a b => ⟨a.val * b.val⟩⟩

/-- The accumulation (LitlTransforms/LitlTransforms/Kernel.h:122), which is assigned to an integer. -/
instance : Add Mixed := ⟨fun s x => ⟨truncate (s.val + x.val)⟩⟩

/-- A value of a kernel (LitlTransforms/LitlTransforms/Kernel.h:164). -/
def ofInt (x : Int) : Mixed := ⟨x⟩

end Mixed

/-- A kernel of integers (LitlTransforms/LitlTransforms/Kernel.h:161-170). -/
def Kernel.mixed (k : Kernel Int) : Kernel Mixed := ⟨k.values.map Mixed.ofInt, k.window⟩

/-- A raster of real numbers (LitlRaster/LitlRaster/Raster.h:148-408). -/
def Raster.mixed (r : Raster ℚ) : Raster Mixed := ⟨r.shape, r.data.map Mixed.mk⟩

/-- A line kernel of integers (LitlTransforms/LitlTransforms/LineKernel.h:28, 120-121). -/
def LineKernel.mixed (k : LineKernel Int) : LineKernel Mixed := ⟨k.values.map Mixed.ofInt, k.origin⟩

/-- A separable kernel of integers (LitlTransforms/LitlTransforms/SeparableKernel.h:20-21, 253). -/
def SeparableKernel.mixed (k : SeparableKernel Int) : SeparableKernel Mixed :=
  ⟨k.axes, k.kernels.map fun iκ => (iκ.1, iκ.2.mixed)⟩

/-- `correlateTo(in, out)` (LitlTransforms/LitlTransforms/Kernel.h:79-86) of rasters of real numbers with a kernel of integers.
In `correlateWithExtrapolation`, pixels are moreover converted to integers when they are copied to the buffer
(LitlTransforms/LitlTransforms/Kernel.h:140, 152-154).
The input and output rasters have the same value type: otherwise, line 110 is not compiled. -/
def Kernel.CorrelatesMixed (k : Kernel Int) (input : Raster ℚ) (extrapolator : Position → Res ℚ) (out : List ℚ)
    (res : Res (List Mixed)) : Prop :=
  k.mixed.Correlates input.mixed (fun q => (extrapolator q).map fun x => ⟨truncate x⟩) (out.map Mixed.mk) res

end Litl
