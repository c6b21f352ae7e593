import Verif.Model.Printf

/-!
# The correlation benchmark

Model of LitlRun/src/program/LitlBenchmarkCorrelation.cpp, from the options to the end of the program.
The positional option `setup` is not used by the program. All of the values are zero, such that operations on `int` are exact.
The overflow of the size of the raster is that of C79, and the memory is large enough.
-/

namespace Litl.CorrelationBenchmark

/-- `Raster<int, 4> in({side, side, side, side})` (LitlRun/src/program/LitlBenchmarkCorrelation.cpp:26). -/
def shape (side : Int) : Position := [side, side, side, side]

/-- `SeparableKernel<int, 0, 1>::sobel()` (LitlRun/src/program/LitlBenchmarkCorrelation.cpp:27,
LitlTransforms/LitlTransforms/SeparableKernel.h:72-76): the origins of the line kernels are unspecified, see
`LineKernel.Centered`. -/
def IsKernel (k : SeparableKernel Int) : Prop := SeparableKernel.Derivation [1, 2, 1] 0 [1] 1 k

/-- `mainMethod(args)` (LitlRun/src/program/LitlBenchmarkCorrelation.cpp:24-30): the result is `out`. -/
def Main (side : Int) (res : Res (Raster Int)) : Prop :=
  match Raster.ofShape (0 : Int) (shape side) with
  | .error e => res = .error e
  | .ok input => ∃ k, IsKernel k ∧ k.CorrelatesPrinted (Argument.ofInteger .int) input res

end Litl.CorrelationBenchmark
