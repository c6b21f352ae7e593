import Verif.Spec.Geometry

/-!
# Specification: memory layout
-/

namespace Litl.Spec

/-- Row-major strides: the stride of axis `i` is the product of the lengths of the axes below `i`. -/
def strides (shape : List Int) : List Int :=
  (List.range shape.length).map fun i => (shape.take i).prod

/-- Memory offset of a position: sum over the axes of coordinate times stride. -/
def offset (shape p : List Int) : Int := (List.zipWith (· * ·) p (strides shape)).sum

end Litl.Spec
