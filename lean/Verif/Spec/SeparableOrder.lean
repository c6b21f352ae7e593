import Verif.Spec.LineKernel
import Verif.Spec.Geometry

/-!
# Specification of separable correlation in an arithmetic without laws
-/

namespace Litl.Spec

variable {α : Type _} [Zero α] [Add α] [Mul α]

/-- The correlation of a raster of given shape along an axis, with a kernel which is given as values and origin. -/
def linePass (shape : List Int) (κ : Nat × List α × Int) (f : List Int → α) (p : List Int) : α :=
  lineFold κ.2.1 κ.2.2 (shape.getD κ.1 0).toNat (fun i => f (p.set κ.1 i)) (p.getD κ.1 0)

/-- The correlations along several axes, one after the other. -/
def linePasses (shape : List Int) (ks : List (Nat × List α × Int)) (f : List Int → α) : List Int → α :=
  ks.foldl (fun f κ => linePass shape κ f) f

end Litl.Spec
