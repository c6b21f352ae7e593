import Verif.Spec.Geometry
import Mathlib.Algebra.Ring.Defs

/-!
# Specification of separable correlation
-/

namespace Litl.Spec

variable {α : Type _} [CommSemiring α]

/-- The value at position `k` of the outer product of kernels, one for each axis, which are given as values and origin. -/
def outerProduct (ks : List (List α × Int)) (k : List Int) : α :=
  (List.zipWith (fun (κ : List α × Int) (x : Int) => κ.1.getD (x + κ.2).toNat 0) ks k).prod

/-- `k` is in the window of the outer product. -/
def InWindow (ks : List (List α × Int)) (k : List Int) : Prop :=
  InBox (ks.map fun κ => -κ.2) (ks.map fun κ => (κ.1.length : Int) - 1 - κ.2) k

/-- `x` is the correlation of `f` with the outer product at position `p`: the sum of `kernel[k] * f(p + k)` for all positions
`k` of the window, in any order. -/
def IsOuterCorrelation (ks : List (List α × Int)) (f : List Int → α) (p : List Int) (x : α) : Prop :=
  ∀ l : List (List Int), l.Nodup → (∀ k, k ∈ l ↔ InWindow ks k) →
    x = (l.map fun k => outerProduct ks k * f (List.zipWith (· + ·) p k)).sum

/-- The kernels for each axis of an `n`-dimensional raster: the identity along the axes without kernel. -/
def axisKernels (n : Nat) (kernel : Nat → Option (List α × Int)) : List (List α × Int) :=
  (List.range n).map fun i => (kernel i).getD ([1], 0)

end Litl.Spec
