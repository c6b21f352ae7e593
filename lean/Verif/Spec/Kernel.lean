import Verif.Spec.Layout

/-!
# Specification of correlation
-/

namespace Litl.Spec

variable {α : Type _} [Semiring α]

/-- The value at position `k` of a kernel, whose values are in storage order and whose window has given bounds. -/
def kernelValue {α : Type _} [Zero α] (values : List α) (front back k : List Int) : α :=
  values.getD (offset (List.zipWith (fun b f => b - f + 1) back front) (List.zipWith (· - ·) k front)).toNat 0

/-- `x` is the correlation of `f` with the kernel at position `p`: the sum of `kernel[k] * f(p + k)` for all positions
`k` of the window, in any order. -/
def IsCorrelation (values : List α) (front back : List Int) (f : List Int → α) (p : List Int) (x : α) : Prop :=
  ∀ l : List (List Int), l.Nodup → (∀ k, k ∈ l ↔ InBox front back k) →
    x = (l.map fun k => kernelValue values front back k * f (List.zipWith (· + ·) p k)).sum

end Litl.Spec
