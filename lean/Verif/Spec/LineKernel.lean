import Mathlib.Algebra.BigOperators.Group.List.Basic
import Mathlib.Algebra.Ring.Defs

/-!
# Specification of 1D correlation
-/

namespace Litl.Spec

variable {α : Type _} [Semiring α]

/-- The correlation at index `i` of a line of `n` values `x` by a kernel with given origin, which is cropped outside of the
line: the sum of `kernel[j] * x[i + j - origin]` for the `j` such that `i + j - origin` is an index of the line. -/
def lineCorrelation (kernel : List α) (origin : Int) (n : Nat) (x : Int → α) (i : Int) : α :=
  ((List.range kernel.length).map fun j : Nat =>
    if 0 ≤ i + j - origin ∧ i + j - origin < n then kernel.getD j 0 * x (i + j - origin) else 0).sum

/-- The same with the operations in the order of the kernel, from the left, in an arithmetic where the order may matter. -/
def lineFold {α : Type _} [Zero α] [Add α] [Mul α] (kernel : List α) (origin : Int) (n : Nat) (x : Int → α) (i : Int) : α :=
  ((List.range kernel.length).filter fun j : Nat => decide (0 ≤ i + j - origin ∧ i + j - origin < n)).foldl
    (fun s (j : Nat) => s + kernel.getD j 0 * x (i + j - origin)) 0

end Litl.Spec
