import Verif.Spec.Kernel
import Verif.Spec.Geometry

/-!
# Specification of correlation in an arithmetic without laws
-/

namespace Litl.Spec

variable {α : Type _} [Zero α] [Add α] [Mul α]

/-- `x` is the correlation of `f` with the kernel at position `p` where products are added one by one to zero in storage order.
There is only one list of positions like this. -/
def IsOrderedCorrelation (values : List α) (front back : List Int) (f : List Int → α) (p : List Int) (x : α) : Prop :=
  ∃ l : List (List Int), l.Pairwise StorageLt ∧ (∀ k, k ∈ l ↔ InBox front back k) ∧
    x = l.foldl (fun s k => s + kernelValue values front back k * f (List.zipWith (· + ·) p k)) 0

end Litl.Spec
