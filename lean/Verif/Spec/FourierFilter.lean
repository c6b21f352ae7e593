import Verif.Spec.Dft
import Verif.Spec.Kernel
import Verif.Spec.SeparableKernel

/-!
# Specification of filtering in Fourier domain
-/

namespace Litl.Spec

/-- The pixel of a periodic signal which is at `p`. -/
def wrapped (shape p : List Int) : List Int := List.zipWith (fun x n => x % n) p shape

/-- `g` is the signal of given shape which is made of the weights `w` of the positions `In` of a window, flipped and wrapped:
the weight of `k` goes to the pixel at `-k`, where it is added to those of the other positions which go there. -/
def IsFlipped (shape : List Int) (In : List Int → Prop) (w g : List Int → ℂ) : Prop :=
  ∀ q, InShape shape q → ∀ l : List (List Int), l.Nodup → (∀ k, k ∈ l ↔ In k ∧ wrapped shape (k.map fun x => -x) = q) →
    g q = (l.map w).sum

/-- `f` is the raster of given shape, padded with zeros to a larger one. -/
def IsPadded (inner shape : List Int) (values f : List Int → ℂ) : Prop :=
  ∀ q, InShape shape q → (InShape inner q → f q = values q) ∧ (¬ InShape inner q → f q = 0)

end Litl.Spec
