import Verif.Spec.Geometry
import Mathlib.Analysis.SpecialFunctions.Complex.Log

/-!
# Specification of the discrete Fourier transform
-/

namespace Litl.Spec

/-- The phase, in turns, of the wave of frequency `k` at position `j` of a signal of given shape. -/
noncomputable def phase : List Int → List Int → List Int → ℝ
  | n :: ns, j :: js, k :: ks => (j * k : ℝ) / n + phase ns js ks
  | _, _, _ => 0

/-- `y` is the coefficient of frequency `k` of the transform of `f`, without scaling: the sum for all positions of the
signal, in any order. The sign is that of the exponent. -/
def IsDft (sign : ℝ) (shape : List Int) (f : List Int → ℂ) (k : List Int) (y : ℂ) : Prop :=
  ∀ l : List (List Int), l.Nodup → (∀ j, j ∈ l ↔ InShape shape j) →
    y = (l.map fun j => f j * Complex.exp (2 * Real.pi * Complex.I * (sign * phase shape j k : ℝ))).sum

/-- The opposite frequency. -/
def oppositeFrequency (shape k : List Int) : List Int := List.zipWith (fun n x => (-x) % n) shape k

/-- The spectrum has Hermitian symmetry, like that of real signals. -/
def IsHermitian (shape : List Int) (X : List Int → ℂ) : Prop :=
  ∀ k, InShape shape k → X (oppositeFrequency shape k) = (starRingEnd ℂ) (X k)

/-- The position at `p - q` of a periodic signal. -/
def circular (shape p q : List Int) : List Int :=
  List.zipWith (fun d n => d % n) (List.zipWith (fun x y => x - y) p q) shape

/-- `y` is the value at `p` of the circular convolution of two signals. -/
def IsConvolution (shape : List Int) (f g : List Int → ℂ) (p : List Int) (y : ℂ) : Prop :=
  ∀ l : List (List Int), l.Nodup → (∀ q, q ∈ l ↔ InShape shape q) →
    y = (l.map fun q => f q * g (circular shape p q)).sum

/-- The offset of the element of given position in a row-major array, i.e. whose last axis is contiguous. -/
def rowMajor (n p : List Int) : Int := (List.zip n p).foldl (fun offset e => offset * e.1 + e.2) 0

end Litl.Spec
