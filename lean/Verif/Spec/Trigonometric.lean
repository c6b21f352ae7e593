import Mathlib.Analysis.SpecialFunctions.Trigonometric.Basic

/-!
# Periodic functions (C100)
-/

namespace Litl.Spec

/-- The trigonometric polynomial of degree (at most) `K` and coefficients `a` and `b`. -/
noncomputable def trigonometric (a b : Nat → ℝ) (K : Nat) (x : ℝ) : ℝ :=
  ∑ m ∈ Finset.range (K + 1), (a m * Real.cos (m * x) + b m * Real.sin (m * x))

/-- `n` values of a function, regularly spaced along the period. -/
noncomputable def samples (f : ℝ → ℝ) (n : Nat) : List ℝ := (List.range n).map fun j : Nat => f (2 * Real.pi * j / n)

end Litl.Spec
