import Verif.Model.Box
import Mathlib.Data.List.Forall2
import Mathlib.Algebra.BigOperators.Group.List.Basic
import Mathlib.Algebra.Ring.Int.Defs

/-!
# Specification: sets of positions

What a user means by "position of a box", "position of a raster", independently of the code.
-/

namespace Litl.Spec

/-- `p` is a position of the box of bounds `front` and `back`, both inclusive:
same dimension and `front ≤ p ≤ back` along each axis. -/
def InBox (front back p : List Int) : Prop :=
  List.Forall₂ (· ≤ ·) front p ∧ List.Forall₂ (· ≤ ·) p back

/-- `p` is a pixel position of a raster of given shape: same dimension and `0 ≤ p < length` along each axis. -/
def InShape (shape p : List Int) : Prop :=
  List.Forall₂ (fun x s => 0 ≤ x ∧ x < s) p shape

/-- The number of pixels of a raster of shape `shape` and dimension at least 1. -/
def pixelCount (shape : List Int) : Int := shape.prod

/-- All lengths are non-negative. -/
def NonNeg (shape : List Int) : Prop := ∀ s ∈ shape, 0 ≤ s

/-- All lengths are positive. -/
def Pos (shape : List Int) : Prop := ∀ s ∈ shape, 0 < s

/-- Storage order: the last axis is the most significant one
(two positions are compared along the last axis where they differ). -/
inductive StorageLt : List Int → List Int → Prop where
  | tail {x y : Int} {p q : List Int} : StorageLt p q → StorageLt (x :: p) (y :: q)
  | head {x y : Int} {p : List Int} : x < y → StorageLt (x :: p) (y :: p)

end Litl.Spec
