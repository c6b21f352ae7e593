import Mathlib.Algebra.Order.Floor.Ring
import Mathlib.Algebra.Field.Defs
import Mathlib.Algebra.Order.Group.Abs
import Mathlib.Data.List.Forall2

/-!
# Specification of interpolation
-/

namespace Litl.Spec

variable {K : Type _} [Field K] [LinearOrder K] [FloorRing K]

/-- The nodes and weights of a separable interpolation, given those along one axis: the weights are multiplied. -/
def nodes (w : K → List (Int × K)) : List K → List (List Int × K)
  | [] => [([], 1)]
  | x :: xs => (w x).flatMap fun kw => (nodes w xs).map fun pv => (kw.1 :: pv.1, kw.2 * pv.2)

/-- Separable interpolation: weighted sum of the values at the nodes. -/
def interpolation (w : K → List (Int × K)) (g : List Int → K) (xs : List K) : K :=
  ((nodes w xs).map fun pv => pv.2 * g pv.1).sum

/-- Linear interpolation: the weight of a neighbor decreases linearly from 1 to 0 with the distance. -/
def linearNodes (x : K) : List (Int × K) := [(⌊x⌋, 1 - (x - ⌊x⌋)), (⌊x⌋ + 1, x - ⌊x⌋)]

/-- Multilinear interpolation. -/
def multilinear (g : List Int → K) (xs : List K) : K := interpolation linearNodes g xs

/-- The kernel of cubic convolution (Keys, 1981; parameter -1/2). -/
def keys (t : K) : K :=
  if |t| ≤ 1 then 3 / 2 * |t| ^ 3 - 5 / 2 * |t| ^ 2 + 1
  else if |t| < 2 then -(1 / 2) * |t| ^ 3 + 5 / 2 * |t| ^ 2 - 4 * |t| + 2
  else 0

/-- Cubic convolution along one axis. -/
def cubicNodes (x : K) : List (Int × K) :=
  [-1, 0, 1, 2].map fun j => (⌊x⌋ + j, keys (x - ((⌊x⌋ + j : Int) : K)))

/-- Cubic convolution. -/
def cubic (g : List Int → K) (xs : List K) : K := interpolation cubicNodes g xs

/-- `p` is at distance at most (resp. less than) `d` of `xs` along each axis. -/
def Within (d : K) (p : List Int) (xs : List K) : Prop := List.Forall₂ (fun (k : Int) (x : K) => |(k : K) - x| ≤ d) p xs

/-- `p` is at distance less than `d` of `xs` along each axis. -/
def StrictlyWithin (d : K) (p : List Int) (xs : List K) : Prop :=
  List.Forall₂ (fun (k : Int) (x : K) => |(k : K) - x| < d) p xs

/-- Functions of `n` variables which are polynomials of degree at most 2 in each of them. -/
def QuadraticInEach (n : Nat) (G : List K → K) : Prop :=
  ∀ xs : List K, xs.length = n → ∀ i < n, ∃ a b c : K, ∀ t, G (xs.set i t) = a + b * t + c * t ^ 2

end Litl.Spec
