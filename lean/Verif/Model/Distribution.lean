import Verif.Model.Machine
import Mathlib.Order.Defs.LinearOrder
import Mathlib.Data.List.Sort
import Mathlib.Algebra.Order.Floor.Ring
import Mathlib.Data.Rat.Floor

/-!
# `Litl::DataDistribution`

Model of LitlContainer/LitlContainer/DataDistribution.h.
`std::nth_element` and `std::sort` are relations: any result which conforms to the standard is possible.
Queries modify the object, hence are relations between the states before and after, and the returned value.
`variance()` is not modelled because it cannot be compiled (`m_sum()`, line 124).
-/

namespace Litl

/-- The members of a `DataDistribution` (LitlContainer/LitlContainer/DataDistribution.h:201-216), but `m_sum2` which is
only used by `variance()` (see Verif/Model/DistributionIntegers.lean for its overflows). -/
structure Distribution (α : Type) where
  /-- The values, in some order. -/
  values : List α
  /-- Are the values known to be sorted? -/
  sorted : Bool
  /-- The sum. -/
  sum : α

/-- Any result of `std::nth_element(v.begin(), v.begin() + n, v.end())` for a valid `n`: the values are permuted such
that those before (resp. after) the n-th one are not greater (resp. not less) than it. -/
def NthElement {α : Type} [LE α] (v : List α) (n : Nat) (v' : List α) : Prop :=
  v'.Perm v ∧ ∀ i j x y, i ≤ n → n ≤ j → v'[i]? = some x → v'[j]? = some y → x ≤ y

/-- Any result of `std::sort(v.begin(), v.end())`. -/
def StdSort {α : Type} [LE α] (v v' : List α) : Prop := v'.Perm v ∧ v'.Pairwise (· ≤ ·)

namespace Distribution

section Order

variable {α : Type} [LinearOrder α]

/-- Constructor (LitlContainer/LitlContainer/DataDistribution.h:47-54), which sums from left to right. -/
def ofValues [Zero α] [Add α] (values : List α) : Distribution α where
  values := values
  sorted := decide (values.Pairwise (· ≤ ·))
  sum := values.foldl (· + ·) 0

/-- `nth(n)` for a valid `n` (LitlContainer/LitlContainer/DataDistribution.h:95-102). -/
inductive Nth : Distribution α → Nat → α → Distribution α → Prop
  | sorted {d : Distribution α} {n : Nat} {x : α} : d.sorted = true → d.values[n]? = some x → Nth d n x d
  | unsorted {d : Distribution α} {n : Nat} {x : α} {v : List α} : d.sorted = false → n < d.values.length →
      NthElement d.values n v → v[n]? = some x → Nth d n x { d with values := v }

/-- `min()` (LitlContainer/LitlContainer/DataDistribution.h:74-76). -/
def Min (d : Distribution α) (x : α) (d' : Distribution α) : Prop := Nth d 0 x d'

/-- `max()` (LitlContainer/LitlContainer/DataDistribution.h:81-83) for a non-empty distribution. -/
def Max (d : Distribution α) (x : α) (d' : Distribution α) : Prop := Nth d (d.values.length - 1) x d'

/-- `sort()` (LitlContainer/LitlContainer/DataDistribution.h:188-193). -/
inductive Sorts : Distribution α → Distribution α → Prop
  | sorted {d : Distribution α} : d.sorted = true → Sorts d d
  | unsorted {d : Distribution α} {v : List α} : d.sorted = false → StdSort d.values v →
      Sorts d { d with values := v, sorted := true }

/-- `while (it != end && *it < *supIt) { ++it; }` (LitlContainer/LitlContainer/DataDistribution.h:169-171): the
remaining values. -/
def skipBelow (sup : α) : List α → List α
  | [] => []
  | x :: l => if x < sup then skipBelow sup l else x :: l

/-- `while (it != end && *it < *supIt) { ++(*countIt); ++it; }`
(LitlContainer/LitlContainer/DataDistribution.h:173-176): the remaining values and the counts. -/
def countBelow (sup : α) (c : Nat) : List α → List Nat → Res (List α × List Nat)
  | [], out => .ok ([], out)
  | x :: l, out =>
    if x < sup then do
      let k ← readAt out c
      let out' ← writeAt out c (k + 1)
      countBelow sup c l out'
    else .ok (x :: l, out)

/-- The loop over the bins (LitlContainer/LitlContainer/DataDistribution.h:172-178): the remaining values, the counts
and the index of `countIt`. -/
def binLoop : List α → Nat → List α → List Nat → Res (List α × List Nat × Nat)
  | [], c, l, out => .ok (l, out, c)
  | sup :: bins, c, l, out =>
    if c = out.length then .ok (l, out, c)
    else do
      let (l', out') ← countBelow sup c l out
      binLoop bins (c + 1) l' out'

/-- `histogram(bins)` (LitlContainer/LitlContainer/DataDistribution.h:163-183), once sorted.
Without bins, `out` cannot be allocated (2^64 - 1 elements). -/
def histogramSorted (values : List α) : List α → Res (List Nat)
  | [] => .error .stdError
  | b :: bins => do
    let (l, out, c) ← binLoop bins 0 (skipBelow b values) (List.replicate bins.length 0)
    match l with
    | [] => .ok out
    | x :: _ =>
      if x = (b :: bins).getLast (by simp) then do
        let k ← readAt out c
        writeAt out c (k + 1)
      else .ok out

/-- `histogram(bins)` (LitlContainer/LitlContainer/DataDistribution.h:163-183). -/
def Histogram (d : Distribution α) (bins : List α) (r : Res (List Nat)) (d' : Distribution α) : Prop :=
  Sorts d d' ∧ r = histogramSorted d'.values bins

end Order

section Floating

/-- Evaluation orders of `nth(f) * d + nth(f + 1) * (1. - d)` (LitlContainer/LitlContainer/DataDistribution.h:154):
`nth` returns references and the order of evaluation of the operands of `+` is not specified.
* `lr`: left operand first;
* `rl`: right operand first;
* `late`: both calls first (the left one before the right one), then both references are read. -/
inductive EvalOrder
  | lr | rl | late

/-- `quantile(q)` (LitlContainer/LitlContainer/DataDistribution.h:147-155) for a non-empty distribution of exact
floating point values and `q` in [0, 1]. -/
inductive Quantile : EvalOrder → Distribution ℚ → ℚ → ℚ → Distribution ℚ → Prop
  | exact {o : EvalOrder} {d d' : Distribution ℚ} {q n x : ℚ} {f : Nat} :
      n = q * ((d.values.length - 1 : Nat) : ℚ) → f = ⌊n⌋₊ → n = f → Nth d f x d' → Quantile o d q x d'
  | lr {d d1 d' : Distribution ℚ} {q n x y : ℚ} {f : Nat} :
      n = q * ((d.values.length - 1 : Nat) : ℚ) → f = ⌊n⌋₊ → n ≠ f →
      Nth d f x d1 → Nth d1 (f + 1) y d' → Quantile .lr d q (x * (n - f) + y * (1 - (n - f))) d'
  | rl {d d1 d' : Distribution ℚ} {q n x y : ℚ} {f : Nat} :
      n = q * ((d.values.length - 1 : Nat) : ℚ) → f = ⌊n⌋₊ → n ≠ f →
      Nth d (f + 1) y d1 → Nth d1 f x d' → Quantile .rl d q (x * (n - f) + y * (1 - (n - f))) d'
  | late {d d1 d' : Distribution ℚ} {q n x y x' y' : ℚ} {f : Nat} :
      n = q * ((d.values.length - 1 : Nat) : ℚ) → f = ⌊n⌋₊ → n ≠ f →
      Nth d f x' d1 → Nth d1 (f + 1) y' d' → d'.values[f]? = some x → d'.values[f + 1]? = some y →
      Quantile .late d q (x * (n - f) + y * (1 - (n - f))) d'

/-- `median()` (LitlContainer/LitlContainer/DataDistribution.h:116-118). -/
def Median (o : EvalOrder) (d : Distribution ℚ) (r : ℚ) (d' : Distribution ℚ) : Prop := Quantile o d (1 / 2) r d'

/-- `mad()` (LitlContainer/LitlContainer/DataDistribution.h:130-137). -/
def Mad (o : EvalOrder) (d : Distribution ℚ) (r : ℚ) (d' : Distribution ℚ) : Prop :=
  ∃ m d'', Median o d m d' ∧ Median o (ofValues (d'.values.map fun e => |e - m|)) r d''

/-- `mad()` (LitlContainer/LitlContainer/DataDistribution.h:130-137) for integers: deviations are stored as integers, i.e.
rounded down. -/
def MadIntegers (o : EvalOrder) (d : Distribution ℚ) (r : ℚ) (d' : Distribution ℚ) : Prop :=
  ∃ m d'', Median o d m d' ∧ Median o (ofValues (d'.values.map fun e => (⌊|e - m|⌋ : ℚ))) r d''

/-- `mean()` (LitlContainer/LitlContainer/DataDistribution.h:109-111) for floating point values: the size is converted to the
type of the values. -/
def mean {α : Type} [Div α] [NatCast α] (d : Distribution α) : α := d.sum / (d.values.length : α)

/-- `mean()` (LitlContainer/LitlContainer/DataDistribution.h:109-111) for `T = Index`: the sum is converted to
`std::size_t`, the quotient is an unsigned integer, which is then converted to `double`.  The sum is a signed
integer: overflow is undefined behaviour. -/
def meanInt (d : Distribution Int) : Res ℚ :=
  if -2 ^ 63 ≤ d.sum ∧ d.sum < 2 ^ 63 ∧ d.values ≠ [] then .ok ((u64 d.sum / (d.values.length : Int) : Int) : ℚ)
  else .error .ub

/-- One query of any kind: the state before and after. -/
inductive Query : Distribution ℚ → Distribution ℚ → Prop
  | nth {d d' : Distribution ℚ} {n : Nat} {x : ℚ} : Nth d n x d' → Query d d'
  | min {d d' : Distribution ℚ} {x : ℚ} : Min d x d' → Query d d'
  | max {d d' : Distribution ℚ} {x : ℚ} : Max d x d' → Query d d'
  | quantile {o : EvalOrder} {d d' : Distribution ℚ} {q x : ℚ} : Quantile o d q x d' → Query d d'
  | mad {o : EvalOrder} {d d' : Distribution ℚ} {x : ℚ} : Mad o d x d' → Query d d'
  | sort {d d' : Distribution ℚ} : Sorts d d' → Query d d'
  | histogram {d d' : Distribution ℚ} {bins : List ℚ} {r : Res (List Nat)} : Histogram d bins r d' → Query d d'
  | mean {d : Distribution ℚ} : Query d d

/-- The states which can be reached from the construction by any history of queries. -/
inductive Reachable (data : List ℚ) : Distribution ℚ → Prop
  | init : Reachable data (ofValues data)
  | query {d d' : Distribution ℚ} : Reachable data d → Query d d' → Reachable data d'

end Floating

end Distribution

end Litl
