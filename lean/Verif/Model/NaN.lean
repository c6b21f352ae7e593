import Verif.Model.Distribution
import Verif.Model.Fill

/-!
# Data with NaNs

Model of LitlContainer/LitlContainer/DataDistribution.h for floating point values, some of which may not be numbers.
`std::nth_element` and `std::sort` require that `<` is a strict weak ordering of the values: otherwise, the behavior is undefined.
The linear searches (`std::is_sorted`, `std::min_element`, `std::max_element`) have the same requirement, but are modelled as the
loops they are in all implementations.
-/

namespace Litl

/-- A floating point value: a number (possibly infinite, if these are values of `α`) or NaN. -/
inductive NaNOr (α : Type)
  | nan
  | num (a : α)
  deriving DecidableEq

namespace NaNOr

variable {α : Type}

/-- `<` (IEEE 754): false if one of the operands is NaN. -/
def lt [LT α] : NaNOr α → NaNOr α → Prop
  | num a, num b => a < b
  | _, _ => False

instance [LT α] : LT (NaNOr α) := ⟨lt⟩

instance [LT α] [DecidableLT α] : DecidableLT (NaNOr α) := fun x y => by
  cases x <;> cases y <;> (show Decidable (lt _ _)) <;> unfold lt <;> infer_instance

/-- `==` (IEEE 754): false if one of the operands is NaN. -/
def eq [DecidableEq α] : NaNOr α → NaNOr α → Bool
  | num a, num b => decide (a = b)
  | _, _ => false

/-- `+` (IEEE 754), of numbers which are exact: NaN if one of the operands is. -/
def add [Add α] : NaNOr α → NaNOr α → NaNOr α
  | num a, num b => num (a + b)
  | _, _ => nan

end NaNOr

/-- The requirement of the sorting algorithms of the standard library ([alg.sorting.general]): on the values `v`, `<` is
irreflexive and transitive, and so is "neither less nor greater". -/
def StrictWeak {β : Type} [LT β] (v : List β) : Prop :=
  (∀ x ∈ v, ¬ x < x) ∧ (∀ x ∈ v, ∀ y ∈ v, ∀ z ∈ v, x < y → y < z → x < z) ∧
    ∀ x ∈ v, ∀ y ∈ v, ∀ z ∈ v, ¬ x < y → ¬ y < x → ¬ y < z → ¬ z < y → ¬ x < z ∧ ¬ z < x

namespace NaNs

variable {α : Type} [LinearOrder α]

/-- `std::is_sorted`: no value is less than the previous one. -/
def isSorted : List (NaNOr α) → Bool
  | x :: y :: l => decide (¬ y < x) && isSorted (y :: l)
  | _ => true

/-- Constructor (LitlContainer/LitlContainer/DataDistribution.h:47-54). -/
def ofValues [Zero α] [Add α] (values : List (NaNOr α)) : Distribution (NaNOr α) where
  values := values
  sorted := isSorted values
  sum := values.foldl NaNOr.add (.num 0)

/-- Any result of `std::nth_element(v.begin(), v.begin() + n, v.end())` if its requirement is met. -/
def NthElement (v : List (NaNOr α)) (n : Nat) (v' : List (NaNOr α)) : Prop :=
  v'.Perm v ∧ ∀ i j x y, i ≤ n → n ≤ j → v'[i]? = some x → v'[j]? = some y → ¬ y < x

/-- `nth(n)` (LitlContainer/LitlContainer/DataDistribution.h:95-102): the returned value and the distribution after. -/
inductive Nth : Distribution (NaNOr α) → Nat → Res (NaNOr α × Distribution (NaNOr α)) → Prop
  | outside {d : Distribution (NaNOr α)} {n : Nat} : d.values.length ≤ n → Nth d n (.error .ub)
  | sorted {d : Distribution (NaNOr α)} {n : Nat} {x : NaNOr α} : d.sorted = true → d.values[n]? = some x → Nth d n (.ok (x, d))
  | undefined {d : Distribution (NaNOr α)} {n : Nat} : d.sorted = false → n < d.values.length → ¬ StrictWeak d.values →
      Nth d n (.error .ub)
  | unsorted {d : Distribution (NaNOr α)} {n : Nat} {x : NaNOr α} {v : List (NaNOr α)} : d.sorted = false →
      StrictWeak d.values → NthElement d.values n v → v[n]? = some x → Nth d n (.ok (x, { d with values := v }))

/-- `sort()` (LitlContainer/LitlContainer/DataDistribution.h:188-193): the distribution after. -/
inductive Sorts : Distribution (NaNOr α) → Res (Distribution (NaNOr α)) → Prop
  | sorted {d : Distribution (NaNOr α)} : d.sorted = true → Sorts d (.ok d)
  | undefined {d : Distribution (NaNOr α)} : d.sorted = false → ¬ StrictWeak d.values → Sorts d (.error .ub)
  | unsorted {d : Distribution (NaNOr α)} {v : List (NaNOr α)} : d.sorted = false → StrictWeak d.values → v.Perm d.values →
      v.Pairwise (fun x y => ¬ y < x) → Sorts d (.ok { d with values := v, sorted := true })

/-- `while (it != end && *it < *supIt) { ++it; }` (LitlContainer/LitlContainer/DataDistribution.h:169-171), see
`Distribution.skipBelow`. -/
def skipBelow (sup : α) : List (NaNOr α) → List (NaNOr α)
  | [] => []
  | x :: l => if x < .num sup then skipBelow sup l else x :: l

/-- `while (it != end && *it < *supIt) { ++(*countIt); ++it; }` (LitlContainer/LitlContainer/DataDistribution.h:173-176), see
`Distribution.countBelow`. -/
def countBelow (sup : α) (c : Nat) : List (NaNOr α) → List Nat → Res (List (NaNOr α) × List Nat)
  | [], out => .ok ([], out)
  | x :: l, out =>
    if x < .num sup then do
      let k ← readAt out c
      let out' ← writeAt out c (k + 1)
      countBelow sup c l out'
    else .ok (x :: l, out)

/-- The loop over the bins (LitlContainer/LitlContainer/DataDistribution.h:172-178), see `Distribution.binLoop`. -/
def binLoop : List α → Nat → List (NaNOr α) → List Nat → Res (List (NaNOr α) × List Nat × Nat)
  | [], c, l, out => .ok (l, out, c)
  | sup :: bins, c, l, out =>
    if c = out.length then .ok (l, out, c)
    else do
      let (l', out') ← countBelow sup c l out
      binLoop bins (c + 1) l' out'

/-- `histogram(bins)` (LitlContainer/LitlContainer/DataDistribution.h:163-183), once sorted, of which the bins are numbers; see
`Distribution.histogramSorted`. -/
def histogramSorted (values : List (NaNOr α)) : List α → Res (List Nat)
  | [] => .error .stdError
  | b :: bins => do
    let (l, out, c) ← binLoop bins 0 (skipBelow b values) (List.replicate bins.length 0)
    match l with
    | [] => .ok out
    | x :: _ =>
      if NaNOr.eq x (.num ((b :: bins).getLast (by simp))) then do
        let k ← readAt out c
        writeAt out c (k + 1)
      else .ok out

/-- `histogram(bins)` (LitlContainer/LitlContainer/DataDistribution.h:163-183): the counts and the distribution after. -/
inductive Histogram (d : Distribution (NaNOr α)) (bins : List α) : Res (List Nat × Distribution (NaNOr α)) → Prop
  | undefined {e : Fail} : Sorts d (.error e) → Histogram d bins (.error e)
  | counts {d' : Distribution (NaNOr α)} : Sorts d (.ok d') →
      Histogram d bins ((histogramSorted d'.values bins).map fun c => (c, d'))

/-- `median(neighbors)` of the median filter (LitlTransforms/LitlTransforms/MedianFilter.h:80-92) for an odd number of
neighbors. -/
inductive MedianOdd (v : List (NaNOr α)) : Res (NaNOr α) → Prop
  | undefined : ¬ StrictWeak v → MedianOdd v (.error .ub)
  | middle {v' : List (NaNOr α)} {x : NaNOr α} : StrictWeak v → NthElement v (v.length / 2) v' → v'[v.length / 2]? = some x →
      MedianOdd v (.ok x)

/-- `std::equal` of containers of the same size (LitlContainer/LitlContainer/ContiguousContainer.h:198-200,
LitlRaster/LitlRaster/Raster.h:419). -/
def equal : List (NaNOr α) → List (NaNOr α) → Bool
  | [], [] => true
  | x :: l, y :: m => NaNOr.eq x y && equal l m
  | _, _ => false

end NaNs

end Litl
