import Verif.Model.Arithmetic

/-!
# Filling, extrema, printing, dimension changes

Model of `fill()`, `range()`, `linspace()`, `min()`, `max()`, `minmax()`
(LitlContainer/LitlContainer/DataContainer.h:128-241), of `operator<<`
(LitlContainer/LitlContainer/ContiguousContainer.h:216-236) and of `Vector::slice()` and `Vector::extend()`
(LitlRaster/LitlRaster/Vector.h:153-172).

Arguments of `fill`, `range` and `linspace` are taken by reference and are therefore addresses.
-/

namespace Litl.Container

variable {α : Type _}

/-- `fill(value)` (LitlContainer/LitlContainer/DataContainer.h:128-131), with the value at address `k`. -/
def fillMem (mem : List α) (a n k : Nat) : Res (List α) :=
  (List.range n).foldlM (fun m i => do
    let v ← readAt m k
    writeAt m (a + i : Nat) v) mem

/-- One iteration of `range` (LitlContainer/LitlContainer/DataContainer.h:145-148). -/
def rangeStep [Add α] (a kstep : Nat) (mv : List α × α) (i : Nat) : Res (List α × α) := do
  let m ← writeAt mv.1 (a + i : Nat) mv.2
  let step ← readAt m kstep
  return (m, mv.2 + step)

/-- `range(min, step)` (LitlContainer/LitlContainer/DataContainer.h:142-150), with the arguments at addresses `kmin`
and `kstep`: `min` is copied, `step` is not. -/
def rangeMem [Add α] (mem : List α) (a n kmin kstep : Nat) : Res (List α) := do
  let min ← readAt mem kmin
  let mv ← (List.range n).foldlM (rangeStep a kstep) (mem, min)
  return mv.1

/-- One iteration of `linspace` (LitlContainer/LitlContainer/DataContainer.h:165-167). -/
def linspaceStep [Add α] [Mul α] [NatCast α] (a kmin : Nat) (step : α) (mem : List α) (i : Nat) : Res (List α) := do
  let min ← readAt mem kmin
  writeAt mem (a + i : Nat) (min + step * (i : α))

/-- `linspace(min, max)` (LitlContainer/LitlContainer/DataContainer.h:162-170) for floating point values, with
the arguments at addresses `kmin` and `kmax`.
`size() - 1` is 2^64 - 1 for an empty container.
The step is not used if the size is 1: division by zero does not trap for floating points. -/
def linspaceMem [Add α] [Sub α] [Mul α] [Div α] [NatCast α] (mem : List α) (a n kmin kmax : Nat) : Res (List α) := do
  let min ← readAt mem kmin
  let max ← readAt mem kmax
  let count := (u64 ((n : Int) - 1)).toNat
  let step := (max - min) / (count : α)
  let m ← (List.range count).foldlM (linspaceStep a kmin step) mem
  let max' ← readAt m kmax
  writeAt m (a + count : Nat) max'

/-- One iteration of `linspace` (LitlContainer/LitlContainer/DataContainer.h:165-167) for `T = Index`:
`step` and `i` are of type `std::size_t`, so that the sum is unsigned and converted back on assignment. -/
def linspaceIntStep (min step : Int) (data : List Int) (i : Nat) : Res (List Int) :=
  writeAt data i (i64 (u64 (u64 min + u64 (step * i))))

/-- `linspace(min, max)` (LitlContainer/LitlContainer/DataContainer.h:162-170) for `T = Index`, with arguments stored
outside of the container: `max - min` is signed, then converted to `std::size_t` in order to be divided by
`size() - 1`; integer division by zero is undefined behaviour. -/
def linspaceInt (data : List Int) (min max : Int) : Res (List Int) := do
  if ¬ (-2 ^ 63 ≤ max - min ∧ max - min < 2 ^ 63) then throw Fail.ub
  let count := u64 ((data.length : Int) - 1)
  if count = 0 then throw Fail.ub
  let step := u64 (max - min) / count
  let m ← (List.range count.toNat).foldlM (linspaceIntStep min step) data
  writeAt m count max

/-- The loop of `std::min_element`: the best value and its index. -/
def minLoop [LT α] [DecidableLT α] (best : α) (bestIndex i : Nat) : List α → α × Nat
  | [] => (best, bestIndex)
  | x :: l => if x < best then minLoop x i (i + 1) l else minLoop best bestIndex (i + 1) l

/-- The loop of `std::max_element`. -/
def maxLoop [LT α] [DecidableLT α] (best : α) (bestIndex i : Nat) : List α → α × Nat
  | [] => (best, bestIndex)
  | x :: l => if best < x then maxLoop x i (i + 1) l else maxLoop best bestIndex (i + 1) l

/-- The maximum according to `std::minmax_element`, which is the last one. -/
def lastMaxLoop [LT α] [DecidableLT α] (best : α) (bestIndex i : Nat) : List α → α × Nat
  | [] => (best, bestIndex)
  | x :: l => if ¬ x < best then lastMaxLoop x i (i + 1) l else lastMaxLoop best bestIndex (i + 1) l

/-- `min()` (LitlContainer/LitlContainer/DataContainer.h:222-224): the referenced element, as a value and an index. -/
def min [LT α] [DecidableLT α] : List α → Res (α × Nat)
  | [] => .error .ub
  | x :: l => .ok (minLoop x 0 1 l)

/-- `max()` (LitlContainer/LitlContainer/DataContainer.h:230-232). -/
def max [LT α] [DecidableLT α] : List α → Res (α × Nat)
  | [] => .error .ub
  | x :: l => .ok (maxLoop x 0 1 l)

/-- `minmax()` (LitlContainer/LitlContainer/DataContainer.h:238-241). -/
def minmax [LT α] [DecidableLT α] : List α → Res ((α × Nat) × (α × Nat))
  | [] => .error .ub
  | x :: l => .ok (minLoop x 0 1 l, lastMaxLoop x 0 1 l)

/-- `for (; i < stop; ++i) { os << ", " << container[i]; }`
(LitlContainer/LitlContainer/ContiguousContainer.h:224-226, 230-232): the chunks which are inserted. -/
def printLoop (str : α → String) (data : List α) (i stop : Nat) : Res (List String) :=
  (List.range' i (stop - i)).foldlM (fun out (j : Nat) => do
    let x ← readAt data (j : Int)
    return out ++ [", ", str x]) []

/-- `operator<<` (LitlContainer/LitlContainer/ContiguousContainer.h:217-236): the chunks which are inserted in the
stream. -/
def print (str : α → String) (data : List α) : Res (List String) :=
  if data = [] then .ok ["[", "]"]
  else do
    let size := data.length
    let x ← readAt data (0 : Nat)
    let (head, i) ← (if size > 7 then do
      let l ← printLoop str data 1 3
      let y ← readAt data (size - 3 : Nat)
      return (l ++ [" ... ", str y], size - 3)
    else .ok ([], 0) : Res (List String × Nat))
    let tail ← printLoop str data (i + 1) size
    return ["[", str x] ++ head ++ tail ++ ["]"]

/-- `slice<M>()` (LitlRaster/LitlRaster/Vector.h:153-158): `std::copy_n` of `M` elements. -/
def slice (M : Nat) (v : List α) : Res (List α) := (List.range M).mapM fun i => readAt v (i : Nat)

/-- `extend<M>(padding)` (LitlRaster/LitlRaster/Vector.h:167-172): `std::copy_n` onto a copy of the padding. -/
def extend (v padding : List α) : Res (List α) :=
  (List.range v.length).foldlM (fun res i => do
    let x ← readAt v (i : Nat)
    writeAt res (i : Nat) x) padding

end Litl.Container
