import Verif.Model.Raster
import Verif.Model.Arithmetic

/-!
# Looping strategies

Model of LitlRun/src/lib/IterationBenchmark.cpp: the same sum of two rasters of dimension 3, in several ways.

`add x y` is the value of a `char` assigned with the sum of two others: `*c = *a + *b`, i.e. the sum as an `int` and its
conversion to `char`.  It is any function in the theorems.
The members `m_width`, `m_height` and `m_depth` are the lengths of the shape of the rasters (IterationBenchmark.cpp:10-11);
the model does not assume that they are equal.
Time measurement (`m_chrono`) is not modelled here: see Verif.Model.Chronometer.
-/

namespace Litl.IterationBenchmark

variable {α : Type}

/-- `m_c[p] = m_a[p] + m_b[p]` (LitlRun/src/lib/IterationBenchmark.cpp:24, 38, 50). -/
def sumAt (add : α → α → α) (a b c : Raster α) (p : Position) : Res (Raster α) := do
  let x ← a.get p
  let y ← b.get p
  c.set p (add x y)

/-- The values of `i` in `for (Index i = 0; i < n; ++i)`
(LitlRun/src/lib/IterationBenchmark.cpp:21-23, 35-37). -/
def loop (n : Int) : List Int := (List.range n.toNat).map fun k : Nat => (k : Int)

/-- `IterationBenchmark::loopOverXyz()` (LitlRun/src/lib/IterationBenchmark.cpp:18-30). -/
def loopOverXyz (add : α → α → α) (w h d : Int) (a b c : Raster α) : Res (Raster α) :=
  (loop w).foldlM (fun c x => (loop h).foldlM (fun c y => (loop d).foldlM (fun c z =>
    sumAt add a b c [x, y, z]) c) c) c

/-- `IterationBenchmark::loopOverZyx()` (LitlRun/src/lib/IterationBenchmark.cpp:32-44). -/
def loopOverZyx (add : α → α → α) (w h d : Int) (a b c : Raster α) : Res (Raster α) :=
  (loop d).foldlM (fun c z => (loop h).foldlM (fun c y => (loop w).foldlM (fun c x =>
    sumAt add a b c [x, y, z]) c) c) c

/-- `IterationBenchmark::iterateOverPositions()` (LitlRun/src/lib/IterationBenchmark.cpp:46-54) terminates with the result
`c'`: the loop over the domain visits the positions `l`. -/
def IterateOverPositions (add : α → α → α) (a b c c' : Raster α) : Prop :=
  ∃ l, BoxIterator.Visits c.domain l ∧ l.foldlM (sumAt add a b) c = .ok c'

/-- `m_c[i] = m_a[i] + m_b[i]` (LitlRun/src/lib/IterationBenchmark.cpp:61, 72). -/
def sumAtIndex (add : α → α → α) (a b c : Raster α) (i : Int) : Res (Raster α) := do
  let x ← readAt a.data i
  let y ← readAt b.data i
  let data ← writeAt c.data i (add x y)
  return ⟨c.shape, data⟩

/-- `IterationBenchmark::iterateOverPositionsOptimized()` (LitlRun/src/lib/IterationBenchmark.cpp:56-65) terminates with the
result `c'`. -/
def IterateOverPositionsOptimized (add : α → α → α) (a b c c' : Raster α) : Prop :=
  ∃ l, BoxIterator.Visits c.domain l ∧
    l.foldlM (fun (d : Raster α) p => sumAtIndex add a b d (index d.shape p)) c = .ok c'

/-- `IterationBenchmark::loopOverIndices()` (LitlRun/src/lib/IterationBenchmark.cpp:67-76). -/
def loopOverIndices (add : α → α → α) (a b c : Raster α) : Res (Raster α) :=
  (List.range c.data.length).foldlM (fun c i => sumAtIndex add a b c (i : Nat)) c

/-- The loop of `iterateOverValues()`, where the lists are the values from `ait`, `bit` and `cit` on
(LitlRun/src/lib/IterationBenchmark.cpp:85-87). -/
def iterateOver (add : α → α → α) : List α → List α → List α → Res (List α)
  | _, _, [] => .ok []
  | x :: a, y :: b, _ :: c => do
    let c' ← iterateOver add a b c
    return add x y :: c'
  | _, _, _ :: _ => .error .ub

/-- `IterationBenchmark::iterateOverValues()` (LitlRun/src/lib/IterationBenchmark.cpp:78-90). -/
def iterateOverValues (add : α → α → α) (a b c : Raster α) : Res (Raster α) := do
  let data ← iterateOver add a.data b.data c.data
  return ⟨c.shape, data⟩

/-- `IterationBenchmark::callOperator()` (LitlRun/src/lib/IterationBenchmark.cpp:92-98): the sum is a copy of `m_a` to which
`m_b` is added, and is moved to `m_c`. -/
def callOperator (add : α → α → α) (a b : Raster α) : Res (Raster α) := do
  let data ← Container.vectorOp add a.data b.data
  return ⟨a.shape, data⟩

/-- The function passed to `generate()` (LitlRun/src/lib/IterationBenchmark.cpp:104-106); there are always two arguments,
and no state. -/
def addArgs (add : α → α → α) (zero : α) (args : List α) (s : Unit) : α × Unit :=
  match args with
  | [e, f] => (add e f, s)
  | _ => (zero, s)

/-- `IterationBenchmark::callGenerate()` (LitlRun/src/lib/IterationBenchmark.cpp:100-111): the three rasters are in separate
regions of the memory. -/
def callGenerate (add : α → α → α) (zero : α) (a b c : Raster α) : Res (Raster α) := do
  let n := c.data.length
  let m ← Container.generateMem (addArgs add zero) (c.data ++ a.data ++ b.data) () 0 n [n, n + a.data.length]
  return ⟨c.shape, m.1.take n⟩

/-- `iterate(benchmark, setup)` (LitlRun/src/program/LitlBenchmarkIteration.cpp:15-36): the result is `m_c`.
Loops over positions which do not terminate normally have no result. -/
def Iterate (add : α → α → α) (zero : α) (w h d : Int) (a b c : Raster α) (setup : Char) (res : Res (Raster α)) : Prop :=
  match setup with
  | 'x' => res = loopOverXyz add w h d a b c
  | 'z' => res = loopOverZyx add w h d a b c
  | 'p' => ∃ c', IterateOverPositions add a b c c' ∧ res = .ok c'
  | 'q' => ∃ c', IterateOverPositionsOptimized add a b c c' ∧ res = .ok c'
  | 'i' => res = loopOverIndices add a b c
  | 'v' => res = iterateOverValues add a b c
  | 'o' => res = callOperator add a b
  | 'g' => res = callGenerate add zero a b c
  | _ => res = .error .stdError

end Litl.IterationBenchmark
