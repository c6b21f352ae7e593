import Verif.Model.Raster
import Mathlib.Data.List.Forall2

/-!
# ND kernels

Model of LitlTransforms/LitlTransforms/Kernel.h.
Values of the kernel and of the rasters have the same type, with exact operations.
Loops over boxes may not terminate: the functions are relations between their arguments and their result.
-/

namespace Litl

variable {α : Type _}

/-- `Kernel` (LitlTransforms/LitlTransforms/Kernel.h:161-170). -/
structure Kernel (α : Type _) where
  values : List α
  window : Box
deriving DecidableEq, Repr

namespace Kernel

/-- `kernelize(values, window)` (LitlTransforms/LitlTransforms/Kernel.h:33, 177-180), where `values` are those at the
pointer: there should be as many as positions in the window. -/
def kernelize (values : List α) (window : Box) : Res (Kernel α) :=
  if window.size < 0 then .error .stdError
  else if values.length < window.size then .error .ub
  else .ok ⟨values.take window.size.toNat, window⟩

/-- `kernelize(raster, origin)` (LitlTransforms/LitlTransforms/Kernel.h:186-189). -/
def kernelizeAt (r : Raster α) (origin : Position) : Res (Kernel α) := kernelize r.data (r.domain.unshift origin)

/-- `kernelize(raster)` (LitlTransforms/LitlTransforms/Kernel.h:197-200). -/
def kernelizeCentered (r : Raster α) : Res (Kernel α) := kernelizeAt r (r.shape.map fun s => s.tdiv 2)

variable [Zero α] [Add α] [Mul α]

/-- `std::inner_product(kIt, kIt + n, inIt, sum)` (LitlTransforms/LitlTransforms/Kernel.h:122). -/
def innerProduct (values : List α) (kIt : Int) (input : List α) (inIt : Int) (n : Nat) (sum : α) : Res α :=
  (List.range n).foldlM (fun s (i : Nat) => do
    let a ← readAt values (kIt + i)
    let b ← readAt input (inIt + i)
    return s + a * b) sum

/-- The weighted sum for a pixel (LitlTransforms/LitlTransforms/Kernel.h:119-123): at iteration `j`, `kIt` has been
incremented by `kWidth` and `inIt` by `inWidth`, `j` times. -/
def weightedSum (values : List α) (kWidth kRowCount : Int) (input : List α) (inWidth inIt : Int) : Res α :=
  (List.range kRowCount.toNat).foldlM (fun s (j : Nat) =>
    innerProduct values (j * kWidth) input (inIt + j * inWidth) kWidth.toNat s) 0

/-- One iteration of the loop over a row (LitlTransforms/LitlTransforms/Kernel.h:117-125).
The state is made of the output data, `outIt` and `inIt`, as offsets in the output and in the input. -/
def pixelStep (values : List α) (kWidth kRowCount : Int) (input : List α) (inWidth distance : Int)
    (st : List α × Int × Int) (_ : Nat) : Res (List α × Int × Int) := do
  let sum ← weightedSum values kWidth kRowCount input inWidth st.2.2
  let out ← writeAt st.1 st.2.1 sum
  return (out, st.2.1 + 1, st.2.1 + 1 - distance)

/-- One iteration of the loop over the hyperplane (LitlTransforms/LitlTransforms/Kernel.h:113-126).
The state is made of the output data and of `inIt`, which is that of the end of the previous row. -/
def rowStep (values : List α) (kWidth kRowCount : Int) (input : List α) (inWidth distance boxWidth : Int)
    (shape : Position) (st : List α × Int) (p : Position) : Res (List α × Int) := do
  let r ← (List.range boxWidth.toNat).foldlM (pixelStep values kWidth kRowCount input inWidth distance)
    (st.1, index shape p, st.2)
  return (r.1, r.2.2)

/-- The body of `correlateWithoutExtrapolation` (LitlTransforms/LitlTransforms/Kernel.h:99-126), given the positions
`rows` which are visited in the hyperplane.  `out` has the shape of the input.
`distance` (line 110) is the difference of two pointers in different arrays: `outIt - distance` is assumed to be the
pointer in the input at offset `outIt - &out[box.front()]`. -/
def innerRows (k : Kernel α) (input : Raster α) (box : Box) (rows : List Position) (out : List α) : Res (List α) := do
  let boxWidth := box.shape.getD 0 0
  let inWidth := input.shape.getD 0 0
  let kWidth := k.window.shape.getD 0 0
  if kWidth = 0 then .error .ub
  else
    let kRowCount := k.window.size.tdiv kWidth
    let distance := index input.shape box.front
    let r ← rows.foldlM (rowStep k.values kWidth kRowCount input.data inWidth distance boxWidth input.shape) (out, 0)
    return r.1

/-- `correlateWithoutExtrapolation` (LitlTransforms/LitlTransforms/Kernel.h:92-127). -/
def Inner (k : Kernel α) (input : Raster α) (box : Box) (out : List α) (res : Res (List α)) : Prop :=
  (box.size = 0 ∧ res = .ok out) ∨
  (box.size ≠ 0 ∧ ∃ rows, BoxIterator.Visits (box.project 0) rows ∧ res = innerRows k input box rows out)

/-- The body of the loop of `correlateWithExtrapolation` (LitlTransforms/LitlTransforms/Kernel.h:150-157), given the
positions `w` which are visited in the window.  The buffer has the size of the kernel. -/
def outerStep (k : Kernel α) (extrapolator : Position → Res α) (shape : Position) (out : List α)
    (pw : Position × List Position) : Res (List α) := do
  let b ← pw.2.mapM extrapolator
  if k.values.length < b.length then .error .ub
  else
    let buffer := b ++ List.replicate (k.values.length - b.length) 0
    writeAt out (index shape pw.1) ((List.zipWith (· * ·) k.values buffer).foldl (· + ·) 0)

/-- `correlateWithExtrapolation` (LitlTransforms/LitlTransforms/Kernel.h:132-159). -/
def Outer (k : Kernel α) (extrapolator : Position → Res α) (shape : Position) (box : Box) (out : List α)
    (res : Res (List α)) : Prop :=
  (box.size = 0 ∧ res = .ok out) ∨
  (box.size ≠ 0 ∧ ∃ l ws, BoxIterator.Visits box l ∧
    List.Forall₂ (fun p w => BoxIterator.Visits (k.window.shift p) w) l ws ∧
    res = (l.zip ws).foldlM (outerStep k extrapolator shape) out)

/-- The loop over the surrounding boxes (LitlTransforms/LitlTransforms/Kernel.h:83-85). -/
inductive Outers (k : Kernel α) (extrapolator : Position → Res α) (shape : Position) :
    List Box → List α → Res (List α) → Prop where
  | done {out : List α} : Outers k extrapolator shape [] out (.ok out)
  | fail {b : Box} {bs : List Box} {out : List α} {e : Fail} : Outer k extrapolator shape b out (.error e) →
    Outers k extrapolator shape (b :: bs) out (.error e)
  | next {b : Box} {bs : List Box} {out out' : List α} {res : Res (List α)} :
    Outer k extrapolator shape b out (.ok out') → Outers k extrapolator shape bs out' res →
    Outers k extrapolator shape (b :: bs) out res

/-- `correlateTo(in, out)` (LitlTransforms/LitlTransforms/Kernel.h:79-86): `input` is the decorated raster,
`extrapolator` is the subscript operator of the extrapolator, and `out` is the data of a raster of same shape. -/
def Correlates (k : Kernel α) (input : Raster α) (extrapolator : Position → Res α) (out : List α)
    (res : Res (List α)) : Prop :=
  let inner := input.domain.shrink k.window
  (∃ e, Inner k input inner out (.error e) ∧ res = .error e) ∨
  (∃ out', Inner k input inner out (.ok out') ∧
    Outers k extrapolator input.shape (inner.surround k.window) out' res)

end Kernel

end Litl
