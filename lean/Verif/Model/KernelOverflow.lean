import Verif.Model.Kernel
import Verif.Model.Overflow

/-!
# Correlation by ND kernels on machine integers

The computations of positions of LitlTransforms/LitlTransforms/Kernel.h and LitlRaster/LitlRaster/Box.h on values of type
`Index`, as in Model/Overflow.lean: each operation whose exact result is not a value of type `Index` is of undefined
behaviour.  The values of the rasters and of the kernel, the pointers in these, and the extrapolator, are those of
Model/Kernel.lean.
A loop of which a step overflows has no trace, and the correlation then has no outcome.
-/

namespace Litl

namespace Checked

/-- `Box - margin` (LitlRaster/LitlRaster/Box.h:200-204). -/
def shrink (b margin : Box) : Res Box := do
  let f ← zip (· - ·) b.front margin.front
  let k ← zip (· - ·) b.back margin.back
  return ⟨f, k⟩

/-- `Box + position` (LitlRaster/LitlRaster/Box.h:209-213). -/
def shift (b : Box) (v : Position) : Res Box := do
  let f ← zip (· + ·) b.front v
  let k ← zip (· + ·) b.back v
  return ⟨f, k⟩

/-- The front part of an iteration of the loop of `Box::surround` (LitlRaster/LitlRaster/Box.h:155-161). -/
def surroundFront (margin : Box) (st : Box × List Box) (i : Nat) : Res (Box × List Box) :=
  if margin.front.getD i 0 < 0 then do
    let before ← ck (st.1.front.getD i 0 - 1)
    let front ← ck (st.1.front.getD i 0 + margin.front.getD i 0)
    return (⟨st.1.front.set i front, st.1.back⟩, st.2 ++ [⟨st.1.front.set i front, st.1.back.set i before⟩])
  else .ok st

/-- The back part of an iteration of the loop of `Box::surround` (LitlRaster/LitlRaster/Box.h:164-170). -/
def surroundBack (margin : Box) (st : Box × List Box) (i : Nat) : Res (Box × List Box) :=
  if margin.back.getD i 0 > 0 then do
    let after ← ck (st.1.back.getD i 0 + 1)
    let back ← ck (st.1.back.getD i 0 + margin.back.getD i 0)
    return (⟨st.1.front, st.1.back.set i back⟩, st.2 ++ [⟨st.1.front.set i after, st.1.back.set i back⟩])
  else .ok st

/-- One iteration, for axis `i`, of the loop of `Box::surround` (LitlRaster/LitlRaster/Box.h:152-171). -/
def surroundStep (margin : Box) (st : Box × List Box) (i : Nat) : Res (Box × List Box) := do
  let st ← surroundFront margin st i
  surroundBack margin st i

/-- `Box::surround` (LitlRaster/LitlRaster/Box.h:145-174). -/
def surround (b margin : Box) : Res (List Box) := do
  let st ← (List.range b.dimension).foldlM (surroundStep margin) (b, [])
  return st.2

/-- `Box::length<I>` (LitlRaster/LitlRaster/Box.h:104-107). -/
def boxLength (b : Box) (i : Nat) : Res Int := do
  let d ← ck (b.back.getD i 0 - b.front.getD i 0)
  ck (d + 1)

variable {α : Type _} [Zero α] [Add α] [Mul α]

/-- One iteration of the loop over the hyperplane (LitlTransforms/LitlTransforms/Kernel.h:113-126), where `&out[p]` is
computed. -/
def rowStep (values : List α) (kWidth kRowCount : Int) (input : List α) (inWidth distance boxWidth : Int)
    (shape : Position) (st : List α × Int) (p : Position) : Res (List α × Int) := do
  let o ← index shape p
  let r ← (List.range boxWidth.toNat).foldlM (Kernel.pixelStep values kWidth kRowCount input inWidth distance) (st.1, o, st.2)
  return (r.1, r.2.2)

/-- The body of `correlateWithoutExtrapolation` (LitlTransforms/LitlTransforms/Kernel.h:99-126), given the positions
`rows` which are visited in the hyperplane. -/
def innerRows (k : Kernel α) (input : Raster α) (box : Box) (rows : List Position) (out : List α) : Res (List α) := do
  let boxWidth ← boxLength box 0
  let inWidth := input.shape.getD 0 0
  let kWidth ← boxLength k.window 0
  let kSize ← boxSize k.window
  if kWidth = 0 then .error .ub
  else do
    let kRowCount ← ck (kSize.tdiv kWidth)
    let distance ← index input.shape box.front
    let r ← rows.foldlM (rowStep k.values kWidth kRowCount input.data inWidth distance boxWidth input.shape) (out, 0)
    return r.1

/-- `correlateWithoutExtrapolation` (LitlTransforms/LitlTransforms/Kernel.h:92-127). -/
def InnerCorrelates (k : Kernel α) (input : Raster α) (box : Box) (out : List α) (res : Res (List α)) : Prop :=
  (∃ e, boxSize box = .error e ∧ res = .error e) ∨
  (boxSize box = .ok 0 ∧ res = .ok out) ∨
  (∃ n rows, boxSize box = .ok n ∧ n ≠ 0 ∧ Visits (box.project 0) rows ∧ res = innerRows k input box rows out)

/-- The body of the loop of `correlateWithExtrapolation` (LitlTransforms/LitlTransforms/Kernel.h:150-157), given the
positions `w` which are visited in the window. -/
def outerStep (k : Kernel α) (extrapolator : Position → Res α) (shape : Position) (out : List α)
    (pw : Position × List Position) : Res (List α) := do
  let b ← pw.2.mapM extrapolator
  if k.values.length < b.length then .error .ub
  else do
    let buffer := b ++ List.replicate (k.values.length - b.length) 0
    let o ← index shape pw.1
    writeAt out o ((List.zipWith (· * ·) k.values buffer).foldl (· + ·) 0)

/-- `for (const auto& q : m_window + p)` (LitlTransforms/LitlTransforms/Kernel.h:151-152). -/
def VisitsWindow (window : Box) (p : Position) (w : List Position) : Prop :=
  ∃ b, shift window p = .ok b ∧ Visits b w

/-- `correlateWithExtrapolation` (LitlTransforms/LitlTransforms/Kernel.h:132-159). -/
def OuterCorrelates (k : Kernel α) (extrapolator : Position → Res α) (shape : Position) (box : Box) (out : List α)
    (res : Res (List α)) : Prop :=
  (∃ e, boxSize box = .error e ∧ res = .error e) ∨
  (boxSize box = .ok 0 ∧ res = .ok out) ∨
  (∃ n l ws, boxSize box = .ok n ∧ n ≠ 0 ∧ Visits box l ∧ List.Forall₂ (VisitsWindow k.window) l ws ∧
    res = (l.zip ws).foldlM (outerStep k extrapolator shape) out)

/-- The loop over the surrounding boxes (LitlTransforms/LitlTransforms/Kernel.h:83-85). -/
inductive OutersCorrelate (k : Kernel α) (extrapolator : Position → Res α) (shape : Position) :
    List Box → List α → Res (List α) → Prop where
  | done {out : List α} : OutersCorrelate k extrapolator shape [] out (.ok out)
  | fail {b : Box} {bs : List Box} {out : List α} {e : Fail} : OuterCorrelates k extrapolator shape b out (.error e) →
    OutersCorrelate k extrapolator shape (b :: bs) out (.error e)
  | next {b : Box} {bs : List Box} {out out' : List α} {res : Res (List α)} :
    OuterCorrelates k extrapolator shape b out (.ok out') → OutersCorrelate k extrapolator shape bs out' res →
    OutersCorrelate k extrapolator shape (b :: bs) out res

/-- The boxes `inner` and `outers` (LitlTransforms/LitlTransforms/Kernel.h:80-81). -/
def correlationBoxes (k : Kernel α) (shape : Position) : Res (Box × List Box) := do
  let domain ← fromShape (Position.zero shape.length) shape
  let inner ← shrink domain k.window
  let outers ← surround inner k.window
  return (inner, outers)

/-- `correlateTo(in, out)` (LitlTransforms/LitlTransforms/Kernel.h:79-86). -/
def Correlates (k : Kernel α) (input : Raster α) (extrapolator : Position → Res α) (out : List α)
    (res : Res (List α)) : Prop :=
  (∃ e, correlationBoxes k input.shape = .error e ∧ res = .error e) ∨
  (∃ inner outers, correlationBoxes k input.shape = .ok (inner, outers) ∧
    ((∃ e, InnerCorrelates k input inner out (.error e) ∧ res = .error e) ∨
      ∃ out', InnerCorrelates k input inner out (.ok out') ∧ OutersCorrelate k extrapolator input.shape outers out' res))

end Checked

end Litl
