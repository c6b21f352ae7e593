import Verif.Model.LineKernel
import Verif.Model.Kernel
import Verif.Model.RasterCtor

/-!
# Separable kernels

Model of LitlTransforms/LitlTransforms/SeparableKernel.h.
Values of the kernels and of the rasters have the same type, with exact operations.
`window()`, `operator[]` and `correlateSamplesTo` do not compile and are not modelled, nor is `laplacian()` (its argument is
forwarded to the map by the variadic constructor).
-/

namespace Litl

variable {α : Type _}

/-- `std::map::insert`: the key is inserted at its place unless it is already there. -/
def mapInsert {β : Type _} (key : Nat) (value : β) : List (Nat × β) → List (Nat × β)
  | [] => [(key, value)]
  | (k, v) :: m =>
    if key < k then (key, value) :: (k, v) :: m
    else if key = k then (k, v) :: m
    else (k, v) :: mapInsert key value m

/-- `std::map::at`. -/
def mapAt {β : Type _} (m : List (Nat × β)) (key : Nat) : Res β :=
  match m.lookup key with
  | some v => .ok v
  | none => .error .stdError

/-- `SeparableKernel<T, I0, Is...>` (LitlTransforms/LitlTransforms/SeparableKernel.h:20-21, 253): the axes are the template
parameters, which are non-negative. -/
structure SeparableKernel (α : Type _) where
  axes : List Nat
  kernels : List (Nat × LineKernel α)
deriving DecidableEq, Repr

namespace SeparableKernel

/-- `SeparableKernel(kernel)` (LitlTransforms/LitlTransforms/SeparableKernel.h:39) and `LineKernel::along()`
(LitlTransforms/LitlTransforms/LineKernel.h:74-77). -/
def along (k : LineKernel α) (axes : List Nat) : SeparableKernel α :=
  ⟨axes, axes.foldl (fun m i => mapInsert i k m) []⟩

/-- `operator*(separable)` (LitlTransforms/LitlTransforms/SeparableKernel.h:157-162). -/
def combine (lhs rhs : SeparableKernel α) : SeparableKernel α :=
  ⟨lhs.axes ++ rhs.axes, rhs.kernels.foldl (fun m kv => mapInsert kv.1 kv.2 m) lhs.kernels⟩

/-- `Dimension` (LitlTransforms/LitlTransforms/SeparableKernel.h:34). -/
def dimension (k : SeparableKernel α) : Nat := k.axes.foldl max 0 + 1

/-- The factories `prewitt`, `sobel` and `scharr` (LitlTransforms/LitlTransforms/SeparableKernel.h:51-55, 72-76, 82-86),
with respective averaging kernel `[1, 1, 1]`, `[1, 2, 1]` and `[3, 10, 3]`. -/
def Derivation [Zero α] [Neg α] (averaging : List α) (i0 : Nat) (is : List Nat) (sign : α) (res : SeparableKernel α) :
    Prop :=
  ∃ d a, LineKernel.Centered [sign, 0, -sign] d ∧ LineKernel.Centered averaging a ∧
    res = (along d [i0]).combine (along a is)

variable [Zero α] [Add α] [Mul α]

/-- The line of a raster through a position, along an axis (LitlTransforms/LitlTransforms/SeparableKernel.h:214-221); raw
offsets are relative to the data of the raster. -/
def line (shape : Position) (axis : Nat) (p : Position) : DataSamples :=
  DataSamples.mk' (index shape p) (shape.getD axis 0).toNat Sampling.default (shapeStride shape axis)

/-- The loop over the hyperplane (LitlTransforms/LitlTransforms/SeparableKernel.h:219-223), over the given positions.
`input` is the data of the input and `out` is that of the output. -/
inductive Lines (kernels : List (Nat × LineKernel α)) (shape : Position) (axis : Nat) (input : List α) :
    List Position → List α → Res (List α) → Prop where
  | done {out : List α} : Lines kernels shape axis input [] out (.ok out)
  | missing {p : Position} {ps : List Position} {out : List α} {e : Fail} : mapAt kernels axis = .error e →
    Lines kernels shape axis input (p :: ps) out (.error e)
  | fail {p : Position} {ps : List Position} {out : List α} {k : LineKernel α} {e : Fail} : mapAt kernels axis = .ok k →
    k.Correlates (readAt input) (line shape axis p) (line shape axis p) out (.error e) →
    Lines kernels shape axis input (p :: ps) out (.error e)
  | next {p : Position} {ps : List Position} {out out' : List α} {k : LineKernel α} {res : Res (List α)} :
    mapAt kernels axis = .ok k →
    k.Correlates (readAt input) (line shape axis p) (line shape axis p) out (.ok out') →
    Lines kernels shape axis input ps out' res →
    Lines kernels shape axis input (p :: ps) out res

/-- `correlateAlong` (LitlTransforms/LitlTransforms/SeparableKernel.h:212-225). -/
def Along (kernels : List (Nat × LineKernel α)) (axis : Nat) (input : Raster α) (res : Res (Raster α)) : Prop :=
  match Raster.ofShape (0 : α) input.shape with
  | .error e => res = .error e
  | .ok out => ∃ ps, BoxIterator.Visits (input.domain.project axis) ps ∧
    ∃ r, Lines kernels input.shape axis input.data ps out.data r ∧ res = r.map fun d => ⟨input.shape, d⟩

/-- The arguments of `printf` (LitlTransforms/LitlTransforms/SeparableKernel.h:204): the first pixels of `tmp` and `out`
are read.  What is printed is not modelled. -/
def printed (tmp : Raster α) (res : Res (Raster α)) : Res (Raster α) := do
  let out ← res
  let _ ← readAt tmp.data 0
  let _ ← readAt out.data 0
  return out

/-- `correlateAlongSeqTo` (LitlTransforms/LitlTransforms/SeparableKernel.h:200-210); the result is the value of `out`. -/
inductive AlongSeq (kernels : List (Nat × LineKernel α)) : List Nat → Raster α → Res (Raster α) → Prop where
  | done {input : Raster α} : AlongSeq kernels [] input (.ok input)
  | fail {axis : Nat} {axes : List Nat} {input : Raster α} {e : Fail} : Along kernels axis input (.error e) →
    AlongSeq kernels (axis :: axes) input (.error e)
  | next {axis : Nat} {axes : List Nat} {input tmp : Raster α} {res : Res (Raster α)} :
    Along kernels axis input (.ok tmp) → AlongSeq kernels axes tmp res →
    AlongSeq kernels (axis :: axes) input (printed tmp res)

/-- `operator*(raster)` and `correlateTo` (LitlTransforms/LitlTransforms/SeparableKernel.h:167-180): the value of `out` before
`correlateTo` is not used. -/
def Correlates (k : SeparableKernel α) (input : Raster α) (res : Res (Raster α)) : Prop :=
  AlongSeq k.kernels k.axes input res

/-- The shape and origin in `compose()` (LitlTransforms/LitlTransforms/SeparableKernel.h:143-148); the keys are lower than the
dimension. -/
def composeShape (k : SeparableKernel α) : Position :=
  k.kernels.foldl (fun s e => s.set e.1 e.2.values.length) (Position.one k.dimension)

/-- See `composeShape`. -/
def composeOrigin (k : SeparableKernel α) : Position :=
  k.kernels.foldl (fun s e => s.set e.1 e.2.origin) (Position.zero k.dimension)

/-- `compose()` (LitlTransforms/LitlTransforms/SeparableKernel.h:142-152). -/
def Composes [One α] (k : SeparableKernel α) (res : Res (Kernel α)) : Prop :=
  match Raster.ofShape (0 : α) k.composeShape >>= fun r => r.set k.composeOrigin 1 with
  | .error e => res = .error e
  | .ok raster => ∃ r, k.Correlates raster r ∧ res = r >>= fun out => Kernel.kernelizeAt out k.composeOrigin

end SeparableKernel

end Litl
