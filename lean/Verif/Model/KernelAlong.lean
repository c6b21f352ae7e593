import Verif.Model.SeparableKernel

/-!
# Correlation along an axis by `Kernel1d`

Model of LitlTransforms/LitlTransforms/Convolution.h:49-65. Messages are not modelled, see Model/Printf.lean. Values of the kernel and of
the rasters have the same type.
-/

namespace Litl.LineKernel

variable {α : Type _} [Zero α] [Add α] [Mul α]

/-- The loop over the hyperplane (LitlTransforms/LitlTransforms/Convolution.h:59-63), over the given positions; `out` is the data of
the output. The samples of lines 60 and 61 are those of `SeparableKernel::correlateAlong`, i.e. `SeparableKernel.line`. -/
inductive AlongLines (k : LineKernel α) (shape : Position) (axis : Nat) (input : List α) :
    List Position → List α → Res (List α) → Prop where
  | done {out : List α} : AlongLines k shape axis input [] out (.ok out)
  | fail {p : Position} {ps : List Position} {out : List α} {e : Fail} :
    k.Correlates (readAt input) (SeparableKernel.line shape axis p) (SeparableKernel.line shape axis p) out (.error e) →
    AlongLines k shape axis input (p :: ps) out (.error e)
  | next {p : Position} {ps : List Position} {out out' : List α} {res : Res (List α)} :
    k.Correlates (readAt input) (SeparableKernel.line shape axis p) (SeparableKernel.line shape axis p) out (.ok out') →
    AlongLines k shape axis input ps out' res → AlongLines k shape axis input (p :: ps) out res

/-- `Kernel1d::correlateAlong<Axis>(in)` (LitlTransforms/LitlTransforms/Convolution.h:52-65). -/
def CorrelatesAlong (k : LineKernel α) (axis : Nat) (input : Raster α) (res : Res (Raster α)) : Prop :=
  match Raster.ofShape (0 : α) input.shape with
  | .error e => res = .error e
  | .ok out => ∃ ps, BoxIterator.Visits (input.domain.project axis) ps ∧
    ∃ r, AlongLines k input.shape axis input.data ps out.data r ∧ res = r.map fun d => ⟨input.shape, d⟩

end Litl.LineKernel
