import Verif.Model.LineKernel
import Verif.Model.RasterCtor

/-!
# 2D correlation by `Kernel1d`

Model of LitlTransforms/LitlTransforms/Convolution.h:109-200. Values of the kernel, of the rasters and of the intermediate
raster have the same type, with exact operations. What is printed is not modelled.
-/

namespace Litl.Convolution

variable {α : Type _} [Zero α] [Add α] [Mul α]

/-- The loops over lines (LitlTransforms/LitlTransforms/Convolution.h:150-158, 183-191): the loop variable, the samples of
the input and output, which are moved by the given offsets, the output data and the result. -/
inductive Pass (k : LineKernel α) (read : Int → Res α) (last step inOffset outOffset : Int) :
    Int → DataSamples → DataSamples → List α → Res (List α) → Prop where
  | done {v : Int} {inn out : DataSamples} {data : List α} : ¬ v ≤ last →
    Pass k read last step inOffset outOffset v inn out data (.ok data)
  | fail {v : Int} {inn out : DataSamples} {data : List α} {e : Fail} : v ≤ last →
    k.Correlates read inn out data (.error e) → Pass k read last step inOffset outOffset v inn out data (.error e)
  | next {v : Int} {inn out : DataSamples} {data data' : List α} {r : Res (List α)} : v ≤ last →
    k.Correlates read inn out data (.ok data') →
    Pass k read last step inOffset outOffset (v + step) (inn.shift inOffset) (out.shift outOffset) data' r →
    Pass k read last step inOffset outOffset v inn out data r

/-- `yFrom` (LitlTransforms/LitlTransforms/Convolution.h:124). -/
def yFrom (k : LineKernel α) (y : Sampling) : Int := max 0 (y.front - k.origin)

/-- `yTo` (LitlTransforms/LitlTransforms/Convolution.h:126). -/
def yTo (k : LineKernel α) (height : Int) (y : Sampling) : Int := min (height - 1) (y.back + i64 k.forward)

/-- `sparseCorrelate2dTo(in, {x, y}, out)` (LitlTransforms/LitlTransforms/Convolution.h:119-200) for 2D rasters; `convIn` and
`convOut` are the conversions of offsets to the value types of the rasters and back, which are integral types
(LitlRaster/LitlRaster/Sampling.h:326). -/
def SparseCorrelates2d (convIn convOut : Int → Int) (k : LineKernel α) (width height : Int) (input : List α)
    (x y : Sampling) (outWidth outHeight : Int) (out : List α) (res : Res (List α)) : Prop :=
  if x.step = 0 then res = .error .ub
  else
    let xConvolvedWidth := (x.back - x.front + x.step).tdiv x.step
    let xConvolvedHeight := yTo k height y - yFrom k y + 1
    match Raster.ofShape (0 : α) [xConvolvedWidth, xConvolvedHeight] with
    | .error e => res = .error e
    | .ok xConvolved =>
      let inSamples := DataSamples.mk' (index [width, height] [0, yFrom k y]) width.toNat x 1
      let xConvolvedSamples := DataSamples.mk' 0 xConvolvedWidth.toNat ⟨0, Position.indexInf, 1⟩ 1
      ∃ r1, Pass k (readAt input) (yTo k height y) 1 (convIn width) (convOut xConvolvedWidth) (yFrom k y) inSamples
          xConvolvedSamples xConvolved.data r1 ∧
        match r1 with
        | .error e => res = .error e
        | .ok d =>
          let ySamples := DataSamples.mk' 0 xConvolvedHeight.toNat
            ⟨y.front - yFrom k y, y.back - yFrom k y, y.step⟩ xConvolvedWidth
          let outSamples := DataSamples.mk' 0 outHeight.toNat ⟨0, Position.indexInf, 1⟩ outWidth
          Pass k (readAt d) x.back x.step (convOut 1) (convOut 1) x.front ySamples outSamples out res

/-- `correlate2dTo(in, out)` (LitlTransforms/LitlTransforms/Convolution.h:110-113): the samples are all pixels. -/
def Correlates2d (convIn convOut : Int → Int) (k : LineKernel α) (width height : Int) (input : List α)
    (outWidth outHeight : Int) (out : List α) (res : Res (List α)) : Prop :=
  SparseCorrelates2d convIn convOut k width height input ⟨0, width - 1, 1⟩ ⟨0, height - 1, 1⟩ outWidth outHeight out res

end Litl.Convolution
