import Verif.Model.Convolution
import Verif.Model.Printf

/-!
# Messages of 2D correlations

Model of the calls to `printf()` in `sparseCorrelate2dTo` (LitlTransforms/LitlTransforms/Convolution.h:118-200), on top of those of
`sparseCorrelate1dTo`, which are in Model/Printf. Messages whose arguments are all `Index` or `std::ptrdiff_t`, with as many `%li`
(lines 129, 139, 144-149, 151-154, 160, 174, 177-182, 184-187 and 193), have no effect and are left out.
-/

namespace Litl.Convolution

variable {α : Type _}

/-- The loops which print a raster (LitlTransforms/LitlTransforms/Convolution.h:161-166, 194-199). -/
def printPixels (arg : α → Argument) (width height : Int) (data : List α) : Res Unit :=
  (List.range height.toNat).forM fun y => (List.range width.toNat).forM fun x => do
    let v ← readAt data (index [width, height] [(x : Int), (y : Int)])
    printf [.i] [arg v]

variable [Zero α] [Add α] [Mul α]

/-- The loops over lines (LitlTransforms/LitlTransforms/Convolution.h:150-158, 183-191), as `Pass`, with messages. -/
inductive PassPrinted (arg : α → Argument) (k : LineKernel α) (read : Int → Res α) (last step inOffset outOffset : Int) :
    Int → DataSamples → DataSamples → List α → Res (List α) → Prop where
  | done {v : Int} {inn out : DataSamples} {data : List α} : ¬ v ≤ last →
    PassPrinted arg k read last step inOffset outOffset v inn out data (.ok data)
  | fail {v : Int} {inn out : DataSamples} {data : List α} {e : Fail} : v ≤ last →
    k.CorrelatesPrinted arg read inn out data (.error e) →
    PassPrinted arg k read last step inOffset outOffset v inn out data (.error e)
  | next {v : Int} {inn out : DataSamples} {data data' : List α} {r : Res (List α)} : v ≤ last →
    k.CorrelatesPrinted arg read inn out data (.ok data') →
    PassPrinted arg k read last step inOffset outOffset (v + step) (inn.shift inOffset) (out.shift outOffset) data' r →
    PassPrinted arg k read last step inOffset outOffset v inn out data r

/-- `sparseCorrelate2dTo(in, {x, y}, out)` (LitlTransforms/LitlTransforms/Convolution.h:118-200), as `SparseCorrelates2d`, with
messages. -/
def SparseCorrelates2dPrinted (arg : α → Argument) (convIn convOut : Int → Int) (k : LineKernel α) (width height : Int)
    (input : List α) (x y : Sampling) (outWidth outHeight : Int) (out : List α) (res : Res (List α)) : Prop :=
  if x.step = 0 then res = .error .ub
  else
    let xConvolvedWidth := (x.back - x.front + x.step).tdiv x.step
    let xConvolvedHeight := yTo k height y - yFrom k y + 1
    match Raster.ofShape (0 : α) [xConvolvedWidth, xConvolvedHeight] with
    | .error e => res = .error e
    | .ok xConvolved =>
      let inSamples := DataSamples.mk' (index [width, height] [0, yFrom k y]) width.toNat x 1
      let xConvolvedSamples := DataSamples.mk' 0 xConvolvedWidth.toNat ⟨0, Position.indexInf, 1⟩ 1
      ∃ r1, PassPrinted arg k (readAt input) (yTo k height y) 1 (convIn width) (convOut xConvolvedWidth) (yFrom k y) inSamples
          xConvolvedSamples xConvolved.data r1 ∧
        match r1 with
        | .error e => res = .error e
        | .ok d =>
          match printPixels arg xConvolvedWidth xConvolvedHeight d with
          | .error e => res = .error e
          | .ok _ =>
            let ySamples := DataSamples.mk' 0 xConvolvedHeight.toNat
              ⟨y.front - yFrom k y, y.back - yFrom k y, y.step⟩ xConvolvedWidth
            let outSamples := DataSamples.mk' 0 outHeight.toNat ⟨0, Position.indexInf, 1⟩ outWidth
            ∃ r2, PassPrinted arg k (readAt d) x.back x.step (convOut 1) (convOut 1) x.front ySamples outSamples out r2 ∧
              res = do
                let o ← r2
                printPixels arg outWidth outHeight o
                return o

/-- `correlate2dTo(in, out)` (LitlTransforms/LitlTransforms/Convolution.h:109-113), as `Correlates2d`, with messages. -/
def Correlates2dPrinted (arg : α → Argument) (convIn convOut : Int → Int) (k : LineKernel α) (width height : Int) (input : List α)
    (outWidth outHeight : Int) (out : List α) (res : Res (List α)) : Prop :=
  SparseCorrelates2dPrinted arg convIn convOut k width height input ⟨0, width - 1, 1⟩ ⟨0, height - 1, 1⟩ outWidth outHeight out res

end Litl.Convolution
