import Verif.Model.Integers
import Verif.Model.SeparableKernel

/-!
# Messages of correlations

Model of the calls to `printf()` in LitlTransforms/LitlTransforms/Convolution.h:71-104 and
LitlTransforms/LitlTransforms/SeparableKernel.h:200-210. Messages themselves are not modelled, but the behaviour is undefined if the
arguments do not have the types of the conversion specifications (ISO C, 7.21.6.1, 9). The target is LP64: `int` has 31 digits and
`long` has 63 digits; `long long` is considered as `long`.
-/

namespace Litl

variable {α : Type _}

/-- The arguments of variadic functions, once promoted: `float` is promoted to `double`, integers are promoted; complex numbers are
as `long double`, which no conversion specification below accepts, either
(LitlTransforms/LitlTransforms/Convolution.h:90, 96, 102, SeparableKernel.h:204). -/
inductive Argument
  | integer (t : IntType) (value : Int)
  | floating

/-- `long` (LitlTypes/LitlTypes/TypeUtils.h:92). -/
def IntType.long : IntType := ⟨63, true⟩

/-- The promotion of an integer which is passed to a variadic function, e.g. LitlTransforms/LitlTransforms/SeparableKernel.h:204. -/
def Argument.ofInteger (t : IntType) (value : Int) : Argument := .integer t.promoted value

/-- The conversion specifications `%i` and `%li` (LitlTransforms/LitlTransforms/Convolution.h:85, 90, 96, 102,
SeparableKernel.h:204). -/
inductive Conversion
  | i
  | li

/-- The type of arguments (LitlTransforms/LitlTransforms/Convolution.h:85, 90, 96, 102, SeparableKernel.h:204). -/
def Conversion.type : Conversion → IntType
  | .i => .int
  | .li => .long

/-- Whether the argument is as specified: the type is the expected one, or the corresponding unsigned one, if the value is also that
of the expected one (ISO C, 7.16.1.1, 2; LitlTransforms/LitlTransforms/Convolution.h:85, 90, 96, 102, SeparableKernel.h:204). -/
def Conversion.Accepts (c : Conversion) : Argument → Prop
  | .integer t value => t = c.type ∨ t = ⟨c.type.digits + 1, false⟩ ∧ value ≤ c.type.highest
  | .floating => False

instance (c : Conversion) (a : Argument) : Decidable (c.Accepts a) := by
  unfold Conversion.Accepts; split <;> infer_instance

/-- `printf()` (LitlTransforms/LitlTransforms/Convolution.h:85, 90, 96, 102, SeparableKernel.h:204): excess arguments are ignored. -/
def printf : List Conversion → List Argument → Res Unit
  | [], _ => .ok ()
  | _ :: _, [] => .error .ub
  | c :: cs, a :: as => if c.Accepts a then printf cs as else .error .ub

namespace LineKernel

variable [Zero α] [Add α] [Mul α]

/-- The body of the first loop (LitlTransforms/LitlTransforms/Convolution.h:88-91), where `arg` promotes the values. -/
def backwardPrinted (arg : α → Argument) (k : LineKernel α) (read : Int → Res α) (inn out : DataSamples) (s : State α) :
    Res (State α) := do
  let x ← innerProduct k.values (k.origin - s.i) k.values.length read inn.stride inn.data
  let s' ← put inn out s x
  printf [.li, .li, .i] [.integer .long k.origin, .integer .long s.i, arg x]
  return s'

/-- The body of the second loop (LitlTransforms/LitlTransforms/Convolution.h:94-97): the first argument is a `std::size_t`. -/
def centralPrinted (arg : α → Argument) (k : LineKernel α) (read : Int → Res α) (inn out : DataSamples) (s : State α) :
    Res (State α) := do
  let x ← innerProduct k.values 0 k.values.length read inn.stride s.inIt
  let s' ← put inn out s x
  printf [.li, .li, .i]
    [.integer ⟨64, false⟩ (u64 (u64 (inn.size - k.forward) - u64 inn.sampling.step)), .integer .long s.i, arg x]
  return s'

/-- The body of the third loop (LitlTransforms/LitlTransforms/Convolution.h:100-103). -/
def forwardPrinted (arg : α → Argument) (k : LineKernel α) (read : Int → Res α) (inn out : DataSamples) (s : State α) :
    Res (State α) := do
  let x ← innerProduct k.values 0 (k.origin + i64 (u64 (inn.size - u64 s.i))) read inn.stride s.inIt
  let s' ← put inn out s x
  printf [.li, .li, .i] [.integer .long inn.sampling.back, .integer .long s.i, arg x]
  return s'

/-- `sparseCorrelate1dTo(in, out)` (LitlTransforms/LitlTransforms/Convolution.h:71-104), as `Correlates`, with messages. -/
def CorrelatesPrinted (arg : α → Argument) (k : LineKernel α) (read : Int → Res α) (inn out : DataSamples) (data : List α)
    (res : Res (List α)) : Prop :=
  match printf [.li, .li, .li, .li] [.integer .long inn.sampling.front, .integer .long inn.sampling.back,
      .integer .long inn.sampling.step, .integer .long inn.stride] with
  | .error e => res = .error e
  | .ok _ => ∃ r1, While (fun s => s.i < k.origin) (backwardPrinted arg k read inn out) (start k inn out data) r1 ∧
    match r1 with
    | .error e => res = .error e
    | .ok s1 => ∃ r2, While (CentralCond k inn) (centralPrinted arg k read inn out) s1 r2 ∧
      match r2 with
      | .error e => res = .error e
      | .ok s2 => ∃ r3, While (fun s => s.i ≤ inn.sampling.back) (forwardPrinted arg k read inn out) s2 r3 ∧
        res = r3.map (·.out)

end LineKernel

namespace SeparableKernel

variable [Zero α] [Add α] [Mul α]

/-- The message of `correlateAlongSeqTo` (LitlTransforms/LitlTransforms/SeparableKernel.h:204): `J0` is an `Index`, and `tmp` and
`out` have the same value type. -/
def message (arg : α → Argument) (axis : Nat) (tmp : Raster α) (res : Res (Raster α)) : Res (Raster α) := do
  let out ← res
  let x ← readAt tmp.data 0
  let y ← readAt out.data 0
  printf [.li, .i, .i] [.integer .long axis, arg x, arg y]
  return out

/-- `correlateAlongSeqTo` (LitlTransforms/LitlTransforms/SeparableKernel.h:200-210), as `AlongSeq`, with messages. -/
inductive AlongSeqPrinted (arg : α → Argument) (kernels : List (Nat × LineKernel α)) :
    List Nat → Raster α → Res (Raster α) → Prop where
  | done {input : Raster α} : AlongSeqPrinted arg kernels [] input (.ok input)
  | fail {axis : Nat} {axes : List Nat} {input : Raster α} {e : Fail} : Along kernels axis input (.error e) →
    AlongSeqPrinted arg kernels (axis :: axes) input (.error e)
  | next {axis : Nat} {axes : List Nat} {input tmp : Raster α} {res : Res (Raster α)} :
    Along kernels axis input (.ok tmp) → AlongSeqPrinted arg kernels axes tmp res →
    AlongSeqPrinted arg kernels (axis :: axes) input (message arg axis tmp res)

/-- `operator*(raster)` and `correlateTo` (LitlTransforms/LitlTransforms/SeparableKernel.h:167-180). -/
def CorrelatesPrinted (arg : α → Argument) (k : SeparableKernel α) (input : Raster α) (res : Res (Raster α)) : Prop :=
  AlongSeqPrinted arg k.kernels k.axes input res

end SeparableKernel

end Litl
