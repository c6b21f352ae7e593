import Verif.Model.Sampling

/-!
# Line kernels

Model of LitlTransforms/LitlTransforms/LineKernel.h, LitlTransforms/LitlTransforms/Convolution.h and
LitlTypes/LitlTypes/Segment.h.
Values of the kernel and of the data have the same type, with exact operations.
Pointers are raw offsets: forming an invalid pointer is not an error unless it is dereferenced.
-/

namespace Litl

variable {α : Type _}

/-- `Segment` (LitlTypes/LitlTypes/Segment.h:12-36). -/
structure Segment where
  front : Int
  back : Int
deriving DecidableEq, Repr

namespace Segment

/-- `Segment::fromSize` (LitlTypes/LitlTypes/Segment.h:17-19): `size` is unsigned, and so is the computation. -/
def fromSize (front : Int) (size : Nat) : Segment := ⟨front, i64 (u64 (u64 (size - u64 front) - 1))⟩

/-- `Segment::size` (LitlTypes/LitlTypes/Segment.h:29-31), whose result is unsigned. -/
def size (s : Segment) : Int := u64 (s.back - s.front + 1)

end Segment

/-- `while (cond(s)) s = body(s);` from state `s`, whose result is the final state: the loop may not terminate. -/
inductive While {σ : Type _} (cond : σ → Prop) (body : σ → Res σ) : σ → Res σ → Prop where
  | done {s : σ} : ¬ cond s → While cond body s (.ok s)
  | fail {s : σ} {e : Fail} : cond s → body s = .error e → While cond body s (.error e)
  | next {s s' : σ} {r : Res σ} : cond s → body s = .ok s' → While cond body s' r → While cond body s r

/-- `LineKernel` (LitlTransforms/LitlTransforms/LineKernel.h:27, 38, 114-116), and
`Kernel1d` (LitlTransforms/LitlTransforms/Convolution.h:18, 24-26, 202-206), whose `m_backward` is the origin. The bias is
always null. -/
structure LineKernel (α : Type _) where
  values : List α
  origin : Int
deriving DecidableEq, Repr

namespace LineKernel

/-- `LineKernel(values)` (LitlTransforms/LitlTransforms/LineKernel.h:43): the parameters of the target constructor are
initialized in an unspecified order, such that `values.size()` may be that of the moved-from vector. -/
def Centered (values : List α) (k : LineKernel α) : Prop :=
  k = ⟨values, (values.length / 2 : Nat)⟩ ∨ k = ⟨values, 0⟩

/-- `window()` (LitlTransforms/LitlTransforms/LineKernel.h:48-50). -/
def window (k : LineKernel α) : Segment := Segment.fromSize (-k.origin) k.values.length

/-- The number of values after the origin (LitlTransforms/LitlTransforms/LineKernel.h:103), which is unsigned;
`m_forward` (LitlTransforms/LitlTransforms/Convolution.h:26) is the same number modulo 2^64. -/
def forward (k : LineKernel α) : Int := u64 (u64 (k.values.length - u64 k.origin) - 1)

variable [Zero α] [Add α] [Mul α]

/-- `std::inner_product(first, last, it, T())` where `first` and `last` are offsets in the kernel and `it` is an iterator
of stride `stride` over the input, whose raw offset is `it`: (LitlTransforms/LitlTransforms/LineKernel.h:99, 105, 110).
`last` shall be reachable from `first`. -/
def innerProduct (values : List α) (first last : Int) (read : Int → Res α) (stride it : Int) : Res α :=
  if last < first then .error .ub
  else (List.range (last - first).toNat).foldlM (fun s (t : Nat) => do
    let a ← readAt values (first + t)
    let b ← read (it + stride * t)
    return s + a * b) 0

/-- The variables of the loops (LitlTransforms/LitlTransforms/LineKernel.h:90-95,
LitlTransforms/LitlTransforms/Convolution.h:78-83) and the output data. -/
structure State (α : Type _) where
  i : Int
  inIt : Int
  outIt : Int
  out : List α
deriving DecidableEq, Repr

/-- `*outIt = value`, and the increments (LitlTransforms/LitlTransforms/LineKernel.h:98, 104, 109,
LitlTransforms/LitlTransforms/Convolution.h:88, 94, 100): `inIt` iterates over samples of unit step. -/
def put (inn out : DataSamples) (s : State α) (value : α) : Res (State α) := do
  let o ← writeAt s.out s.outIt value
  return ⟨s.i + inn.sampling.step, s.inIt + inn.stride * inn.sampling.step, out.advance 1 s.outIt, o⟩

/-- The body of the first loop (LitlTransforms/LitlTransforms/LineKernel.h:99,
LitlTransforms/LitlTransforms/Convolution.h:89), where `inMinIt` is the pointer to the first element of the line. -/
def backwardBody (k : LineKernel α) (read : Int → Res α) (inn out : DataSamples) (s : State α) : Res (State α) := do
  let x ← innerProduct k.values (k.origin - s.i) k.values.length read inn.stride inn.data
  put inn out s x

/-- The condition of the second loop (LitlTransforms/LitlTransforms/LineKernel.h:104,
LitlTransforms/LitlTransforms/Convolution.h:94): the comparison is that of unsigned integers. -/
def CentralCond (k : LineKernel α) (inn : DataSamples) (s : State α) : Prop :=
  u64 s.i ≤ u64 (u64 (inn.size - k.forward) - u64 inn.sampling.step)

/-- The body of the second loop (LitlTransforms/LitlTransforms/LineKernel.h:105,
LitlTransforms/LitlTransforms/Convolution.h:95). -/
def centralBody (k : LineKernel α) (read : Int → Res α) (inn out : DataSamples) (s : State α) : Res (State α) := do
  let x ← innerProduct k.values 0 k.values.length read inn.stride s.inIt
  put inn out s x

/-- The body of the third loop (LitlTransforms/LitlTransforms/LineKernel.h:110,
LitlTransforms/LitlTransforms/Convolution.h:101); the offset from the origin is unsigned, and the pointer arithmetic
wraps around. -/
def forwardBody (k : LineKernel α) (read : Int → Res α) (inn out : DataSamples) (s : State α) : Res (State α) := do
  let x ← innerProduct k.values 0 (k.origin + i64 (u64 (inn.size - u64 s.i))) read inn.stride s.inIt
  put inn out s x

/-- The initial values of the variables (LitlTransforms/LitlTransforms/LineKernel.h:88-95,
LitlTransforms/LitlTransforms/Convolution.h:76-83).  `unitIn` has the bounds of `in` and unit step. -/
def start (k : LineKernel α) (inn out : DataSamples) (data : List α) : State α :=
  let unitIn := DataSamples.mk' inn.data inn.size ⟨inn.sampling.front, inn.sampling.back, 1⟩ inn.stride
  ⟨inn.sampling.front, unitIn.advance (-k.origin) (unitIn.iter 0), out.iter 0, data⟩

/-- `correlate(in, out)` (LitlTransforms/LitlTransforms/LineKernel.h:83-112) and
`sparseCorrelate1dTo(in, out)` (LitlTransforms/LitlTransforms/Convolution.h:71-104).
`read` reads the memory of the input at a raw offset, `data` is the memory of the output, which is assumed to be disjoint.
-/
def Correlates (k : LineKernel α) (read : Int → Res α) (inn out : DataSamples) (data : List α)
    (res : Res (List α)) : Prop :=
  ∃ r1, While (fun s => s.i < k.origin) (backwardBody k read inn out) (start k inn out data) r1 ∧
    match r1 with
    | .error e => res = .error e
    | .ok s1 => ∃ r2, While (CentralCond k inn) (centralBody k read inn out) s1 r2 ∧
      match r2 with
      | .error e => res = .error e
      | .ok s2 => ∃ r3, While (fun s => s.i ≤ inn.sampling.back) (forwardBody k read inn out) s2 r3 ∧
        res = r3.map (·.out)

end LineKernel

end Litl
