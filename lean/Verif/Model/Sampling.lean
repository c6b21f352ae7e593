import Verif.Model.Vector
import Verif.Model.Machine
import Mathlib.Data.Rat.Floor

/-!
# `Litl::AxisSampling`, `Litl::PositionSampling`, `Litl::DataSamples`

Model of LitlRaster/LitlRaster/Sampling.h.
-/

namespace Litl

/-- `Litl::AxisSampling<Index>` (LitlRaster/LitlRaster/Sampling.h:18, 99-112). -/
structure Sampling where
  front : Int
  back : Int
  step : Int
deriving DecidableEq, Repr

namespace Sampling

/-- The default-constructed sampling (LitlRaster/LitlRaster/Sampling.h:102, 107, 112). -/
def default : Sampling := ⟨0, Position.indexInf, 1⟩

/-- `AxisSampling::size` (LitlRaster/LitlRaster/Sampling.h:74-76): the division of integers truncates;
`step = 0` is a division by zero. -/
def size (s : Sampling) : Res Nat :=
  if s.step = 0 then .error .ub else .ok (max 0 ((s.back - s.front + s.step).tdiv s.step)).toNat

/-- The state of `AxisSampling::Iterator` (LitlRaster/LitlRaster/Sampling.h:65-68). -/
structure Iter where
  current : Int
  index : Int
deriving DecidableEq, Repr

/-- The constructor of the iterator (LitlRaster/LitlRaster/Sampling.h:27-28). -/
def iter (s : Sampling) (index : Int) : Iter := ⟨s.front + s.step * index, index⟩

/-- `operator+=` of the iterator (LitlRaster/LitlRaster/Sampling.h:47-51); `operator++` is `+= 1` (38-40). -/
def advance (s : Sampling) (n : Int) (it : Iter) : Iter := ⟨it.current + s.step * n, it.index + n⟩

/-- `for (auto i : sampling)` (LitlRaster/LitlRaster/Sampling.h:57-63, 81-90): iterators over the same
sampling are compared by index.  The loop terminates and yields exactly `l`, in order. -/
def Yields (s : Sampling) (l : List Int) : Prop :=
  ∃ n, s.size = .ok n ∧ ∃ its, LoopUntil (s.advance 1) (fun it => it.index = (s.iter n).index) (s.iter 0) its ∧
    l = its.map Iter.current

end Sampling

/-- `Litl::AxisSampling<T>` for a floating point type, in exact arithmetic
(LitlRaster/LitlRaster/Sampling.h:18, 99-112). -/
structure RatSampling where
  front : ℚ
  back : ℚ
  step : ℚ

/-- `AxisSampling<T>::size` for a floating point type (LitlRaster/LitlRaster/Sampling.h:74-76):
the quotient is exact, and the conversion to `std::size_t` truncates; `step > 0`. -/
def RatSampling.size (s : RatSampling) : Nat := ⌊max 0 ((s.back - s.front + s.step) / s.step)⌋.toNat

/-- The values of the iterators from `begin()` to `end()`
(LitlRaster/LitlRaster/Sampling.h:27-28, 47-51, 81-90). -/
def RatSampling.values (s : RatSampling) : List ℚ := (List.range s.size).map fun k : Nat => s.front + s.step * k

/-- `PositionSampling(box, step).shape()` for a fixed dimension (LitlRaster/LitlRaster/Sampling.h:129-144). -/
def PositionSampling.shape (front back step : Position) : Res Position :=
  (List.zipWith (fun fb s => (⟨fb.1, fb.2, s⟩ : Sampling)) (List.zip front back) step).mapM fun s => do
    let n ← s.size
    return (n : Int)

/-- `Litl::DataSamples<T>` (LitlRaster/LitlRaster/Sampling.h:172, 374-393), where `data` is the raw offset
pointed to by `m_data`. -/
structure DataSamples where
  data : Int
  size : Nat
  sampling : Sampling
  stride : Int
deriving DecidableEq, Repr

namespace DataSamples

/-- The constructor of `DataSamples` (LitlRaster/LitlRaster/Sampling.h:238-242):
an infinite back is replaced with `Index(m_size - 1)`. -/
def mk' (data : Int) (size : Nat) (sampling : Sampling) (stride : Int) : DataSamples :=
  ⟨data, size,
    ⟨sampling.front,
      if sampling.back = Position.indexInf then i64 (u64 ((size : Int) - 1)) else sampling.back,
      sampling.step⟩,
    stride⟩

/-- `count()` (LitlRaster/LitlRaster/Sampling.h:261-263). -/
def count (d : DataSamples) : Res Nat := d.sampling.size

/-- The pointer of the iterator of given index (LitlRaster/LitlRaster/Sampling.h:184-188). -/
def iter (d : DataSamples) (index : Int) : Int :=
  d.data + d.sampling.front * d.stride + d.sampling.step * d.stride * index

/-- `operator+=` of the iterator (LitlRaster/LitlRaster/Sampling.h:207-210). -/
def advance (d : DataSamples) (n : Int) (it : Int) : Int := it + d.sampling.step * d.stride * n

/-- `for (auto& e : samples)` (LitlRaster/LitlRaster/Sampling.h:217-223, 342-365): the end iterator is that
of index `size()`.  The loop terminates and visits exactly the raw offsets `l`. -/
def Visits (d : DataSamples) (l : List Int) : Prop :=
  LoopTrace (d.advance 1) (d.iter d.size) (d.iter 0) l

/-- `samples += n` (LitlRaster/LitlRaster/Sampling.h:326-329), for an integral element type `T`. -/
def shift (d : DataSamples) (n : Int) : DataSamples := { d with data := d.data + n }

end DataSamples

end Litl
