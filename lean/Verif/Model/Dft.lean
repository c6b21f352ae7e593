import Verif.Model.Machine
import Verif.Model.Vector
import Verif.Model.Core
import Verif.Model.Raster
import Verif.Spec.Dft

/-!
# Discrete Fourier transforms

LitlTransforms/LitlTransforms/{Dft.h, DftPlan.h, DftMemory.h}.

The computation itself is done by FFTW, which is not part of the code under study: `Fftw` below is what is assumed of it
(FFTW 3 manual, "What FFTW really computes", "Planner flags" and "Real-data DFTs"), on row-major arrays.
Values are exact: `double` is ℝ and `std::complex<double>` is ℂ.

Memory is a map from the addresses of buffers to their values; overlapping buffers are those of same address.
Buffers are aligned (C-numbers on `AlignedBuffer` are in `Verif.Props.AlignedBuffer`), and plans are out of place.
-/

namespace Litl

/-- The values of a buffer, of type `double` or `std::complex<double>`. -/
inductive Values where
  | real (v : List ℝ)
  | complex (v : List ℂ)

namespace Values

/-- The number of elements. -/
def length : Values → Nat
  | real v => v.length
  | complex v => v.length

/-- Whether the value type is `double`. -/
def isReal : Values → Bool
  | real _ => true
  | complex _ => false

/-- The value at some index. -/
noncomputable def get? : Values → Int → Option ℂ
  | real v, i => (v[i.toNat]?).map Complex.ofReal
  | complex v, i => v[i.toNat]?

end Values

/-- The memory: the contents of the buffers which are allocated. -/
abbrev Memory := Nat → Option Values

/-- Change the contents of one buffer. -/
def Memory.set (m : Memory) (address : Nat) (v : Values) : Memory :=
  fun a => if a = address then some v else m a

/-! ## FFTW (assumed) -/

namespace Fftw

/-- What `fftw_plan_dft()` and the like return (called at Dft.h:150-155, 162-167, 180-186 and 193-199):
the kind of transform, the logical lengths in row-major order, and the addresses of the buffers. -/
structure Plan where
  /-- Between real and complex data (`r2c` or `c2r`) instead of complex data only -/
  real : Bool
  /-- `FFTW_BACKWARD` or `c2r` -/
  backward : Bool
  /-- The logical lengths -/
  n : List Int
  /-- The input array -/
  input : Nat
  /-- The output array -/
  output : Nat

/-- The lengths of the array of the non-redundant half of a Hermitian spectrum: the last (contiguous) one is halved. -/
def half : List Int → List Int
  | [] => []
  | [a] => [a / 2 + 1]
  | a :: n => a :: half n

/-- The contents of an array of given lengths, in row-major order. -/
noncomputable def at' (n : List Int) (x : List ℂ) (j : List Int) : ℂ := x.getD (Spec.rowMajor n j).toNat 0

/-- Complex transform of the first elements of `x` into the first elements of `y`. -/
def C2C (sign : ℝ) (n : List Int) (x y : List ℂ) : Prop :=
  ∀ k, Spec.InShape n k → Spec.IsDft sign n (at' n x) k (at' n y k)

/-- Transform of real data into the non-redundant half of the spectrum. -/
def R2C (n : List Int) (x : List ℝ) (y : List ℂ) : Prop :=
  ∀ k, Spec.InShape (half n) k →
    Spec.IsDft (-1) n (at' n (x.map Complex.ofReal)) k (at' (half n) y k)

/-- Transform of half a spectrum into real data: specified only if there exists a Hermitian spectrum of which
this is half, e.g. the imaginary part of the coefficient of null frequency must be null. -/
def C2R (n : List Int) (x : List ℂ) (y : List ℝ) : Prop :=
  ∀ X : List Int → ℂ, Spec.IsHermitian n X → (∀ k, Spec.InShape (half n) k → at' (half n) x k = X k) →
    ∀ j, Spec.InShape n j → Spec.IsDft 1 n X j (at' n (y.map Complex.ofReal) j)

/-- The contents of a buffer are replaced with garbage of same type and length. -/
def Garbage (v w : Values) : Prop := w.isReal = v.isReal ∧ w.length = v.length

/-- `fftw_plan_dft()` and the like with flag `FFTW_MEASURE` (Dft.h:150-155, 162-167, 180-186 and 193-199):
both arrays are overwritten with garbage. -/
inductive Measures (p : Plan) (m : Memory) : Memory → Prop where
  | mk {v w v' w' : Values} : m p.input = some v → m p.output = some w → Garbage v v' → Garbage w w' →
      Measures p m ((m.set p.input v').set p.output w')

/-- `fftw_execute()` (called at DftPlan.h:219). The input array is garbage afterwards.
It is undefined behaviour if an array is missing, of wrong type or too short.-/
inductive Executes (p : Plan) (m : Memory) : Res Memory → Prop where
  | c2c {x y o : List ℂ} {g : Values} : p.real = false →
      m p.input = some (.complex x) → m p.output = some (.complex o) →
      p.n.prod ≤ x.length → p.n.prod ≤ o.length → y.length = o.length →
      C2C (if p.backward then 1 else -1) p.n x y → Garbage (.complex x) g →
      Executes p m (.ok ((m.set p.input g).set p.output (.complex y)))
  | r2c {x : List ℝ} {y o : List ℂ} {g : Values} : p.real = true → p.backward = false →
      m p.input = some (.real x) → m p.output = some (.complex o) →
      p.n.prod ≤ x.length → (half p.n).prod ≤ o.length → y.length = o.length →
      R2C p.n x y → Garbage (.real x) g →
      Executes p m (.ok ((m.set p.input g).set p.output (.complex y)))
  | c2r {x : List ℂ} {y o : List ℝ} {g : Values} : p.real = true → p.backward = true →
      m p.input = some (.complex x) → m p.output = some (.real o) →
      (half p.n).prod ≤ x.length → p.n.prod ≤ o.length → y.length = o.length →
      C2R p.n x y → Garbage (.complex x) g →
      Executes p m (.ok ((m.set p.input g).set p.output (.real y)))
  | input : (∀ v, m p.input = some v → v.isReal = (p.real && !p.backward) →
        (v.length : Int) < (if p.real && p.backward then half p.n else p.n).prod) →
      Executes p m (.error .ub)
  | output : (∀ v, m p.output = some v → v.isReal = (p.real && p.backward) →
        (v.length : Int) < (if p.real && !p.backward then half p.n else p.n).prod) →
      Executes p m (.error .ub)

end Fftw

/-! ## Transforms -/

/-- The transforms: `RealDftTransform` and `ComplexDftTransform` (Dft.h:135-136, 173-174),
and their `Inverse` (Dft.h:129-130). -/
structure Transform where
  /-- `RealDftTransform` instead of `ComplexDftTransform` -/
  real : Bool
  /-- `Inverse` -/
  inverted : Bool
deriving DecidableEq

namespace Transform

/-- `InverseTransform` (Dft.h:76 and 113: the inverse of `Inverse<T>` is `T`). -/
def inverse (t : Transform) : Transform := { t with inverted := !t.inverted }

/-- `InValue` is `double` (Dft.h:66, 111, 136 and 174). -/
def inReal (t : Transform) : Bool := t.real && !t.inverted

/-- `OutValue` is `double` (Dft.h:71, 112, 136 and 174). -/
def outReal (t : Transform) : Bool := t.real && t.inverted

/-- `RealDftTransform::outShape()` (Dft.h:138-144); C++ division of lengths, which truncates towards 0.
Shapes of dimension 0, for which `out[0]` is undefined behaviour, are left unchanged. -/
def halfShape : Position → Position
  | [] => []
  | a :: shape => (Int.tdiv a 2 + 1) :: shape

/-- `outShape()` of the transforms which are not inverse (Dft.h:91-94 and 138-144). -/
def directOutShape (t : Transform) (shape : Position) : Position := if t.real then halfShape shape else shape

/-- `inShape()` (Dft.h:82-85 and 115-118). -/
def inShape (t : Transform) (shape : Position) : Position :=
  if t.inverted then t.directOutShape shape else shape

/-- `outShape()` (Dft.h:91-94, 120-123 and 138-144). -/
def outShape (t : Transform) (shape : Position) : Position :=
  if t.inverted then shape else t.directOutShape shape

end Transform

/-- Conversion of an `Index` to `int`, of 32 bits (implementation-defined before C++20, modulo 2³² in practice). -/
def toInt32 (x : Int) : Int := Int.bmod x (2 ^ 32)

/-- `fftwShape(raster)` (Dft.h:34-39). -/
def fftwShape (shape : Position) : List Int := (shape.map toInt32).reverse

/-! ## Plans -/

/-- An `AlignedRaster` as plans use them (LitlRaster/LitlRaster/AlignedRaster.h): the address of the data, the shape,
and whether the raster owns the data. -/
structure DftBuffer where
  /-- `data()` -/
  address : Nat
  /-- `shape()` -/
  shape : Position
  /-- `owns()` -/
  owns : Bool

namespace DftBuffer

/-- Constructor `{shape, data}` (DftPlan.h:108, LitlContainer/LitlContainer/AlignedBuffer.h): a null pointer means that
memory is allocated, at an address which is not in use. -/
inductive Constructs (real : Bool) (shape : Position) (m : Memory) : Option Nat → DftBuffer → Memory → Prop where
  | own {a : Nat} {v : Values} : m a = none → v.isReal = real → (v.length : Int) = shapeSize shape →
      Constructs real shape m none ⟨a, shape, true⟩ (m.set a v)
  | share {a : Nat} : Constructs real shape m (some a) ⟨a, shape, false⟩ m

/-- `buffer[position]`, without bounds checking except that of the memory. -/
noncomputable def get? (b : DftBuffer) (m : Memory) (p : Position) : Option ℂ :=
  (m b.address).bind fun v => v.get? (index b.shape p)

end DftBuffer

/-- `Transform::allocateFftwPlan(in, out)` (Dft.h:146-156, 158-168, 176-187 and 189-200): the plan which is asked for.
The lengths are those of the output for inverse transforms and of the input for other transforms. -/
def allocateFftwPlan (t : Transform) (input output : DftBuffer) : Fftw.Plan where
  real := t.real
  backward := t.inverted
  n := fftwShape (if t.inverted then output.shape else input.shape)
  input := input.address
  output := output.address

/-- `DftPlan<TTransform, N>` (DftPlan.h:64-252). -/
structure DftPlan where
  /-- `TTransform` -/
  transform : Transform
  /-- `m_shape` -/
  shape : Position
  /-- `m_in` -/
  input : DftBuffer
  /-- `m_out` -/
  output : DftBuffer
  /-- `m_plan` -/
  plan : Fftw.Plan

namespace DftPlan

/-- Constructor (DftPlan.h:107-109). -/
inductive Constructs (t : Transform) (shape : Position) (inData outData : Option Nat) (m : Memory) :
    DftPlan → Memory → Prop where
  | mk {input output : DftBuffer} {m₁ m₂ m₃ : Memory} :
      DftBuffer.Constructs t.inReal (t.inShape shape) m inData input m₁ →
      DftBuffer.Constructs t.outReal (t.outShape shape) m₁ outData output m₂ →
      Fftw.Measures (allocateFftwPlan t input output) m₂ m₃ →
      Constructs t shape inData outData m ⟨t, shape, input, output, allocateFftwPlan t input output⟩ m₃

/-- `inverse()` (DftPlan.h:136-138). -/
def Inverts (d : DftPlan) : Memory → DftPlan → Memory → Prop :=
  Constructs d.transform.inverse d.shape (some d.output.address) (some d.input.address)

/-- `compose<TPlan>(shape)` (DftPlan.h:152-155). -/
def Composes (d : DftPlan) (t : Transform) (shape : Position) : Memory → DftPlan → Memory → Prop :=
  Constructs t shape (some d.output.address) none

/-- `normalizationFactor()` (DftPlan.h:211-213). -/
def normalizationFactor (d : DftPlan) : ℝ := shapeSize d.shape

/-- `transform()` (DftPlan.h:218-221). -/
def Transforms (d : DftPlan) : Memory → Res Memory → Prop := Fftw.Executes d.plan

/-- Multiply the first elements by a real factor. -/
noncomputable def scale (factor : ℝ) (size : Nat) : Values → Values
  | .real v => .real ((v.take size).map (· * factor) ++ v.drop size)
  | .complex v => .complex ((v.take size).map (· * (factor : ℂ)) ++ v.drop size)

/-- `normalize()` (DftPlan.h:226-230): the elements of the raster `out()` are multiplied;
it is undefined behaviour if there are less in memory. -/
noncomputable def normalize (d : DftPlan) (m : Memory) : Res Memory :=
  match m d.output.address with
  | none => .error .ub
  | some v =>
    if (v.length : Int) < shapeSize d.output.shape then .error .ub
    else .ok (m.set d.output.address (scale (1 / d.normalizationFactor) (shapeSize d.output.shape).toNat v))

/-- Assignment of all of the elements of the input buffer by the user (DftPlan.h:34 and 43), in any way. -/
def Fills (d : DftPlan) (x : Values) (m m' : Memory) : Prop :=
  ∃ v, m d.input.address = some v ∧ Fftw.Garbage v x ∧ m' = m.set d.input.address x

end DftPlan

/-! ## Free functions -/

/-- The conversion of elements by `std::copy()` from some raster to a buffer. Complex values do not convert to real. -/
noncomputable def Values.convert : Bool → Values → Option Values
  | true, .real v => some (.real v)
  | true, .complex _ => none
  | false, .real v => some (.complex (v.map Complex.ofReal))
  | false, .complex v => some (.complex v)

/-- Overwrite the first elements of a buffer. -/
def Values.overwrite : Values → Values → Option Values
  | .real x, .real v => some (.real (x ++ v.drop x.length))
  | .complex x, .complex v => some (.complex (x ++ v.drop x.length))
  | _, _ => none

/-- `std::copy(in.begin(), in.end(), plan.in().begin())` (Dft.h:226, 238, 250 and 262):
undefined behaviour if the input is too long. -/
noncomputable def copyTo (x : Values) (address : Nat) (m : Memory) : Res Memory :=
  match m address with
  | none => .error .ub
  | some v =>
    if v.length < x.length then .error .ub
    else match (x.convert v.isReal).bind (·.overwrite v) with
      | none => .error .ub
      | some w => .ok (m.set address w)

/-- `complexDft(in)` (Dft.h:223-229), `realDft(in)` (Dft.h:247-253), `inverseComplexDft(in)` (Dft.h:235-241) and
`inverseRealDft(in, shape)` (Dft.h:259-265): the shape and values of the returned raster.
`shape` is `in.shape()` for all but `inverseRealDft()`.-/
inductive DftFunction (t : Transform) (shape : Position) (x : Values) : Res (Position × Values) → Prop where
  | copy {m m₁ : Memory} {d : DftPlan} {e : Fail} : DftPlan.Constructs t shape none none m d m₁ →
      copyTo x d.input.address m₁ = .error e → DftFunction t shape x (.error e)
  | transform {m m₁ m₂ : Memory} {d : DftPlan} {e : Fail} : DftPlan.Constructs t shape none none m d m₁ →
      copyTo x d.input.address m₁ = .ok m₂ → d.Transforms m₂ (.error e) → DftFunction t shape x (.error e)
  | direct {m m₁ m₂ m₃ : Memory} {d : DftPlan} {y : Values} : t.inverted = false →
      DftPlan.Constructs t shape none none m d m₁ →
      copyTo x d.input.address m₁ = .ok m₂ → d.Transforms m₂ (.ok m₃) → m₃ d.output.address = some y →
      DftFunction t shape x (.ok (d.output.shape, y))
  | normalize {m m₁ m₂ m₃ : Memory} {d : DftPlan} {e : Fail} : t.inverted = true →
      DftPlan.Constructs t shape none none m d m₁ →
      copyTo x d.input.address m₁ = .ok m₂ → d.Transforms m₂ (.ok m₃) → d.normalize m₃ = .error e →
      DftFunction t shape x (.error e)
  | inverse {m m₁ m₂ m₃ m₄ : Memory} {d : DftPlan} {y : Values} : t.inverted = true →
      DftPlan.Constructs t shape none none m d m₁ →
      copyTo x d.input.address m₁ = .ok m₂ → d.Transforms m₂ (.ok m₃) → d.normalize m₃ = .ok m₄ →
      m₄ d.output.address = some y → DftFunction t shape x (.ok (d.output.shape, y))

end Litl
