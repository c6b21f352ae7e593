import Verif.Model.Integers
import Verif.Model.Interpolation

/-!
# Random generators: preconditions and ranges

Model of the noises (LitlContainer/LitlContainer/Random.h) of integral value types, with the preconditions of the
distributions of the standard library (whatever the engine: any value of the support may be drawn).
Implementations may be more tolerant than the standard: libstdc++ only checks the preconditions if assertions are enabled.
`bool` is left out.
-/

namespace Litl.Random

/-- `std::uniform_int_distribution<T>(a, b)` ([rand.dist.uni.int]; LitlContainer/LitlContainer/Random.h:156, 162, 177): any
value between the bounds, which are included and must be sorted. -/
def DrawsUniform (a b : Int) (r : Res Int) : Prop :=
  if a ≤ b then ∃ x, a ≤ x ∧ x ≤ b ∧ r = .ok x else r = .error .ub

/-- `UniformNoise<T>(min, max)()` (LitlContainer/LitlContainer/Random.h:155-163). -/
def UniformGenerates (min max : Int) (r : Res Int) : Prop := DrawsUniform min max r

/-- `UniformNoise<T>()()`, with the default bounds (LitlContainer/LitlContainer/Random.h:155). -/
def UniformDefault (t : IntType) (r : Res Int) : Prop := UniformGenerates (Limits.halfMin t) (Limits.halfMax t) r

/-- `in + generate<T>(distribution)`, of which the result is returned as a `T`
(LitlContainer/LitlContainer/Random.h:133-135). -/
def addTo (t : IntType) (x n : Int) : Res Int :=
  match t.promoted.result (x + n) with
  | none => .error .ub
  | some y => .ok (t.convert y)

/-- `RandomGenerator::add(in, distribution)` (LitlContainer/LitlContainer/Random.h:133-135), where `Gen` is the generation. -/
def AddsNoise (t : IntType) (Gen : Res Int → Prop) (x : Int) (r : Res Int) : Prop :=
  ∃ g, Gen g ∧ match g with
    | .error e => r = .error e
    | .ok n => r = addTo t x n

/-- `container.apply(noise)` (LitlContainer/LitlContainer/DataContainer.h:212-214): element by element; the behaviour of the
program is undefined as soon as that of an element is. -/
inductive AppliesNoise (f : Int → Res Int → Prop) : List Int → Res (List Int) → Prop where
  | nil : AppliesNoise f [] (.ok [])
  | cons {x y : Int} {v w : List Int} : f x (.ok y) → AppliesNoise f v (.ok w) → AppliesNoise f (x :: v) (.ok (y :: w))
  | fail {x : Int} {v : List Int} {e : Fail} : f x (.error e) → AppliesNoise f (x :: v) (.error e)
  | later {x y : Int} {v : List Int} {e : Fail} : f x (.ok y) → AppliesNoise f v (.error e) →
      AppliesNoise f (x :: v) (.error e)

/-- Conversion of a floating point number to `T` on return of `ComplexDistribution::operator()`
(LitlContainer/LitlContainer/Random.h:59-61): truncated, and undefined if the result is not a value of the type. -/
def toType (t : IntType) (x : ℚ) : Res Int := if t.Mem (toIndex x) then .ok (toIndex x) else .error .ub

/-- `GaussianNoise<T>(mean, stdev)()` for an integral `T` (LitlContainer/LitlContainer/Random.h:194-202, 212-213): the values
are drawn by a `std::normal_distribution<double>`, of which the standard deviation must be positive
([rand.dist.norm.normal]); `normal` are the values which it may return if the mean is 0 and the standard deviation is 1. -/
def GaussianGenerates (t : IntType) (normal : ℚ → Prop) (mean stdev : ℚ) (r : Res Int) : Prop :=
  if 0 < stdev then ∃ x, normal x ∧ r = toType t (mean + stdev * x) else r = .error .ub

/-- `GaussianNoise<T>()()`, with the default parameters (LitlContainer/LitlContainer/Random.h:194). -/
def GaussianDefault (t : IntType) (normal : ℚ → Prop) (r : Res Int) : Prop :=
  GaussianGenerates t normal (Limits.zero t) (Limits.one t) r

/-- `PoissonNoise<T>(mean)()` for an integral `T` (LitlContainer/LitlContainer/Random.h:237-245, 256-257), and
`StablePoissonNoise<T>(mean)()` (293-301, 313-314): the mean of a `std::poisson_distribution<T>` must be positive
([rand.dist.pois.poisson]). -/
def PoissonGenerates (t : IntType) (mean : Int) (r : Res Int) : Prop :=
  if 0 < mean then ∃ x, 0 ≤ x ∧ x ≤ t.highest ∧ r = .ok x else r = .error .ub

/-- `PoissonNoise<T>()()`, with the default parameter (LitlContainer/LitlContainer/Random.h:237, 293). -/
def PoissonDefault (t : IntType) (r : Res Int) : Prop := PoissonGenerates t (Limits.zero t) r

/-- `operator()(in)` of `PoissonNoise` and `StablePoissonNoise` (LitlContainer/LitlContainer/Random.h:250-253, 306-310): the
input is the mean. -/
def Shot (t : IntType) (x : Int) (r : Res Int) : Prop := PoissonGenerates t x r

/-- `TypeTraits<std::complex<T>>::fromScalar(in)` (LitlTypes/LitlTypes/TypeUtils.h:143-145). -/
def fromScalar {K : Type} (x : K) : K × K := (x, x)

/-- The standard deviations of the distributions of the real and imaginary parts of `GaussianNoise<std::complex<T>>()`
(LitlContainer/LitlContainer/Random.h:84-85, 194). -/
def complexStdev : ℚ × ℚ := fromScalar 1

/-- The bounds of `UniformNoise<T>()` for a floating point type (LitlContainer/LitlContainer/Random.h:155,
LitlTypes/LitlTypes/TypeUtils.h:248-257), where `highest` is the largest number: halving it is exact, and the Boolean which is
added is null. -/
def realBounds (highest : ℚ) : ℚ × ℚ := (-highest / 2, highest / 2 + 0)

end Litl.Random
