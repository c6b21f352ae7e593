import Verif.Model.DistributionIntegers
import Verif.Model.QuantileRounding

/-!
# The floating point type of integers

The results of `DataDistribution` are of type `TypeTraits<T>::Floating` (LitlContainer/LitlContainer/DataDistribution.h:39),
which is `double` if `T` is an integral type (LitlTypes/LitlTypes/TypeUtils.h:105).
Here, `T` is integral, and the arithmetic of `double` is a parameter.
-/

namespace Litl

/-- Conversion of an integer to `Floating` (LitlTypes/LitlTypes/TypeUtils.h:105), as in `return nth(f)`
(LitlContainer/LitlContainer/DataDistribution.h:151): the nearest number. -/
def floating (R : Rounding ℚ) (x : Int) : Fl R := Fl.of (R.fl x)

namespace Distribution

variable {R : Rounding ℚ}

/-- `quantile(q)` (LitlContainer/LitlContainer/DataDistribution.h:147-155) for integers, for each order of the evaluation of the
operands, as in `QuantileFl`: the integers are converted when they are returned or multiplied. -/
inductive QuantileOfIntegers : EvalOrder → Distribution Int → ℚ → Fl R → Distribution Int → Prop
  | exact {o : EvalOrder} {d d' : Distribution Int} {q : ℚ} {x : Int} {f : Nat} :
      Truncates (abscissa R d.values.length q) f → abscissa R d.values.length q = R.fl f →
      Nth d f x d' → QuantileOfIntegers o d q (floating R x) d'
  | lr {d d1 d' : Distribution Int} {q : ℚ} {x y : Int} {f : Nat} :
      Truncates (abscissa R d.values.length q) f → abscissa R d.values.length q ≠ R.fl f →
      Nth d f x d1 → Nth d1 (f + 1) y d' →
      QuantileOfIntegers .lr d q (blend (floating R x) (floating R y) (weight R (abscissa R d.values.length q) f)) d'
  | rl {d d1 d' : Distribution Int} {q : ℚ} {x y : Int} {f : Nat} :
      Truncates (abscissa R d.values.length q) f → abscissa R d.values.length q ≠ R.fl f →
      Nth d (f + 1) y d1 → Nth d1 f x d' →
      QuantileOfIntegers .rl d q (blend (floating R x) (floating R y) (weight R (abscissa R d.values.length q) f)) d'
  | late {d d1 d' : Distribution Int} {q : ℚ} {x y x' y' : Int} {f : Nat} :
      Truncates (abscissa R d.values.length q) f → abscissa R d.values.length q ≠ R.fl f →
      Nth d f x' d1 → Nth d1 (f + 1) y' d' → d'.values[f]? = some x → d'.values[f + 1]? = some y →
      QuantileOfIntegers .late d q (blend (floating R x) (floating R y) (weight R (abscissa R d.values.length q) f)) d'

/-- `mean()` (LitlContainer/LitlContainer/DataDistribution.h:109-111) for integers, as in `meanIntegers`, where the quotient is
rounded when it is converted to `double`. -/
def meanFloating (R : Rounding ℚ) (d : Distribution Int) : Res (Fl R) :=
  if d.values.length = 0 then .error .ub else .ok (floating R (u64 d.sum / (d.values.length : Int)))

/-- The states which can be reached from the construction (LitlContainer/LitlContainer/DataDistribution.h:47-54) by a history of
queries (LitlContainer/LitlContainer/DataDistribution.h:74-193) of integers; `R` is the arithmetic of `double`. -/
inductive ReachableIntegers (R : Rounding ℚ) (t : IntType) (data : List Int) : Distribution Int → Prop
  | init {d : Distribution Int} : ofIntegers t data = .ok d → ReachableIntegers R t data d
  | nth {d d' : Distribution Int} {n : Nat} {x : Int} : ReachableIntegers R t data d → Nth d n x d' →
      ReachableIntegers R t data d'
  | sort {d d' : Distribution Int} : ReachableIntegers R t data d → Sorts d d' → ReachableIntegers R t data d'
  | quantile {o : EvalOrder} {d d' : Distribution Int} {q : ℚ} {x : Fl R} : ReachableIntegers R t data d →
      QuantileOfIntegers o d q x d' → ReachableIntegers R t data d'

end Distribution

end Litl
