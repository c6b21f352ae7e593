import Verif.Model.MedianFilter
import Verif.Model.Rounding
import Verif.Model.ScalarConversion

/-!
# Median of integers

Model of `MedianFilter::median()` (LitlTransforms/LitlTransforms/MedianFilter.h:75-92) for neighbors of integral types.
In the average, the sum is a number of the promoted type, whose product by a `double` is a `double`, which is then converted
to the value type of the output.
-/

namespace Litl.MedianFilter

/-- `(*n + *(n + 1)) * .5` (LitlTransforms/LitlTransforms/MedianFilter.h:91) for neighbors of type `t`, returned as a value of
type `u`; `R` is the arithmetic of `double`. -/
def average (R : Rounding ℚ) (t u : IntType) (x y : Int) : Res Int :=
  match t.promoted.result (x + y) with
  | none => .error .ub
  | some s => (Container.Scalar.real (R.fl (R.fl s * (1 / 2)))).convert u

/-- `median(through)` (LitlTransforms/LitlTransforms/MedianFilter.h:80-92) for neighbors of type `t` and a result of type `u`,
as in `Median`. -/
inductive MedianOfIntegers (R : Rounding ℚ) (t u : IntType) : List Int → Res Int → List Int → Prop where
  | odd {v v' : List Int} {x : Int} : v.length % 2 = 1 → NthElement v (v.length / 2) v' → v'[v.length / 2]? = some x →
      MedianOfIntegers R t u v (.ok (u.convert x)) v'
  | none : MedianOfIntegers R t u [] (.error .ub) []
  | two {v v' : List Int} : v.length = 2 → NthElement v 1 v' → MedianOfIntegers R t u v (.error .ub) v'
  | even {v v₁ v₂ : List Int} {x y : Int} : v.length % 2 = 0 → 2 < v.length →
      NthElement v (v.length / 2) v₁ → NthElement v₁ (v.length / 2 + 1) v₂ →
      v₂[v.length / 2]? = some x → v₂[v.length / 2 + 1]? = some y →
      MedianOfIntegers R t u v (average R t u x y) v₂

end Litl.MedianFilter
