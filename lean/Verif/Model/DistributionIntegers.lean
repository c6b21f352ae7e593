import Verif.Model.Distribution
import Verif.Model.Integers

/-!
# Distributions of integers

The constructor of `DataDistribution` sums the values and their squares in the value type
(LitlContainer/LitlContainer/DataDistribution.h:47-54).
-/

namespace Litl.Distribution

/-- `m_sum` and `m_sum2` at the end of the constructor (LitlContainer/LitlContainer/DataDistribution.h:50-53), for values
of type `t`. -/
def sums (t : IntType) (values : List Int) : Number t × Number t :=
  values.foldl (fun s v => (s.1 + Number.of t v, s.2 + Number.of t v * Number.of t v)) (0, 0)

/-- Constructor for values of type `t` (LitlContainer/LitlContainer/DataDistribution.h:47-54); undefined as soon as a sum
is. -/
def ofIntegers (t : IntType) (values : List Int) : Res (Distribution Int) :=
  match sums t values with
  | (some sum, some _) => .ok ⟨values, decide (values.Pairwise (· ≤ ·)), sum⟩
  | _ => .error .ub

/-- `mean()` (LitlContainer/LitlContainer/DataDistribution.h:109-111) for integers: the sum is converted to `std::size_t`,
the quotient is an unsigned integer, which is then converted to `double`. -/
def meanIntegers (d : Distribution Int) : Res ℚ :=
  if d.values.length = 0 then .error .ub else .ok ((u64 d.sum / (d.values.length : Int) : Int) : ℚ)

end Litl.Distribution
