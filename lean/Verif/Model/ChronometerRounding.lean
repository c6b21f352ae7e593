import Verif.Model.Rounding
import Verif.Model.Chronometer

/-!
# Statistics of `Chronometer` in floating point arithmetic

Model of LitlRun/LitlRun/Chronometer.h:113-124, where the increments are `double`s.

Simplification: no overflow, and a product and a sum are not contracted to a single rounding.
-/

namespace Litl.Chronometer

variable {R : Rounding ℚ}

/-- `m_container.push_back(inc.count())` (LitlRun/LitlRun/Chronometer.h:71): the count is converted to `double`. -/
def pushFl (v : List (Fl R)) (count : Int) : List (Fl R) := v ++ [Fl.of (R.fl count)]

/-- The increments after several calls to `stop()` (LitlRun/LitlRun/Chronometer.h:66-73). -/
def incrementsFl (R : Rounding ℚ) (counts : List Int) : List (Fl R) := counts.foldl pushFl []

/-- `Chronometer::mean()` (LitlRun/LitlRun/Chronometer.h:113-115): `std::accumulate()` from `0.`, divided by the number of
increments, converted to `double`. -/
def meanFl (v : List (Fl R)) : Fl R := v.foldl (· + ·) 0 / (v.length : Fl R)

/-- `std::inner_product(v.begin(), v.end(), v.begin(), 0.)` (LitlRun/LitlRun/Chronometer.h:122). -/
def squaresFl (v : List (Fl R)) : Fl R := v.foldl (fun acc x => acc + x * x) 0

/-- The argument of `std::sqrt()` in `Chronometer::stdev()` (LitlRun/LitlRun/Chronometer.h:121-123). -/
def varianceFl (v : List (Fl R)) : Fl R := squaresFl v / (v.length : Fl R) - meanFl v * meanFl v

/-- `Chronometer::stdev()` (LitlRun/LitlRun/Chronometer.h:120-124), where `sqrt` is `std::sqrt()` for non-negative numbers:
`none` for NaN, i.e. if there are no increments (0 / 0) or for the square root of a negative number. -/
def stdevFl (sqrt : Fl R → Fl R) (v : List (Fl R)) : Option (Fl R) :=
  if v = [] then none else if varianceFl v < 0 then none else some (sqrt (varianceFl v))

end Litl.Chronometer
