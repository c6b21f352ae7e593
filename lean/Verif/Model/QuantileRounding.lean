import Verif.Model.Distribution
import Verif.Model.Rounding

/-!
# Quantiles in floating point arithmetic

`T` is `double`: everything is computed in the arithmetic of `q`.
The other operations of distributions on floating point values are those of Verif/Model/Distribution.lean, with the order and
the rounded operations of Verif/Model/Rounding.lean.
-/

namespace Litl

namespace Distribution

variable {R : Rounding ℚ}

/-- `size() - 1` (LitlContainer/LitlContainer/DataDistribution.h:148) is an unsigned integer, which wraps around if there is no
value. -/
def lastIndex (size : Nat) : Nat := (size + (2 ^ 64 - 1)) % 2 ^ 64

/-- `n = q * (size() - 1)` (LitlContainer/LitlContainer/DataDistribution.h:148), where the integer is converted to `double`. -/
def abscissa (R : Rounding ℚ) (size : Nat) (q : ℚ) : ℚ := R.fl (q * R.fl (lastIndex size))

/-- `const std::size_t f = n` (LitlContainer/LitlContainer/DataDistribution.h:149) discards the fractional part; the behaviour is
undefined if the result is not a value of the type. -/
def Truncates (n : ℚ) (f : Nat) : Prop := -1 < n ∧ n < 2 ^ 64 ∧ f = ⌊n⌋₊

/-- `d = n - f` (LitlContainer/LitlContainer/DataDistribution.h:153), where the integer is converted to `double`. -/
def weight (R : Rounding ℚ) (n : ℚ) (f : Nat) : ℚ := R.fl (n - R.fl f)

/-- `nth(f) * d + nth(f + 1) * (1. - d)` (LitlContainer/LitlContainer/DataDistribution.h:154). -/
def blend (x y : Fl R) (d : ℚ) : Fl R := x * Fl.of d + y * (Fl.of 1 - Fl.of d)

/-- `quantile(q)` (LitlContainer/LitlContainer/DataDistribution.h:147-155) in floating point arithmetic, for each order of the
evaluation of the operands, as in `Quantile`. There is no outcome if the behaviour is undefined. -/
inductive QuantileFl : EvalOrder → Distribution (Fl R) → ℚ → Fl R → Distribution (Fl R) → Prop
  | exact {o : EvalOrder} {d d' : Distribution (Fl R)} {q : ℚ} {x : Fl R} {f : Nat} :
      Truncates (abscissa R d.values.length q) f → abscissa R d.values.length q = R.fl f →
      Nth d f x d' → QuantileFl o d q x d'
  | lr {d d1 d' : Distribution (Fl R)} {q : ℚ} {x y : Fl R} {f : Nat} :
      Truncates (abscissa R d.values.length q) f → abscissa R d.values.length q ≠ R.fl f →
      Nth d f x d1 → Nth d1 (f + 1) y d' →
      QuantileFl .lr d q (blend x y (weight R (abscissa R d.values.length q) f)) d'
  | rl {d d1 d' : Distribution (Fl R)} {q : ℚ} {x y : Fl R} {f : Nat} :
      Truncates (abscissa R d.values.length q) f → abscissa R d.values.length q ≠ R.fl f →
      Nth d (f + 1) y d1 → Nth d1 f x d' →
      QuantileFl .rl d q (blend x y (weight R (abscissa R d.values.length q) f)) d'
  | late {d d1 d' : Distribution (Fl R)} {q : ℚ} {x y x' y' : Fl R} {f : Nat} :
      Truncates (abscissa R d.values.length q) f → abscissa R d.values.length q ≠ R.fl f →
      Nth d f x' d1 → Nth d1 (f + 1) y' d' → d'.values[f]? = some x → d'.values[f + 1]? = some y →
      QuantileFl .late d q (blend x y (weight R (abscissa R d.values.length q) f)) d'

end Distribution

end Litl
