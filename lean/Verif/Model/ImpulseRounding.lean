import Verif.Model.Random
import Verif.Model.Rounding

/-!
# Impulse noise in floating point arithmetic

Model of `ImpulseNoise` (LitlContainer/LitlContainer/Random.h:332-418), where probabilities are `double`s.

Simplification: no overflow or NaN.
-/

namespace Litl.Random

/-- The arithmetic of `double` (LitlContainer/LitlContainer/Random.h:345, 388). -/
abbrev double : Rounding ℚ := Binary.rounding 53 (by norm_num) (-1074)

/-- `nullProbability` before the test (LitlContainer/LitlContainer/Random.h:389-394). -/
def nullProbabilityFl {α : Type} (m : List (α × Fl double)) : Fl double := m.foldl (fun n e => n - e.2) (Fl.of 1)

/-- `weights(valueProbabilities)` (LitlContainer/LitlContainer/Random.h:386-399); `count` is converted to `double`. -/
def impulseWeightsFl {α : Type} (m : List (α × Fl double)) : List (Fl double) :=
  if nullProbabilityFl m ≤ Fl.of epsilon * (m.length : Fl double) then m.map Prod.snd
  else m.map Prod.snd ++ [nullProbabilityFl m]

/-- `operator()(in)` of `ImpulseNoise` (LitlContainer/LitlContainer/Random.h:366-369), where `index` is drawn by
`std::discrete_distribution` with the weights above. -/
def impulseCallFl {α : Type} (m : List (α × Fl double)) (index : Nat) (x : α) : α :=
  if index < (m.map Prod.fst).length then (m.map Prod.fst).getD index x else x

/-- The probabilities which are written in a program (e.g. `ImpulseNoise<int>({{0, 0.1}, {255, 0.2}})`,
LitlContainer/LitlContainer/Random.h:339-346) are rounded. -/
def impulseMap {α : Type} (m : List (α × ℚ)) : List (α × Fl double) := m.map fun e => (e.1, Fl.of (double.fl e.2))

end Litl.Random
