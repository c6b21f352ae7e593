import Verif.Model.Ball
import Verif.Model.Rounding

/-!
# Iterating over balls in floating point arithmetic

Model of LitlRaster/LitlRaster/BallIterator.h, where powers and sums are those of `double`s.
The function `std::pow(·, P)` is a parameter: the C++ standard says nothing of its accuracy.

Simplification: the bounding box is that of Verif/Model/Ball.lean, the integers of which do not overflow (see C79).
-/

namespace Litl

namespace BallIterator

variable (R : Rounding ℚ) (pow : ℚ → ℚ)

/-- `distanceToCenter` (LitlRaster/LitlRaster/BallIterator.h:65-75): the coordinates are converted to `double`, and the
`std::inner_product` is rounded, from left to right. -/
def distanceFl (center current : Position) : ℚ :=
  (List.zip current center).foldl (fun acc ab => R.fl (acc + pow |R.fl (R.fl ab.2 - R.fl ab.1)|)) 0

/-- The condition under which a position of the box is skipped
(`distanceToCenter() > m_radiusP`, LitlRaster/LitlRaster/BallIterator.h:18, 20, 61). -/
def SkippedFl (b : Ball) (p : Position) : Prop := distanceFl R pow b.center p > pow b.radius

instance (b : Ball) (p : Position) : Decidable (SkippedFl R pow b p) := by
  unfold SkippedFl; infer_instance

/-- `while (m_current != m_end && distanceToCenter() > m_radiusP) ++m_current;`
(LitlRaster/LitlRaster/BallIterator.h:20-22, and 59-61 after a first increment),
started at `c`, terminates at `d`. -/
inductive SettleFl (b : Ball) : Position → Position → Prop where
  | done {c : Position} : (c = BoxIterator.endPosition b.box ∨ ¬ SkippedFl R pow b c) → SettleFl b c c
  | next {c d : Position} : c ≠ BoxIterator.endPosition b.box → SkippedFl R pow b c →
      SettleFl b (BoxIterator.next b.box c) d → SettleFl b c d

/-- The loop `for (; it != end; ++it)` where `++it` is `BallTraits::Iterator::next`
(LitlRaster/LitlRaster/BallIterator.h:58-63). -/
inductive LoopFl (b : Ball) : Position → List Position → Prop where
  | done : LoopFl b (BoxIterator.endPosition b.box) []
  | next {c d : Position} {l : List Position} : c ≠ BoxIterator.endPosition b.box →
      SettleFl R pow b (BoxIterator.next b.box c) d → LoopFl b d l → LoopFl b c (c :: l)

/-- `for (const auto& p : ball)` (LitlRaster/LitlRaster/BallIterator.h:17-31, 110-122) terminates and visits
exactly `l`, in order. -/
def VisitsFl (b : Ball) (l : List Position) : Prop :=
  ∃ c, SettleFl R pow b (BoxIterator.beginPosition b.box) c ∧ LoopFl R pow b c l

end BallIterator

end Litl
