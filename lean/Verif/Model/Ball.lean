import Verif.Model.Box
import Mathlib.Data.Rat.Floor

/-!
# `Litl::Ball` and its iterator

Model of LitlRaster/LitlRaster/Ball.h and LitlRaster/LitlRaster/BallIterator.h.
The radius, a finite `double`, is a rational number; powers and sums of `double`s are exact in the model.
-/

namespace Litl

/-- Conversion of a floating point number to an integer: truncation towards zero. -/
def truncRat (x : ℚ) : Int := if x < 0 then -⌊-x⌋ else ⌊x⌋

/-- `Litl::Ball<N, P>` (LitlRaster/LitlRaster/Ball.h:40, 55-56, 200-209). `P >= 1`: the class cannot be
instantiated with `P = 0` (the iterator of `BallTraits<N, 0>` is never defined). -/
structure Ball where
  radius : ℚ
  center : Position
deriving DecidableEq

namespace Ball

/-- `Ball::box` (LitlRaster/LitlRaster/Ball.h:80-82); the radius is converted to `Index`. -/
def box (b : Ball) : Box := Box.fromCenter (truncRat b.radius) b.center

/-- `Ball::length` (LitlRaster/LitlRaster/Ball.h:109-118). -/
def length (b : Ball) : Int := 2 * truncRat b.radius + 1

/-- `Ball::shape` (LitlRaster/LitlRaster/Ball.h:87-89), for `N >= 0`. -/
def shape (b : Ball) : Position := List.replicate b.center.length b.length

/-- `Ball::size` (LitlRaster/LitlRaster/Ball.h:101-103). -/
def size (b : Ball) : Int := b.box.size

/-- `Ball + position` (LitlRaster/LitlRaster/Ball.h:141-144). -/
def shift (b : Ball) (v : Position) : Ball := ⟨b.radius, b.center.add v⟩

/-- `Ball - position` (LitlRaster/LitlRaster/Ball.h:149-152). -/
def unshift (b : Ball) (v : Position) : Ball := ⟨b.radius, b.center.sub v⟩

/-- `Ball + scalar` (LitlRaster/LitlRaster/Ball.h:157-160). -/
def addScalar (b : Ball) (a : Int) : Ball := ⟨b.radius, b.center.addScalar a⟩

/-- `Ball - scalar` (LitlRaster/LitlRaster/Ball.h:165-168). -/
def subScalar (b : Ball) (a : Int) : Ball := ⟨b.radius, b.center.subScalar a⟩

/-- `++ball` (LitlRaster/LitlRaster/Ball.h:173-175). -/
def inc (b : Ball) : Ball := b.addScalar 1

/-- `--ball` (LitlRaster/LitlRaster/Ball.h:180-182). -/
def dec (b : Ball) : Ball := b.subScalar 1

/-- `ball == other` (LitlRaster/LitlRaster/Ball.h:125-127). -/
def eq (a b : Ball) : Bool := a.radius == b.radius && a.center == b.center

/-- `ball != other` (LitlRaster/LitlRaster/Ball.h:132-134). -/
def ne (a b : Ball) : Bool := a.radius != b.radius || a.center != b.center

/-- `-ball` (LitlRaster/LitlRaster/Ball.h:194-196). -/
def neg (b : Ball) : Ball := ⟨b.radius, b.center.neg⟩

end Ball

namespace BallIterator

/-- `distanceToCenter` (LitlRaster/LitlRaster/BallIterator.h:65-75): the `std::inner_product` with sum and
`|b - a|^P`, from left to right. -/
def distanceToCenter (P : Nat) (center current : Position) : ℚ :=
  (List.zip current center).foldl (fun acc ab => acc + |(ab.2 : ℚ) - (ab.1 : ℚ)| ^ P) 0

/-- The condition under which a position of the box is skipped
(`distanceToCenter() > m_radiusP`, LitlRaster/LitlRaster/BallIterator.h:18, 20, 61). -/
def Skipped (P : Nat) (b : Ball) (p : Position) : Prop := distanceToCenter P b.center p > b.radius ^ P

instance (P : Nat) (b : Ball) (p : Position) : Decidable (Skipped P b p) := by
  unfold Skipped; infer_instance

/-- `while (m_current != m_end && distanceToCenter() > m_radiusP) ++m_current;`
(LitlRaster/LitlRaster/BallIterator.h:20-22, and 59-61 after a first increment),
started at `c`, terminates at `d`. -/
inductive Settle (P : Nat) (b : Ball) : Position → Position → Prop where
  | done {c : Position} : (c = BoxIterator.endPosition b.box ∨ ¬ Skipped P b c) → Settle P b c c
  | next {c d : Position} : c ≠ BoxIterator.endPosition b.box → Skipped P b c →
      Settle P b (BoxIterator.next b.box c) d → Settle P b c d

/-- The loop `for (; it != end; ++it)` where `++it` is `BallTraits::Iterator::next`
(LitlRaster/LitlRaster/BallIterator.h:58-63). -/
inductive Loop (P : Nat) (b : Ball) : Position → List Position → Prop where
  | done : Loop P b (BoxIterator.endPosition b.box) []
  | next {c d : Position} {l : List Position} : c ≠ BoxIterator.endPosition b.box →
      Settle P b (BoxIterator.next b.box c) d → Loop P b d l → Loop P b c (c :: l)

/-- `for (const auto& p : ball)` (LitlRaster/LitlRaster/BallIterator.h:17-31, 110-122) terminates and visits
exactly `l`, in order. The iterator to the end is built from the end position of the box, which the
constructor leaves unchanged. -/
def Visits (P : Nat) (b : Ball) (l : List Position) : Prop :=
  ∃ c, Settle P b (BoxIterator.beginPosition b.box) c ∧ Loop P b c l

end BallIterator

end Litl
