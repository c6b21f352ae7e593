import Mathlib.Algebra.Ring.Defs
import Mathlib.Data.List.Forall2

/-!
# Linear combinations, and outcomes of several executions
-/

namespace Litl.Spec

variable {α β γ ε : Type _}

/-- The linear combination of two signals, value by value. -/
def combination [Add α] [Mul α] (a b : α) (x y : List α) : List α := List.zipWith (fun u v => a * u + b * v) x y

/-- `z` is the linear combination of two signals of same length. -/
def IsCombination [Add α] [Mul α] (a b : α) (x y z : List α) : Prop := x.length = y.length ∧ z = combination a b x y

/-- Two executions either fail for the same reason, or succeed with results such that `P`. -/
def Alike (P : α → β → Prop) (x : Except ε α) (y : Except ε β) : Prop :=
  (∃ e, x = .error e ∧ y = .error e) ∨ ∃ a b, x = .ok a ∧ y = .ok b ∧ P a b

/-- Three executions either fail for the same reason, or succeed with results such that `P`. -/
def Together (P : α → β → γ → Prop) (x : Except ε α) (y : Except ε β) (z : Except ε γ) : Prop :=
  (∃ e, x = .error e ∧ y = .error e ∧ z = .error e) ∨ ∃ a b c, x = .ok a ∧ y = .ok b ∧ z = .ok c ∧ P a b c

end Litl.Spec
