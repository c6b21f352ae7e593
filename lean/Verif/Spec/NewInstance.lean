import Verif.Model.NewInstance
import Verif.Spec.Elements

/-!
# Specification of expressions of containers

The values which expressions have if containers are values.
-/

namespace Litl.Spec

open Holder Container

variable {α : Type _}

/-- The value of an expression, given the memory before it is evaluated. -/
def exprValue (mem : List α) : Expr α → List α
  | .leaf v => elements mem v.address v.size
  | .unary f e => (exprValue mem e).map f
  | .binary _ op l r => List.zipWith op (exprValue mem l) (exprValue mem r)

/-- The containers which occur in an expression. -/
def exprLeaves : Expr α → List View
  | .leaf v => [v]
  | .unary _ e => exprLeaves e
  | .binary _ _ l r => exprLeaves l ++ exprLeaves r

/-- The leftmost container of an expression. -/
def exprFirst : Expr α → View
  | .leaf v => v
  | .unary _ e => exprFirst e
  | .binary _ _ l _ => exprFirst l

/-- The leftmost containers of the operations of an expression. -/
def exprTargets : Expr α → List View
  | .leaf _ => []
  | .unary _ e => exprFirst e :: exprTargets e
  | .binary _ _ l r => exprFirst l :: (exprTargets l ++ exprTargets r)

/-- All the containers are allocated, and of size `n`. -/
def ExprValid (n : Nat) (mem : List α) (e : Expr α) : Prop :=
  ∀ v ∈ exprLeaves e, v.size = n ∧ v.address + n ≤ mem.length

/-- The containers do not share elements. -/
def Apart (n : Nat) (v u : View) : Prop := v.address + n ≤ u.address ∨ u.address + n ≤ v.address

end Litl.Spec
