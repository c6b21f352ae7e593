import Mathlib.Data.List.Basic

/-!
# Specification of containers in a memory
-/

namespace Litl.Spec

variable {α σ : Type _}

/-- The `n` elements at address `a`. -/
def elements (mem : List α) (a n : Nat) : List α := (mem.drop a).take n

/-- `m` is `mem` but for the `n` elements at address `a`. -/
def SameOutside (mem m : List α) (a n : Nat) : Prop := ∀ k, (k < a ∨ a + n ≤ k) → m[k]? = mem[k]?

/-- Call `f` on each row, in order, and collect the values; the state of `f` goes through. -/
def callInOrder (f : List α → σ → α × σ) : List (List α) → σ → List α × σ
  | [], s => ([], s)
  | r :: rs, s => ((f r s).1 :: (callInOrder f rs (f r s).2).1, (callInOrder f rs (f r s).2).2)

end Litl.Spec
