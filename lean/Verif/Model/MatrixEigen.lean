import Verif.Model.Core

/-!
# Matrices and their Eigen view

Each `Litl::Matrix` holds its elements in a `std::array`, and `m_eigen`, an `Eigen::Map`, i.e. a view of the elements
(LitlRaster/LitlRaster/Matrix.h:27-137).  The model of `Eigen::Map` follows its documentation: its copy constructor makes
another view of the same memory, while its assignment copies the coefficients from the memory which is viewed by the
right-hand side to that which is viewed by the left-hand side.  The elements are of a type whose move is a copy, as
those of floating point numbers.

The objects are identified by their address, a natural number.
-/

namespace Litl

namespace MatrixEigen

variable {α : Type}

/-- An object of class `Matrix` (LitlRaster/LitlRaster/Matrix.h:27-33, 136): its elements, and the address of the object whose elements are
viewed by `m_eigen`. -/
structure Obj (α : Type) where
  data : List α
  view : Nat

/-- The objects which are alive. -/
abbrev Heap (α : Type) := Nat → Option (Obj α)

/-- The effect of storing an object at some address. -/
def Heap.set (h : Heap α) (a : Nat) (o : Option (Obj α)) : Heap α := fun b => if b = a then o else h b

/-- The operations on matrices. -/
inductive Op (α : Type) where
  /-- `Matrix a;` -/
  | construct (a : Nat)
  /-- `Matrix a(b);` or `Matrix a(std::move(b));` -/
  | copy (a b : Nat)
  /-- `a = b;` or `a = std::move(b);` -/
  | assign (a b : Nat)
  /-- `a op= s` or `++a`, or the writing of an element: the elements of one object are changed. -/
  | modify (a : Nat) (f : List α → List α)
  /-- `a op= b`, element by element. -/
  | combine (a b : Nat) (f : List α → List α → List α)
  /-- `a.inverse();` -/
  | inverse (a : Nat)
  /-- `a` goes out of scope. -/
  | destroy (a : Nat)

/-- The elements of a live object. -/
def elements (h : Heap α) (a : Nat) : Res (List α) :=
  match h a with
  | some o => .ok o.data
  | none => .error .ub

/-- Write the elements of a live object. -/
def write (h : Heap α) (a : Nat) (data : List α) : Res (Heap α) :=
  match h a with
  | some o => .ok (h.set a (some { o with data := data }))
  | none => .error .ub

/-- `m_eigen` of a live object. -/
def view (h : Heap α) (a : Nat) : Res Nat :=
  match h a with
  | some o => .ok o.view
  | none => .error .ub

/-- The default copy and move assignments (LitlRaster/LitlRaster/Matrix.h:54-55): the elements of `b` are assigned to those of
`a`, and then `m_eigen` is assigned. -/
def assign (h : Heap α) (a b : Nat) : Res (Heap α) := do
  let data ← elements h b
  let h ← write h a data
  let source ← view h b
  let target ← view h a
  let viewed ← elements h source
  write h target viewed

/-- An operation; `zeros` are the elements of a matrix which is default-constructed. -/
def exec (zeros : List α) (h : Heap α) : Op α → Res (Heap α)
  /- Default constructor (LitlRaster/LitlRaster/Matrix.h:60). -/
  | .construct a => .ok (h.set a (some ⟨zeros, a⟩))
  /- Default copy and move constructors (LitlRaster/LitlRaster/Matrix.h:54-55). -/
  | .copy a b => do
    let data ← elements h b
    let v ← view h b
    return h.set a (some ⟨data, v⟩)
  | .assign a b => assign h a b
  /- LitlContainer/LitlContainer/Arithmetic.h:28-38, 200-223. -/
  | .modify a f => do
    let data ← elements h a
    write h a (f data)
  /- LitlContainer/LitlContainer/Arithmetic.h:15-26. -/
  | .combine a b f => do
    let x ← elements h a
    let y ← elements h b
    write h a (f x y)
  /- LitlRaster/LitlRaster/Matrix.h:128-131: the result of `m_eigen.inverse()`, a lazy expression, is discarded. -/
  | .inverse a => do
    let _ ← elements h a
    return h
  | .destroy a => .ok (h.set a none)

/-- Successive operations. -/
def run (zeros : List α) : Heap α → List (Op α) → Res (Heap α)
  | h, [] => .ok h
  | h, op :: ops => do
    let h ← exec zeros h op
    run zeros h ops

/-- `determinant()` (LitlRaster/LitlRaster/Matrix.h:122-124): that of the elements which are viewed by `m_eigen`; `det` is
Eigen's determinant. -/
def determinant {β : Type} (det : List α → β) (h : Heap α) (a : Nat) : Res β := do
  let v ← view h a
  let data ← elements h v
  return det data

/-- `lhs op rhs` of Boost.Operators, from `operator op=` (LitlContainer/LitlContainer/Arithmetic.h:168-177): a copy of `lhs` is
modified and returned, at address `t`. -/
def binary (t lhs rhs : Nat) (f : List α → List α → List α) : List (Op α) := [.copy t lhs, .combine t rhs f]

end MatrixEigen

end Litl
