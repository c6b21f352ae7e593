import Verif.Model.Core

/-!
# Matrices

Model of LitlRaster/LitlRaster/Matrix.h, for `T` any type with 0 and 1.

`m_eigen`, a view of the data, `determinant()` and `inverse()` are in Verif.Model.MatrixEigen.
The pointer `d` is incremented after the last assignment, possibly further than the end of the data, which is formally
undefined although it is not dereferenced: this is ignored.
-/

namespace Litl

/-- `Matrix<T, N, M>` (LitlRaster/LitlRaster/Matrix.h:27-33): `rows` and `columns` are template parameters. -/
structure Matrix (α : Type) where
  rows : Nat
  columns : Nat
  data : List α
deriving DecidableEq

namespace Matrix

variable {α : Type}

/-- `Matrix::Rank` (LitlRaster/LitlRaster/Matrix.h:48). -/
def rank (n m : Nat) : Nat := if m < n then m else n

/-- `Matrix::Matrix()` (LitlRaster/LitlRaster/Matrix.h:60): the data is value-initialised
(LitlContainer/LitlContainer/Holders.h:157). -/
def new (α : Type) [Zero α] (n m : Nat) : Matrix α := ⟨n, m, List.replicate (n * m) 0⟩

/-- `Matrix::identity()` (LitlRaster/LitlRaster/Matrix.h:65-72): the index of `*d` is `i * (Columns + 1)`. -/
def identity (α : Type) [Zero α] [One α] (n m : Nat) : Res (Matrix α) := do
  let data ← (List.range (rank n m)).foldlM (fun data i => writeAt data (i * (m + 1) : Nat) (1 : α)) (new α n m).data
  return ⟨n, m, data⟩

/-- The loop of `Matrix::diagonal()` (LitlRaster/LitlRaster/Matrix.h:81-83), where `d` is an index. -/
def diagonalLoop (m : Nat) : List α → Nat → List α → Res (List α)
  | [], _, data => .ok data
  | v :: values, d, data => do
    let data ← writeAt data (d : Nat) v
    diagonalLoop m values (d + (m + 1)) data

/-- `Matrix::diagonal()` (LitlRaster/LitlRaster/Matrix.h:77-85). -/
def diagonal [Zero α] (n m : Nat) (values : List α) : Res (Matrix α) := do
  let data ← diagonalLoop m values 0 (new α n m).data
  return ⟨n, m, data⟩

/-- `Matrix::operator()(row, column) const` (LitlRaster/LitlRaster/Matrix.h:101-103): a reference to a temporary, initialised
from the index, is returned, and reading it is undefined.  The non-constant version (108-110) cannot be instantiated. -/
def get (_ : Matrix α) (_ _ : Int) : Res α := .error .ub

/-- `Matrix::at<R, C>()` (LitlRaster/LitlRaster/Matrix.h:115-118): same as `operator()`. -/
def «at» (_ : Matrix α) (_ _ : Int) : Res α := .error .ub

/-- `Matrix::operator[](index)` (LitlContainer/LitlContainer/ContiguousContainer.h:110-119): raw data access. -/
def raw (a : Matrix α) (i : Int) : Res α := readAt a.data i

end Matrix

end Litl
