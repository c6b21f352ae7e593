import Verif.Model.Arithmetic
import Verif.Model.RasterCtor

/-!
# Element-wise mathematical functions

Model of LitlContainer/LitlContainer/Math.h and of the functions of complex rasters of LitlRaster/LitlRaster/Raster.h.

The functions of `<cmath>` (`std::pow` etc.) are parameters. Memory is common to all containers, as in
Verif/Model/Arithmetic.lean. The members `min(other)` and `max(other)` are hidden by those of `DataContainer`
(LitlContainer/LitlContainer/DataContainer.h:222, 230) and cannot be called.
-/

namespace Litl.Container

variable {α β : Type _}

/-- One iteration of the `std::transform` of LitlContainer/LitlContainer/Math.h:41-43. -/
def mathUnaryStep (f : α → α) (a : Nat) (mem : List α) (i : Nat) : Res (List α) := do
  let x ← readAt mem (a + i : Nat)
  writeAt mem (a + i : Nat) (f x)

/-- `V.function()` (LitlContainer/LitlContainer/Math.h:37-45), where `V` is made of the `n` elements at address `a`. -/
def mathUnaryMem (f : α → α) (mem : List α) (a n : Nat) : Res (List α) :=
  (List.range n).foldlM (mathUnaryStep f a) mem

/-- One iteration of the `std::transform` of LitlContainer/LitlContainer/Math.h:52-54. -/
def mathBinaryStep (f : α → α → α) (a b : Nat) (mem : List α) (i : Nat) : Res (List α) := do
  let x ← readAt mem (a + i : Nat)
  let y ← readAt mem (b + i : Nat)
  writeAt mem (a + i : Nat) (f x y)

/-- `V.function(U)` (LitlContainer/LitlContainer/Math.h:47-56), where `U` starts at address `b`. -/
def mathBinaryMem (f : α → α → α) (mem : List α) (a b n : Nat) : Res (List α) :=
  (List.range n).foldlM (mathBinaryStep f a b) mem

/-- `V.function(s)` (LitlContainer/LitlContainer/Math.h:58-67), where `s` is stored at address `k`: the parameter is a
copy, and so is its capture. -/
def mathScalarMem (f : α → α → α) (mem : List α) (a n k : Nat) : Res (List α) := do
  let s ← readAt mem k
  (List.range n).foldlM (mathUnaryStep (fun e => f e s) a) mem

/-- `function(V)` (LitlContainer/LitlContainer/Math.h:123-130): `V` is copied to newly allocated memory, here at the end of
`mem`, and the function is applied to the copy. The result is the whole memory. -/
def mathUnaryNew (f : α → α) (mem : List α) (a n : Nat) : Res (List α) :=
  mathUnaryMem f (mem ++ (mem.drop a).take n) mem.length n

/-- `function(V, U)` (LitlContainer/LitlContainer/Math.h:132-139) where `U` is a container, see `mathUnaryNew`. -/
def mathBinaryNew (f : α → α → α) (mem : List α) (a b n : Nat) : Res (List α) :=
  mathBinaryMem f (mem ++ (mem.drop a).take n) mem.length b n

/-- `function(V, s)` (LitlContainer/LitlContainer/Math.h:132-139) where `s` is a scalar, see `mathUnaryNew`. -/
def mathScalarNew (f : α → α → α) (mem : List α) (a n k : Nat) : Res (List α) :=
  mathScalarMem f (mem ++ (mem.drop a).take n) mem.length n k

end Litl.Container

namespace Litl.Raster

variable {α β : Type _}

/-- The `std::transform` of LitlRaster/LitlRaster/Raster.h:484-486, from the elements of the input to those of the output:
the latter are read and written from index `i` on. -/
def complexLoop (f : α → β) : List α → Nat → List β → Res (List β)
  | [], _, out => .ok out
  | e :: l, i, out => do
    let out' ← writeAt out (i : Int) (f e)
    complexLoop f l (i + 1) out'

/-- `real(in)`, `imag(in)`, `abs(in)`, `arg(in)`, `norm(in)` (LitlRaster/LitlRaster/Raster.h:480-500). -/
def complexFunction (f : α → β) (zero : β) (inn : Raster α) : Res (Raster β) := do
  let out ← ofShape zero inn.shape
  let d ← complexLoop f inn.data 0 out.data
  return ⟨out.shape, d⟩

end Litl.Raster
