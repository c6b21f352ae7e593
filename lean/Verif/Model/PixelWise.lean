import Verif.Model.Arithmetic
import Verif.Model.Raster

/-!
# Pixel-wise operations on rasters of different shapes

Model of the binary operators of rasters (LitlContainer/LitlContainer/Arithmetic.h:15-26, 87-93, 170-177) and of `generate()`
(LitlContainer/LitlContainer/DataContainer.h:186-194) with rasters as arguments. None of them checks the shapes. Rasters own
their pixels here (see Model/NewInstance for views), and functions have no state (see Model/Arithmetic).
-/

namespace Litl.Raster

variable {α : Type _}

/-- `a op b` (LitlContainer/LitlContainer/Arithmetic.h:15-26, 87-93, 170-177): a copy of `a`, hence of its shape
(LitlRaster/LitlRaster/Raster.h:176), to which `op= b` is applied. -/
def binary (op : α → α → α) (a b : Raster α) : Res (Raster α) := do
  let data ← Container.vectorOp op a.data b.data
  return ⟨a.shape, data⟩

/-- `out.generate(f, args...)` (LitlContainer/LitlContainer/DataContainer.h:186-194): the pixels of `out` are assigned, and its
shape is unchanged. -/
def generate (f : List α → α) (out : Raster α) (args : List (Raster α)) : Res (Raster α) := do
  let data ← (List.range out.data.length).mapM fun (i : Nat) => do
    let xs ← args.mapM fun a => readAt a.data (i : Int)
    return f xs
  return ⟨out.shape, data⟩

/-- `out.apply(f, args...)` (LitlContainer/LitlContainer/DataContainer.h:211-214). -/
def apply (f : List α → α) (out : Raster α) (args : List (Raster α)) : Res (Raster α) :=
  generate f out (out :: args)

end Litl.Raster
