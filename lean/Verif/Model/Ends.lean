import Verif.Model.View
import Verif.Model.Container

/-!
# First and last elements, and iterators over values

Model of `front()`, `back()`, `emtpy()`, `begin()` and `end()` of LitlContainer/LitlContainer/ContiguousContainer.h:95-192, for
rasters and their views.

Simplification: pointers are offsets in the allocated buffer, and only accesses are checked.
-/

namespace Litl.View

variable {α : Type _}

/-- `size()` of a raster or view, of type `std::size_t`: the size of its holder is that of its shape
(LitlRaster/LitlRaster/Raster.h:189-191, LitlContainer/LitlContainer/Holders.h:203-227). -/
def size (v : View) : Int := u64 (shapeSize v.shape)

/-- `front()` (LitlContainer/LitlContainer/ContiguousContainer.h:124-133). -/
def front (v : View) (data : List α) : Res α := readAt data v.offset

/-- `back()` (LitlContainer/LitlContainer/ContiguousContainer.h:138-147): the index is of type `std::size_t`. -/
def back (v : View) (data : List α) : Res α := readAt data (v.offset + u64 (v.size - 1))

/-- `begin()` and `cbegin()` (LitlContainer/LitlContainer/ContiguousContainer.h:154-170). -/
def begin (v : View) : Int := v.offset

/-- `end()` and `cend()` (LitlContainer/LitlContainer/ContiguousContainer.h:175-191). -/
def «end» (v : View) : Int := v.begin + v.size

/-- `emtpy()` (LitlContainer/LitlContainer/ContiguousContainer.h:101-103). -/
def empty (v : View) : Bool := v.begin == v.end

/-- The loop `for (auto& e : raster)`: the pointers which are dereferenced, in order
(LitlContainer/LitlContainer/ContiguousContainer.h:154-191). -/
def Traverses (v : View) (l : List Int) : Prop := LoopTrace (· + 1) v.end v.begin l

end Litl.View

namespace Litl.Container

variable {α : Type _}

/-- `front()` of an owning container (LitlContainer/LitlContainer/ContiguousContainer.h:124-133). -/
def front (data : List α) : Res α := readAt data 0

/-- `back()` of an owning container (LitlContainer/LitlContainer/ContiguousContainer.h:138-147). -/
def back (data : List α) : Res α := get data (u64 (u64 data.length - 1))

end Litl.Container
