import Verif.Model.Raster

/-!
# Slices, sections and subrasters

Model of the views of LitlRaster/LitlRaster/impl/Raster.hpp:132-233,
LitlRaster/LitlRaster/Subraster.h and LitlRaster/LitlRaster/SubrasterIterator.h,
for a fixed dimension `N >= 1`.
-/

namespace Litl

/-- A raster as seen by its accessors: a shape and a data pointer, which is modelled as an offset
in some allocated buffer (`PtrRaster`: LitlContainer/LitlContainer/Holders.h:203-227).
An owning raster has offset 0 in its own data. -/
structure View where
  shape : Position
  offset : Int
deriving DecidableEq, Repr

namespace View

variable {α : Type _}

/-- An owning raster as a view on its data. -/
def ofRaster (r : Raster α) : View := ⟨r.shape, 0⟩

/-- Offset in the buffer of the pixel at `p`: `&operator[](pos)`
(LitlRaster/LitlRaster/impl/Raster.hpp:104-106, LitlContainer/LitlContainer/ContiguousContainer.h:110-112). -/
def ptr (v : View) (p : Position) : Int := v.offset + index v.shape p

/-- `view[pos]` (LitlRaster/LitlRaster/impl/Raster.hpp:104-106). -/
def get (v : View) (data : List α) (p : Position) : Res α := readAt data (v.ptr p)

/-- `view[pos] = x` (LitlRaster/LitlRaster/impl/Raster.hpp:109-111). -/
def set (v : View) (data : List α) (p : Position) (x : α) : Res (List α) := writeAt data (v.ptr p) x

/-- `Raster::isContiguous<M>` (LitlRaster/LitlRaster/impl/Raster.hpp:219-233), `M >= 0`;
`s` is the shape of the raster. -/
def isContiguous (s : Position) (M : Nat) (region : Box) : Bool :=
  ((List.range (M - 1)).all fun i =>
    !(region.front.getD i 0 != 0 || region.back.getD i 0 != s.getD i 0 - 1)) &&
  ((List.range' M (s.length - M)).all fun i => !(region.back.getD i 0 != region.front.getD i 0))

/-- `Raster::slice<M>` (LitlRaster/LitlRaster/impl/Raster.hpp:144-172). -/
def slice (v : View) (M : Nat) (region : Box) : Res View :=
  if isContiguous v.shape M region then
    .ok ⟨(List.range M).map fun i => region.back.getD i 0 - region.front.getD i 0 + 1, v.ptr region.front⟩
  else .error .exception

/-- `Raster::section(front, back)` (LitlRaster/LitlRaster/impl/Raster.hpp:175-192). -/
def section2 (v : View) (front back : Int) : Res View :=
  let last := v.shape.length - 1
  let f := (Position.zero v.shape.length).set last front
  let b := (v.shape.subScalar 1).set last back
  v.slice v.shape.length ⟨f, b⟩

/-- `Raster::section(index)` (LitlRaster/LitlRaster/impl/Raster.hpp:195-215). -/
def section1 (v : View) (i : Int) : Res View :=
  let last := v.shape.length - 1
  let f := (Position.zero v.shape.length).set last i
  let b := (v.shape.subScalar 1).set last i
  v.slice (v.shape.length - 1) ⟨f, b⟩

end View

namespace Subraster

/-- `Subraster::operator[]`: `m_raster[pos + m_region.front()]`
(LitlRaster/LitlRaster/Subraster.h:84-93). -/
def ptr (v : View) (region : Box) (p : Position) : Int := v.ptr (p.add region.front)

/-- The state of a `Subraster::Iterator` (LitlRaster/LitlRaster/SubrasterIterator.h:81-109):
position of `m_beginIt` (the beginning of the current row), `m_current` and `m_eol`;
pointers are offsets in the buffer. -/
structure Iter where
  row : Position
  current : Int
  eol : Int
deriving DecidableEq, Repr

/-- Constructor (LitlRaster/LitlRaster/SubrasterIterator.h:23-25);
`length(0)` is that of LitlRaster/LitlRaster/Box.h:112-114. -/
def Iter.mk' (v : View) (region : Box) (p : Position) : Iter :=
  let width := region.back.getD 0 0 - region.front.getD 0 0 + 1
  ⟨p, v.ptr p, v.ptr p + width⟩

/-- `Subraster::Iterator::next` (LitlRaster/LitlRaster/SubrasterIterator.h:70-79). -/
def Iter.next (v : View) (region : Box) (it : Iter) : Iter :=
  let width := region.back.getD 0 0 - region.front.getD 0 0 + 1
  if it.current + 1 ≠ it.eol then ⟨it.row, it.current + 1, it.eol⟩
  else
    let row := BoxIterator.next (region.project 0) it.row
    ⟨row, v.ptr row, v.ptr row + width⟩

/-- `for (auto& e : subraster)` (LitlRaster/LitlRaster/SubrasterIterator.h:58-67, 117-132):
the loop terminates after having visited the states `l`. -/
def Visits (v : View) (region : Box) (l : List Iter) : Prop :=
  LoopUntil (Iter.next v region)
    (fun it => it.current = (Iter.mk' v region (BoxIterator.endPosition region)).current)
    (Iter.mk' v region (BoxIterator.beginPosition region)) l

end Subraster

end Litl
