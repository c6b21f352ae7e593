import Verif.Model.RasterCtor
import Verif.Model.Container

/-!
# Data holders and constructors of containers

Model of LitlContainer/LitlContainer/Holders.h and of the constructors of LitlContainer/LitlContainer/DataContainer.h,
LitlContainer/LitlContainer/Sequence.h and LitlRaster/LitlRaster/Vector.h. An owning holder is the list of its elements;
a view is an interval of the common memory.
-/

namespace Litl.Holder

variable {α : Type _}

/-- `std::copy`, `std::copy_n` of some values to a buffer, from offset `i` on. -/
def copyTo : List α → Nat → List α → Res (List α)
  | [], _, out => .ok out
  | e :: l, i, out => do
    let out' ← writeAt out (i : Int) e
    copyTo l (i + 1) out'

/-- The owning holders: `StdHolder<std::vector<T>>` or `StdHolder<std::array<T, N>>`
(LitlContainer/LitlContainer/Holders.h:62-145, 151-197). -/
inductive Kind
  | vector
  | array (N : Nat)

/-- The initialisation `m_container(size)` or `m_container {}`, and the check of the latter
(LitlContainer/LitlContainer/Holders.h:78, 156-161); a vector cannot have more than 2^63 - 1 elements. -/
def allocate (zero : α) : Kind → Nat → Res (List α)
  | .vector, n => if n ≥ 2 ^ 63 then .error .stdError else .ok (List.replicate n zero)
  | .array N, n => if n ≠ N ∧ n ≠ 0 then .error .stdError else .ok (List.replicate N zero)

/-- `StdHolder(size, data)`, with `none` for `nullptr` (LitlContainer/LitlContainer/Holders.h:78-82, 156-165). -/
def ofSize (zero : α) (kind : Kind) (n : Nat) (data : Option (List α)) : Res (List α) := do
  let container ← allocate zero kind n
  match data with
  | none => return container
  | some buffer => if n ≤ buffer.length then copyTo (buffer.take n) 0 container else .error .ub

/-- `StdHolder(size, std::move(container))` (LitlContainer/LitlContainer/Holders.h:87-89, 168-170). -/
def ofContainer (n : Nat) (container : List α) : Res (List α) := do
  SizeError.mayThrow container.length n
  return container

/-- `StdHolder::moveTo(destination)`: the elements of the destination, and what remains in the holder
(LitlContainer/LitlContainer/Holders.h:133-136, 184-187). A vector which was moved is valid but unspecified according to
the standard, and empty in practice since memory is handed over; the elements of arrays are moved one by one, and for
arithmetic types this is a copy. -/
def moveTo : Kind → List α → List α × List α
  | .vector, container => (container, [])
  | .array _, container => (container, container)

/-- The list- and iterable-based constructors: `DataContainer(list)`, `DataContainer(iterable)`
(LitlContainer/LitlContainer/DataContainer.h:62-66, 73-77), those of `Sequence`
(LitlContainer/LitlContainer/Sequence.h:24-31) and `Vector` (LitlRaster/LitlRaster/Vector.h:79-85). -/
def ofValues (zero : α) (kind : Kind) (values : List α) : Res (List α) := do
  let container ← ofSize zero kind values.length none
  copyTo values 0 container

/-- `PtrHolder` (LitlContainer/LitlContainer/Holders.h:203-227): `m_container` and `m_size`. -/
structure View where
  /-- `m_container` -/
  address : Nat
  /-- `m_size` -/
  size : Nat

/-- `container[i]` for a view (LitlContainer/LitlContainer/ContiguousContainer.h:110-112). -/
def View.get (mem : List α) (v : View) (i : Nat) : Res α := readAt mem (v.address + i : Nat)

/-- `container[i] = x` for a view (LitlContainer/LitlContainer/ContiguousContainer.h:117-119). -/
def View.set (mem : List α) (v : View) (i : Nat) (x : α) : Res (List α) := writeAt mem (v.address + i : Nat) x

/-- The list- and iterable-based constructors for views, e.g. `PtrRaster(shape, list, data)`: values are copied to the
pointed memory (LitlContainer/LitlContainer/DataContainer.h:62-66, 73-77, LitlContainer/LitlContainer/Holders.h:206). -/
def View.ofValues (mem : List α) (address : Nat) (values : List α) : Res (List α × View) := do
  let mem' ← copyTo values address mem
  return (mem', ⟨address, values.length⟩)

/-- `Raster(shape)` for an owning holder (LitlRaster/LitlRaster/Raster.h:189-191). -/
def rasterOfShape (zero : α) (kind : Kind) (s : Position) : Res (Raster α) := do
  let data ← ofSize zero kind (u64 (shapeSize s)).toNat none
  return ⟨s, data⟩

/-- `raster.moveTo(destination)`: the destination, and what remains of the raster, of which the shape is not modified
(LitlContainer/LitlContainer/Holders.h:133-136, 184-187). -/
def rasterMoveTo (kind : Kind) (r : Raster α) : List α × Raster α :=
  ((moveTo kind r.data).1, ⟨r.shape, (moveTo kind r.data).2⟩)

end Litl.Holder
