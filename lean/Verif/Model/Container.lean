import Verif.Model.Machine

/-!
# `Litl::DataContainer`: element access

Model of LitlContainer/LitlContainer/DataContainer.h and LitlContainer/LitlContainer/ContiguousContainer.h.
A container is the list of its elements.
-/

namespace Litl.Container

variable {α : Type _}

/-- `operator[](std::size_t)` (LitlContainer/LitlContainer/ContiguousContainer.h:110-112). -/
def get (data : List α) (i : Int) : Res α := readAt data i

/-- `DataContainer::at` (LitlContainer/LitlContainer/DataContainer.h:110-114), on machine integers:
`s = size()` is unsigned, hence `-s`, `s - 1` and `i + s` are computed modulo 2^64;
the bounds are converted to `Index`, the type of `value` in `OutOfBoundsError::mayThrow`
(LitlTypes/LitlTypes/Exceptions.h:112-116);
the type of the conditional expression is `std::size_t`. -/
def «at» (data : List α) (i : Int) : Res α :=
  let s := u64 data.length
  let first := i64 (u64 (-s))
  let second := i64 (u64 (s - 1))
  if i < first ∨ i > second then .error .outOfBounds
  else get data (if i ≥ 0 then u64 i else u64 (u64 i + s))

end Litl.Container
