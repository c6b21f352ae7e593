import Verif.Model.Core

/-!
# 64-bit machine integers

The target is LP64: `Index` is a 64-bit signed integer (LitlTypes/LitlTypes/TypeUtils.h),
`std::size_t` a 64-bit unsigned integer.
-/

namespace Litl

/-- Conversion to `std::size_t`: reduction modulo 2^64.
Applied to the result of each unsigned operation. -/
def u64 (x : Int) : Int := x % 2 ^ 64

/-- Conversion of an integer to `Index`: the representative modulo 2^64 in [-2^63, 2^63)
(implementation-defined before C++20, this on all supported compilers). -/
def i64 (x : Int) : Int := if x % 2 ^ 64 < 2 ^ 63 then x % 2 ^ 64 else x % 2 ^ 64 - 2 ^ 64

/-- The values of type `Index`. -/
def IsI64 (x : Int) : Prop := -2 ^ 63 ≤ x ∧ x < 2 ^ 63

end Litl
