import Verif.Model.Core

/-!
# Limits

Model of `Limits<T>` (LitlTypes/LitlTypes/TypeUtils.h:179-258) for integral types `T`.
-/

namespace Litl

/-- An integral type: `digits` is `std::numeric_limits<T>::digits` (without the sign bit), e.g. 1 for `bool`. -/
structure IntType where
  digits : Nat
  signed : Bool
deriving DecidableEq

namespace IntType

/-- `std::numeric_limits<T>::lowest()`. -/
def lowest (t : IntType) : Int := if t.signed then -2 ^ t.digits else 0

/-- `std::numeric_limits<T>::max()`. -/
def highest (t : IntType) : Int := 2 ^ t.digits - 1

/-- Conversion of an integer to `T`: modulo the number of values, and to `true` for the non-null ones if `T` is `bool`
(the only type with one digit and no sign). -/
def convert (t : IntType) (x : Int) : Int :=
  if t.digits = 1 ∧ t.signed = false then (if x = 0 then 0 else 1)
  else if t.signed then x.bmod (2 ^ (t.digits + 1)) else x % 2 ^ t.digits

end IntType

namespace Limits

/-- `Limits::zero()` (LitlTypes/LitlTypes/TypeUtils.h:191-193). -/
def zero (t : IntType) : Int := t.convert 0

/-- `Limits::one()` (LitlTypes/LitlTypes/TypeUtils.h:198-200). -/
def one (t : IntType) : Int := t.convert 1

/-- `Limits::min()` (LitlTypes/LitlTypes/TypeUtils.h:205-207). -/
def min (t : IntType) : Int := t.lowest

/-- `Limits::max()` (LitlTypes/LitlTypes/TypeUtils.h:212-214). -/
def max (t : IntType) : Int := t.highest

/-- `Limits::inf()` (LitlTypes/LitlTypes/TypeUtils.h:219-222): `std::numeric_limits<T>::infinity()` is 0 for integral
types. -/
def inf (t : IntType) : Int :=
  let infinity := 0
  if infinity ≠ 0 then infinity else max t

/-- `Limits::epsilon()` (LitlTypes/LitlTypes/TypeUtils.h:227-229): `std::numeric_limits<T>::epsilon()` is 0 for integral
types. -/
def epsilon (_ : IntType) : Int := 0

/-- `Limits::almostMin()` (LitlTypes/LitlTypes/TypeUtils.h:234-236). -/
def almostMin (t : IntType) : Int := t.convert (min t + epsilon t)

/-- `Limits::almostMax()` (LitlTypes/LitlTypes/TypeUtils.h:241-243). -/
def almostMax (t : IntType) : Int := t.convert (max t - epsilon t)

/-- `Limits::halfMin()` (LitlTypes/LitlTypes/TypeUtils.h:248-250): the division truncates toward zero. -/
def halfMin (t : IntType) : Int := t.convert (Int.tdiv (min t) 2)

/-- `Limits::halfMax()` (LitlTypes/LitlTypes/TypeUtils.h:255-257). -/
def halfMax (t : IntType) : Int := t.convert (Int.tdiv (max t) 2 + 1)

end Limits

end Litl
