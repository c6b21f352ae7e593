import Verif.Model.Core

/-!
# Exceptions

Model of LitlTypes/LitlTypes/Exceptions.h.  A `std::string` is a list of characters, and a C string ends before the first
null character.
-/

namespace Litl

/-- `Exception` (LitlTypes/LitlTypes/Exceptions.h:18, 62-63). -/
structure Exception where
  pre : List Char
  message : List Char
deriving DecidableEq

namespace Exception

/-- `Exception(prefix, message)` (LitlTypes/LitlTypes/Exceptions.h:37-38). -/
def new (pre message : List Char) : Exception := ⟨pre, pre ++ ": ".toList ++ message⟩

/-- `Exception(message)` (LitlTypes/LitlTypes/Exceptions.h:30). -/
def ofMessage (message : List Char) : Exception := new "Litl error".toList message

/-- The loop of `append()` (LitlTypes/LitlTypes/Exceptions.h:54-56), where `n` is `indent - i`. -/
def indentLoop : Nat → List Char → List Char
  | 0, message => message
  | n + 1, message => indentLoop n (message ++ "  ".toList)

/-- `Exception::append()` (LitlTypes/LitlTypes/Exceptions.h:52-59). -/
def append (e : Exception) (line : List Char) (indent : Nat) : Exception :=
  let message := e.message ++ "\n".toList
  let message := indentLoop indent message
  ⟨e.pre, message ++ line⟩

/-- `Exception::what()` as a C string (LitlTypes/LitlTypes/Exceptions.h:43-45). -/
def what (e : Exception) : List Char := e.message.takeWhile (· ≠ '\x00')

/-- Several calls to `append()`. -/
def appendAll (e : Exception) (lines : List (List Char × Nat)) : Exception :=
  lines.foldl (fun e l => e.append l.1 l.2) e

end Exception

/-- `OutOfBoundsError(name, value, bounds)` (LitlTypes/LitlTypes/Exceptions.h:101-106) for an integral `T`. -/
def OutOfBoundsError.new (name : List Char) (value min max : Int) : Exception :=
  Exception.new "Out of bounds error".toList
    (name ++ (toString value).toList ++ " not in [".toList ++ (toString min).toList ++ ", ".toList ++
      (toString max).toList ++ "]".toList)

/-- `OutOfBoundsError::mayThrow()` (LitlTypes/LitlTypes/Exceptions.h:111-116): the exception which is thrown, if any. -/
def OutOfBoundsError.mayThrow (name : List Char) (value min max : Int) : Option Exception :=
  if value < min ∨ value > max then some (OutOfBoundsError.new name value min max) else none

/-- `NullPtrError(message)` (LitlTypes/LitlTypes/Exceptions.h:76). -/
def NullPtrError.new (message : List Char) : Exception := Exception.new "Null pointer error".toList message

/-- `NullPtrError::mayThrow()` (LitlTypes/LitlTypes/Exceptions.h:81-85), where the pointer is an address. -/
def NullPtrError.mayThrow (ptr : Nat) (message : List Char) : Option Exception :=
  if ptr = 0 then some (NullPtrError.new message) else none

end Litl
