/-!
# Core conventions of the model

Outcomes of C++ calls and loops.  See DESIGN.md, section 1.
-/

namespace Litl

/-- The ways in which a modelled call may fail.

* `sizeError`: `Litl::SizeError` (LitlContainer/LitlContainer/Holders.h:18-28);
* `outOfBounds`: `Litl::OutOfBoundsError` (LitlTypes/LitlTypes/Exceptions.h:93-117);
* `alignment`: `Litl::AlignmentError` (LitlContainer/LitlContainer/AlignedBuffer.h:61-76);
* `exception`: a bare `Litl::Exception` (LitlTypes/LitlTypes/Exceptions.h:18-62);
* `stdError`: an exception of the standard library;
* `ub`: the behaviour is undefined (access outside of a buffer, division by zero...). -/
inductive Fail where
  | sizeError
  | outOfBounds
  | alignment
  | exception
  | stdError
  | ub
deriving DecidableEq, Repr

/-- The result of a call which may fail. -/
abbrev Res (α : Type _) := Except Fail α

/-- `LoopTrace step stop start l`: the loop `for (c = start; c != stop; c = step(c)) visit(c);`
terminates and visits exactly the elements of `l`, in this order. -/
inductive LoopTrace {α : Type _} (step : α → α) (stop : α) : α → List α → Prop where
  | done : LoopTrace step stop stop []
  | next {c : α} {l : List α} : c ≠ stop → LoopTrace step stop (step c) l → LoopTrace step stop c (c :: l)

/-- `LoopUntil step stop start l`: the loop `for (c = start; not stop(c); c = step(c)) visit(c);`
terminates and visits exactly the elements of `l`, in this order. -/
inductive LoopUntil {α : Type _} (step : α → α) (stop : α → Prop) : α → List α → Prop where
  | done {c : α} : stop c → LoopUntil step stop c []
  | next {c : α} {l : List α} : ¬ stop c → LoopUntil step stop (step c) l → LoopUntil step stop c (c :: l)

/-- Read the element of raw offset `k` of a buffer; `ub` outside of the buffer. -/
def readAt {α : Type _} (data : List α) (k : Int) : Res α :=
  if k < 0 then .error .ub
  else match data[k.toNat]? with
    | some x => .ok x
    | none => .error .ub

/-- Write the element of raw offset `k` of a buffer; `ub` outside of the buffer. -/
def writeAt {α : Type _} (data : List α) (k : Int) (x : α) : Res (List α) :=
  if k < 0 then .error .ub
  else if k.toNat < data.length then .ok (data.set k.toNat x)
  else .error .ub

end Litl
