import Mathlib.Data.Rat.Defs
import Mathlib.Algebra.Order.Field.Rat
import Mathlib.Analysis.Real.Sqrt
import Verif.Model.Core

/-!
# Model of `Chronometer`

Time points and their differences are numbers of ticks of `std::chrono::steady_clock`, i.e. integers.
Durations of type `TUnit` are given by their `count()`, as a rational.

Simplifications: the increments are stored as `double` by the code, and rationals here (the conversion is exact for counts
up to 2^53); integers do not overflow.
-/

namespace Litl.Chronometer

/-- A duration type `TUnit` (LitlRun/LitlRun/Chronometer.h:30-36): a tick of the clock is `num / den` units,
and `integral` tells whether the representation is an integer type. -/
structure Unit where
  num : Nat
  den : Nat
  integral : Bool

/-- A duration type has a positive period. -/
structure Unit.Valid (unit : Unit) : Prop where
  num : 0 < unit.num
  den : 0 < unit.den

/-- `std::chrono::duration_cast<TUnit>(ticks).count()` (Chronometer.h:69): the quotient is truncated towards zero
if the representation is an integer type. -/
def cast (unit : Unit) (ticks : Int) : ℚ :=
  if unit.integral then (Int.tdiv (ticks * unit.num) unit.den : Int) else ticks * unit.num / unit.den

/-- `Chronometer<TUnit>` (Chronometer.h:141-164). -/
structure State where
  tic : Int
  toc : Int
  running : Bool
  container : List ℚ
  elapsed : ℚ
deriving DecidableEq

/-- `Chronometer::reset()` (Chronometer.h:48-53). -/
def reset (offset : ℚ) (c : State) : State :=
  { c with toc := c.tic, running := false, container := [], elapsed := offset }

/-- `Chronometer::Chronometer()` (Chronometer.h:41-43): the time points are that of the epoch. -/
def new (offset : ℚ) : State :=
  reset offset { tic := 0, toc := 0, running := false, container := [], elapsed := offset }

/-- `Chronometer::start()`, where `now` is the time returned by the clock (Chronometer.h:58-61). -/
def start (now : Int) (c : State) : State :=
  { c with tic := now, running := true }

/-- `Chronometer::stop()`, where `now` is the time returned by the clock (Chronometer.h:66-73):
the returned increment and the new state. -/
def stop (unit : Unit) (now : Int) (c : State) : ℚ × State :=
  let inc := cast unit (now - c.tic)
  (inc, { c with toc := now, running := false, elapsed := c.elapsed + inc, container := c.container ++ [inc] })

/-- `Chronometer::last()` (Chronometer.h:85-87): reading an empty vector is undefined. -/
def last (c : State) : Res ℚ :=
  match c.container.getLast? with
  | some inc => .ok inc
  | none => .error .ub

/-- `Chronometer::count()` (Chronometer.h:99-101). -/
def count (c : State) : Nat := c.container.length

/-- `Chronometer::mean()` (Chronometer.h:113-115): the quotient, or `none` for the NaN of 0 / 0. -/
def mean (c : State) : Option ℚ :=
  if count c = 0 then none else some (c.container.foldl (· + ·) 0 / count c)

/-- The argument of `std::sqrt()` in `Chronometer::stdev()` (Chronometer.h:120-124). -/
def variance (c : State) : Option ℚ :=
  (mean c).map fun m => (List.zipWith (· * ·) c.container c.container).foldl (· + ·) 0 / count c - m * m

/-- `Chronometer::stdev()` (Chronometer.h:120-124): `none` for NaN, i.e. also for the square root of a negative number. -/
noncomputable def stdev (c : State) : Option ℝ :=
  match variance c with
  | some v => if v < 0 then none else some (Real.sqrt v)
  | none => none

/-- `Chronometer::min()` (Chronometer.h:129-131): dereferencing `end()` is undefined. -/
def min (c : State) : Res ℚ :=
  match c.container with
  | [] => .error .ub
  | x :: l => .ok (l.foldl (fun m y => if y < m then y else m) x)

/-- `Chronometer::max()` (Chronometer.h:136-138): dereferencing `end()` is undefined. -/
def max (c : State) : Res ℚ :=
  match c.container with
  | [] => .error .ub
  | x :: l => .ok (l.foldl (fun m y => if m < y then y else m) x)

/-- The calls which modify a chronometer, with the time returned by the clock if it is queried. -/
inductive Op where
  | start (now : Int)
  | stop (now : Int)
  | reset (offset : ℚ)

/-- The effect of a call. -/
def apply (unit : Unit) (c : State) : Op → State
  | .start now => start now c
  | .stop now => (stop unit now c).2
  | .reset offset => reset offset c

/-- The state after a sequence of calls. -/
def run (unit : Unit) (c : State) (ops : List Op) : State := ops.foldl (apply unit) c

end Litl.Chronometer
