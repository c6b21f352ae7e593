import Verif.Model.Core
import Mathlib.Algebra.Order.Field.Rat

/-!
# Color conversion

The pixel function of the documented use case of vector pixels (doc/channels.dox,
LitlDemo/tests/src/LitlDemoChannels_test.cpp:26-94).
Simplification: operations on `double` are exact.
-/

namespace Litl.Channels

/-- `struct Hsv` (LitlDemo/tests/src/LitlDemoChannels_test.cpp:28-37): `none` is an indeterminate value, which is that of
the members of `Hsv hsv;` (LitlDemo/tests/src/LitlDemoChannels_test.cpp:50) until they are assigned. -/
structure Hsv where
  h : Option ℚ
  s : Option ℚ
  v : Option ℚ
deriving DecidableEq

/-- The hue when the channels are not all the same (LitlDemo/tests/src/LitlDemoChannels_test.cpp:68-84). -/
def hue (r g b max delta : ℚ) : ℚ :=
  let dr := (60 * (max - r) + 180 * delta) / delta
  let dg := (60 * (max - g) + 180 * delta) / delta
  let db := (60 * (max - b) + 180 * delta) / delta
  let h := if r = max then db - dg else if g = max then 120 + dr - db else 240 + dg - dr
  if h < 0 then h + 360 else if h ≥ 360 then h - 360 else h

/-- `rgbToHsv()` (LitlDemo/tests/src/LitlDemoChannels_test.cpp:43-87). -/
def rgbToHsv (red green blue : Int) : Hsv :=
  let normalization : ℚ := 1 / 255
  let r := normalization * red
  let g := normalization * green
  let b := normalization * blue
  let min := min (min r g) b
  let max := max (max r g) b
  let delta := max - min
  if max = 0 then ⟨none, none, none⟩
  else if delta = 0 then ⟨none, none, some max⟩
  else ⟨some (hue r g b max delta), some (delta / max), some max⟩

/-- Reading a member; the behaviour is undefined if its value is indeterminate
(LitlDemo/tests/src/LitlDemoChannels_test.cpp:91-93). -/
def readMember : Option ℚ → Res ℚ
  | some x => .ok x
  | none => .error .ub

/-- `rgbDataToHsvData()` (LitlDemo/tests/src/LitlDemoChannels_test.cpp:89-94): what is written to the output. -/
def rgbDataToHsvData (red green blue : Int) : Res (List ℚ) := do
  let out := rgbToHsv red green blue
  let h ← readMember out.h
  let s ← readMember out.s
  let v ← readMember out.v
  return [h, s, v]

end Litl.Channels
