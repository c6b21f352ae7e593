import Verif.Model.Hsv
import Verif.Model.Rounding

/-!
# Color conversion in floating point arithmetic

As Verif/Model/Hsv.lean, where each operation is rounded by `fl`.
-/

namespace Litl.Channels

variable (fl : ℚ → ℚ)

/-- `(60. * (max - c) + 180. * delta) / delta` (LitlDemo/tests/src/LitlDemoChannels_test.cpp:68-70) for a channel `c`. -/
def offsetFl (c max delta : ℚ) : ℚ := fl (fl (fl (60 * fl (max - c)) + fl (180 * delta)) / delta)

/-- The hue when the channels are not all the same (LitlDemo/tests/src/LitlDemoChannels_test.cpp:68-84). -/
def hueFl (r g b max delta : ℚ) : ℚ :=
  let dr := offsetFl fl r max delta
  let dg := offsetFl fl g max delta
  let db := offsetFl fl b max delta
  let h := if r = max then fl (db - dg) else if g = max then fl (fl (120 + dr) - db) else fl (fl (240 + dg) - dr)
  if h < 0 then fl (h + 360) else if h ≥ 360 then fl (h - 360) else h

/-- `rgbToHsv()` (LitlDemo/tests/src/LitlDemoChannels_test.cpp:43-87), where the components, which are of type `unsigned char`, are
converted exactly. -/
def rgbToHsvFl (red green blue : Int) : Hsv :=
  let normalization := fl (1 / 255)
  let r := fl (normalization * red)
  let g := fl (normalization * green)
  let b := fl (normalization * blue)
  let min := min (min r g) b
  let max := max (max r g) b
  let delta := fl (max - min)
  if max = 0 then ⟨none, none, none⟩
  else if delta = 0 then ⟨none, none, some max⟩
  else ⟨some (hueFl fl r g b max delta), some (fl (delta / max)), some max⟩

end Litl.Channels
