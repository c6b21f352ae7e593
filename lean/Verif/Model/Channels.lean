import Verif.Model.View
import Verif.Model.LineKernel

/-!
# Vector pixels

The documented ways to store and process rasters whose pixels have several components
(doc/channels.dox, LitlDemo/tests/src/LitlDemoChannels_test.cpp): as values of a structure, along the first axis, or along
the last axis.  Iterators are pointers (LitlContainer/LitlContainer/ContiguousContainer.h:150-183), i.e. addresses relative
to `begin()`.
-/

namespace Litl.Channels

variable {α β : Type _}

/-- Read `it[0]`, ..., `it[n - 1]` (LitlDemo/tests/src/LitlDemoChannels_test.cpp:90, and `std::inner_product()` in
LitlDemo/tests/src/LitlDemoChannels_test.cpp:201). -/
def readPixel (data : List α) (it n : Nat) : Res (List α) :=
  (List.range n).mapM fun c : Nat => readAt data ((it + c : Nat) : Int)

/-- Write `it[0]`, `it[1]`... (LitlDemo/tests/src/LitlDemoChannels_test.cpp:91-93), or `*it++`, `*it++`...
(LitlDemo/tests/src/LitlDemoChannels_test.cpp:136-138). -/
def writePixel (data : List α) (it : Nat) : List α → Res (List α)
  | [] => .ok data
  | x :: xs => do
    let data ← writeAt data (it : Int) x
    writePixel data (it + 1) xs

/-- The body of the loop which fills a raster (LitlDemo/tests/src/LitlDemoChannels_test.cpp:136-138), where `pixel` is what
is written by an iteration. -/
def fillBody (pixel : List α) (s : Nat × List α) : Res (Nat × List α) := do
  let data ← writePixel s.2 s.1 pixel
  return (s.1 + pixel.length, data)

/-- `for (auto it = rgb.begin(); it != rgb.end();) { *it++ = ...; ... }`
(LitlDemo/tests/src/LitlDemoChannels_test.cpp:135-139): the position of the iterator and the values at the end, if any. -/
def Fills (pixel : List α) (data : List α) (r : Res (Nat × List α)) : Prop :=
  While (fun s => s.1 ≠ data.length) (fillBody pixel) (0, data) r

/-- The body of the loop over pixels and its increments (LitlDemo/tests/src/LitlDemoChannels_test.cpp:146-147, 89-94): `f` is
the conversion of a pixel of `n` components, and the state is made of both iterators and of the output values. -/
def convertBody (f : List α → List β) (n : Nat) (input : List α) (s : Nat × Nat × List β) : Res (Nat × Nat × List β) := do
  let x ← readPixel input s.1 n
  let out ← writePixel s.2.2 s.2.1 (f x)
  return (s.1 + n, s.2.1 + n, out)

/-- Loop by steps of `n` components (LitlDemo/tests/src/LitlDemoChannels_test.cpp:144-148). -/
def Converts (f : List α → List β) (n : Nat) (input : List α) (out : List β) (r : Res (Nat × Nat × List β)) : Prop :=
  While (fun s => s.1 ≠ input.length) (convertBody f n input) (0, 0, out) r

/-- `std::inner_product(weights.begin(), weights.end(), it, 0.)`
(LitlDemo/tests/src/LitlDemoChannels_test.cpp:201). -/
def innerProduct (add mul : α → α → α) (zero : α) (weights x : List α) : α :=
  (weights.zip x).foldl (fun sum wx => add sum (mul wx.1 wx.2)) zero

/-- The body of the loop over pixels and its increments (LitlDemo/tests/src/LitlDemoChannels_test.cpp:200-201): the state is
made of both iterators and of the output values. -/
def integrateBody (add mul : α → α → α) (zero : α) (weights : List α) (n : Nat) (cube : List α) (s : Nat × Nat × List α) :
    Res (Nat × Nat × List α) := do
  let x ← readPixel cube s.2.1 weights.length
  let image ← writeAt s.2.2 (s.1 : Int) (innerProduct add mul zero weights x)
  return (s.1 + 1, s.2.1 + n, image)

/-- The weighted sum of the components (LitlDemo/tests/src/LitlDemoChannels_test.cpp:199-202). -/
def Integrates (add mul : α → α → α) (zero : α) (weights : List α) (n : Nat) (cube image : List α)
    (r : Res (Nat × Nat × List α)) : Prop :=
  While (fun s => s.1 ≠ image.length) (integrateBody add mul zero weights n cube) (0, 0, image) r

/-- Modification of the pixels of a view, from its first one to its last one, e.g. `r.fill(64)` or `r *= k` where `r` is a
section (LitlDemo/tests/src/LitlDemoChannels_test.cpp:164-176, LitlContainer/LitlContainer/Arithmetic.h:28-38).
The function `g` of the value is fixed: see C25 for scalars which are in the view, and C99 for scalars of another type. -/
def mapView (g : α → α) (w : View) (data : List α) : Res (List α) :=
  (List.range (shapeSize w.shape).toNat).foldlM (fun (data : List α) (i : Nat) => do
    let x ← readAt data (w.offset + (i : Int))
    writeAt data (w.offset + (i : Int)) (g x)) data

/-- Modification of the sections of a raster one after the other, section `c` by `g c`
(LitlDemo/tests/src/LitlDemoChannels_test.cpp:164-176). -/
def mapSections (g : Nat → α → α) (r : Raster α) (channels : List Nat) : Res (Raster α) :=
  channels.foldlM (fun (r : Raster α) (c : Nat) => do
    let w ← (View.ofRaster r).section1 c
    let data ← mapView (g c) w r.data
    return ⟨r.shape, data⟩) r

end Litl.Channels
