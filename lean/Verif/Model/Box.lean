import Verif.Model.Vector

/-!
# `Litl::Box` and its iterator

Model of LitlRaster/LitlRaster/Box.h and LitlRaster/LitlRaster/BoxIterator.h.
-/

namespace Litl

/-- `Litl::Box<N>` (LitlRaster/LitlRaster/Box.h:20, 272-281): inclusive front and back bounds. -/
structure Box where
  front : Position
  back : Position
deriving DecidableEq, Repr

namespace Box

/-- `Box::fromShape` (LitlRaster/LitlRaster/Box.h:44-46). -/
def fromShape (front shape : Position) : Box :=
  ⟨front, ((front.add shape).subScalar 1)⟩

/-- `Box::fromCenter` (LitlRaster/LitlRaster/Box.h:51-53). -/
def fromCenter (radius : Int) (center : Position) : Box :=
  ⟨center.subScalar radius, center.addScalar radius⟩

/-- `Box::whole` (LitlRaster/LitlRaster/Box.h:60-62). -/
def whole (N : Int) : Box := ⟨Position.zero N, Position.inf N⟩

/-- `Box::shape` (LitlRaster/LitlRaster/Box.h:83-85). -/
def shape (b : Box) : Position := (b.back.sub b.front).addScalar 1

/-- `Box::dimension` (LitlRaster/LitlRaster/Box.h:90-92). -/
def dimension (b : Box) : Nat := b.front.length

/-- `Box::size` (LitlRaster/LitlRaster/Box.h:97-99). -/
def size (b : Box) : Int := shapeSize b.shape

/-- `Box::operator==` (LitlRaster/LitlRaster/Box.h:121-123). -/
def eq (a b : Box) : Bool := a.front == b.front && a.back == b.back

/-- `Box::operator!=` (LitlRaster/LitlRaster/Box.h:128-130). -/
def ne (a b : Box) : Bool := a.front != b.front || a.back != b.back

/-- One iteration, for axis `i`, of the loop of `Box::surround`
(LitlRaster/LitlRaster/Box.h:152-171): the state is `current` and `out`. -/
def surroundStep (margin : Box) (st : Box × List Box) (i : Nat) : Box × List Box :=
  let f := margin.front.getD i 0
  let st :=
    if f < 0 then -- Front
      let current := st.1
      let newFront := current.front.getD i 0 + f
      let before : Box :=
        ⟨current.front.set i newFront, current.back.set i (current.front.getD i 0 - 1)⟩
      (⟨current.front.set i newFront, current.back⟩, st.2 ++ [before])
    else st
  let b := margin.back.getD i 0
  if b > 0 then -- Back
    let current := st.1
    let newBack := current.back.getD i 0 + b
    let after : Box :=
      ⟨current.front.set i (current.back.getD i 0 + 1), current.back.set i newBack⟩
    (⟨current.front, current.back.set i newBack⟩, st.2 ++ [after])
  else st

/-- `Box::surround` (LitlRaster/LitlRaster/Box.h:145-174).
All boxes have the same dimension (enforced by the C++ types for `N >= 0`), so that the defaults of
`getD` in `surroundStep` are never used. -/
def surround (b margin : Box) : List Box :=
  ((List.range b.dimension).foldl (surroundStep margin) (b, [])).2

/-- `Box::project` (LitlRaster/LitlRaster/Box.h:183-186, 289-292); `axis < dimension`. -/
def project (b : Box) (axis : Nat) : Box :=
  ⟨b.front, b.back.set axis (b.front.getD axis 0)⟩

/-- `Box + margin` (LitlRaster/LitlRaster/Box.h:191-195). -/
def grow (b margin : Box) : Box := ⟨b.front.add margin.front, b.back.add margin.back⟩

/-- `Box - margin` (LitlRaster/LitlRaster/Box.h:200-204). -/
def shrink (b margin : Box) : Box := ⟨b.front.sub margin.front, b.back.sub margin.back⟩

/-- `Box + position` (LitlRaster/LitlRaster/Box.h:209-213). -/
def shift (b : Box) (v : Position) : Box := ⟨b.front.add v, b.back.add v⟩

/-- `Box - position` (LitlRaster/LitlRaster/Box.h:218-222). -/
def unshift (b : Box) (v : Position) : Box := ⟨b.front.sub v, b.back.sub v⟩

/-- `Box + scalar` (LitlRaster/LitlRaster/Box.h:227-231); `++box` is `box + 1` (245-247). -/
def addScalar (b : Box) (a : Int) : Box := ⟨b.front.addScalar a, b.back.addScalar a⟩

/-- `Box - scalar` (LitlRaster/LitlRaster/Box.h:236-240); `--box` is `box - 1` (252-254). -/
def subScalar (b : Box) (a : Int) : Box := ⟨b.front.subScalar a, b.back.subScalar a⟩

/-- `++box` (LitlRaster/LitlRaster/Box.h:245-247). -/
def inc (b : Box) : Box := b.addScalar 1

/-- `--box` (LitlRaster/LitlRaster/Box.h:252-254). -/
def dec (b : Box) : Box := b.subScalar 1

/-- `-box` (LitlRaster/LitlRaster/Box.h:266-268). -/
def neg (b : Box) : Box := ⟨b.front.neg, b.back.neg⟩

end Box

/-- `Litl::clamp(in, min, max)` (LitlTypes/LitlTypes/TypeUtils.h:157-160). -/
def clamp1 (x lo hi : Int) : Int := if x < lo then lo else if x > hi then hi else x

/-- `clamp(position, shape)` (LitlRaster/LitlRaster/Box.h:312-318). -/
def clampShape (p shape : Position) : Position :=
  List.zipWith (fun p s => clamp1 p 0 (s - 1)) p shape

namespace BoxIterator

/-- `--out[0]` (LitlRaster/LitlRaster/BoxIterator.h:33 and 96).  Dimension 0 has no element 0
(undefined behaviour in C++); all statements assume a dimension of at least 1. -/
def decHead : Position → Position
  | [] => []
  | c :: cs => (c - 1) :: cs

/-- `++m_current[0]` (LitlRaster/LitlRaster/BoxIterator.h:99). -/
def incHead : Position → Position
  | [] => []
  | c :: cs => (c + 1) :: cs

/-- `beginPosition` (LitlRaster/LitlRaster/BoxIterator.h:24-26). -/
def beginPosition (b : Box) : Position := b.front

/-- `endPosition` (LitlRaster/LitlRaster/BoxIterator.h:31-35). -/
def endPosition (b : Box) : Position := decHead b.front

/-- The carry loop of `next` (LitlRaster/LitlRaster/BoxIterator.h:100-105):
for each axis `i` but the last one, if `current[i] > back[i]` then `current[i]` is set to `front[i]` and
`current[i + 1]` is incremented. -/
def carry : Position → Position → Position → Position
  | f :: fs, b :: bs, c :: c' :: cs =>
    if c > b then f :: carry fs bs ((c' + 1) :: cs) else c :: carry fs bs (c' :: cs)
  | _, _, cs => cs

/-- `Box::Iterator::next` (LitlRaster/LitlRaster/BoxIterator.h:93-107). -/
def next (b : Box) (current : Position) : Position :=
  if current = b.back then decHead b.front
  else carry b.front b.back (incHead current)

/-- `for (const auto& p : box)` (LitlRaster/LitlRaster/BoxIterator.h:68-77, 126-137):
the loop terminates after having visited exactly `l`, in order. -/
def Visits (b : Box) (l : List Position) : Prop :=
  LoopTrace (next b) (endPosition b) (beginPosition b) l

end BoxIterator

end Litl
