import Verif.Model.Distribution
import Verif.Model.RasterCtor

/-!
# Median filter

Model of LitlTransforms/LitlTransforms/MedianFilter.h.
Values are rational numbers, whose average is exact; `convert` is the conversion to the value type of the output.
Loops over boxes may not terminate or may run out of the buffers: functions are relations between their arguments and
their result.
-/

namespace Litl

namespace MedianFilter

variable {β : Type _}

/-- `median(through)` (LitlTransforms/LitlTransforms/MedianFilter.h:80-92): the values before, the result, and the values
after.  `std::nth_element` has no effect if the n-th element is the end, and its behaviour is undefined after. -/
inductive Median (convert : ℚ → β) : List ℚ → Res β → List ℚ → Prop where
  | odd {v v' : List ℚ} {x : ℚ} : v.length % 2 = 1 → NthElement v (v.length / 2) v' → v'[v.length / 2]? = some x →
      Median convert v (.ok (convert x)) v'
  | none : Median convert [] (.error .ub) []
  | two {v v' : List ℚ} : v.length = 2 → NthElement v 1 v' → Median convert v (.error .ub) v'
  | even {v v₁ v₂ : List ℚ} {x y : ℚ} : v.length % 2 = 0 → 2 < v.length →
      NthElement v (v.length / 2) v₁ → NthElement v₁ (v.length / 2 + 1) v₂ →
      v₂[v.length / 2]? = some x → v₂[v.length / 2 + 1]? = some y →
      Median convert v (.ok (convert ((x + y) * (1 / 2)))) v₂

/-- The loop over the window (LitlTransforms/LitlTransforms/MedianFilter.h:67-69), from position `q` and the `i`-th
neighbor; `input` is the subscript operator of the raster or extrapolator. -/
inductive Gather (box : Box) (input : Position → Res ℚ) : Position → Nat → List ℚ → Res (List ℚ) → Prop where
  | done {i : Nat} {neighbors : List ℚ} : Gather box input (BoxIterator.endPosition box) i neighbors (.ok neighbors)
  | failRead {q : Position} {i : Nat} {neighbors : List ℚ} {e : Fail} : q ≠ BoxIterator.endPosition box →
      input q = .error e → Gather box input q i neighbors (.error e)
  | failWrite {q : Position} {i : Nat} {neighbors : List ℚ} {x : ℚ} {e : Fail} : q ≠ BoxIterator.endPosition box →
      input q = .ok x → writeAt neighbors i x = .error e → Gather box input q i neighbors (.error e)
  | next {q : Position} {i : Nat} {neighbors neighbors' : List ℚ} {x : ℚ} {res : Res (List ℚ)} :
      q ≠ BoxIterator.endPosition box → input q = .ok x → writeAt neighbors i x = .ok neighbors' →
      Gather box input (BoxIterator.next box q) (i + 1) neighbors' res → Gather box input q i neighbors res

/-- The loop over the region (LitlTransforms/LitlTransforms/MedianFilter.h:66-72), from position `p`; `out` is the data of
a raster of given shape. -/
inductive Pixels (window : Box) (convert : ℚ → β) (input : Position → Res ℚ) (shape : Position) (region : Box) :
    Position → List ℚ → List β → Res (List β) → Prop where
  | done {neighbors : List ℚ} {out : List β} :
      Pixels window convert input shape region (BoxIterator.endPosition region) neighbors out (.ok out)
  | failGather {p : Position} {neighbors : List ℚ} {out : List β} {e : Fail} : p ≠ BoxIterator.endPosition region →
      Gather (window.shift p) input (BoxIterator.beginPosition (window.shift p)) 0 neighbors (.error e) →
      Pixels window convert input shape region p neighbors out (.error e)
  | failMedian {p : Position} {neighbors v v' : List ℚ} {out : List β} {e : Fail} :
      p ≠ BoxIterator.endPosition region →
      Gather (window.shift p) input (BoxIterator.beginPosition (window.shift p)) 0 neighbors (.ok v) →
      Median convert v (.error e) v' → Pixels window convert input shape region p neighbors out (.error e)
  | failWrite {p : Position} {neighbors v v' : List ℚ} {out : List β} {y : β} {e : Fail} :
      p ≠ BoxIterator.endPosition region →
      Gather (window.shift p) input (BoxIterator.beginPosition (window.shift p)) 0 neighbors (.ok v) →
      Median convert v (.ok y) v' → writeAt out (index shape p) y = .error e →
      Pixels window convert input shape region p neighbors out (.error e)
  | next {p : Position} {neighbors v v' : List ℚ} {out out' : List β} {y : β} {res : Res (List β)} :
      p ≠ BoxIterator.endPosition region →
      Gather (window.shift p) input (BoxIterator.beginPosition (window.shift p)) 0 neighbors (.ok v) →
      Median convert v (.ok y) v' → writeAt out (index shape p) y = .ok out' →
      Pixels window convert input shape region (BoxIterator.next region p) v' out' res →
      Pixels window convert input shape region p neighbors out res

/-- `applyTo(in, out, region)` (LitlTransforms/LitlTransforms/MedianFilter.h:62-73). -/
def AppliesTo (window : Box) (convert : ℚ → β) (input : Position → Res ℚ) (shape : Position) (region : Box)
    (out : List β) (res : Res (List β)) : Prop :=
  if window.size < 0 then res = .error .stdError
  else Pixels window convert input shape region (BoxIterator.beginPosition region)
    (List.replicate window.size.toNat 0) out res

/-- `apply(in)` (LitlTransforms/LitlTransforms/MedianFilter.h:49-54): `shape` is that of the input. -/
def Applies (window : Box) (convert : ℚ → β) (zero : β) (input : Position → Res ℚ) (shape : Position)
    (res : Res (Raster β)) : Prop :=
  match Raster.ofShape zero shape with
  | .error e => res = .error e
  | .ok out => ∃ r, AppliesTo window convert input shape out.domain out.data r ∧ res = r.map fun d => ⟨shape, d⟩

end MedianFilter

end Litl
