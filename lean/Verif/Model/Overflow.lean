import Verif.Model.Machine
import Verif.Model.Raster

/-!
# Index computations on machine integers

The computations of Vector.h, Box.h, BoxIterator.h and Raster.hpp (LitlRaster/LitlRaster) on values of type `Index`, a
64-bit signed integer.  Each operation whose exact result is not a value of type `Index` is a signed overflow, of
undefined behaviour (`ub`).  Here, the coordinates and lengths which are read from memory are any integers; that they
are values of type `Index` is a hypothesis of the theorems.
-/

namespace Litl

namespace Checked

instance (x : Int) : Decidable (IsI64 x) := by unfold IsI64; infer_instance

/-- The result of an operation of type `Index`. -/
def ck (x : Int) : Res Int := if IsI64 x then .ok x else .error .ub

/-- `IndexRecursionImpl<N, I>::index` (LitlRaster/LitlRaster/impl/Raster.hpp:25-50): the recursive call, the product and the
sum. -/
def index : Position → Position → Res Int
  | [_], [p] => .ok p
  | s :: ss, p :: ps => do
    let r ← index ss ps
    let m ← ck (s * r)
    ck (p + m)
  | _, _ => .ok 0

/-- The loop of `IndexRecursionImpl<-1, I>::index` (LitlRaster/LitlRaster/impl/Raster.hpp:64-66), over the axes from the last
one. -/
def indexLoop : List (Int × Int) → Int → Res Int
  | [], res => .ok res
  | (p, s) :: axes, res => do
    let m ← ck (s * res)
    let r ← ck (p + m)
    indexLoop axes r

/-- `IndexRecursionImpl<-1, I>::index` (LitlRaster/LitlRaster/impl/Raster.hpp:55-70). -/
def indexVariable (shape pos : Position) : Res Int :=
  if pos.length ≠ shape.length then .error .sizeError
  else indexLoop (List.zip pos.reverse shape.reverse) 0

/-- `std::accumulate` with `std::multiplies<Index>` (LitlRaster/LitlRaster/Vector.h:204). -/
def product : List Int → Int → Res Int
  | [], acc => .ok acc
  | s :: ss, acc => do
    let m ← ck (acc * s)
    product ss m

/-- `shapeStride(shape, axis)` (LitlRaster/LitlRaster/Vector.h:203-205). -/
def shapeStride (shape : Position) (axis : Nat) : Res Int := product (shape.take axis) 1

/-- `shapeSize(shape)` (LitlRaster/LitlRaster/Vector.h:221-227). -/
def shapeSize (shape : Position) : Res Int :=
  if shape.length = 0 then .ok 0 else shapeStride shape shape.length

/-- The loop of `Raster::at` (LitlRaster/LitlRaster/impl/Raster.hpp:115-123): the bounds `-s` and `s - 1`, and
`b += s`. -/
def boundedPos : Position → Position → Res Position
  | s :: ss, p :: ps => do
    let lo ← ck (-s)
    let hi ← ck (s - 1)
    if p < lo ∨ p > hi then .error .outOfBounds
    else do
      let b ← if p < 0 then ck (p + s) else .ok p
      let bs ← boundedPos ss ps
      return b :: bs
  | _, _ => .ok []

/-- `Raster::at(position)` (LitlRaster/LitlRaster/impl/Raster.hpp:114-130). -/
def «at» {α : Type _} (r : Raster α) (p : Position) : Res α := do
  let b ← boundedPos r.shape p
  let k ← index r.shape b
  readAt r.data k

/-- `V op U` (LitlContainer/LitlContainer/Arithmetic.h:15-26), element by element. -/
def zip (op : Int → Int → Int) : Position → Position → Res Position
  | x :: u, y :: v => do
    let z ← ck (op x y)
    let w ← zip op u v
    return z :: w
  | _, _ => .ok []

/-- `V op a` (LitlContainer/LitlContainer/Arithmetic.h:28-38), element by element. -/
def map (op : Int → Int) : Position → Res Position
  | [] => .ok []
  | x :: u => do
    let z ← ck (op x)
    let w ← map op u
    return z :: w

/-- `Box::fromShape(front, shape)` (LitlRaster/LitlRaster/Box.h:44-46). -/
def fromShape (front shape : Position) : Res Box := do
  let sum ← zip (· + ·) front shape
  let back ← map (· - 1) sum
  return ⟨front, back⟩

/-- `Box::shape()` (LitlRaster/LitlRaster/Box.h:83-85). -/
def boxShape (b : Box) : Res Position := do
  let d ← zip (· - ·) b.back b.front
  map (· + 1) d

/-- `Box::size()` (LitlRaster/LitlRaster/Box.h:97-99). -/
def boxSize (b : Box) : Res Int := do
  let s ← boxShape b
  shapeSize s

/-- `--out[0]` (LitlRaster/LitlRaster/BoxIterator.h:33 and 96). -/
def decHead : Position → Res Position
  | [] => .ok []
  | c :: cs => do
    let d ← ck (c - 1)
    return d :: cs

/-- `++m_current[0]` (LitlRaster/LitlRaster/BoxIterator.h:99). -/
def incHead : Position → Res Position
  | [] => .ok []
  | c :: cs => do
    let d ← ck (c + 1)
    return d :: cs

/-- The carry loop of `next` (LitlRaster/LitlRaster/BoxIterator.h:100-105). -/
def carry : Position → Position → Position → Res Position
  | f :: fs, b :: bs, c :: c' :: cs =>
    if c > b then do
      let d ← ck (c' + 1)
      let ds ← carry fs bs (d :: cs)
      return f :: ds
    else do
      let ds ← carry fs bs (c' :: cs)
      return c :: ds
  | _, _, cs => .ok cs

/-- `Box::Iterator::next` (LitlRaster/LitlRaster/BoxIterator.h:93-107). -/
def next (b : Box) (current : Position) : Res Position :=
  if current = b.back then decHead b.front
  else do
    let c ← incHead current
    carry b.front b.back c

/-- The loop `for (c = start; c != stop; c = step(c)) visit(c);` terminates without undefined behaviour, and visits
exactly `l`, in order. -/
inductive LoopTrace {α : Type _} (step : α → Res α) (stop : α) : α → List α → Prop where
  | done : LoopTrace step stop stop []
  | next {c d : α} {l : List α} : c ≠ stop → step c = .ok d → LoopTrace step stop d l → LoopTrace step stop c (c :: l)

/-- `for (const auto& p : box)` (LitlRaster/LitlRaster/BoxIterator.h:24-35, 68-77, 126-137). -/
def Visits (b : Box) (l : List Position) : Prop :=
  ∃ stop, decHead b.front = .ok stop ∧ LoopTrace (next b) stop b.front l

end Checked

end Litl
