import Verif.Model.Holders

/-!
# Programs which construct, copy and move rasters

Model of the constructors and assignments of LitlRaster/LitlRaster/Raster.h:175-227, for rasters which own their pixels.
-/

namespace Litl.Moves

open Holder

variable {α : Type}

/-- What remains of a raster once it was moved, by the defaulted operations (LitlRaster/LitlRaster/Raster.h:177): the shape and the
container are moved (LitlRaster/LitlRaster/Vector.h:62, LitlContainer/LitlContainer/Holders.h:140-144, 189-196). -/
def remainder (N : Int) (kind : Kind) (r : Raster α) : Raster α := ⟨Raster.movedFrom N r.shape, (moveTo kind r.data).2⟩

/-- The operations of a program on its rasters, which all have the same type. -/
inductive Op (α : Type)
  | ofShape (i : Nat) (shape : Position)
  | ofList (i : Nat) (shape : Position) (values : List α)
  | ofContainer (i : Nat) (shape : Position) (container : List α)
  | copy (i j : Nat)
  | move (i j : Nat)
  | copyAssign (i j : Nat)
  | moveAssign (i j : Nat)
  | moveTo (i : Nat)
  | destroy (i : Nat)

/-- The rasters which are alive, by name. -/
abbrev State (α : Type) := Nat → Option (Raster α)

/-- Construct, modify or destroy a raster. -/
def State.set (s : State α) (i : Nat) (r : Option (Raster α)) : State α := fun j => if j = i then r else s j

/-- The list constructor (LitlRaster/LitlRaster/Raster.h:205-209): the values are copied, the shape is moved, and then the size of the
moved-from parameter is checked. -/
def rasterOfList (zero : α) (N : Int) (kind : Kind) (shape : Position) (values : List α) : Res (Raster α) := do
  let data ← ofValues zero kind values
  SizeError.mayThrow values.length (shapeSize (Raster.movedFrom N shape))
  return ⟨shape, data⟩

/-- The forwarding constructor, with a container (LitlRaster/LitlRaster/Raster.h:189-191). -/
def rasterOfContainer (shape : Position) (container : List α) : Res (Raster α) := do
  let data ← Holder.ofContainer (u64 (shapeSize shape)).toNat container
  return ⟨shape, data⟩

/-- One operation, for rasters of dimension parameter `N`. `.exception` stands for ill-formed programs; other errors are those of the
constructors, which end the program. -/
def step (zero : α) (N : Int) (kind : Kind) (s : State α) : Op α → Res (State α)
  | .ofShape i shape => match s i with
    | some _ => .error .exception
    | none => do
      let r ← rasterOfShape zero kind shape
      return s.set i (some r)
  | .ofList i shape values => match s i with
    | some _ => .error .exception
    | none => do
      let r ← rasterOfList zero N kind shape values
      return s.set i (some r)
  | .ofContainer i shape container => match s i with
    | some _ => .error .exception
    | none => do
      let r ← rasterOfContainer shape container
      return s.set i (some r)
  /- LitlRaster/LitlRaster/Raster.h:176 -/
  | .copy i j => match s i, s j with
    | none, some r => .ok (s.set i (some r))
    | _, _ => .error .exception
  /- LitlRaster/LitlRaster/Raster.h:177 -/
  | .move i j => match s i, s j with
    | none, some r => .ok ((s.set i (some r)).set j (some (remainder N kind r)))
    | _, _ => .error .exception
  /- LitlRaster/LitlRaster/Raster.h:176 -/
  | .copyAssign i j => match s i, s j with
    | some _, some r => .ok (s.set i (some r))
    | _, _ => .error .exception
  /- LitlRaster/LitlRaster/Raster.h:177; vectors which are assigned to themselves are emptied as well, in practice. -/
  | .moveAssign i j => match s i, s j with
    | some _, some r => .ok ((s.set i (some r)).set j (some (remainder N kind r)))
    | _, _ => .error .exception
  /- LitlContainer/LitlContainer/Holders.h:133-136, 184-187 -/
  | .moveTo i => match s i with
    | some r => .ok (s.set i (some (rasterMoveTo kind r).2))
    | none => .error .exception
  | .destroy i => match s i with
    | some _ => .ok (s.set i none)
    | none => .error .exception

/-- The states which programs reach; the last operation comes first. -/
inductive Runs (zero : α) (N : Int) (kind : Kind) : List (Op α) → State α → Prop
  | nil : Runs zero N kind [] fun _ => none
  | cons {h : List (Op α)} {s s' : State α} {op : Op α} : Runs zero N kind h s → step zero N kind s op = .ok s' →
    Runs zero N kind (op :: h) s'

end Litl.Moves
