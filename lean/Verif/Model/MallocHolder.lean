import Verif.Model.Core

/-!
# The custom holder of the documentation

Model of `MallocHolder` (LitlDemo/tests/src/LitlDemoBasics_test.cpp:9-39), which is given as a minimal class which satisfies the
requirements on holders (LitlContainer/LitlContainer/ContiguousContainer.h:24-37), and of the rasters which use it.
Shapes are left out: only the sizes and elements of the rasters are modelled.
-/

namespace Litl.MallocHolder

/-- The members (LitlDemo/tests/src/LitlDemoBasics_test.cpp:32-34): `m_data` is null or points to a block of the heap. -/
structure Holder where
  size : Nat
  data : Option Nat

/-- The program state. -/
structure State (α : Type) where
  /-- The rasters which are alive, by name. -/
  objs : Nat → Option Holder
  /-- The blocks which are allocated, and their elements, which are indeterminate until they are written. -/
  heap : Nat → Option (List (Option α))
  /-- Blocks have never been allocated from there on. -/
  next : Nat
  /-- The values which were read, last one first. -/
  out : List α

variable {α : Type}

/-- The initial state. -/
def init : State α := ⟨fun _ => none, fun _ => none, 0, []⟩

/-- Set or destroy an object. -/
def setObj (s : State α) (i : Nat) (o : Option Holder) : State α :=
  { s with objs := fun j => if j = i then o else s.objs j }

/-- Allocate, free or modify a block. -/
def setBlock (s : State α) (b : Nat) (l : Option (List (Option α))) : State α :=
  { s with heap := fun c => if c = b then l else s.heap c }

/-- `malloc(m_size * sizeof(T))` (LitlDemo/tests/src/LitlDemoBasics_test.cpp:14), which may fail; the product is computed modulo
`2 ^ 64`. -/
def malloc (elem : Nat) (s : State α) (size : Nat) (ok : Bool) : State α × Option Nat :=
  if ok then
    ({ setBlock s s.next (some (List.replicate (size * elem % 2 ^ 64 / elem) none)) with next := s.next + 1 }, some s.next)
  else (s, none)

/-- `free(m_data)` (LitlDemo/tests/src/LitlDemoBasics_test.cpp:20-22): undefined if the block is not allocated. -/
def free (s : State α) : Option Nat → Res (State α)
  | none => .ok s
  | some b => match s.heap b with
    | some _ => .ok (setBlock s b none)
    | none => .error .ub

/-- `data[k] = v`. -/
def poke (s : State α) (data : Option Nat) (k : Nat) (v : α) : Res (State α) :=
  match data with
  | none => .error .ub
  | some b => match s.heap b with
    | none => .error .ub
    | some l => if k < l.length then .ok (setBlock s b (some (l.set k (some v)))) else .error .ub

/-- `data[k]`: indeterminate values must not be read. -/
def peek (s : State α) (data : Option Nat) (k : Nat) : Res α :=
  match data with
  | none => .error .ub
  | some b => match s.heap b with
    | none => .error .ub
    | some l => match l[k]? with
      | some (some v) => .ok v
      | _ => .error .ub

/-- `std::copy_n(d, m_size, m_data)` (LitlDemo/tests/src/LitlDemoBasics_test.cpp:16), or `std::copy` of a list
(LitlContainer/LitlContainer/DataContainer.h:62-66), from index `k`. -/
def copyFrom (s : State α) (data : Option Nat) (k : Nat) : List α → Res (State α)
  | [] => .ok s
  | v :: l => do
    let s ← poke s data k v
    copyFrom s data (k + 1) l

/-- The operations of a program on its rasters. The Boolean tells whether `malloc` succeeds. -/
inductive Op (α : Type)
  | construct (i size : Nat) (ok : Bool)
  | constructFrom (i : Nat) (values : List α) (ok : Bool)
  | copyConstruct (i other : Nat)
  | moveConstruct (i other : Nat)
  | copyAssign (i other : Nat)
  | moveAssign (i other : Nat)
  | destroy (i : Nat)
  | write (i k : Nat) (v : α)
  | read (i k : Nat)

/-- The constructor of the holder (LitlDemo/tests/src/LitlDemoBasics_test.cpp:14-18) of a new object. -/
def construct (elem : Nat) (s : State α) (i size : Nat) (values : List α) (ok : Bool) : Res (State α) :=
  match s.objs i with
  | some _ => .error .exception
  | none =>
    let (s, b) := malloc elem s size ok
    do
      let s ← copyFrom s b 0 values
      return setObj s i (some ⟨size, b⟩)

/-- The implicit copy constructor of the holder, which copies the members. -/
def copyConstruct (s : State α) (i other : Nat) : Res (State α) :=
  match s.objs i, s.objs other with
  | none, some o => .ok (setObj s i (some o))
  | _, _ => .error .exception

/-- The implicit copy assignment of the holder, which copies the members. -/
def copyAssign (s : State α) (i other : Nat) : Res (State α) :=
  match s.objs i, s.objs other with
  | some _, some o => .ok (setObj s i (some o))
  | _, _ => .error .exception

/-- One operation.  `.exception` stands for ill-formed programs: construction of an object which is alive, use of an object which is
not, access out of bounds. -/
def step (elem : Nat) (s : State α) : Op α → Res (State α)
  /- LitlRaster/LitlRaster/Raster.h:189-191, LitlContainer/LitlContainer/DataContainer.h:54-55 -/
  | .construct i size ok => construct elem s i size [] ok
  /- With a pointer, or from a list -/
  | .constructFrom i values ok => construct elem s i values.length values ok
  /- LitlRaster/LitlRaster/Raster.h:176, LitlContainer/LitlContainer/DataContainer.h:80: the holder is copied. -/
  | .copyConstruct i other => copyConstruct s i other
  /- LitlRaster/LitlRaster/Raster.h:177, LitlContainer/LitlContainer/DataContainer.h:81: the holder has no move constructor, because
  its destructor is declared ([class.copy.ctor]/8), and is therefore copied. -/
  | .moveConstruct i other => copyConstruct s i other
  | .copyAssign i other => copyAssign s i other
  | .moveAssign i other => copyAssign s i other
  /- LitlDemo/tests/src/LitlDemoBasics_test.cpp:20-22 -/
  | .destroy i =>
    match s.objs i with
    | some o => do
      let s ← free s o.data
      return setObj s i none
    | none => .error .exception
  /- `raster[k] = v` (LitlContainer/LitlContainer/ContiguousContainer.h:117-119) -/
  | .write i k v =>
    match s.objs i with
    | some o => if k < o.size then poke s o.data k v else .error .exception
    | none => .error .exception
  /- `raster[k]` (LitlContainer/LitlContainer/ContiguousContainer.h:110-112) -/
  | .read i k =>
    match s.objs i with
    | some o => if k < o.size then do
        let v ← peek s o.data k
        return { s with out := v :: s.out }
      else .error .exception
    | none => .error .exception

/-- A program. -/
def run (elem : Nat) (s : State α) : List (Op α) → Res (State α)
  | [] => .ok s
  | op :: ops => do
    let s ← step elem s op
    run elem s ops

end Litl.MallocHolder
