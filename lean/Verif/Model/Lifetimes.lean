import Verif.Model.Core

/-!
# Life times of objects, views and iterators

Which objects a view, a decorator or an iterator refers to, and which of them are alive.  Only the references and pointers
are modelled: values and positions are in Verif/Model/Raster.lean, View.lean, Iterators.lean and others.
Objects are named by natural numbers.  A name is given to one object only: a new object, even at the address of a
destroyed one, is not the one which dangling references refer to.
Objects returned by functions are built in place (copy elision), e.g. `auto it = begin(ball)` makes no copy.
-/

namespace Litl

namespace Lifetimes

/-- Where pixels are stored: in the block allocated by raster `n` (`VecRaster`), or inside the object `n` (`ArrRaster`). -/
inductive Place where
  | heap (n : Nat)
  | inside (n : Nat)
  deriving DecidableEq

/-- An object, reduced to the objects it refers to. -/
inductive Obj where
  /-- `Box` (LitlRaster/LitlRaster/Box.h), `Ball` (LitlRaster/LitlRaster/Ball.h:202-209) and
  `AxisSampling` (LitlRaster/LitlRaster/Sampling.h:99-112) have only values as members. -/
  | region
  /-- `VecRaster` (LitlRaster/LitlRaster/Raster.h:403-408, LitlContainer/LitlContainer/Holders.h:140-146): the vector has a
  heap block, or none once moved. -/
  | vec (data : Option Nat)
  /-- `ArrRaster` (LitlContainer/LitlContainer/Holders.h:189-193): the pixels are in the object. -/
  | arr
  /-- `PtrRaster` (LitlContainer/LitlContainer/Holders.h:217-227): pointer `m_container`. -/
  | ptr (data : Place)
  /-- `DataSamples` (LitlRaster/LitlRaster/Sampling.h:374-394): pointer `m_data`; the sampling is a value. -/
  | samples (data : Place)
  /-- `Subraster` (LitlRaster/LitlRaster/Subraster.h:97-106): reference `m_raster`; the region is a value. -/
  | subraster (raster : Nat)
  /-- `Extrapolator` and `Interpolator` (LitlTransforms/LitlTransforms/Interpolation.h:75-83, 170-178): reference
  `m_raster` to the raster, or to the extrapolator. -/
  | decorator (raster : Nat)
  /-- `Box::Iterator` (LitlRaster/LitlRaster/BoxIterator.h:109-118): reference `m_region`. -/
  | boxIt (region : Nat)
  /-- `Ball::Iterator` (LitlRaster/LitlRaster/BallIterator.h:77-102): reference `m_center` to a member of `ball`, and
  references of `m_current` and `m_end` to the member `m_box` of the iterator `box`. -/
  | ballIt (ball box : Nat)
  /-- `Subraster::Iterator` (LitlRaster/LitlRaster/SubrasterIterator.h:81-109): reference `m_raster`, and reference of
  `m_beginIt` to the member `m_beginPlane` of the iterator `plane`.  Pointers `m_current` and `m_eol` are
  those of pixels of the raster, too. -/
  | subIt (raster plane : Nat)
  /-- `AxisSampling::Iterator` (LitlRaster/LitlRaster/Sampling.h:65-68): reference `m_sampling`. -/
  | samplingIt (sampling : Nat)
  /-- `DataSamples::Iterator` (LitlRaster/LitlRaster/Sampling.h:230-233): reference `m_samples`. -/
  | samplesIt (samples : Nat)
  deriving DecidableEq

/-- The living objects, the allocated blocks and the names given so far. -/
structure State where
  objs : Nat → Option Obj
  heap : Nat → Bool
  used : Nat → Bool

/-- The start of a program. -/
def init : State := ⟨fun _ => none, fun _ => false, fun _ => false⟩

/-- Object `i` is alive. -/
def Alive (s : State) (i : Nat) : Prop := (s.objs i).isSome

/-- The pixels at `p` can be accessed. -/
def Accessible (s : State) : Place → Prop
  | .heap n => s.heap n = true
  | .inside n => Alive s n

/-- The functions of object `i` can be called without following a dangling reference. -/
inductive Usable (s : State) : Nat → Prop where
  | region {i : Nat} : s.objs i = some .region → Usable s i
  | vec {i n : Nat} : s.objs i = some (.vec (some n)) → s.heap n = true → Usable s i
  | arr {i : Nat} : s.objs i = some .arr → Usable s i
  | ptr {i : Nat} {p : Place} : s.objs i = some (.ptr p) → Accessible s p → Usable s i
  | samples {i : Nat} {p : Place} : s.objs i = some (.samples p) → Accessible s p → Usable s i
  | subraster {i r : Nat} : s.objs i = some (.subraster r) → Usable s r → Usable s i
  | decorator {i r : Nat} : s.objs i = some (.decorator r) → Usable s r → Usable s i
  | boxIt {i b : Nat} : s.objs i = some (.boxIt b) → Alive s b → Usable s i
  | ballIt {i b x : Nat} : s.objs i = some (.ballIt b x) → Alive s b → Alive s x → Usable s i
  | subIt {i r x : Nat} : s.objs i = some (.subIt r x) → Usable s r → Alive s x → Usable s i
  | samplingIt {i b : Nat} : s.objs i = some (.samplingIt b) → Alive s b → Usable s i
  | samplesIt {i d : Nat} : s.objs i = some (.samplesIt d) → Usable s d → Usable s i

/-- What a program does; the first argument is the name of the new object. -/
inductive Op where
  | region (n : Nat)
  | vec (n : Nat)
  | arr (n : Nat)
  | slice (n r : Nat)
  | samples (n r : Nat)
  | subraster (n r : Nat)
  | decorate (n r : Nat)
  | boxIt (n b : Nat)
  | ballIt (n b : Nat)
  | subIt (n v : Nat)
  | samplingIt (n b : Nat)
  | samplesIt (n d : Nat)
  | copy (n i : Nat)
  | move (n i : Nat)
  | destroy (i : Nat)
  deriving DecidableEq

/-- Where the pixels of raster `i` are, as given by `data()`
(LitlContainer/LitlContainer/Holders.h:105-107, 176-178, 213-215). -/
def pixels (i : Nat) : Obj → Option Place
  | .vec d => d.map .heap
  | .arr => some (.inside i)
  | .ptr p => some p
  | _ => none

/-- Rasters and extrapolators, which can be decorated. -/
def Decorable : Obj → Prop
  | .vec _ | .arr | .ptr _ | .decorator _ => True
  | _ => False

/-- Rasters. -/
def IsRaster : Obj → Prop
  | .vec _ | .arr | .ptr _ => True
  | _ => False

/-- A new object. -/
def State.put (s : State) (n : Nat) (o : Obj) : State :=
  { s with objs := fun i => if i = n then some o else s.objs i, used := fun i => if i = n then true else s.used i }

/-- Allocation or release of a block. -/
def State.block (s : State) (n : Nat) (b : Bool) : State :=
  { s with heap := fun i => if i = n then b else s.heap i }

/-- The copy `n` of an object by its defaulted copy constructor: a `VecRaster` has a block of its own, an `ArrRaster` has
its own array, and the references and pointers of others are copied
(LitlTypes/LitlTypes/TypeUtils.h:56-60 for rasters; implicitly-defined for others). -/
def copied (s : State) (n : Nat) : Obj → State
  | .vec (some _) => (s.put n (.vec (some n))).block n true
  | o => s.put n o

/-- The object `n` made from `i` by its move constructor: a moved `VecRaster` leaves its block to the new one
(LitlTypes/LitlTypes/TypeUtils.h:74-78 for rasters; implicitly-defined for others).  Others are as copied.
Simplification: regions of dimension -1 are not emptied, they are not used after having been moved. -/
def moved (s : State) (n i : Nat) : Obj → State
  | .vec d => (s.put i (.vec none)).put n (.vec d)
  | o => s.put n o

/-- The destruction of object `i`; the vector of a `VecRaster` releases its block. -/
def destroyed (s : State) (i : Nat) : Obj → State
  | .vec (some n) => { s.block n false with objs := fun j => if j = i then none else s.objs j }
  | _ => { s with objs := fun j => if j = i then none else s.objs j }

/-- Operation `op` leads from `s` to `t`.  Constructors and functions returning views are called on usable objects. -/
inductive Step (s : State) : Op → State → Prop where
  /-- Constructors of `Box`, `Ball`, `AxisSampling`. -/
  | region {n : Nat} : s.used n = false → Step s (.region n) (s.put n .region)
  /-- Constructor of `VecRaster` (LitlContainer/LitlContainer/Holders.h:77-82). -/
  | vec {n : Nat} : s.used n = false → Step s (.vec n) ((s.put n (.vec (some n))).block n true)
  /-- Constructor of `ArrRaster` (LitlContainer/LitlContainer/Holders.h:157-166). -/
  | arr {n : Nat} : s.used n = false → Step s (.arr n) (s.put n .arr)
  /-- `slice()` and `section()` (LitlRaster/LitlRaster/impl/Raster.hpp:142-215): pointer to the first pixel. -/
  | slice {n r : Nat} {o : Obj} {p : Place} : s.used n = false → Usable s r → s.objs r = some o →
      pixels r o = some p → Step s (.slice n r) (s.put n (.ptr p))
  /-- Constructor of `DataSamples` (LitlRaster/LitlRaster/Sampling.h:238-242) from the data of a raster. -/
  | samples {n r : Nat} {o : Obj} {p : Place} : s.used n = false → Usable s r → s.objs r = some o →
      pixels r o = some p → Step s (.samples n r) (s.put n (.samples p))
  /-- `subraster()` (LitlRaster/LitlRaster/impl/Raster.hpp:132-140, Subraster.h:40). -/
  | subraster {n r : Nat} {o : Obj} : s.used n = false → Usable s r → s.objs r = some o → IsRaster o →
      Step s (.subraster n r) (s.put n (.subraster r))
  /-- `extrapolate()` and `interpolate()` (LitlTransforms/LitlTransforms/Interpolation.h:41-42, 131-132, 185-206). -/
  | decorate {n r : Nat} {o : Obj} : s.used n = false → Usable s r → s.objs r = some o → Decorable o →
      Step s (.decorate n r) (s.put n (.decorator r))
  /-- `begin(box)` and `end(box)` (LitlRaster/LitlRaster/BoxIterator.h:19, 121-137). -/
  | boxIt {n b : Nat} : s.used n = false → s.objs b = some .region → Step s (.boxIt n b) (s.put n (.boxIt b))
  /-- `begin(ball)` and `end(ball)` (LitlRaster/LitlRaster/BallIterator.h:17-23, 105-122): `m_current` and `m_end` are
  bound to the member `m_box` of the iterator under construction. -/
  | ballIt {n b : Nat} : s.used n = false → s.objs b = some .region → Step s (.ballIt n b) (s.put n (.ballIt b n))
  /-- `begin(subraster)` and `end(subraster)` (LitlRaster/LitlRaster/SubrasterIterator.h:23-25, 112-133): the raster is that
  of the subraster, and `m_beginIt` is bound to the member `m_beginPlane` of the iterator under construction. -/
  | subIt {n v r : Nat} : s.used n = false → s.objs v = some (.subraster r) → Usable s r →
      Step s (.subIt n v) (s.put n (.subIt r n))
  /-- `begin()` and `end()` of `AxisSampling` (LitlRaster/LitlRaster/Sampling.h:27-28, 81-90). -/
  | samplingIt {n b : Nat} : s.used n = false → s.objs b = some .region →
      Step s (.samplingIt n b) (s.put n (.samplingIt b))
  /-- `begin()` and `end()` of `DataSamples` (LitlRaster/LitlRaster/Sampling.h:184-188, 342-365). -/
  | samplesIt {n d : Nat} {p : Place} : s.used n = false → s.objs d = some (.samples p) → Accessible s p →
      Step s (.samplesIt n d) (s.put n (.samplesIt d))
  | copy {n i : Nat} {o : Obj} : s.used n = false → s.objs i = some o → Step s (.copy n i) (copied s n o)
  | move {n i : Nat} {o : Obj} : s.used n = false → s.objs i = some o → Step s (.move n i) (moved s n i o)
  | destroy {i : Nat} {o : Obj} : s.objs i = some o → Step s (.destroy i) (destroyed s i o)

/-- A program leads from `s` to `t`; the last operation is at the head of the list. -/
inductive Run (s : State) : List Op → State → Prop where
  | nil : Run s [] s
  | cons {op : Op} {h : List Op} {t u : State} : Run s h t → Step t op u → Run s (op :: h) u

end Lifetimes

end Litl
