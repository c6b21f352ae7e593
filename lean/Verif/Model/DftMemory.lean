import Verif.Model.AlignedBuffer

/-!
# Life cycle of DFT plans

Model of the memory management of LitlTransforms/LitlTransforms/DftMemory.h and DftPlan.h, on top of that of aligned
buffers: the input and output buffers of the plan object named `i` are the buffers named `3 * i` and `3 * i + 1`, and the
other buffers of the program are named `3 * k + 2`. What is computed is in Verif/Model/Dft.lean; here, the contents of the
buffers are left out, and so are their sizes, which are those of C52.

Plan objects cannot be copied, because of the member of type `std::unique_ptr`.
-/

namespace Litl.DftMemory

open Aligned

/-- The state of a program. -/
structure State where
  /-- The buffers. -/
  mem : Aligned.State Unit
  /-- The member `m_plan` (LitlTransforms/LitlTransforms/DftPlan.h:251) of the objects which are alive: null, or the
  address of the FFTW plan. -/
  plan : Nat → Option (Option Nat)
  /-- The FFTW plans which were created and not destroyed yet. -/
  plans : List Nat
  /-- The number of FFTW plans which were created. -/
  next : Nat
  /-- The arrays of the FFTW plans, which are set when planning. -/
  arrays : Nat → Ptr × Ptr
  /-- The arguments of the calls to `fftw_destroy_plan` which are not existing plans. -/
  badDestroys : List Nat
  /-- The arrays of the last plan which was executed. -/
  executed : Option (Ptr × Ptr)

/-- The initial state. -/
def init : State := ⟨Aligned.init fun _ _ => (), fun _ => none, [], 0, fun _ => ((.foreign 0, 0), (.foreign 0, 0)), [], none⟩

/-- Whether an array can be accessed: foreign memory is assumed to outlive the program. -/
def Accessible (s : Aligned.State Unit) (p : Ptr) : Prop :=
  match p.1 with
  | .heap b => b ∈ s.live
  | .foreign _ => True

instance (s : Aligned.State Unit) (p : Ptr) : Decidable (Accessible s p) := by
  unfold Accessible; split <;> infer_instance

/-- The data pointer of a buffer. -/
def data (s : State) (k : Nat) : Option Ptr := (s.mem.objs k).bind Buffer.data

/-- Set the member `m_plan` of an object, or destroy it. -/
def setPlan (s : State) (i : Nat) (p : Option (Option Nat)) : State :=
  { s with plan := fun j => if j = i then p else s.plan j }

/-- `FftwAllocator::createPlan` (LitlTransforms/LitlTransforms/DftMemory.h:74-78) for the buffers of `i`: both arrays are
written by the planner (LitlTransforms/LitlTransforms/Dft.h:150-155, 162-167, 180-186 and 193-199). -/
def createPlan (s : State) (i : Nat) : Res State :=
  match data s (3 * i), data s (3 * i + 1) with
  | some a, some b =>
    if Accessible s.mem a ∧ Accessible s.mem b then
      .ok (setPlan { s with
        plans := s.next :: s.plans, next := s.next + 1,
        arrays := fun p => if p = s.next then (a, b) else s.arrays p } i (some (some s.next)))
    else .error .ub
  | _, _ => .error .ub

/-- `FftwAllocator::destroyPlan` (LitlTransforms/LitlTransforms/DftMemory.h:83-87). -/
def destroyPlan (s : State) (p : Option Nat) : State :=
  match p with
  | some p => if p ∈ s.plans then { s with plans := s.plans.erase p } else { s with badDestroys := p :: s.badDestroys }
  | none => s

/-- Operations on buffers. -/
def buffers (s : State) (ops : List (Aligned.Op Unit)) : Res State := do
  let mem ← Aligned.run s.mem ops
  return { s with mem := mem }

/-- `DftPlan(shape, inData, outData)` (LitlTransforms/LitlTransforms/DftPlan.h:105-107); the numbers are the sizes of the
buffers, and the Booleans tell whether allocations succeed. -/
def construct (s : State) (i nIn nOut : Nat) (inData outData : Option Ptr) (okIn okOut : Bool) : Res State :=
  match s.plan i with
  | some _ => .error .exception
  | none => do
    let s ← buffers s [.construct (3 * i) nIn inData okIn, .construct (3 * i + 1) nOut outData okOut]
    createPlan s i

/-- The operations of a program. -/
inductive Op
  | construct (i nIn nOut : Nat) (inData outData : Option Ptr) (okIn okOut : Bool)
  | moveConstruct (i other : Nat)
  | moveAssign (i other : Nat)
  | destroy (i : Nat)
  | inverse (i other nIn nOut : Nat) (okIn okOut : Bool)
  | compose (i other nIn nOut : Nat) (okOut : Bool)
  | transform (i : Nat)
  | buffer (op : Aligned.Op Unit)

/-- The buffers which an operation creates or destroys. -/
def lifetime : Aligned.Op Unit → Option Nat
  | .construct k _ _ _ => some k
  | .copyConstruct k _ _ => some k
  | .moveConstruct k _ => some k
  | .destroy k => some k
  | _ => none

/-- One operation. `.exception` stands for ill-formed programs, see `Aligned.step`. -/
def step (s : State) : Op → Res State
  | .construct i nIn nOut inData outData okIn okOut => construct s i nIn nOut inData outData okIn okOut
  /- The move constructor is defaulted (LitlTransforms/LitlTransforms/DftPlan.h:110): members are moved one by one. -/
  | .moveConstruct i other =>
    match s.plan i, s.plan other with
    | none, some p => do
      let s ← buffers s [.moveConstruct (3 * i) (3 * other), .moveConstruct (3 * i + 1) (3 * other + 1)]
      return setPlan (setPlan s other (some none)) i (some p)
    | _, _ => .error .exception
  /- So is move assignment (LitlTransforms/LitlTransforms/DftPlan.h:110): `std::unique_ptr` deletes what it points to,
  which is a pointer to the FFTW plan. -/
  | .moveAssign i other =>
    match s.plan i, s.plan other with
    | some _, some p => do
      let s ← buffers s [.moveAssign (3 * i) (3 * other), .moveAssign (3 * i + 1) (3 * other + 1)]
      return setPlan (setPlan s other (some none)) i (some p)
    | _, _ => .error .exception
  /- LitlTransforms/LitlTransforms/DftPlan.h:118-120, and then the members in reverse order -/
  | .destroy i =>
    match s.plan i with
    | some p => do
      let s ← buffers (destroyPlan s p) [.destroy (3 * i + 1), .destroy (3 * i)]
      return setPlan s i none
    | none => .error .exception
  /- `DftPlan i = other.inverse()` (LitlTransforms/LitlTransforms/DftPlan.h:133-135): the copy is elided -/
  | .inverse i other nIn nOut okIn okOut =>
    match s.plan other with
    | some _ => construct s i nIn nOut (data s (3 * other + 1)) (data s (3 * other)) okIn okOut
    | none => .error .exception
  /- `TPlan i = other.compose<TPlan>(shape)` (LitlTransforms/LitlTransforms/DftPlan.h:149-152) -/
  | .compose i other nIn nOut okOut =>
    match s.plan other with
    | some _ => construct s i nIn nOut (data s (3 * other + 1)) none true okOut
    | none => .error .exception
  /- LitlTransforms/LitlTransforms/DftPlan.h:218-221: `*m_plan` is undefined if null -/
  | .transform i =>
    match s.plan i with
    | some (some p) =>
      if p ∈ s.plans ∧ Accessible s.mem (s.arrays p).1 ∧ Accessible s.mem (s.arrays p).2 then
        .ok { s with executed := some (s.arrays p) }
      else .error .ub
    | some none => .error .ub
    | none => .error .exception
  /- The buffers of plan objects are accessible as `in()` and `out()` (LitlTransforms/LitlTransforms/DftPlan.h:180-182,
  201-203), but only created and destroyed by the constructors and destructor. -/
  | .buffer op =>
    match lifetime op with
    | some k => if k % 3 = 2 then buffers s [op] else .error .exception
    | none => buffers s [op]

/-- A history. -/
def run (s : State) : List Op → Res State
  | [] => .ok s
  | op :: ops => do
    let s ← step s op
    run s ops

/-- `complexDft`, `inverseComplexDft`, `realDft` and `inverseRealDft` (LitlTransforms/LitlTransforms/Dft.h:224-229, 236-241,
248-253 and 260-265), with a local plan object named `i` and a returned raster named `k`; the copy of the input is left out. -/
def dftFunction (i k nIn nOut : Nat) : List Op :=
  [.construct i nIn nOut none none true true, .transform i, .buffer (.moveConstruct k (3 * i + 1)), .destroy i]

end Litl.DftMemory
