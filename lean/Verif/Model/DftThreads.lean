import Verif.Model.Dft

/-!
# Fourier transforms in several threads

"Plan instanciation comes with the modification of some global variables and is *not* thread-safe.
Plan execution is thread-safe, i.e. several plans can be executed in parallel in different threads."
(doc/dft.dox:50-51)

Threads do not synchronize with each other.  Accesses to the same buffer (or to FFTW's global variables) by several threads, one
of which writes, are a data race, i.e. undefined behaviour ([intro.races]).
Without data races, the executions are the interleavings of the threads' actions.
-/

namespace Litl.DftThreads

/-- What threads do. -/
inductive Action where
  /-- `plan.transform()` (LitlTransforms/LitlTransforms/DftPlan.h:218-221) -/
  | transform (d : DftPlan)
  /-- `plan.normalize()` (LitlTransforms/LitlTransforms/DftPlan.h:226-230) -/
  | normalize (d : DftPlan)
  /-- Assignment of all of the elements of `plan.in()` (LitlTransforms/LitlTransforms/DftPlan.h:183-185) -/
  | fill (d : DftPlan) (x : Values)
  /-- `output = complexDft(input)` and the like (LitlTransforms/LitlTransforms/Dft.h:223-265), which construct and destroy a
  plan. -/
  | function (t : Transform) (shape : Position) (input output : Nat)

namespace Action

/-- The outcome of an action (LitlTransforms/LitlTransforms/DftPlan.h:183-185, 218-230 and Dft.h:223-265).
Filling needs a buffer of the right size and type. -/
def Does : Action → Memory → Res Memory → Prop
  | transform d, m, r => d.Transforms m r
  | normalize d, m, r => r = d.normalize m
  | fill d x, m, r => (∃ m', d.Fills x m m' ∧ r = .ok m') ∨ ((¬ ∃ m', d.Fills x m m') ∧ r = .error .ub)
  | function t shape input output, m, r =>
    match m input with
    | none => r = .error .ub
    | some x => ∃ q, DftFunction t shape x q ∧ r = q.map fun sy => m.set output sy.2

/-- The buffers which are read but not written: `fftw_execute()` (LitlTransforms/LitlTransforms/DftPlan.h:219) may overwrite
its input array, too. -/
def reads : Action → List Nat
  | function _ _ input _ => [input]
  | _ => []

/-- The buffers which may be written (LitlTransforms/LitlTransforms/DftPlan.h:183-185, 219, 228 and Dft.h:223-265). -/
def writes : Action → List Nat
  | transform d => [d.plan.input, d.plan.output]
  | normalize d => [d.output.address]
  | fill d _ => [d.input.address]
  | function _ _ _ output => [output]

/-- Whether FFTW's global variables are accessed: `fftw_plan_dft()` and the like, and `fftw_destroy_plan()`
(LitlTransforms/LitlTransforms/DftMemory.h:74-87), are not thread-safe. -/
def planner : Action → Bool
  | function .. => true
  | _ => false

/-- Two actions conflict if they access the same memory and one of them writes ([intro.races]; memory which
LitlTransforms/LitlTransforms/DftPlan.h:218-230 and DftMemory.h:74-87 access). -/
def Conflict (a b : Action) : Prop :=
  (a.planner = true ∧ b.planner = true) ∨
    (∃ x ∈ a.writes, x ∈ b.reads ∨ x ∈ b.writes) ∨ ∃ x ∈ b.writes, x ∈ a.reads ∨ x ∈ a.writes

end Action

/-- A thread: a list of actions (e.g. those of the class documentation, LitlTransforms/LitlTransforms/DftPlan.h:29-57). -/
abbrev Thread := List Action

/-- A sequence of actions (LitlTransforms/LitlTransforms/DftPlan.h:29-57): it stops at the first failure. -/
inductive Runs : Thread → Memory → Res Memory → Prop where
  | nil {m : Memory} : Runs [] m (.ok m)
  | next {a : Action} {t : Thread} {m m' : Memory} {r : Res Memory} : a.Does m (.ok m') → Runs t m' r → Runs (a :: t) m r
  | fail {a : Action} {t : Thread} {m : Memory} {e : Fail} : a.Does m (.error e) → Runs (a :: t) m (.error e)

/-- The interleavings of several threads (doc/dft.dox:51). -/
inductive Interleaves : List Thread → Memory → Res Memory → Prop where
  | done {ts : List Thread} {m : Memory} : (∀ t ∈ ts, t = []) → Interleaves ts m (.ok m)
  | next {pre post : List Thread} {a : Action} {t : Thread} {m m' : Memory} {r : Res Memory} : a.Does m (.ok m') →
      Interleaves (pre ++ t :: post) m' r → Interleaves (pre ++ (a :: t) :: post) m r
  | fail {pre post : List Thread} {a : Action} {t : Thread} {m : Memory} {e : Fail} : a.Does m (.error e) →
      Interleaves (pre ++ (a :: t) :: post) m (.error e)

/-- No data race between any two threads (doc/dft.dox:50-51). -/
def RaceFree (ts : List Thread) : Prop := ts.Pairwise fun s t => ∀ a ∈ s, ∀ b ∈ t, ¬ a.Conflict b

/-- The outcomes of a program which runs threads in parallel and joins them (doc/dft.dox:51). -/
def Parallel (ts : List Thread) (m : Memory) (r : Res Memory) : Prop :=
  (RaceFree ts ∧ Interleaves ts m r) ∨ (¬ RaceFree ts ∧ r = .error .ub)

end Litl.DftThreads
