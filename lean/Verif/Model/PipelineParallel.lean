import Verif.Model.Pipeline
import Mathlib.Logic.Relation

/-!
# Pipelines in parallel

LitlRun/LitlRun/StepperPipeline.h, where several threads call `get()` on the same pipeline.  Accesses of the map of times are
atomic; instead, data races are configurations where two threads are about to access the map and one of them to modify it.
Evaluations do not call `get()`.  Times are not modelled.
-/

namespace Litl.PipelineParallel

open Pipeline

/-- The successive calls of `evaluateGet()` by calls of `get()` for given steps: first for the prerequisites of each of them
(LitlRun/LitlRun/StepperPipeline.h:82-103, 147-152). -/
inductive Visits (graph : Graph) : List Step → List Step → Prop where
  | nil : Visits graph [] []
  | cons {step : Step} {steps order order' : List Step} : Visits graph (graph step) order → Visits graph steps order' →
      Visits graph (step :: steps) (order ++ step :: order')

/-- The next action of `evaluateGet<S>()` (LitlRun/LitlRun/StepperPipeline.h:181-189): test whether the step has been evaluated,
end its evaluation, store its time, or get its value. -/
inductive Phase where
  | check
  | evaluate
  | record
  | fetch
deriving DecidableEq

/-- A thread: the steps for which `evaluateGet()` is to be called, the first one being the current one. -/
structure Thread where
  todo : List Step
  phase : Phase

/-- The keys of `m_milliseconds` (LitlRun/LitlRun/StepperPipeline.h:210), the threads, and the steps of which `doEvaluate()` has
been called. -/
structure Config where
  evaluated : Step → Bool
  threads : Nat → Thread
  started : List Step

/-- The change of a thread. -/
def Config.set (c : Config) (i : Nat) (t : Thread) : Config :=
  { c with threads := fun j => if j = i then t else c.threads j }

/-- One action of a thread in `evaluateGet<S>()` (LitlRun/LitlRun/StepperPipeline.h:181-189); an exception stops the thread. -/
inductive Steps : Config → Config → Prop where
  /-- `evaluated<S>()` (LitlRun/LitlRun/StepperPipeline.h:182) -/
  | hit {c : Config} {i : Nat} {step : Step} {rest : List Step} : c.threads i = ⟨step :: rest, .check⟩ →
      c.evaluated step = true → Steps c (c.set i ⟨step :: rest, .fetch⟩)
  /-- `not evaluated<S>()`, and then `doEvaluate<S>()` is called (LitlRun/LitlRun/StepperPipeline.h:182-184) -/
  | miss {c : Config} {i : Nat} {step : Step} {rest : List Step} : c.threads i = ⟨step :: rest, .check⟩ →
      c.evaluated step = false → Steps c { c.set i ⟨step :: rest, .evaluate⟩ with started := c.started ++ [step] }
  /-- `doEvaluate<S>()` returns (LitlRun/LitlRun/StepperPipeline.h:184) -/
  | returns {c : Config} {i : Nat} {step : Step} {rest : List Step} : c.threads i = ⟨step :: rest, .evaluate⟩ →
      Steps c (c.set i ⟨step :: rest, .record⟩)
  /-- `doEvaluate<S>()` throws (LitlRun/LitlRun/StepperPipeline.h:184) -/
  | throws {c : Config} {i : Nat} {step : Step} {rest : List Step} : c.threads i = ⟨step :: rest, .evaluate⟩ →
      Steps c (c.set i ⟨[], .check⟩)
  /-- `m_milliseconds[key<S>()] = …` (LitlRun/LitlRun/StepperPipeline.h:186) -/
  | record {c : Config} {i : Nat} {step : Step} {rest : List Step} : c.threads i = ⟨step :: rest, .record⟩ →
      Steps c { c.set i ⟨step :: rest, .fetch⟩ with evaluated := fun s => s == step || c.evaluated s }
  /-- `doGet<S>()` returns (LitlRun/LitlRun/StepperPipeline.h:188) -/
  | fetch {c : Config} {i : Nat} {step : Step} {rest : List Step} : c.threads i = ⟨step :: rest, .fetch⟩ →
      Steps c (c.set i ⟨rest, .check⟩)
  /-- `doGet<S>()` throws (LitlRun/LitlRun/StepperPipeline.h:188) -/
  | fetchThrows {c : Config} {i : Nat} {step : Step} {rest : List Step} : c.threads i = ⟨step :: rest, .fetch⟩ →
      Steps c (c.set i ⟨[], .check⟩)

/-- Any interleaving. -/
def Reaches : Config → Config → Prop := Relation.ReflTransGen Steps

/-- The threads which call `get()` for given steps, on a pipeline where some steps have been evaluated. -/
def Starts (graph : Graph) (evaluated : Step → Bool) (gets : Nat → List Step) (c : Config) : Prop :=
  c.evaluated = evaluated ∧ c.started = [] ∧ ∀ i, (c.threads i).phase = .check ∧ Visits graph (gets i) (c.threads i).todo

/-- A thread is about to modify the map, and another one to access it: both actions are conflicting, such that the behavior is
undefined. -/
def Race (c : Config) : Prop :=
  ∃ i j, i ≠ j ∧ (c.threads i).todo ≠ [] ∧ (c.threads i).phase = .record ∧ (c.threads j).todo ≠ [] ∧
    ((c.threads j).phase = .check ∨ (c.threads j).phase = .record)

end Litl.PipelineParallel
