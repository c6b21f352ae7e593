import Mathlib.Algebra.Order.Field.Rat
import Mathlib.Algebra.BigOperators.Group.List.Basic

/-!
# Pipelines

LitlRun/LitlRun/StepperPipeline.h.

Steps are types in the code, and numbers here. What steps do (`doEvaluate()`, `doGet()`) is up to child classes: they may
fail, and `doEvaluate()` may get the values of other steps and handle their failures; it is assumed not to call `reset()`.
-/

namespace Litl.Pipeline

/-- A step: `std::type_index` (StepperPipeline.h:202-205). -/
abbrev Step := Nat

/-- The graph: the elements of the tuple `S::Prerequisite`, or that single type, or none if `void`
(StepperPipeline.h:54-57). -/
abbrev Graph := Step → List Step

/-- `m_milliseconds`, a `std::map` (StepperPipeline.h:210), by increasing keys. -/
abbrev State := List (Step × ℚ)

/-- `m_milliseconds[key] = value`. -/
def assign (key : Step) (value : ℚ) : State → State
  | [] => [(key, value)]
  | (k, v) :: m =>
    if key < k then (key, value) :: (k, v) :: m
    else if key = k then (k, value) :: m
    else (k, v) :: assign key value m

/-- `evaluated<S>()` (StepperPipeline.h:108-111). -/
def evaluated (s : State) (step : Step) : Bool := (s.lookup step).isSome

/-- `milliseconds<S>()` (StepperPipeline.h:117-124). -/
def milliseconds (s : State) (step : Step) : ℚ :=
  match s.lookup step with
  | some v => v
  | none => -1

/-- `milliseconds()` (StepperPipeline.h:129-133). -/
def totalMilliseconds (s : State) : ℚ := s.foldl (fun sum e => sum + e.2) 0

/-- `reset()` (StepperPipeline.h:139-141). -/
def reset (_ : State) : State := []

/-- What can be observed of a run. -/
inductive Event where
  /-- `doEvaluate<S>()` is called. -/
  | start (step : Step)
  /-- `doEvaluate<S>()` has returned; times of the clock before and after. -/
  | done (step : Step) (tic toc : ℚ)
  /-- `doEvaluate<S>()` has thrown. -/
  | failed (step : Step)
  /-- `doGet<S>()` has returned. -/
  | fetched (step : Step)
  /-- `reset()` is called. -/
  | reset
deriving DecidableEq

/-- The functions of which runs are described. -/
inductive Call where
  /-- `get<S>()` -/
  | get (step : Step)
  /-- `getMultiple<STuple>()` -/
  | all (steps : List Step)
  /-- `evaluateGet<S>()` -/
  | evaluateGet (step : Step)
  /-- What remains to do in the body of `doEvaluate<S>()` -/
  | body (step : Step)

/-- Runs which return (`true`) or throw (`false`), with events and state. Parameter `calls S T` tells whether
`doEvaluate<S>()` may call `get<T>()`. -/
inductive Runs (graph : Graph) (calls : Step → Step → Prop) :
    Call → State → List Event → Bool → State → Prop where
  /-- `get<S>()`: prerequisites throw (StepperPipeline.h:92, 101). -/
  | getFails {step : Step} {s s' : State} {tr : List Event} :
      Runs graph calls (.all (graph step)) s tr false s' → Runs graph calls (.get step) s tr false s'
  /-- `get<S>()`: first prerequisites, then the step (StepperPipeline.h:82-85, 90-94, 99-103). -/
  | get {step : Step} {s s' s'' : State} {tr tr' : List Event} {ok : Bool} :
      Runs graph calls (.all (graph step)) s tr true s' →
      Runs graph calls (.evaluateGet step) s' tr' ok s'' → Runs graph calls (.get step) s (tr ++ tr') ok s''
  /-- `getMultiple()`: no more element (StepperPipeline.h:147-152). -/
  | allNil {s : State} : Runs graph calls (.all []) s [] true s
  /-- `getMultiple()`: the element throws (StepperPipeline.h:150). -/
  | allFails {step : Step} {steps : List Step} {s s' : State} {tr : List Event} :
      Runs graph calls (.get step) s tr false s' → Runs graph calls (.all (step :: steps)) s tr false s'
  /-- `getMultiple()`: braced initializers are evaluated in order (StepperPipeline.h:150). -/
  | allCons {step : Step} {steps : List Step} {s s' s'' : State} {tr tr' : List Event} {ok : Bool} :
      Runs graph calls (.get step) s tr true s' → Runs graph calls (.all steps) s' tr' ok s'' →
      Runs graph calls (.all (step :: steps)) s (tr ++ tr') ok s''
  /-- `evaluateGet<S>()`: already evaluated, and `doGet<S>()` returns (StepperPipeline.h:182, 188). -/
  | fetch {step : Step} {s : State} : evaluated s step = true →
      Runs graph calls (.evaluateGet step) s [.fetched step] true s
  /-- `evaluateGet<S>()`: already evaluated, and `doGet<S>()` throws (StepperPipeline.h:182, 188). -/
  | fetchFails {step : Step} {s : State} : evaluated s step = true →
      Runs graph calls (.evaluateGet step) s [] false s
  /-- `evaluateGet<S>()`: `doEvaluate<S>()` throws (StepperPipeline.h:184). -/
  | evaluateFails {step : Step} {s s' : State} {tr : List Event} : evaluated s step = false →
      Runs graph calls (.body step) s tr false s' →
      Runs graph calls (.evaluateGet step) s (.start step :: tr ++ [.failed step]) false s'
  /-- `evaluateGet<S>()`: the step is evaluated, and `doGet<S>()` returns (StepperPipeline.h:182-188). -/
  | evaluate {step : Step} {s s' : State} {tr : List Event} {tic toc : ℚ} : evaluated s step = false →
      Runs graph calls (.body step) s tr true s' →
      Runs graph calls (.evaluateGet step) s (.start step :: tr ++ [.done step tic toc, .fetched step]) true
        (assign step (toc - tic) s')
  /-- `evaluateGet<S>()`: the step is evaluated, and `doGet<S>()` throws (StepperPipeline.h:182-188). -/
  | evaluateFetchFails {step : Step} {s s' : State} {tr : List Event} {tic toc : ℚ} : evaluated s step = false →
      Runs graph calls (.body step) s tr true s' →
      Runs graph calls (.evaluateGet step) s (.start step :: tr ++ [.done step tic toc]) false
        (assign step (toc - tic) s')
  /-- `doEvaluate<S>()` returns or throws, by itself. -/
  | bodyEnds {step : Step} {s : State} (ok : Bool) : Runs graph calls (.body step) s [] ok s
  /-- `doEvaluate<S>()` calls `get<T>()`; whatever the outcome, e.g. caught exception, it goes on. -/
  | bodyGets {step other : Step} {s s' s'' : State} {tr tr' : List Event} {ok ok' : Bool} : calls step other →
      Runs graph calls (.get other) s tr ok s' → Runs graph calls (.body step) s' tr' ok' s'' →
      Runs graph calls (.body step) s (tr ++ tr') ok' s''

/-- The histories of a pipeline, since its construction: any sequence of `get()`, failing or not, and `reset()`. -/
inductive History (graph : Graph) (calls : Step → Step → Prop) : List Event → State → Prop where
  /-- After construction, the map is empty (StepperPipeline.h:210). -/
  | new : History graph calls [] []
  /-- `get<S>()`. -/
  | get {step : Step} {tr tr' : List Event} {s s' : State} {ok : Bool} : History graph calls tr s →
      Runs graph calls (.get step) s tr' ok s' → History graph calls (tr ++ tr') s'
  /-- `reset()` (StepperPipeline.h:139-141). -/
  | reset {tr : List Event} {s : State} : History graph calls tr s → History graph calls (tr ++ [.reset]) (reset s)

end Litl.Pipeline
