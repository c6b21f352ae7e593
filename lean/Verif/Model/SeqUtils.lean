import Verif.Model.Arithmetic

/-!
# Sequence utilities, and the order of evaluation

Model of LitlTypes/LitlTypes/SeqUtils.h.  The language leaves the following orders unspecified:

* The arguments of a function call are evaluated in any order.  In `func(*std::get<Is>(tuple)++...)`
  (LitlTypes/LitlTypes/SeqUtils.h:65-68), evaluating an argument has side effects: an iterator is incremented.
  The elements are read by reference: the referenced elements do not change before `func` reads them, because nothing
  is written in between, hence they are modelled as values.
* `std::transform` applies the function to the elements in any order, one application per element.

In contrast, the elements of a braced initializer list are evaluated from left to right, even if there is a constructor
call behind the list.

Elements of a tuple, whose types may differ, are modelled as elements of one type (think of a sum of the types).
A function object is a function with a state: it gets an element and its state, and returns a value and its new state.
-/

namespace Litl.Seq

variable {α β σ : Type _}

/-- `tupleForeachImpl(tuple, func)` (LitlTypes/LitlTypes/SeqUtils.h:73-81), i.e. `seqForeach` for tuples and
`std::array`s (156-159): the initializer list is evaluated from left to right.
The function may modify the element it is given: its value is the new value of the element. -/
def tupleForeach (f : α → σ → α × σ) : List α → σ → List α × σ
  | [], s => ([], s)
  | x :: l, s =>
    let (y, s) := f x s
    let (l, s) := tupleForeach f l s
    (y :: l, s)

/-- One iteration of the loop of `seqForeach` for other sequences (LitlTypes/LitlTypes/SeqUtils.h:176-178). -/
def foreachStep (f : α → σ → α × σ) (ls : List α × σ) (i : Nat) : Res (List α × σ) := do
  let x ← readAt ls.1 (i : Int)
  let (y, s) := f x ls.2
  let l ← writeAt ls.1 (i : Int) y
  return (l, s)

/-- `seqForeach(seq, func)` for other sequences (LitlTypes/LitlTypes/SeqUtils.h:174-179). -/
def seqForeach (f : α → σ → α × σ) (l : List α) (s : σ) : Res (List α × σ) :=
  (List.range l.length).foldlM (foreachStep f) (l, s)

/-- `tupleTransformImpl<TReturn>(tuple, func)` (LitlTypes/LitlTypes/SeqUtils.h:86-89), i.e. `seqTransform` for tuples
and `std::array`s (184-190): the fields of the result are initialized from left to right.
The function is used by reference: the function of the caller has the final state. -/
def tupleTransform (f : α → σ → β × σ) : List α → σ → List β × σ
  | [], s => ([], s)
  | x :: l, s =>
    let (y, s) := f x s
    let (l, s) := tupleTransform f l s
    (y :: l, s)

/-- Application of the function to the element of index `i` in `std::transform`
(LitlTypes/LitlTypes/SeqUtils.h:198). -/
def transformStep (f : α → σ → β × σ) (l : List α) (rs : List β × σ) (i : Nat) : Res (List β × σ) := do
  let x ← readAt l (i : Int)
  let (y, s) := f x rs.2
  let r ← writeAt rs.1 (i : Int) y
  return (r, s)

/-- `seqTransform<TReturn>(seq, func)` for other sequences (LitlTypes/LitlTypes/SeqUtils.h:195-200), where `zero` is the
value of the elements of `TReturn(seq.size())`.  `std::transform` takes the function by value: the function of the
caller keeps its state.  The result is made of the sequence and of the state of the function of the caller. -/
def SeqTransforms (zero : β) (f : α → σ → β × σ) (l : List α) (s : σ) (r : Res (List β × σ)) : Prop :=
  ∃ order : List Nat, order.Perm (List.range l.length) ∧
    r = (order.foldlM (transformStep f l) (List.replicate l.length zero, s)).map fun rs => (rs.1, s)

/-- Evaluation of the argument `*std::get<k>(tuple)++` (LitlTypes/LitlTypes/SeqUtils.h:67) in memory `mem`:
the state is made of the iterators (addresses) and of the arguments evaluated so far. -/
def argumentStep (mem : List α) (st : List Nat × List (Option α)) (k : Nat) : Res (List Nat × List (Option α)) := do
  let p ← readAt st.1 (k : Int)
  let x ← readAt mem (p : Int)
  let its ← writeAt st.1 (k : Int) (p + 1)
  let args ← writeAt st.2 (k : Int) (some x)
  return (its, args)

/-- Evaluation of the arguments of `func` in `iteratorTupleApply(its, func)`
(LitlTypes/LitlTypes/SeqUtils.h:65-68, 145-151), in any order. -/
def ArgumentsEvaluate (mem : List α) (its : List Nat) (r : Res (List Nat × List (Option α))) : Prop :=
  ∃ order : List Nat, order.Perm (List.range its.length) ∧
    r = order.foldlM (argumentStep mem) (its, List.replicate its.length none)

/-- One iteration of the loop of `generate` (LitlContainer/LitlContainer/DataContainer.h:190-192) which writes at
address `p`; the state is made of the memory, of the state of the function and of the iterators. -/
def GenerateSteps (f : List α → σ → α × σ) (p : Nat) (st : List α × σ × List Nat) (r : Res (List α × σ × List Nat)) :
    Prop :=
  ∃ e, ArgumentsEvaluate st.1 st.2.2 e ∧ r = do
    let (its, args) ← e
    let (v, s) := f (args.filterMap id) st.2.1
    let m ← writeAt st.1 (p : Int) v
    return (m, s, its)

/-- The loop of `generate` (LitlContainer/LitlContainer/DataContainer.h:190-193) on the `n` elements at address `p`. -/
inductive GenerateLoops (f : List α → σ → α × σ) :
    Nat → Nat → List α × σ × List Nat → Res (List α × σ × List Nat) → Prop where
  | done {p : Nat} {st : List α × σ × List Nat} : GenerateLoops f p 0 st (.ok st)
  | fail {p n : Nat} {st : List α × σ × List Nat} {e : Fail} :
    GenerateSteps f p st (.error e) → GenerateLoops f p (n + 1) st (.error e)
  | next {p n : Nat} {st st' : List α × σ × List Nat} {r : Res (List α × σ × List Nat)} :
    GenerateSteps f p st (.ok st') → GenerateLoops f (p + 1) n st' r → GenerateLoops f p (n + 1) st r

/-- `generate(func, args...)` (LitlContainer/LitlContainer/DataContainer.h:187-194) for the container of `n` elements at
address `a`, and arguments at addresses `bs`: whatever the orders of evaluation of the arguments. -/
def Generates (f : List α → σ → α × σ) (mem : List α) (s : σ) (a n : Nat) (bs : List Nat) (r : Res (List α × σ)) :
    Prop :=
  ∃ r', GenerateLoops f a n (mem, s, bs) r' ∧ r = r'.map fun st => (st.1, st.2.1)

/-- `V op= U` (LitlContainer/LitlContainer/Arithmetic.h:15-26), where `V` is made of the `n` elements at address `a`
and `U` starts at address `b`: `std::transform` in any order. -/
def VectorOps (op : α → α → α) (mem : List α) (a b n : Nat) (r : Res (List α)) : Prop :=
  ∃ order : List Nat, order.Perm (List.range n) ∧ r = order.foldlM (Container.vectorStep op a b) mem

/-- `V op= V[k - a]` (LitlContainer/LitlContainer/Arithmetic.h:28-38), where `V` is made of the `n` elements at address
`a` and the scalar, which is passed by reference, is at address `k`: `std::transform` in any order. -/
def ScalarOps (op : α → α → α) (mem : List α) (a n k : Nat) (r : Res (List α)) : Prop :=
  ∃ order : List Nat, order.Perm (List.range n) ∧ r = order.foldlM (Container.scalarStep op a k) mem

/-- `serialize(logger, args...)` (LitlTypes/LitlTypes/SeqUtils.h:212-217): what is written to the logger, where the
arguments are given by the text that `<<` writes. -/
def serialize (arg0 : List Char) (args : List (List Char)) : List Char :=
  args.foldl (fun logger arg => logger ++ [',', ' '] ++ arg) arg0

end Litl.Seq
