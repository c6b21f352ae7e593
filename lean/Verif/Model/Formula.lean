import Verif.Model.SeqUtils
import Verif.Model.ScalarConversion

/-!
# Formulae

A formula like `a * k + b`, where `a` and `b` are containers and `k` is a scalar, can be evaluated with operators, which
instantiate intermediate containers, or with `generate()` and a function which evaluates it for each element
(doc/pixelwise.dox:41-54, LitlDemo/tests/src/LitlDemoPixelwise_test.cpp:78-97).
Containers have elements of the same type `T`.  Scalars are converted to `T` beforehand (see C99).
-/

namespace Litl.Container

variable {α : Type _}

/-- The operations on elements: `eval` is an operator of the language (it may be undefined), and `store` is the conversion
of its result, whose type may be wider, to the type of the elements (LitlContainer/LitlContainer/Arithmetic.h:22-24, 30-36;
LitlContainer/LitlContainer/DataContainer.h:191). -/
structure Arith (α : Type _) where
  eval : Op → α → α → Option α
  store : α → α

/-- Integers of type `t` (LitlContainer/LitlContainer/Arithmetic.h:22-24). -/
def Arith.integers (t : IntType) : Arith Int := ⟨fun op => op.eval t, t.convert⟩

/-- A type which is closed under its operators, e.g. `double` (LitlContainer/LitlContainer/Arithmetic.h:22-24). -/
def Arith.closed (op : Op → α → α → α) : Arith α := ⟨fun o x y => some (op o x y), id⟩

/-- A formula (doc/pixelwise.dox:41-54): the `i`-th container, an operator between formulae, or between a formula and a
scalar (on the right; `k + V` and `k * V` are `V + k` and `V * k`, see boost::additive and boost::multiplicative in
LitlContainer/LitlContainer/Arithmetic.h:168-176). -/
inductive Formula (α : Type _) where
  | arg (i : Nat)
  | vector (op : Op) (x y : Formula α)
  | scalar (op : Op) (x : Formula α) (k : α)

/-- One element of `V op= U` or `V op= k` (LitlContainer/LitlContainer/Arithmetic.h:22-24, 33-35). -/
def operatorElement (A : Arith α) (op : Op) (x y : α) : Res α :=
  match A.eval op x y with
  | none => .error .ub
  | some r => .ok (A.store r)

/-- `V op U` (LitlContainer/LitlContainer/Arithmetic.h:15-26 and boost::additive, boost::multiplicative,
boost::modable, 168-176): `V op= U` on a copy of `V`. -/
def vectorOperator (A : Arith α) (op : Op) : List α → List α → Res (List α)
  | [], _ => .ok []
  | x :: v, y :: u => do
    let r ← operatorElement A op x y
    let w ← vectorOperator A op v u
    return r :: w
  | _ :: _, [] => .error .ub

/-- `V op k` (LitlContainer/LitlContainer/Arithmetic.h:28-38, 168-176): `V op= k` on a copy of `V`. -/
def scalarOperator (A : Arith α) (op : Op) (v : List α) (k : α) : Res (List α) :=
  v.mapM fun x => operatorElement A op x k

/-- The formula with operators (LitlDemo/tests/src/LitlDemoPixelwise_test.cpp:79): each operator instantiates a container. -/
def Formula.operators (A : Arith α) (cs : List (List α)) : Formula α → Res (List α)
  | .arg i => readAt cs (i : Int)
  | .vector op x y => do
    let v ← x.operators A cs
    let u ← y.operators A cs
    vectorOperator A op v u
  | .scalar op x k => do
    let v ← x.operators A cs
    scalarOperator A op v k

/-- The formula in a function which takes the elements of the containers
(LitlDemo/tests/src/LitlDemoPixelwise_test.cpp:83-88): intermediate results are not converted. -/
def Formula.value (A : Arith α) (args : List α) : Formula α → Option α
  | .arg i => args[i]?
  | .vector op x y => do
    let a ← x.value A args
    let b ← y.value A args
    A.eval op a b
  | .scalar op x k => do
    let a ← x.value A args
    A.eval op a k

/-- `v = func(args...)` (LitlContainer/LitlContainer/DataContainer.h:191) where `func` is the formula. -/
def Formula.generateElement (A : Arith α) (φ : Formula α) (args : List α) : Res α :=
  match φ.value A args with
  | none => .error .ub
  | some r => .ok (A.store r)

/-- `res.generate(func, cs...)` (LitlContainer/LitlContainer/DataContainer.h:187-194) where `func` is the formula and `res`
has `n` elements and is none of `cs`. -/
def Formula.generate (A : Arith α) (φ : Formula α) (cs : List (List α)) (n : Nat) : Res (List α) :=
  (List.range n).mapM fun i : Nat => do
    let args ← cs.mapM fun c => readAt c (i : Int)
    φ.generateElement A args

end Litl.Container
