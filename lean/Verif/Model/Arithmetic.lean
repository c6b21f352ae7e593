import Verif.Model.Core
import Verif.Model.Machine
import Verif.Model.Vector

/-!
# Element-wise operators of containers

Model of LitlContainer/LitlContainer/Arithmetic.h, and of `generate()` and `apply()`
(LitlContainer/LitlContainer/DataContainer.h:186-214).

Containers may alias (views of the same data), hence the operators are modelled on a common memory: a container
is an address and a number of elements.  All containers of a call have elements of the same type.
-/

namespace Litl.Container

variable {α σ : Type _}

/-- One iteration of `std::transform(begin, end, rhs.begin(), begin, op)`:
LitlContainer/LitlContainer/Arithmetic.h:17-24. -/
def vectorStep (op : α → α → α) (a b : Nat) (mem : List α) (i : Nat) : Res (List α) := do
  let x ← readAt mem (a + i : Nat)
  let y ← readAt mem (b + i : Nat)
  writeAt mem (a + i : Nat) (op x y)

/-- `V op= U` (LitlContainer/LitlContainer/Arithmetic.h:15-26), where `V` is made of the `n` elements at address `a`
and `U` starts at address `b`. -/
def vectorOpMem (op : α → α → α) (mem : List α) (a b n : Nat) : Res (List α) :=
  (List.range n).foldlM (vectorStep op a b) mem

/-- `V op= U` (LitlContainer/LitlContainer/Arithmetic.h:15-26) for containers which do not share memory:
the new elements of `V`.  If `U` is shorter, elements are read outside of it; if it is longer, its tail is ignored.
`V op U` is the same for a copy of `V` (boost::additive, boost::multiplicative, boost::modable). -/
def vectorOp (op : α → α → α) : List α → List α → Res (List α)
  | [], _ => .ok []
  | x :: v, y :: u => do
    let r ← vectorOp op v u
    return op x y :: r
  | _ :: _, [] => .error .ub

/-- One iteration of the `std::transform` of LitlContainer/LitlContainer/Arithmetic.h:30-36:
the scalar is captured by reference, i.e. read at its address at each iteration. -/
def scalarStep (op : α → α → α) (a k : Nat) (mem : List α) (i : Nat) : Res (List α) := do
  let x ← readAt mem (a + i : Nat)
  let s ← readAt mem k
  writeAt mem (a + i : Nat) (op x s)

/-- `V op= s` (LitlContainer/LitlContainer/Arithmetic.h:28-38), where `V` is made of the `n` elements at address `a`
and the scalar `s` is stored at address `k`. -/
def scalarOpMem (op : α → α → α) (mem : List α) (a n k : Nat) : Res (List α) :=
  (List.range n).foldlM (scalarStep op a k) mem

/-- `V op s` (boost::additive<TDerived, T> etc., LitlContainer/LitlContainer/Arithmetic.h:88-93): `V` is copied to
newly allocated memory, here at the end of `mem`, and `op=` is applied to the copy.
The result is the new elements. -/
def scalarOpNew (op : α → α → α) (mem : List α) (a n k : Nat) : Res (List α) := do
  let m ← scalarOpMem op (mem ++ (mem.drop a).take n) mem.length n k
  return m.drop mem.length

/-- `++V` and `--V` (LitlContainer/LitlContainer/Arithmetic.h:114-137), `-V` (151-157) with `f` the opposite, and the
functions of LitlContainer/LitlContainer/Math.h:37-45: `std::transform` with an unary operation. -/
def unaryOp (f : α → α) (v : List α) : List α := v.map f

/-- `Vector<Index, N>(dim)` (LitlRaster/LitlRaster/Vector.h:74, LitlContainer/LitlContainer/Holders.h:78, 157-166).
`N >= 0`: `N` zeros, or an error if `dim` is neither `N` nor 0; `N = -1`: `dim` zeros, or an error of the standard
library if `dim` is too large for a vector (in particular if it is negative). -/
def vectorOfDim (N dim : Int) : Res Position :=
  if N = -1 then
    if u64 dim < 2 ^ 60 then .ok (List.replicate (u64 dim).toNat 0) else .error .stdError
  else if u64 dim ≠ N ∧ u64 dim ≠ 0 then .error .stdError
  else .ok (List.replicate N.toNat 0)

/-- `a - V` for a `Vector<Index, N>`: boost::subtractable2_left<TDerived, T>
(LitlContainer/LitlContainer/Arithmetic.h:89), i.e. `TDerived res(a); res -= V; return res;`. -/
def scalarMinusVector (N a : Int) (v : Position) : Res Position := do
  let r ← vectorOfDim N a
  vectorOp (· - ·) r v

/-- Read the elements of index `i` of the containers of addresses `bs`: the arguments of
`func(*std::get<Is>(tuple)++...)` (LitlTypes/LitlTypes/SeqUtils.h:66-68). -/
def readArgs (mem : List α) (bs : List Nat) (i : Nat) : Res (List α) :=
  bs.mapM fun b => readAt mem (b + i : Nat)

/-- One iteration of the loop of `generate` (LitlContainer/LitlContainer/DataContainer.h:190-192);
the function has a state `σ` (e.g. a random engine). -/
def generateStep (f : List α → σ → α × σ) (a : Nat) (bs : List Nat) (ms : List α × σ) (i : Nat) :
    Res (List α × σ) := do
  let args ← readArgs ms.1 bs i
  let (v, s) := f args ms.2
  let m ← writeAt ms.1 (a + i : Nat) v
  return (m, s)

/-- `generate(f, args...)` (LitlContainer/LitlContainer/DataContainer.h:187-194) for the container of `n` elements at
address `a`, and arguments at addresses `bs`. -/
def generateMem (f : List α → σ → α × σ) (mem : List α) (s : σ) (a n : Nat) (bs : List Nat) : Res (List α × σ) :=
  (List.range n).foldlM (generateStep f a bs) (mem, s)

/-- `apply(f, args...)` (LitlContainer/LitlContainer/DataContainer.h:212-214): `generate` with the container itself as
first argument. -/
def applyMem (f : List α → σ → α × σ) (mem : List α) (s : σ) (a n : Nat) (bs : List Nat) : Res (List α × σ) :=
  generateMem f mem s a n (a :: bs)

end Litl.Container
