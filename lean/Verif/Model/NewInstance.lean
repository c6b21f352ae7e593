import Verif.Model.Holders
import Verif.Model.Math

/-!
# New-instance operators and functions

Model of the operators which return a new container (LitlContainer/LitlContainer/Arithmetic.h:87-93, 170-177: Boost operators;
151-157, 237-243), of the new-instance functions (LitlContainer/LitlContainer/Math.h:123-139), and of the expressions made of
them, for owning containers and for views. All of them apply the in-place operator or function to a copy, and copies of views
share the data (LitlContainer/LitlContainer/Holders.h:203-227, LitlContainer/LitlContainer/AlignedBuffer.h:129-136).

A container is an interval of the common memory. Memory is never freed. The sizes of the operands are those of the containers;
the shapes of rasters play no part here.
-/

namespace Litl.Container

open Holder

variable {α : Type _}

/-- The copy constructors (LitlContainer/LitlContainer/DataContainer.h:80, LitlRaster/LitlRaster/Raster.h:176), which are
those of the holders: containers which own their elements copy them to newly allocated memory, here at the end of `mem`
(LitlContainer/LitlContainer/Holders.h:62-145), and views copy the pointer (LitlContainer/LitlContainer/Holders.h:203-227). -/
def copy (owning : Bool) (mem : List α) (v : View) : List α × View :=
  if owning then (mem ++ (mem.drop v.address).take v.size, ⟨mem.length, v.size⟩) else (mem, v)

/-- `V op U`, i.e. `T nrv(V); nrv op= U; return nrv;` (boost::additive, boost::multiplicative, boost::modable,
LitlContainer/LitlContainer/Arithmetic.h:87-93, 170-177), and `function(V, U)` (LitlContainer/LitlContainer/Math.h:132-139). -/
def newBinary (owning : Bool) (op : α → α → α) (mem : List α) (v u : View) : Res (List α × View) := do
  let (m, c) := copy owning mem v
  let m' ← vectorOpMem op m c.address u.address c.size
  return (m', c)

/-- `-V` (LitlContainer/LitlContainer/Arithmetic.h:151-157, 237-243) and `function(V)`
(LitlContainer/LitlContainer/Math.h:123-130). Also `V op s`, `function(V, s)`, and `s op V` for commutative operators, with
`f x = op x s`, where the scalar is not an element of the container (see C25). -/
def newUnary (owning : Bool) (f : α → α) (mem : List α) (v : View) : Res (List α × View) := do
  let (m, c) := copy owning mem v
  let m' ← mathUnaryMem f m c.address c.size
  return (m', c)

/-- `V++` and `V--`, i.e. `T nrv(V); ++V; return nrv;` (boost::unit_steppable, LitlContainer/LitlContainer/Arithmetic.h:90,
173, and 114-137, 200-223). -/
def postIncrement (owning : Bool) (f : α → α) (mem : List α) (v : View) : Res (List α × View) := do
  let (m, c) := copy owning mem v
  let m' ← mathUnaryMem f m v.address v.size
  return (m', c)

/-- Expressions with new-instance operators (doc/pixelwise.dox:10-30), all of the same kind of containers. -/
inductive Expr (α : Type _) where
  /-- A variable. -/
  | leaf (v : View)
  /-- `-e`, `f(e)`, `e + s`, etc. -/
  | unary (f : α → α) (e : Expr α)
  /-- `l + r`, etc. The order in which the operands are evaluated is unspecified: whether the left one is evaluated first is
  decided by the compiler. -/
  | binary (leftFirst : Bool) (op : α → α → α) (l r : Expr α)

/-- The evaluation of an expression: the memory and the result. -/
def Expr.eval (owning : Bool) : Expr α → List α → Res (List α × View)
  | .leaf v, mem => .ok (mem, v)
  | .unary f e, mem => do
    let (m, v) ← e.eval owning mem
    newUnary owning f m v
  | .binary leftFirst op l r, mem =>
    if leftFirst then do
      let (m, v) ← l.eval owning mem
      let (m', u) ← r.eval owning m
      newBinary owning op m' v u
    else do
      let (m, u) ← r.eval owning mem
      let (m', v) ← l.eval owning m
      newBinary owning op m' v u

end Litl.Container
