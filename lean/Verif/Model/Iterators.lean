import Verif.Model.Ball
import Verif.Model.View
import Verif.Model.Sampling

/-!
# Increments and comparisons of iterators

Model of the increment and comparison operators of the iterators over boxes, balls, subrasters and samplings, out of the
range-based loops which are in Verif/Model/Box.lean, Ball.lean, View.lean and Sampling.lean.
-/

namespace Litl

/-- The loop `while (it != end) { visit(*it++); }` terminates and visits exactly `l`, in order; `post s v t` means that
`*it++` in state `s` gives `v` and leads to state `t`, and `stop` is the equality with `end`. -/
inductive PostLoop {σ : Type _} {τ : Type _} (post : σ → τ → σ → Prop) (stop : σ → Prop) : σ → List τ → Prop where
  | done {s : σ} : stop s → PostLoop post stop s []
  | next {s t : σ} {v : τ} {l : List τ} : ¬ stop s → post s v t → PostLoop post stop t l → PostLoop post stop s (v :: l)

namespace BoxIterator

/-- `*it++` (LitlRaster/LitlRaster/BoxIterator.h:61-63): `it++` returns a pointer to `m_current`, after the increment. -/
def Post (b : Box) (s v t : Position) : Prop := t = next b s ∧ v = t

/-- `it == other` (LitlRaster/LitlRaster/BoxIterator.h:68-70): the boxes are not compared. -/
def eq (_ _ : Box) (s t : Position) : Bool := s == t

/-- `reset()` (LitlRaster/LitlRaster/BoxIterator.h:82-84). -/
def reset (b : Box) (_ : Position) : Position := b.front

end BoxIterator

namespace BallIterator

/-- `++it` (LitlRaster/LitlRaster/BallIterator.h:41-43, 58-63) leads from `s` to `t`. -/
def Next (P : Nat) (b : Ball) (s t : Position) : Prop := Settle P b (BoxIterator.next b.box s) t

/-- `*it++` (LitlRaster/LitlRaster/BallIterator.h:45-47). -/
def Post (P : Nat) (b : Ball) (s v t : Position) : Prop := Next P b s t ∧ v = t

end BallIterator

namespace Subraster

/-- `it++` (LitlRaster/LitlRaster/SubrasterIterator.h:51-53), where `v` is the offset of the returned pointer. -/
def Post (v : View) (region : Box) (s : Iter) (p : Int) (t : Iter) : Prop := t = s.next v region ∧ p = t.current

end Subraster

namespace Sampling

/-- `it++` (LitlRaster/LitlRaster/Sampling.h:42-45): `*this` is not modified, and the function ends without a return
statement. -/
def post (_ : Sampling) (_ : Iter) : Res (Int × Iter) := .error .ub

/-- `it == other` (LitlRaster/LitlRaster/Sampling.h:57-59), where `a` and `b` are the addresses of the samplings. -/
def Iter.eq (a b : Nat) (s t : Iter) : Bool := a == b && s.index == t.index

/-- `it -= n` (LitlRaster/LitlRaster/Sampling.h:53-55). -/
def retreat (s : Sampling) (n : Int) (it : Iter) : Iter := s.advance (-n) it

end Sampling

namespace DataSamples

/-- `samples++` (LitlRaster/LitlRaster/Sampling.h:317-321): the result and the new value of `samples`. -/
def post (d : DataSamples) : DataSamples × DataSamples :=
  let res := d
  let res := res.shift 1
  (res, d)

/-- `samples -= n` (LitlRaster/LitlRaster/Sampling.h:334-337). -/
def unshift (d : DataSamples) (n : Int) : DataSamples := d.shift (-n)

/-- `it -= n` (LitlRaster/LitlRaster/Sampling.h:212-215). -/
def retreat (d : DataSamples) (n : Int) (it : Int) : Int := d.advance (-n) it

end DataSamples

end Litl
