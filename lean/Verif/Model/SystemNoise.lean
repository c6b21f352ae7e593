import Verif.Model.Noise

/-!
# Compound noises

Model of `SystemNoise` (LitlDemo/tests/src/LitlDemoRandom_test.cpp:38-53), which is the compound noise of the documentation
(doc/random.dox:76-98).  The engine, the distributions and the square root are parameters, as in `Model/Noise.lean`.
The operations on values are those of the type: conversions from `double` to integral types are left out.
-/

namespace Litl.Random

variable {α δ ε : Type}

/-- Members of `SystemNoise` (LitlDemo/tests/src/LitlDemoRandom_test.cpp:51-52).  Shot noise does not use the distribution
of `m_poisson` (LitlContainer/LitlContainer/Random.h:250-253), which is left out. -/
structure SystemNoise (δ ε : Type) where
  poisson : ε
  gaussian : Noise δ ε

/-- Constructor of `SystemNoise` (LitlDemo/tests/src/LitlDemoRandom_test.cpp:42): the members are constructed in the order of
their declarations; `d` is the normal distribution of mean 0 and standard deviation 1. -/
def makeSystem (mk : Nat → ε) (now : Nat → Nat) (d : δ) (seed ticks : Nat) : SystemNoise δ ε × Nat :=
  let (e, ticks) := engine (mersenne mk) now seed ticks
  let (g, ticks) := makeNoise mk now d seed ticks
  (⟨e, g⟩, ticks)

/-- `SystemNoise::operator()` (LitlDemo/tests/src/LitlDemoRandom_test.cpp:44-48). -/
def SystemNoise.call [Add α] [Mul α] (sqrt : α → α) (poisson : α → ε → α × ε) (draw : δ → ε → α × δ × ε) (flux dark : α)
    (s : SystemNoise δ ε) : α × SystemNoise δ ε :=
  let (out, e) := poissonCall poisson flux s.poisson
  let (g, gaussian) := s.gaussian.generate draw
  (out + (dark + sqrt dark * g), ⟨e, gaussian⟩)

/-- `res.generate(SystemNoise<T>(), flux, dark)` (LitlDemo/tests/src/LitlDemoRandom_test.cpp:68,
LitlContainer/LitlContainer/DataContainer.h:187-194) for the `n` elements of `res` at address `a`, and the arguments at
addresses `flux` and `dark`.  The function is called with two arguments, hence the default value is not used. -/
def generateSystem [Add α] [Mul α] [Inhabited α] (sqrt : α → α) (poisson : α → ε → α × ε) (draw : δ → ε → α × δ × ε)
    (mem : List α) (s : SystemNoise δ ε) (a n flux dark : Nat) : Res (List α × SystemNoise δ ε) :=
  Container.generateMem (fun args s => s.call sqrt poisson draw (args.getD 0 default) (args.getD 1 default)) mem s a n
    [flux, dark]

/-- `flux.apply(SystemNoise<T>(), dark)` (LitlDemo/tests/src/LitlDemoRandom_test.cpp:71,
LitlContainer/LitlContainer/DataContainer.h:212-214). -/
def applySystem [Add α] [Mul α] [Inhabited α] (sqrt : α → α) (poisson : α → ε → α × ε) (draw : δ → ε → α × δ × ε)
    (mem : List α) (s : SystemNoise δ ε) (n flux dark : Nat) : Res (List α × SystemNoise δ ε) :=
  Container.applyMem (fun args s => s.call sqrt poisson draw (args.getD 0 default) (args.getD 1 default)) mem s flux n
    [dark]

end Litl.Random
