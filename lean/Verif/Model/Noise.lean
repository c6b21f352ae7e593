import Verif.Model.Random

/-!
# Random generators: state and seed

Model of `RandomGenerator`, `ComplexDistribution`, `UniformNoise`, `GaussianNoise` and of value generation by `PoissonNoise`
and `StablePoissonNoise` (LitlContainer/LitlContainer/Random.h).
The 32-bit engine, of type `ε`, and the distributions, of type `δ`, are parameters: `mk` builds the engine from a 32-bit seed,
and `draw` gives a value, the new state of the distribution (e.g. the saved value of `std::normal_distribution`) and that of
the engine.  Preconditions of the distributions (e.g. positive means) are left out.
-/

namespace Litl.Random

variable {α δ ε : Type}

/-- Constructor of `std::mt19937` ([rand.eng.mers]): the seed is taken modulo 2^32. -/
def mersenne (mk : Nat → ε) (seed : Nat) : ε := mk (seed % 2 ^ 32)

/-- A noise generator (LitlContainer/LitlContainer/Random.h:137 and 172-179, 210-212, 256-258, 313-315): the distribution and
the engine. -/
structure Noise (δ ε : Type) where
  distribution : δ
  engine : ε

/-- The constructors of noises (LitlContainer/LitlContainer/Random.h:117-118 and 154-155, 193-194, 237-238, 293-294), and the
number of calls to the clock. -/
def makeNoise (mk : Nat → ε) (now : Nat → Nat) (d : δ) (seed ticks : Nat) : Noise δ ε × Nat :=
  let (e, ticks) := engine (mersenne mk) now seed ticks
  (⟨d, e⟩, ticks)

/-- `RandomGenerator::generate` (LitlContainer/LitlContainer/Random.h:124-127); this is also `operator()()` of the noises
(160-162, 199-201, 243-245, 299-301). -/
def Noise.generate (draw : δ → ε → α × δ × ε) (s : Noise δ ε) : α × Noise δ ε :=
  let (v, d, e) := draw s.distribution s.engine
  (v, ⟨d, e⟩)

/-- `RandomGenerator::add` (LitlContainer/LitlContainer/Random.h:132-135); this is also `operator()(in)` of additive noises
(167-169, 206-208). -/
def Noise.add [Add α] (draw : δ → ε → α × δ × ε) (x : α) (s : Noise δ ε) : α × Noise δ ε :=
  let (v, s) := s.generate draw
  (x + v, s)

/-- `ComplexDistribution<std::complex<T>, TDistribution>::operator()`
(LitlContainer/LitlContainer/Random.h:86-89): elements of braced lists are evaluated in order. -/
def drawComplex (draw : δ → ε → α × δ × ε) (d : δ × δ) (e : ε) : (α × α) × (δ × δ) × ε :=
  let (re, dRe, e) := draw d.1 e
  let (im, dIm, e) := draw d.2 e
  ((re, im), (dRe, dIm), e)

/-- `container.generate(noise)` (LitlContainer/LitlContainer/DataContainer.h:187-194) for the `n` elements at address `a`:
the memory and the noise after the call. -/
def generateNoise (draw : δ → ε → α × δ × ε) (mem : List α) (s : Noise δ ε) (a n : Nat) : Res (List α × Noise δ ε) :=
  Container.generateMem (fun _ s => s.generate draw) mem s a n []

/-- `container.apply(noise)` (LitlContainer/LitlContainer/DataContainer.h:212-214) for additive noises.  The function is
called with one argument, hence the default value is not used. -/
def applyNoise [Add α] [Inhabited α] (draw : δ → ε → α × δ × ε) (mem : List α) (s : Noise δ ε) (a n : Nat) :
    Res (List α × Noise δ ε) :=
  Container.applyMem (fun args s => s.add draw (args.headD default)) mem s a n []

/-- `random(size)` and `random(shape)` (LitlContainer/LitlContainer/Sequence.h:41-45, LitlRaster/LitlRaster/Raster.h:512-516),
for `n` elements which are value-initialized: the default seed stands for the current time. -/
def random [Inhabited α] (mk : Nat → ε) (now : Nat → Nat) (draw : δ → ε → α × δ × ε) (d : δ) (ticks n : Nat) :
    Res (List α) := do
  let r ← generateNoise draw (List.replicate n default) (makeNoise mk now d timeSeed ticks).1 0 n
  return r.1

end Litl.Random
