import Verif.Model.Arithmetic
import Mathlib.Data.Rat.Defs
import Mathlib.Algebra.Order.Ring.Rat
import Mathlib.Order.Defs.LinearOrder

/-!
# Random noise generators

Model of `StablePoissonNoise`, `PoissonNoise` and `ImpulseNoise` (LitlContainer/LitlContainer/Random.h).
The engine (`std::mt19937`) and the Poisson distribution are parameters: an engine is built from a seed by `mk`, and
`poisson mean engine` is a value and the engine after an arbitrary number of draws.
`std::minstd_rand` is modelled exactly.
-/

namespace Litl.Random

variable {α ε : Type}

/-- The seed which stands for the current time, i.e. `std::size_t(-1)`. -/
def timeSeed : Nat := 2 ^ 64 - 1

/-- Constructor of `RandomGenerator` (LitlContainer/LitlContainer/Random.h:117-118): the engine, and the number of
calls to the clock; `now i` is the i-th time which the clock tells. -/
def engine (mk : Nat → ε) (now : Nat → Nat) (seed ticks : Nat) : ε × Nat :=
  if seed ≠ timeSeed then (mk seed, ticks) else (mk (now ticks), ticks + 1)

/-- `operator()(in)` of `PoissonNoise` (LitlContainer/LitlContainer/Random.h:250-253). -/
def poissonCall (poisson : α → ε → α × ε) (x : α) (e : ε) : α × ε := poisson x e

/-- The modulus of `std::minstd_rand`. -/
def minstdModulus : Nat := 2147483647

/-- Constructor of `std::minstd_rand` ([rand.eng.lcong]): a null state is replaced with 1.
`std::uint_fast32_t` is 64 bits wide, as with GCC on 64-bit Linux, hence the seed is not truncated. -/
def minstdSeed (seed : Nat) : Nat := if seed % minstdModulus = 0 then 1 else seed % minstdModulus

/-- `operator()` of `std::minstd_rand` ([rand.predef]): the state, which is also the returned value. -/
def minstdNext (x : Nat) : Nat := 48271 * x % minstdModulus

/-- `operator()(in)` of `StablePoissonNoise` (LitlContainer/LitlContainer/Random.h:306-310).
The state is made of the seeder and of the number of calls to the clock.  `m_engine` is not used by this method. -/
def stableCall (mk : Nat → ε) (poisson : α → ε → α × ε) (now : Nat → Nat) (x : α) (s : Nat × Nat) : α × (Nat × Nat) :=
  let seed := minstdNext s.1
  let (e, ticks) := engine mk now seed s.2
  ((poisson x e).1, (seed, ticks))

/-- `container.apply(StablePoissonNoise(mean, seed))` (LitlContainer/LitlContainer/Random.h:293-294,
LitlContainer/LitlContainer/DataContainer.h:212-214), for the `n` elements at address `a`.
The function is called with one argument, hence the default value is not used. -/
def applyStable [Inhabited α] (mk : Nat → ε) (poisson : α → ε → α × ε) (now : Nat → Nat) (seed ticks : Nat)
    (mem : List α) (a n : Nat) : Res (List α) := do
  let r ← Container.applyMem (fun args s => stableCall mk poisson now (args.headD default) s) mem
    (minstdSeed seed, ticks) a n []
  return r.1

/-- `container.apply(PoissonNoise(mean, seed))` (LitlContainer/LitlContainer/Random.h:237-253,
LitlContainer/LitlContainer/DataContainer.h:212-214). -/
def applyPoisson [Inhabited α] (mk : Nat → ε) (poisson : α → ε → α × ε) (now : Nat → Nat) (seed ticks : Nat)
    (mem : List α) (a n : Nat) : Res (List α) := do
  let r ← Container.applyMem (fun args e => poissonCall poisson (args.headD default) e) mem
    (engine mk now seed ticks).1 a n []
  return r.1

section Impulse

/-- Insertion in a `std::map`: an existing key is not overwritten. -/
def mapInsert [LinearOrder α] (k : α) (p : ℚ) : List (α × ℚ) → List (α × ℚ)
  | [] => [(k, p)]
  | (k', p') :: m =>
    if k < k' then (k, p) :: (k', p') :: m
    else if k = k' then (k', p') :: m
    else (k', p') :: mapInsert k p m

/-- Construction of a `std::map` from an initializer list: the pairs of key and value, by increasing key. -/
def mapOf [LinearOrder α] (l : List (α × ℚ)) : List (α × ℚ) := l.foldl (fun m e => mapInsert e.1 e.2 m) []

/-- `values(valueProbabilities)` (LitlContainer/LitlContainer/Random.h:375-381). -/
def impulseValues (m : List (α × ℚ)) : List α := m.map Prod.fst

/-- `std::numeric_limits<double>::epsilon()`. -/
def epsilon : ℚ := 1 / 2 ^ 52

/-- `weights(valueProbabilities)` (LitlContainer/LitlContainer/Random.h:386-399), for exact doubles. -/
def impulseWeights (m : List (α × ℚ)) : List ℚ :=
  let nullProbability := m.foldl (fun n e => n - e.2) 1
  if nullProbability ≤ epsilon * m.length then m.map Prod.snd else m.map Prod.snd ++ [nullProbability]

/-- `operator()(in)` of `ImpulseNoise` (LitlContainer/LitlContainer/Random.h:366-369), where `index` is drawn by
`std::discrete_distribution` with the weights above, i.e. is the index of one of them. -/
def impulseCall (m : List (α × ℚ)) (index : Nat) (x : α) : α :=
  match (impulseValues m)[index]? with
  | some v => v
  | none => x

/-- `saltAndPepper(pSalt, pPepper, salt, pepper)` (LitlContainer/LitlContainer/Random.h:351-358): the map. -/
def saltAndPepper [LinearOrder α] (pSalt pPepper : ℚ) (salt pepper : α) : List (α × ℚ) :=
  mapOf [(salt, pSalt), (pepper, pPepper)]

end Impulse

end Litl.Random
