import Verif.Model.Random

/-!
# The engine of random noises

Model of `std::mt19937`, which is the engine of `RandomGenerator` (LitlContainer/LitlContainer/Random.h:117-118, 140), from
[rand.eng.mers] and [rand.predef] of the C++ standard: w = 32, n = 624, m = 397, r = 31, a = 0x9908b0df, u = 11, d = 0xffffffff, s = 7,
b = 0x9d2c5680, t = 15, c = 0xefc60000, l = 18, f = 1812433253.
-/

namespace Litl.Random

/-- The concatenation of the upper w - r bits of `x` and of the lower r bits of `y`
([rand.eng.mers], 2; LitlContainer/LitlContainer/Random.h:140). -/
def mersenneConcat (x y : BitVec 32) : BitVec 32 := (x &&& 0x80000000#32) ||| (y &&& 0x7fffffff#32)

/-- The product by the twist matrix ([rand.eng.mers], 2; LitlContainer/LitlContainer/Random.h:140). -/
def mersenneTwist (y : BitVec 32) : BitVec 32 := (y >>> 1) ^^^ (if y.getLsbD 0 then 0x9908b0df#32 else 0#32)

/-- The words of the state, which are initialized from the seed, and then those which follow
([rand.eng.mers], 2 and 6; LitlContainer/LitlContainer/Random.h:118, 140). -/
def mersenneWord (seed : BitVec 32) (i : Nat) : BitVec 32 :=
  if i = 0 then seed
  else if i < 624 then
    let x := mersenneWord seed (i - 1)
    1812433253#32 * (x ^^^ (x >>> 30)) + BitVec.ofNat 32 i
  else mersenneWord seed (i - 227) ^^^ mersenneTwist (mersenneConcat (mersenneWord seed (i - 624)) (mersenneWord seed (i - 623)))
termination_by i

/-- Tempering ([rand.eng.mers], 3; LitlContainer/LitlContainer/Random.h:140). -/
def mersenneTemper (x : BitVec 32) : BitVec 32 :=
  let y := x ^^^ (x >>> 11)
  let y := y ^^^ ((y <<< 7) &&& 0x9d2c5680#32)
  let y := y ^^^ ((y <<< 15) &&& 0xefc60000#32)
  y ^^^ (y >>> 18)

/-- `std::mt19937(seed)`, as the sequence of the values which it will return: the seed is reduced modulo 2^w
([rand.eng.mers], 6; LitlContainer/LitlContainer/Random.h:118). -/
def mersenneValues (seed : Nat) (k : Nat) : BitVec 32 := mersenneTemper (mersenneWord (BitVec.ofNat 32 seed) (k + 624))

end Litl.Random
