import Verif.Model.Mersenne
import Verif.Model.Noise
import Verif.Props.StableSeeds

/-!
# C121: seeds of random noises
-/

namespace Litl

open Random Spec

/-- The full property: noises with different seeds, other than -1, do not draw the same values. -/
def C121_Statement : Prop :=
  ∀ (now : Nat → Nat) (ticks seed seed' : Nat), seed < 2 ^ 64 - 1 → seed' < 2 ^ 64 - 1 → seed ≠ seed' →
    (engine mersenneValues now seed ticks).1 ≠ (engine mersenneValues now seed' ticks).1

/-! ## Bijections on words -/

theorem xor_shiftRight_inj {s : Nat} (hs : 0 < s) {x y : BitVec 32} (h : x ^^^ (x >>> s) = y ^^^ (y >>> s)) : x = y := by
  have key : ∀ d i : Nat, 32 ≤ i + d → x.getLsbD i = y.getLsbD i := by
    intro d
    induction d with
    | zero =>
      intro i hi
      rw [BitVec.getLsbD_of_ge x i (by omega), BitVec.getLsbD_of_ge y i (by omega)]
    | succ d ih =>
      intro i hi
      have h1 := congrArg (fun z => z.getLsbD i) h
      simp only [BitVec.getLsbD_xor, BitVec.getLsbD_ushiftRight] at h1
      rw [ih (s + i) (by omega)] at h1
      simpa using h1
  exact BitVec.eq_of_getLsbD_eq fun i _ => key 32 i (by omega)

theorem xor_shiftLeft_inj {s : Nat} (hs : 0 < s) {m x y : BitVec 32} (h : x ^^^ ((x <<< s) &&& m) = y ^^^ ((y <<< s) &&& m)) :
    x = y := by
  have key : ∀ i : Nat, x.getLsbD i = y.getLsbD i := by
    intro i
    induction i using Nat.strong_induction_on with
    | _ i ih =>
      have h1 := congrArg (fun z => z.getLsbD i) h
      simp only [BitVec.getLsbD_xor, BitVec.getLsbD_and, BitVec.getLsbD_shiftLeft] at h1
      by_cases his : i < s
      · simpa [his] using h1
      · rw [ih (i - s) (by omega)] at h1
        simpa using h1
  exact BitVec.eq_of_getLsbD_eq fun i _ => key i

theorem temper_inj {x y : BitVec 32} (h : mersenneTemper x = mersenneTemper y) : x = y := by
  unfold mersenneTemper at h
  exact xor_shiftRight_inj (by norm_num) (xor_shiftLeft_inj (by norm_num) (xor_shiftLeft_inj (by norm_num)
    (xor_shiftRight_inj (by norm_num) h)))

theorem twist_inj {x y : BitVec 32} (h : mersenneTwist x = mersenneTwist y) : x = y := by
  unfold mersenneTwist at h
  have h0 : x.getLsbD 0 = y.getLsbD 0 := by
    have h1 := congrArg (fun z => z.getLsbD 31) h
    simp only [BitVec.getLsbD_xor, BitVec.getLsbD_ushiftRight] at h1
    rw [BitVec.getLsbD_of_ge x (1 + 31) (by omega), BitVec.getLsbD_of_ge y (1 + 31) (by omega)] at h1
    generalize x.getLsbD 0 = a at h1 ⊢
    generalize y.getLsbD 0 = b at h1 ⊢
    revert h1
    revert a b
    decide
  rw [h0] at h
  have h2 : x >>> 1 = y >>> 1 := (BitVec.xor_left_inj _).1 h
  refine BitVec.eq_of_getLsbD_eq fun i _ => ?_
  cases i with
  | zero => exact h0
  | succ i =>
    have h1 := congrArg (fun z => z.getLsbD i) h2
    simp only [BitVec.getLsbD_ushiftRight] at h1
    rwa [Nat.add_comm i 1]

theorem concat_upper {x y x' y' : BitVec 32} (h : mersenneConcat x y = mersenneConcat x' y') : x.getLsbD 31 = x'.getLsbD 31 := by
  have h1 := congrArg (fun z => z.getLsbD 31) h
  simpa [mersenneConcat] using h1

theorem mask_lower (i : Nat) (hi : i < 31) : (0x7fffffff#32).getLsbD i = true ∧ (0x80000000#32).getLsbD i = false := by
  interval_cases i <;> decide

theorem concat_lower {x y x' y' : BitVec 32} (h : mersenneConcat x y = mersenneConcat x' y') {i : Nat} (hi : i < 31) :
    y.getLsbD i = y'.getLsbD i := by
  have h1 := congrArg (fun z => z.getLsbD i) h
  simp only [mersenneConcat, BitVec.getLsbD_or, BitVec.getLsbD_and, (mask_lower i hi).1, (mask_lower i hi).2] at h1
  simpa using h1

theorem word_zero (s : BitVec 32) : mersenneWord s 0 = s := by
  rw [mersenneWord, if_pos rfl]

theorem word_succ (s : BitVec 32) {i : Nat} (hi : i + 1 < 624) : mersenneWord s (i + 1) =
    1812433253#32 * (mersenneWord s i ^^^ (mersenneWord s i >>> 30)) + BitVec.ofNat 32 (i + 1) := by
  rw [mersenneWord, if_neg (by omega), if_pos hi]
  rfl

/-- The seed can be computed from any of the words which are initialized from it. -/
theorem word_inj {s s' : BitVec 32} (i : Nat) (hi : i < 624) (h : mersenneWord s i = mersenneWord s' i) : s = s' := by
  induction i with
  | zero =>
    rwa [word_zero, word_zero] at h
  | succ i ih =>
    refine ih (by omega) ?_
    rw [word_succ s hi, word_succ s' hi] at h
    have h1 := (BitVec.add_left_inj _).1 h
    have h2 := congrArg (2520285293#32 * ·) h1
    simp only [← BitVec.mul_assoc] at h2
    rw [show 2520285293#32 * 1812433253#32 = 1#32 by decide, BitVec.one_mul, BitVec.one_mul] at h2
    exact xor_shiftRight_inj (by norm_num) h2

theorem word_next (s : BitVec 32) (i : Nat) : mersenneWord s (i + 624) =
    mersenneWord s (i + 397) ^^^ mersenneTwist (mersenneConcat (mersenneWord s i) (mersenneWord s (i + 1))) := by
  rw [mersenneWord, if_neg (by omega), if_neg (by omega)]
  rw [show i + 624 - 227 = i + 397 by omega, show i + 624 - 624 = i by omega, show i + 624 - 623 = i + 1 by omega]

/-- The first 624 words, by structural recursion, so that they can be computed. -/
def firstWords (s : BitVec 32) : Nat → BitVec 32
  | 0 => s
  | i + 1 => 1812433253#32 * (firstWords s i ^^^ (firstWords s i >>> 30)) + BitVec.ofNat 32 (i + 1)

theorem firstWords_eq (s : BitVec 32) {i : Nat} (hi : i < 624) : mersenneWord s i = firstWords s i := by
  induction i with
  | zero => rw [word_zero]; rfl
  | succ i ih => rw [word_succ s hi, ih (by omega)]; rfl

/-- Validation of the constants: the first value which is drawn from the engine with default seed, 5489, is 3499211612. -/
example : mersenneValues 5489 0 = 3499211612#32 := by
  unfold mersenneValues
  rw [word_next _ 0, firstWords_eq _ (by norm_num), firstWords_eq _ (by norm_num), firstWords_eq _ (by norm_num)]
  decide +kernel

/-! ## Seeds -/

/-- **C121**: four of the first 624 values which are drawn determine the seed, modulo 2^32. -/
theorem C121_four {seed seed' : Nat} (h : ∀ k ∈ [395, 396, 622, 623], mersenneValues seed k = mersenneValues seed' k) :
    seed % 2 ^ 32 = seed' % 2 ^ 32 := by
  have hw : ∀ k ∈ [395, 396, 622, 623], mersenneWord (BitVec.ofNat 32 seed) (k + 624) =
      mersenneWord (BitVec.ofNat 32 seed') (k + 624) :=
    fun k hk => temper_inj (h k hk)
  have e1 : mersenneConcat (mersenneWord (BitVec.ofNat 32 seed) 623) (mersenneWord (BitVec.ofNat 32 seed) 624) =
      mersenneConcat (mersenneWord (BitVec.ofNat 32 seed') 623) (mersenneWord (BitVec.ofNat 32 seed') 624) := by
    have h1 := hw 623 (by simp)
    have h2 := hw 396 (by simp)
    rw [word_next _ 623, word_next _ 623, show 623 + 397 = 396 + 624 from rfl, h2] at h1
    exact twist_inj ((BitVec.xor_right_inj _).1 h1)
  have e2 : mersenneConcat (mersenneWord (BitVec.ofNat 32 seed) 622) (mersenneWord (BitVec.ofNat 32 seed) 623) =
      mersenneConcat (mersenneWord (BitVec.ofNat 32 seed') 622) (mersenneWord (BitVec.ofNat 32 seed') 623) := by
    have h1 := hw 622 (by simp)
    have h2 := hw 395 (by simp)
    rw [word_next _ 622, word_next _ 622, show 622 + 397 = 395 + 624 from rfl, h2] at h1
    exact twist_inj ((BitVec.xor_right_inj _).1 h1)
  have e3 : mersenneWord (BitVec.ofNat 32 seed) 623 = mersenneWord (BitVec.ofNat 32 seed') 623 := by
    refine BitVec.eq_of_getLsbD_eq fun i hi => ?_
    by_cases h31 : i < 31
    · exact concat_lower e2 h31
    · obtain rfl : i = 31 := by omega
      exact concat_upper e1
  have := congrArg BitVec.toNat (word_inj 623 (by norm_num) e3)
  simpa using this

/-- **C121**, exactly: for seeds other than -1, the values are the same if, and only if, the seeds are the same modulo 2^32. -/
theorem C121_exact {now : Nat → Nat} {ticks seed seed' : Nat} (h : seed < 2 ^ 64 - 1) (h' : seed' < 2 ^ 64 - 1) :
    (engine mersenneValues now seed ticks).1 = (engine mersenneValues now seed' ticks).1 ↔ seed % 2 ^ 32 = seed' % 2 ^ 32 := by
  unfold engine timeSeed
  rw [if_pos (by omega), if_pos (by omega)]
  constructor
  · intro e
    exact C121_four fun k _ => congrFun e k
  · intro e
    funext k
    change mersenneValues seed k = mersenneValues seed' k
    unfold mersenneValues
    rw [show BitVec.ofNat 32 seed = BitVec.ofNat 32 seed' from BitVec.eq_of_toNat_eq (by simpa using e)]

/-- **C121**, for seeds which are lower than 2^32: different values are drawn before the 624-th one.

Missing: larger seeds, see `C121_exact`. -/
theorem C121_partial {now : Nat → Nat} {ticks seed seed' : Nat} (h : seed < 2 ^ 32) (h' : seed' < 2 ^ 32) (hne : seed ≠ seed') :
    ∃ k < 624, (engine mersenneValues now seed ticks).1 k ≠ (engine mersenneValues now seed' ticks).1 k := by
  unfold engine timeSeed
  rw [if_pos (by omega), if_pos (by omega)]
  by_contra hc
  push Not at hc
  have := C121_four (seed := seed) (seed' := seed') fun k hk => hc k (by
    simp only [List.mem_cons, List.not_mem_nil, or_false] at hk
    omega)
  rw [Nat.mod_eq_of_lt h, Nat.mod_eq_of_lt h'] at this
  exact hne this

/-- **C121**, for the seed -1, which is that by default: values only depend on the time modulo 2^32, e.g. those of noises which are
constructed 2^32 ticks (about 4.3 s, if ticks are nanoseconds) apart are the same. -/
theorem C121_time {now : Nat → Nat} {ticks ticks' : Nat} :
    (engine mersenneValues now (2 ^ 64 - 1) ticks).1 = (engine mersenneValues now (2 ^ 64 - 1) ticks').1 ↔
      now ticks % 2 ^ 32 = now ticks' % 2 ^ 32 := by
  unfold engine timeSeed
  rw [if_neg (by simp), if_neg (by simp)]
  constructor
  · intro e
    exact C121_four fun k _ => congrFun e k
  · intro e
    funext k
    change mersenneValues (now ticks) k = mersenneValues (now ticks') k
    unfold mersenneValues
    rw [show BitVec.ofNat 32 (now ticks) = BitVec.ofNat 32 (now ticks') from BitVec.eq_of_toNat_eq (by simpa using e)]

/-- **C121**, together with C118: the engines of the elements of a stable Poisson noise draw different values, for elements which are
less than 2^31 - 2 apart. -/
theorem C121_stable {σ : Nat → Nat → Nat} (h : AreEngineSeeds σ) (seed i j : Nat) :
    mersenneValues (σ seed i) = mersenneValues (σ seed j) ↔ i ≡ j [MOD 2 ^ 31 - 2] := by
  rw [← C118_period h seed i j]
  constructor
  · intro e
    have := C121_four (seed := σ seed i) (seed' := σ seed j) fun k _ => congrFun e k
    rw [areEngineSeeds_iff] at h
    have b1 := (iterate_range (minstdSeed_range seed) (i + 1)).2
    have b2 := (iterate_range (minstdSeed_range seed) (j + 1)).2
    rw [← h] at b1 b2
    unfold minstdModulus at b1 b2
    rwa [Nat.mod_eq_of_lt (by omega), Nat.mod_eq_of_lt (by omega)] at this
  · intro e; rw [e]

/-- **C121**, together with C75: the engine is an instance of that of Model/Noise, where seeds are reduced modulo 2^32, and noises with
the same parameters and with seeds other than -1 are in the same state if, and only if, their seeds are the same modulo 2^32. -/
theorem C121_noise {δ : Type} (d : δ) {now now' : Nat → Nat} {seed seed' ticks ticks' : Nat} (h : seed < 2 ^ 64 - 1)
    (h' : seed' < 2 ^ 64 - 1) : mersenne mersenneValues = mersenneValues ∧
    ((makeNoise mersenneValues now d seed ticks).1 = (makeNoise mersenneValues now' d seed' ticks').1 ↔ seed % 2 ^ 32 = seed' % 2 ^ 32) := by
  have e : mersenne mersenneValues = mersenneValues := by
    funext s k
    unfold mersenne mersenneValues
    rw [show BitVec.ofNat 32 (s % 2 ^ 32) = BitVec.ofNat 32 s from BitVec.eq_of_toNat_eq (by simp)]
  refine ⟨e, ?_⟩
  have hx := C121_exact (now := now) (ticks := ticks) h h'
  have hs : seed ≠ timeSeed := by unfold timeSeed; omega
  have hs' : seed' ≠ timeSeed := by unfold timeSeed; omega
  simp only [engine, if_pos hs, if_pos hs'] at hx
  simp only [makeNoise, engine, if_pos hs, if_pos hs', e]
  rw [← hx]
  constructor
  · intro q; injection q
  · intro q; rw [q]

theorem C121_violated : ¬ C121_Statement := fun h =>
  h (fun _ => 0) 0 0 (2 ^ 32) (by norm_num) (by norm_num) (by norm_num)
    ((C121_exact (by norm_num) (by norm_num)).2 (by norm_num))

/-- Concrete cases: seeds 1 and 2, seeds 5 and 2^32 + 5. -/
example : ∃ k < 624, (engine mersenneValues (fun _ => 0) 1 0).1 k ≠ (engine mersenneValues (fun _ => 0) 2 0).1 k :=
  C121_partial (by norm_num) (by norm_num) (by norm_num)

example : (engine mersenneValues (fun _ => 0) 5 0).1 = (engine mersenneValues (fun _ => 0) (2 ^ 32 + 5) 0).1 :=
  (C121_exact (by norm_num) (by norm_num)).2 (by norm_num)

example : (engine mersenneValues (fun i => 7 + 2 ^ 32 * i) (2 ^ 64 - 1) 0).1 = (engine mersenneValues (fun i => 7 + 2 ^ 32 * i) (2 ^ 64 - 1) 3).1 :=
  C121_time.2 (by norm_num)

end Litl
