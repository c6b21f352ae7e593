import Verif.Props.Random
import Mathlib.NumberTheory.LucasPrimality
import Mathlib.Tactic.NormNum.Prime
import Mathlib.Tactic.ReduceModChar
import Mathlib.GroupTheory.OrderOfElement

/-!
# C118: stable Poisson noises of different pixels, or of different seeds, differ

`StablePoissonNoise` seeds an engine for each element with the next value of a generator (Verif/Model/Random.lean).
-/

namespace Litl

open Random Spec

/-- `σ seed k` is the seed of the engine from which the element of index `k` is drawn by the stable noise of given seed. It is
observed with a distribution which returns the seed of the engine. -/
def Spec.AreEngineSeeds (σ : Nat → Nat → Nat) : Prop :=
  ∀ (now : Nat → Nat) (seed ticks n : Nat), ∃ m, applyStable id (fun _ e => (e, e)) now seed ticks (List.replicate n 0) 0 n = .ok m ∧
    m.length = n ∧ ∀ k < n, m[k]? = some (σ seed k)

/-- The full property: a noise does not use twice the same engine, and noises of different seeds use different engines for the
same element. -/
def C118_Statement : Prop :=
  ∀ σ, AreEngineSeeds σ → (∀ seed i j, i ≠ j → σ seed i ≠ σ seed j) ∧
    ∀ seed seed' k, seed < 2 ^ 64 → seed' < 2 ^ 64 → seed ≠ seed' → σ seed k ≠ σ seed' k

/-! ## The generator of seeds has the maximum period -/

theorem prime_of_dvd_period (q : Nat) (hq : q.Prime) (h : q ∣ 2147483646) : q ∈ [2, 3, 7, 11, 31, 151, 331] := by
  have e : 2147483646 = 2 * 3 * 3 * 7 * 11 * 31 * 151 * 331 := by norm_num
  rw [e] at h
  have p2 : Nat.Prime 2 := by norm_num
  have p3 : Nat.Prime 3 := by norm_num
  have p7 : Nat.Prime 7 := by norm_num
  have p11 : Nat.Prime 11 := by norm_num
  have p31 : Nat.Prime 31 := by norm_num
  have p151 : Nat.Prime 151 := by norm_num
  have p331 : Nat.Prime 331 := by norm_num
  simp only [hq.dvd_mul, Nat.prime_dvd_prime_iff_eq hq p2, Nat.prime_dvd_prime_iff_eq hq p3, Nat.prime_dvd_prime_iff_eq hq p7,
    Nat.prime_dvd_prime_iff_eq hq p11, Nat.prime_dvd_prime_iff_eq hq p31, Nat.prime_dvd_prime_iff_eq hq p151,
    Nat.prime_dvd_prime_iff_eq hq p331] at h
  simp only [List.mem_cons, List.not_mem_nil, or_false]
  omega

theorem multiplier_pow : (48271 : ZMod 2147483647) ^ 2147483646 = 1 := by reduce_mod_char

theorem multiplier_pow_div (q : Nat) (hq : q.Prime) (h : q ∣ 2147483646) : (48271 : ZMod 2147483647) ^ (2147483646 / q) ≠ 1 := by
  have := prime_of_dvd_period q hq h
  simp only [List.mem_cons, List.not_mem_nil, or_false] at this
  rcases this with rfl | rfl | rfl | rfl | rfl | rfl | rfl <;> norm_num only <;> reduce_mod_char <;> decide

instance minstd_prime : Fact (Nat.Prime 2147483647) := ⟨lucas_primality _ 48271 multiplier_pow multiplier_pow_div⟩

/-- The multiplier of the generator, modulo the modulus. -/
def multiplier : (ZMod 2147483647)ˣ :=
  Units.mk0 48271 fun h => by simpa [h] using multiplier_pow

theorem orderOf_multiplier : orderOf multiplier = 2147483646 := by
  refine orderOf_eq_of_pow_and_pow_div_prime (by norm_num) (Units.ext multiplier_pow) fun q hq h => ?_
  intro hc
  exact multiplier_pow_div q hq h (by simpa [multiplier] using congrArg Units.val hc)

theorem unit_eq_pow (u : (ZMod 2147483647)ˣ) : ∃ d < 2147483646, multiplier ^ d = u := by
  have hc : Nat.card (ZMod 2147483647)ˣ = 2147483646 := by
    rw [Nat.card_eq_fintype_card, ZMod.card_units_eq_totient, Nat.totient_prime minstd_prime.out]
  have ht : Subgroup.zpowers multiplier = ⊤ :=
    Subgroup.eq_top_of_card_eq _ (by rw [Nat.card_zpowers, orderOf_multiplier, hc])
  have hu : u ∈ Subgroup.zpowers multiplier := by rw [ht]; trivial
  rw [← mem_powers_iff_mem_zpowers] at hu
  obtain ⟨d, hd⟩ := hu
  refine ⟨d % 2147483646, Nat.mod_lt _ (by norm_num), ?_⟩
  rw [← hd, ← orderOf_multiplier]
  exact pow_mod_orderOf _ _

theorem iterate_minstd (x k : Nat) : minstdNext^[k] x % minstdModulus = 48271 ^ k * x % minstdModulus := by
  induction k with
  | zero => simp
  | succ k ih =>
    rw [Function.iterate_succ_apply', minstdNext, Nat.mod_mod, Nat.mul_mod, ih, ← Nat.mul_mod, pow_succ]
    congr 1
    ring

/-- The initial state of the generator, as a unit. -/
theorem seed_unit (seed : Nat) : ∃ u : (ZMod 2147483647)ˣ, (u : ZMod 2147483647) = (minstdSeed seed : Nat) := by
  have h := minstdSeed_range seed
  refine ⟨Units.mk0 (minstdSeed seed : ZMod 2147483647) fun hc => ?_, rfl⟩
  rw [ZMod.natCast_eq_zero_iff] at hc
  have := Nat.le_of_dvd h.1 hc
  unfold minstdModulus at h
  omega

theorem eq_iff_cast {a b : Nat} (ha : a < minstdModulus) (hb : b < minstdModulus) :
    a = b ↔ (a : ZMod 2147483647) = (b : ZMod 2147483647) := by
  rw [ZMod.natCast_eq_natCast_iff]
  unfold Nat.ModEq
  unfold minstdModulus at ha hb
  rw [Nat.mod_eq_of_lt ha, Nat.mod_eq_of_lt hb]

theorem cast_iterate (x k : Nat) : ((minstdNext^[k] x : Nat) : ZMod 2147483647) = (multiplier : ZMod 2147483647) ^ k * (x : ZMod 2147483647) := by
  have h := iterate_minstd x k
  have : ((minstdNext^[k] x : Nat) : ZMod 2147483647) = ((48271 ^ k * x : Nat) : ZMod 2147483647) :=
    (ZMod.natCast_eq_natCast_iff _ _ _).2 h
  rw [this]
  push_cast
  rfl

/-! ## Engines -/

/-- The engines' seeds are those of the model; hence the predicate can be met, and by one function only. -/
theorem areEngineSeeds_iff {σ : Nat → Nat → Nat} :
    AreEngineSeeds σ ↔ ∀ seed k, σ seed k = minstdNext^[k + 1] (minstdSeed seed) := by
  constructor
  · intro h seed k
    obtain ⟨m, h1, _, h2⟩ := h (fun _ => 0) seed 0 (k + 1)
    obtain ⟨m', h3, _, h4⟩ := C39_output id (fun (_ : Nat) e => (e, e)) (fun _ => 0) seed 0 (List.replicate (k + 1) 0) 0 (k + 1) (by simp)
    rw [h1] at h3
    obtain rfl := Except.ok.inj h3
    have h5 := h4 k (by omega)
    rw [Nat.zero_add, h2 k (by omega), List.getElem?_replicate, if_pos (by omega)] at h5
    simpa using h5
  · intro h now seed ticks n
    obtain ⟨m, h1, h3, h2⟩ := C39_output id (fun (_ : Nat) e => (e, e)) now seed ticks (List.replicate n 0) 0 n (by simp)
    have h4 : ∀ k < n, m[k]? = some (σ seed k) := by
      intro k hk
      have := h2 k hk
      rw [Nat.zero_add, List.getElem?_replicate, if_pos hk] at this
      rw [this, h]
      rfl
    refine ⟨m, h1, ?_, h4⟩
    obtain ⟨m', g1, _, g2, _⟩ := C27_apply (fun args s => stableCall id (fun (_ : Nat) e => (e, e)) now (args.headD default) s)
      (List.replicate n 0) (minstdSeed seed, ticks) 0 n [] (by simp) (by simp)
    unfold applyStable at h1
    rw [g1] at h1
    obtain rfl := Except.ok.inj h1
    simpa using g2

/-- **C118**: the elements of indices `i` and `j` are drawn from the same engine if, and only if, the difference is a multiple of
2^31 - 2. -/
theorem C118_period {σ : Nat → Nat → Nat} (h : AreEngineSeeds σ) (seed i j : Nat) :
    σ seed i = σ seed j ↔ i ≡ j [MOD 2 ^ 31 - 2] := by
  rw [areEngineSeeds_iff] at h
  obtain ⟨u, hu⟩ := seed_unit seed
  rw [h, h, eq_iff_cast (iterate_range (minstdSeed_range seed) _).2 (iterate_range (minstdSeed_range seed) _).2, cast_iterate,
    cast_iterate, ← hu, ← Units.val_pow_eq_pow_val, ← Units.val_pow_eq_pow_val, ← Units.val_mul, ← Units.val_mul, Units.val_inj,
    mul_left_inj, pow_eq_pow_iff_modEq, orderOf_multiplier]
  norm_num only
  constructor
  · exact fun h => Nat.ModEq.add_right_cancel' 1 h
  · exact fun h => h.add_right 1

/-- **C118**: each seed but 0 is used once in 2^31 - 2 elements, whatever that of the noise. -/
theorem C118_all {σ : Nat → Nat → Nat} (h : AreEngineSeeds σ) (seed x : Nat) (h0 : 0 < x) (h1 : x < 2 ^ 31 - 1) :
    ∃ k, (k < 2 ^ 31 - 2 ∧ σ seed k = x) ∧ ∀ l, l < 2 ^ 31 - 2 → σ seed l = x → l = k := by
  have h' := h
  rw [areEngineSeeds_iff] at h
  obtain ⟨u, hu⟩ := seed_unit seed
  have hx : (x : ZMod 2147483647) ≠ 0 := fun hc => by
    rw [ZMod.natCast_eq_zero_iff] at hc
    have := Nat.le_of_dvd h0 hc
    omega
  obtain ⟨d, hd, e⟩ := unit_eq_pow (Units.mk0 _ hx * u⁻¹ * multiplier⁻¹)
  have key : σ seed d = x := by
    rw [h, eq_iff_cast (iterate_range (minstdSeed_range seed) _).2 (by unfold minstdModulus; omega), cast_iterate, ← hu,
      ← Units.val_pow_eq_pow_val, ← Units.val_mul, pow_succ, e]
    simp
  refine ⟨d, ⟨by omega, key⟩, fun l hl hlx => ?_⟩
  have := (C118_period h' seed l d).1 (by rw [hlx, key])
  unfold Nat.ModEq at this
  rwa [Nat.mod_eq_of_lt hl, Nat.mod_eq_of_lt (by omega)] at this

/-- **C118**, first half: elements are drawn from different engines if there are at most 2^31 - 2 of them.

Missing: more elements, see `C118_period`. -/
theorem C118_elements_partial {σ : Nat → Nat → Nat} (h : AreEngineSeeds σ) (seed i j : Nat) (hi : i < 2 ^ 31 - 2)
    (hj : j < 2 ^ 31 - 2) (hij : i ≠ j) : σ seed i ≠ σ seed j := by
  intro hc
  have := (C118_period h seed i j).1 hc
  unfold Nat.ModEq at this
  rw [Nat.mod_eq_of_lt hi, Nat.mod_eq_of_lt hj] at this
  exact hij this

/-- **C118**: two seeds use the same engine for some element, or for all of them, if, and only if, they are the same modulo
2^31 - 1, where 0 is the same as 1. -/
theorem C118_seeds {σ : Nat → Nat → Nat} (h : AreEngineSeeds σ) (seed seed' k : Nat) :
    σ seed k = σ seed' k ↔ seed % (2 ^ 31 - 1) = seed' % (2 ^ 31 - 1) ∨ seed % (2 ^ 31 - 1) ≤ 1 ∧ seed' % (2 ^ 31 - 1) ≤ 1 := by
  rw [areEngineSeeds_iff] at h
  rw [h, h, eq_iff_cast (iterate_range (minstdSeed_range seed) _).2 (iterate_range (minstdSeed_range seed') _).2, cast_iterate,
    cast_iterate, ← Units.val_pow_eq_pow_val, Units.mul_right_inj,
    ← eq_iff_cast (minstdSeed_range seed).2 (minstdSeed_range seed').2]
  unfold minstdSeed minstdModulus
  norm_num only
  split <;> split <;> omega

/-- **C118**, second half: seeds from 1 to 2^31 - 2 give different noises.

Missing: other seeds, see `C118_seeds`. -/
theorem C118_seeds_partial {σ : Nat → Nat → Nat} (h : AreEngineSeeds σ) {seed seed' : Nat} (k : Nat) (h0 : 0 < seed)
    (h1 : seed < 2 ^ 31 - 1) (h0' : 0 < seed') (h1' : seed' < 2 ^ 31 - 1) (hne : seed ≠ seed') : σ seed k ≠ σ seed' k := by
  intro hc
  have := (C118_seeds h seed seed' k).1 hc
  rw [Nat.mod_eq_of_lt h1, Nat.mod_eq_of_lt h1'] at this
  omega

/-- **C118**: noises of any seeds are the same up to a shift. -/
theorem C118_shift {σ : Nat → Nat → Nat} (h : AreEngineSeeds σ) (seed seed' : Nat) :
    ∃ d < 2 ^ 31 - 2, ∀ k, σ seed' k = σ seed (k + d) := by
  rw [areEngineSeeds_iff] at h
  obtain ⟨u, hu⟩ := seed_unit seed
  obtain ⟨u', hu'⟩ := seed_unit seed'
  obtain ⟨d, hd, e⟩ := unit_eq_pow (u' * u⁻¹)
  refine ⟨d, by omega, fun k => ?_⟩
  rw [h, h, eq_iff_cast (iterate_range (minstdSeed_range seed') _).2 (iterate_range (minstdSeed_range seed) _).2, cast_iterate,
    cast_iterate, ← hu, ← hu', ← Units.val_pow_eq_pow_val, ← Units.val_pow_eq_pow_val, ← Units.val_mul, ← Units.val_mul,
    show k + d + 1 = (k + 1) + d by omega, pow_add _ (k + 1) d, e]
  congr 1
  group

/-- **C118**: the outputs, too, where the inputs are the same: the noise of seed `seed'` at index `k` is that of seed `seed` at
index `k + d`, whatever the engine and distribution. -/
theorem C118_outputs (seed seed' : Nat) : ∃ d < 2 ^ 31 - 2, ∀ {α ε : Type} [Inhabited α] (mk : Nat → ε) (poisson : α → ε → α × ε)
    (now : Nat → Nat) (ticks : Nat) (mem mem' : List α), ∃ m m',
      applyStable mk poisson now seed ticks mem 0 mem.length = .ok m ∧
      applyStable mk poisson now seed' ticks mem' 0 mem'.length = .ok m' ∧
      ∀ k, k + d < mem.length → k < mem'.length → mem'[k]? = mem[k + d]? → m'[k]? = m[k + d]? := by
  obtain ⟨d, hd, h⟩ := C118_shift (σ := fun seed k => minstdNext^[k + 1] (minstdSeed seed)) (areEngineSeeds_iff.2 fun _ _ => rfl) seed seed'
  refine ⟨d, hd, fun mk poisson now ticks mem mem' => ?_⟩
  obtain ⟨m, h1, _, h2⟩ := C39_output mk poisson now seed ticks mem 0 mem.length (by simp)
  obtain ⟨m', h1', _, h2'⟩ := C39_output mk poisson now seed' ticks mem' 0 mem'.length (by simp)
  refine ⟨m, m', h1, h1', fun k hk hk' hx => ?_⟩
  have e := h2 (k + d) hk
  have e' := h2' k hk'
  rw [Nat.zero_add] at e e'
  rw [e, e', hx, ← h k]

/-- For example, the noise of seed 48271 is that of the default seed, shifted by one element. -/
theorem C118_next {σ : Nat → Nat → Nat} (h : AreEngineSeeds σ) (k : Nat) : σ 48271 k = σ 0 (k + 1) := by
  rw [areEngineSeeds_iff] at h
  rw [h, h, Function.iterate_succ_apply _ (k + 1)]
  rfl

theorem C118_violated : ¬ C118_Statement := by
  intro h
  have hσ : AreEngineSeeds fun seed k => minstdNext^[k + 1] (minstdSeed seed) := areEngineSeeds_iff.2 fun _ _ => rfl
  exact (h _ hσ).2 0 1 0 (by norm_num) (by norm_num) (by norm_num) ((C118_seeds hσ 0 1 0).2 (.inr ⟨by norm_num, by norm_num⟩))

/-- The first half is violated, too: there may be more elements. -/
theorem C118_violated_elements : ¬ ∀ σ, AreEngineSeeds σ → ∀ seed i j, i ≠ j → σ seed i ≠ σ seed j := by
  intro h
  have hσ : AreEngineSeeds fun seed k => minstdNext^[k + 1] (minstdSeed seed) := areEngineSeeds_iff.2 fun _ _ => rfl
  exact h _ hσ 0 0 (2 ^ 31 - 2) (by norm_num) ((C118_period hσ 0 0 (2 ^ 31 - 2)).2 (by simp [Nat.ModEq]))

/-- The first engines of the default seed, of the seed 48271, and of a large seed. -/
example : applyStable id (fun (_ : Nat) e => (e, e)) (fun _ => 0) 0 0 [0, 0, 0] 0 3 = .ok [48271, 182605794, 1291394886] ∧
    applyStable id (fun (_ : Nat) e => (e, e)) (fun _ => 0) 48271 0 [0, 0] 0 2 = .ok [182605794, 1291394886] ∧
    applyStable id (fun (_ : Nat) e => (e, e)) (fun _ => 0) (2 ^ 31) 0 [0, 0] 0 2 = .ok [48271, 182605794] := by decide

end Litl
