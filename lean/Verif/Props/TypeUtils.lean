import Mathlib.Algebra.Order.Archimedean.Real.Basic
import Mathlib.Order.Bounds.Basic
import Mathlib.Tactic.Linarith
import Mathlib.Tactic.Ring
import Mathlib.Tactic.NormNum
import Verif.Model.Limits
import Verif.Lemmas.Interpolation

/-!
# C59: integer floor; C68: limits
-/

namespace Litl

/-! ## C59 -/

/-- **C59** (as stated in properties.jsonl). -/
def C59_Statement : Prop := ∀ x : ℝ, IsGreatest {n : ℤ | (n : ℝ) ≤ x} (floorIndex x)

/-- **C59**: exact result. It is the floor, or one less for negative integers. -/
theorem C59_exact (x : ℝ) :
    (¬ (x < 0 ∧ ∃ n : ℤ, x = n) → IsGreatest {n : ℤ | (n : ℝ) ≤ x} (floorIndex x)) ∧
    ((x < 0 ∧ ∃ n : ℤ, x = n) → x = floorIndex x + 1) := by
  have key : IsGreatest {n : ℤ | (n : ℝ) ≤ x} ⌊x⌋ := ⟨Int.floor_le x, fun n hn => Int.le_floor.2 hn⟩
  rcases floorIndex_eq x with ⟨h, hx⟩ | ⟨h0, hx, h⟩
  · refine ⟨fun _ => by rw [h]; exact key, ?_⟩
    rintro ⟨h0, n, hn⟩
    exact absurd ⟨h0, by rw [hn, Int.floor_intCast]⟩ hx
  · refine ⟨fun hn => absurd ⟨h0, _, hx⟩ hn, fun _ => ?_⟩
    rw [h]; push_cast; linarith

/-- **C59** for non-negative or non-integral numbers.
Missing: negative integers, for which the property does not hold (`C59_violated`). -/
theorem C59_partial (x : ℝ) (h : 0 ≤ x ∨ ∀ n : ℤ, x ≠ n) : IsGreatest {n : ℤ | (n : ℝ) ≤ x} (floorIndex x) := by
  refine (C59_exact x).1 ?_
  rintro ⟨h0, n, hn⟩
  rcases h with h | h
  · linarith
  · exact h n hn

/-- **C59**: in all cases, the number is in the closed interval between the result and its successor. -/
theorem C59_bounds (x : ℝ) : (floorIndex x : ℝ) ≤ x ∧ x ≤ floorIndex x + 1 := floorIndex_bounds x

/-- **C59** does not hold: the floor of -1 is -2. -/
theorem C59_violated : ¬ C59_Statement := by
  intro h
  have h1 := (h (-1)).2 (show (-1 : ℤ) ∈ {n : ℤ | (n : ℝ) ≤ -1} by simp)
  have h2 := (C59_exact (-1)).2 ⟨by norm_num, -1, by norm_num⟩
  have h3 : (-1 : ℝ) ≤ (floorIndex (-1 : ℝ) : ℝ) := by exact_mod_cast h1
  linarith

example : (0 ≤ (2.5 : ℝ) ∨ ∀ n : ℤ, (2.5 : ℝ) ≠ n) ∧ (0 ≤ (-2.5 : ℝ) ∨ ∀ n : ℤ, (-2.5 : ℝ) ≠ n) := by
  refine ⟨.inl (by norm_num), .inr fun n hn => ?_⟩
  have : (2 * n : ℝ) = -5 := by rw [← hn]; norm_num
  have : (2 * n : ℤ) = -5 := by exact_mod_cast this
  omega

example : floorIndex (5 / 2 : ℚ) = 2 ∧ floorIndex (-5 / 2 : ℚ) = -3 ∧ floorIndex (-2 : ℚ) = -3 := by decide +kernel

/-! ## C68 -/

namespace Limits

/-- The values of an integral type. -/
def IsValue (t : IntType) (x : Int) : Prop := if t.signed then -2 ^ t.digits ≤ x ∧ x < 2 ^ t.digits else 0 ≤ x ∧ x < 2 ^ t.digits

/-- `lo` is the lowest value, and `hi` is the highest. -/
def Extremes (t : IntType) (lo hi : Int) : Prop := IsLeast {x | IsValue t x} lo ∧ IsGreatest {x | IsValue t x} hi

/-- **C68** (as stated in properties.jsonl). -/
def C68_Statement : Prop :=
  ∀ t : IntType, 0 < t.digits →
    Extremes t (min t) (max t) ∧
    (halfMin t : ℚ) = (min t : ℚ) / 2 ∧ halfMax t = ⌈(max t : ℚ) / 2⌉ ∧
    inf t = max t ∧ (∀ x y, IsValue t x → IsValue t y → x < y → (∀ z, IsValue t z → z ≤ x ∨ y ≤ z) → epsilon t = y - x) ∧
    (∀ x, IsValue t x → min t < x → almostMin t ≤ x) ∧ min t < almostMin t ∧
    (∀ x, IsValue t x → x < max t → x ≤ almostMax t) ∧ almostMax t < max t

theorem convert_self (t : IntType) {x : Int} (hx : IsValue t x) : t.convert x = x := by
  unfold IsValue at hx
  unfold IntType.convert
  by_cases hb : t.digits = 1 ∧ t.signed = false
  · rw [if_pos hb]
    rw [hb.1, hb.2] at hx
    simp at hx
    split <;> omega
  · rw [if_neg hb]
    by_cases hs : t.signed = true
    · rw [if_pos hs] at hx ⊢
      have e : (2 : Int) ^ (t.digits + 1) = 2 ^ t.digits * 2 := pow_succ _ _
      have hp : (0 : Int) < 2 ^ t.digits := by positivity
      have e' : ((2 ^ (t.digits + 1) : Nat) : Int) = 2 ^ t.digits * 2 := by push_cast; exact e
      refine Int.bmod_eq_of_le ?_ ?_ <;> rw [e'] <;> omega
    · rw [if_neg hs] at hx ⊢
      exact Int.emod_eq_of_lt hx.1 hx.2

theorem pow_pos' (n : Nat) : (0 : Int) < 2 ^ n := by positivity

theorem half_pow {n : Nat} (h : 0 < n) : (2 : Int) ^ n = 2 * 2 ^ (n - 1) := by
  conv_lhs => rw [show n = (n - 1) + 1 by omega, pow_succ, mul_comm]

theorem halfMin_eq {t : IntType} (ht : 0 < t.digits) :
    halfMin t = if t.signed then -2 ^ (t.digits - 1) else 0 := by
  have hp := pow_pos' (t.digits - 1)
  have e := half_pow ht
  have hv : Int.tdiv (min t) 2 = if t.signed then -2 ^ (t.digits - 1) else 0 := by
    unfold min IntType.lowest
    by_cases hs : t.signed = true
    · rw [if_pos hs, if_pos hs, e, ← Int.mul_neg, Int.mul_tdiv_cancel_left _ (by decide)]
    · rw [if_neg hs, if_neg hs]; rfl
  unfold halfMin
  rw [convert_self, hv]
  unfold IsValue
  rw [hv]
  by_cases hs : t.signed = true
  · simp only [if_pos hs]; omega
  · simp only [if_neg hs]; omega

theorem halfMax_eq {t : IntType} (ht : 0 < t.digits) : halfMax t = 2 ^ (t.digits - 1) := by
  have hp := pow_pos' (t.digits - 1)
  have e := half_pow ht
  have hv : Int.tdiv (max t) 2 + 1 = 2 ^ (t.digits - 1) := by
    unfold max IntType.highest
    rw [Int.tdiv_eq_ediv_of_nonneg (by omega)]
    omega
  unfold halfMax
  rw [convert_self, hv]
  unfold IsValue
  rw [hv]
  by_cases hs : t.signed = true
  · simp only [if_pos hs]; omega
  · simp only [if_neg hs]; omega

/-- **C68** without `epsilon()`, `almostMin()` and `almostMax()`, and with `zero()` and `one()`.
Missing: those, which are not as documented (`C68_epsilon`, `C68_violated`). -/
theorem C68_partial (t : IntType) (ht : 0 < t.digits) :
    Extremes t (min t) (max t) ∧ (halfMin t : ℚ) = (min t : ℚ) / 2 ∧ halfMax t = ⌈(max t : ℚ) / 2⌉ ∧ inf t = max t ∧
    zero t = 0 ∧ one t = 1 ∧ IsValue t 0 ∧ IsValue t 1 := by
  have hp := pow_pos' t.digits
  have hp' := pow_pos' (t.digits - 1)
  have e := half_pow ht
  have v0 : IsValue t 0 := by
    unfold IsValue
    by_cases hs : t.signed = true
    · simp only [if_pos hs]; omega
    · simp only [if_neg hs]; omega
  have v1 : IsValue t 1 := by
    unfold IsValue
    by_cases hs : t.signed = true
    · simp only [if_pos hs]; omega
    · simp only [if_neg hs]; omega
  refine ⟨?_, ?_, ?_, rfl, convert_self t v0, convert_self t v1, v0, v1⟩
  · unfold Extremes IsLeast IsGreatest lowerBounds upperBounds IsValue min max IntType.lowest IntType.highest
    simp only [Set.mem_ofPred_eq]
    by_cases hs : t.signed = true
    · simp only [if_pos hs]
      exact ⟨⟨by omega, fun x hx => hx.1⟩, by omega, fun x hx => by omega⟩
    · simp only [if_neg hs]
      exact ⟨⟨by omega, fun x hx => hx.1⟩, by omega, fun x hx => by omega⟩
  · rw [halfMin_eq ht]
    unfold min IntType.lowest
    by_cases hs : t.signed = true
    · rw [if_pos hs, if_pos hs, e]; push_cast; ring
    · rw [if_neg hs, if_neg hs]; norm_num
  · rw [halfMax_eq ht, eq_comm, Int.ceil_eq_iff]
    unfold max IntType.highest
    rw [e]
    push_cast
    constructor <;> linarith

/-- **C68**, negative: for all integral types, `epsilon()` is 0, whereas consecutive values differ by 1; hence `almostMin()`
and `almostMax()` are the minimum and maximum. -/
theorem C68_epsilon (t : IntType) (ht : 0 < t.digits) :
    epsilon t = 0 ∧ IsValue t 0 ∧ IsValue t 1 ∧ almostMin t = min t ∧ almostMax t = max t := by
  obtain ⟨⟨h1, h2⟩, _, _, _, _, _, v0, v1⟩ := C68_partial t ht
  refine ⟨rfl, v0, v1, ?_, ?_⟩
  · simp only [almostMin, epsilon, Int.add_zero]; exact convert_self t h1.1
  · simp only [almostMax, epsilon, Int.sub_zero]; exact convert_self t h2.1

/-- **C68** does not hold, for any integral type. -/
theorem C68_violated : ¬ C68_Statement := by
  intro h
  have h1 := (h ⟨31, true⟩ (by decide)).2.2.2.2.2.2.1
  rw [(C68_epsilon ⟨31, true⟩ (by decide)).2.2.2.1] at h1
  exact lt_irrefl _ h1

/-- `signed char`, `unsigned short` and `bool`. -/
example : 0 < (⟨7, true⟩ : IntType).digits ∧ halfMin ⟨7, true⟩ = -64 ∧ halfMax ⟨7, true⟩ = 64 ∧
    halfMin ⟨16, false⟩ = 0 ∧ halfMax ⟨16, false⟩ = 32768 ∧ halfMax ⟨1, false⟩ = 1 := by decide

end Limits

end Litl
