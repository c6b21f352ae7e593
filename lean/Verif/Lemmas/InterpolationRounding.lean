import Verif.Model.InterpolationRounding
import Verif.Lemmas.Interpolation
import Verif.Lemmas.Rounding

/-!
# Lemmas about positions which are floating point numbers
-/

namespace Litl

namespace Binary

theorem roundEven_neg (x : ℚ) : roundEven (-x) = -roundEven x := by
  by_cases hx : Int.fract x = 0
  · obtain ⟨m, rfl⟩ : ∃ m : Int, x = m := ⟨⌊x⌋, by have := Int.floor_add_fract x; linarith⟩
    rw [← Int.cast_neg, roundEven_intCast, roundEven_intCast]
  · have h1 : Int.fract (-x) = 1 - Int.fract x := Int.fract_neg hx
    have h2 : ⌊-x⌋ = -⌊x⌋ - 1 := by
      have e1 := Int.floor_add_fract x
      have e2 := Int.floor_add_fract (-x)
      have : ((⌊-x⌋ : Int) : ℚ) = ((-⌊x⌋ - 1 : Int) : ℚ) := by push_cast; linarith
      exact_mod_cast this
    unfold roundEven
    rw [h1, h2]
    split_ifs <;> first | omega | (exfalso; linarith)

theorem fl_neg (p : Nat) (emin : Int) (x : ℚ) : fl p emin (-x) = -fl p emin x := by
  unfold fl exponent
  rw [abs_neg, neg_div, roundEven_neg]
  push_cast
  ring

/-- Large numbers are integers. -/
theorem fl_integral {p : Nat} {emin : Int} {x : ℚ} (h : fl p emin x = x) (hx : 2 ^ p ≤ |x|) : x = ⌊x⌋ := by
  obtain ⟨m, hm⟩ := fl_eq_multiple h
  have hlog : (p : Int) ≤ Int.log 2 |x| := by
    rw [← Int.zpow_le_iff_le_log (by norm_num) (lt_of_lt_of_le (by positivity) hx)]
    exact_mod_cast hx
  have hE : 0 ≤ exponent p emin x := (by omega : (0 : Int) ≤ Int.log 2 |x| - p + 1).trans (le_max_left _ _)
  obtain ⟨n, hn⟩ := multiple_of_le hE m
  rw [hm, hn, zpow_zero, mul_one, Int.floor_intCast]

/-- The floor of a nonnegative number is a number. -/
theorem fl_floor {p : Nat} {emin : Int} (he : emin ≤ 0) {x : ℚ} (hx : 0 ≤ x) (h : fl p emin x = x) :
    fl p emin (⌊x⌋ : Int) = (⌊x⌋ : Int) := by
  by_cases h1 : 2 ^ p ≤ |x|
  · rw [← fl_integral h h1, h]
  · refine fl_intCast he ?_
    have h0 := Int.floor_nonneg.2 hx
    have h2 := Int.floor_le x
    rw [abs_of_nonneg hx, not_le] at h1
    rw [abs_of_nonneg h0]
    have : ((⌊x⌋ : Int) : ℚ) < ((2 ^ p : Int) : ℚ) := by push_cast; linarith
    exact_mod_cast this

/-- The numbers between two powers of two. -/
theorem fl_binade {p : Nat} {emin e : Int} (he : emin ≤ e - p) {x : ℚ} (h : fl p emin x = x) (h1 : 2 ^ (e - 1) ≤ x)
    (h2 : x < 2 ^ e) : ∃ m : Int, x = m * 2 ^ (e - p) ∧ m < 2 ^ p := by
  have hpos : (0 : ℚ) < 2 ^ (e - p) := zpow_pos (by norm_num) _
  obtain ⟨m, hm⟩ := fl_eq_multiple h
  rw [exponent_eq (e := e - p) he (by rw [show e - p + p - 1 = e - 1 by ring]; exact h1)
    (by rw [sub_add_cancel]; exact h2)] at hm
  refine ⟨m, hm, ?_⟩
  have e1 : (2 : ℚ) ^ e = 2 ^ p * 2 ^ (e - p) := by
    rw [← zpow_natCast, ← zpow_add₀ (by norm_num)]
    congr 1
    ring
  rw [hm, e1] at h2
  have := lt_of_mul_lt_mul_right h2 hpos.le
  exact_mod_cast this

/-- A number below a power of two is at most the previous number. -/
theorem le_pred_pow {p : Nat} (hp : 1 ≤ p) {emin e : Int} (he : emin ≤ e - p) {x : ℚ} (h : fl p emin x = x)
    (hx : x < 2 ^ e) : x ≤ 2 ^ e - 2 ^ (e - p) := by
  have hpos : (0 : ℚ) < 2 ^ (e - p) := zpow_pos (by norm_num) _
  by_cases h0 : x ≤ 2 ^ (e - 1)
  · refine h0.trans ?_
    have h1 : (2 : ℚ) ^ e = 2 * 2 ^ (e - 1) := by
      rw [← zpow_one_add₀ (by norm_num)]
      congr 1
      ring
    have : (2 : ℚ) ^ (e - p) ≤ 2 ^ (e - 1) := zpow_le_zpow_right₀ (by norm_num) (by omega)
    linarith
  · obtain ⟨m, hm, hlt⟩ := fl_binade he h (not_le.1 h0).le hx
    have e1 : (2 : ℚ) ^ e = 2 ^ p * 2 ^ (e - p) := by
      rw [← zpow_natCast, ← zpow_add₀ (by norm_num)]
      congr 1
      ring
    have h3 : (m : ℚ) ≤ 2 ^ p - 1 := by
      have : m ≤ 2 ^ p - 1 := by omega
      exact_mod_cast this
    rw [e1, hm]
    nlinarith

end Binary

/-! ## Conversions -/

theorem ck_ok {x : Int} (h : IsI64 x) : Checked.ck x = .ok x := if_pos h

/-- `floor<Index>` is defined exactly for the numbers of the range of `Index`, but for its lowest value. -/
theorem floorOf_eq {x : ℚ} (h1 : -2 ^ 63 < x) (h2 : x < 2 ^ 63) : floorOf x = .ok (floorIndex x) := by
  have hb := floorIndex_bounds x
  have hf1 : -2 ^ 63 ≤ floorIndex x := by
    have : (((-2 ^ 63 : Int)) : ℚ) < ((floorIndex x + 1 : Int) : ℚ) := by push_cast; linarith
    have : (-2 ^ 63 : Int) < floorIndex x + 1 := by exact_mod_cast this
    omega
  have hf2 : floorIndex x < 2 ^ 63 := by
    have : ((floorIndex x : Int) : ℚ) < ((2 ^ 63 : Int) : ℚ) := by push_cast; linarith
    exact_mod_cast this
  have ht : toIndex x - (if x < 0 then 1 else 0) = floorIndex x := rfl
  have ht' : IsI64 (toIndex x) := by
    have h0 : x < 0 → toIndex x ≤ 0 := fun h => by
      rw [toIndex_of_neg h]
      exact Int.ceil_le.2 (by simpa using h.le)
    unfold IsI64
    split_ifs at ht with h
    · have := h0 h
      omega
    · omega
  unfold floorOf indexOf
  rw [ck_ok ht']
  show Checked.ck (toIndex x - (if x < 0 then 1 else 0)) = _
  rw [ht, ck_ok ⟨hf1, hf2⟩]

/-- Otherwise, the behaviour is undefined. -/
theorem floorOf_ub {x : ℚ} (h : ¬ (-2 ^ 63 < x ∧ x < 2 ^ 63)) : floorOf x = .error .ub := by
  unfold floorOf indexOf Checked.ck
  by_cases h0 : x < 0
  · have hx : x ≤ -2 ^ 63 := by
      by_contra hc
      exact h ⟨not_le.1 hc, by linarith⟩
    have h1 : toIndex x ≤ -2 ^ 63 := by
      rw [toIndex_of_neg h0]
      refine Int.ceil_le.2 ?_
      push_cast
      exact hx
    have h2 : ¬ IsI64 (toIndex x - 1) := by unfold IsI64; omega
    split_ifs with h3
    · show (if IsI64 (toIndex x - 1) then _ else _) = _
      rw [if_neg h2]
    · rfl
  · have hx : 2 ^ 63 ≤ x := by
      by_contra hc
      exact h ⟨by linarith, not_le.1 hc⟩
    have h1 : 2 ^ 63 ≤ toIndex x := by
      rw [toIndex_of_nonneg (by linarith)]
      refine Int.le_floor.2 ?_
      push_cast
      exact hx
    rw [if_neg (by unfold IsI64; omega)]
    rfl

end Litl
