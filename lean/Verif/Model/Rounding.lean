import Mathlib.Algebra.Order.Field.Basic
import Mathlib.Algebra.Order.Ring.Abs
import Mathlib.Algebra.Order.Floor.Ring
import Mathlib.Data.Int.Log
import Mathlib.Data.Rat.Floor
import Mathlib.Tactic.Linarith
import Mathlib.Tactic.Ring
import Mathlib.Tactic.FieldSimp
import Mathlib.Tactic.Positivity

/-!
# Floating point arithmetic

Rasters and kernels of floating point values are correlated with rounded products and sums.

Simplification: there are no overflows, infinities, or NaNs, and a product and a sum are not contracted to a single rounding.
-/

namespace Litl

/-- A rounding: the operands are exact, the result is the exact one, rounded.
`u` is the unit roundoff (2^-53 for `double`, rounding to nearest), and `eta` the largest error in case of underflow
(2^-1075 for `double`).
Every sum of floating point numbers which underflows is exact.
(LitlTransforms/LitlTransforms/Kernel.h:118-124, 157 and LitlTransforms/LitlTransforms/LineKernel.h:96-114 use the
operators of the value type through `std::inner_product()`.) -/
structure Rounding (K : Type) [Field K] [LinearOrder K] where
  fl : K → K
  u : K
  eta : K
  u_nonneg : 0 ≤ u
  eta_nonneg : 0 ≤ eta
  near : ∀ x, |fl x - x| ≤ u * |x| + eta
  idem : ∀ x, fl (fl x) = fl x
  sum : ∀ x y, fl x = x → fl y = y → |fl (x + y) - (x + y)| ≤ u * |x + y|
  zero : fl 0 = 0

variable {K : Type} [Field K] [LinearOrder K]

/-- The values of a floating point type: `T` in LitlTransforms/LitlTransforms/Kernel.h:118-124 is e.g. `float` or `double`. -/
def Fl (_ : Rounding K) : Type := K

namespace Fl

variable {R : Rounding K}

/-- The number which a value represents. -/
def val (x : Fl R) : K := x

/-- The value which represents a number (of finite precision). -/
def of (x : K) : Fl R := x

/-- `T {}` (LitlTransforms/LitlTransforms/Kernel.h:157). -/
instance : Zero (Fl R) := ⟨of 0⟩

/-- Rounded sum (as in `std::inner_product()`, LitlTransforms/LitlTransforms/Kernel.h:122). -/
instance : Add (Fl R) := ⟨fun x y => of (R.fl (x.val + y.val))⟩

/-- Rounded product (as in `std::inner_product()`, LitlTransforms/LitlTransforms/Kernel.h:122). -/
instance : Mul (Fl R) := ⟨fun x y => of (R.fl (x.val * y.val))⟩

/-- The values are ordered as numbers (LitlContainer/LitlContainer/DataDistribution.h:47 compares values of type `T`). -/
instance : LinearOrder (Fl R) := inferInstanceAs (LinearOrder K)

/-- Rounded difference (as in LitlContainer/LitlContainer/DataContainer.h:163). -/
instance : Sub (Fl R) := ⟨fun x y => of (R.fl (x.val - y.val))⟩

/-- Rounded quotient (as in LitlContainer/LitlContainer/DataContainer.h:163). -/
instance : Div (Fl R) := ⟨fun x y => of (R.fl (x.val / y.val))⟩

/-- Conversion of an unsigned integer: the usual arithmetic conversions of `size() - 1` and `i`
(LitlContainer/LitlContainer/DataContainer.h:163, 166). -/
instance : NatCast (Fl R) := ⟨fun n => of (R.fl n)⟩

theorem val_zero : (0 : Fl R).val = 0 := rfl

theorem val_add (x y : Fl R) : (x + y).val = R.fl (x.val + y.val) := rfl

theorem val_mul (x y : Fl R) : (x * y).val = R.fl (x.val * y.val) := rfl

theorem val_sub (x y : Fl R) : (x - y).val = R.fl (x.val - y.val) := rfl

theorem val_div (x y : Fl R) : (x / y).val = R.fl (x.val / y.val) := rfl

theorem val_natCast (n : Nat) : (n : Fl R).val = R.fl n := rfl

end Fl

/-! ## Binary floating point numbers -/

namespace Binary

/-- The exponent of the last bit of the numbers of `p` bits which are as large as `x`, if the smallest positive number is
`2 ^ emin` (the IEEE 754 format of the value type `T` in LitlTransforms/LitlTransforms/Kernel.h:122). -/
def exponent (p : Nat) (emin : Int) (x : ℚ) : Int := max (Int.log 2 |x| - p + 1) emin

/-- Rounding to the nearest integer, ties to even: the default rounding of the mantissa, according to IEEE 754 (value type `T`
in LitlTransforms/LitlTransforms/Kernel.h:122). -/
def roundEven (x : ℚ) : Int :=
  if 2 * Int.fract x < 1 then ⌊x⌋
  else if 1 < 2 * Int.fract x then ⌊x⌋ + 1
  else if ⌊x⌋ % 2 = 0 then ⌊x⌋
  else ⌊x⌋ + 1

theorem roundEven_intCast (n : Int) : roundEven n = n := by simp [roundEven]

theorem abs_sub_roundEven (x : ℚ) : |x - roundEven x| ≤ 1 / 2 := by
  have h := Int.floor_add_fract x
  have h0 := Int.fract_nonneg x
  have h1 := Int.fract_lt_one x
  unfold roundEven
  split_ifs <;> rw [abs_le] <;> push_cast <;> constructor <;> linarith

theorem roundEven_mono {x y : ℚ} (hxy : x ≤ y) : roundEven x ≤ roundEven y := by
  have hx := Int.floor_add_fract x
  have hy := Int.floor_add_fract y
  rcases (Int.floor_le_floor hxy).lt_or_eq with h | h
  · have h1 : roundEven x ≤ ⌊x⌋ + 1 := by unfold roundEven; split_ifs <;> omega
    have h2 : ⌊y⌋ ≤ roundEven y := by unfold roundEven; split_ifs <;> omega
    omega
  · have h1 : Int.fract x ≤ Int.fract y := by rw [h] at hx; linarith
    unfold roundEven
    rw [h]
    split_ifs <;> first | omega | (exfalso; linarith)

/-- Rounding to nearest on `p` bits, ties to even, with gradual underflow (the value type `T` in
LitlTransforms/LitlTransforms/Kernel.h:122). -/
def fl (p : Nat) (emin : Int) (x : ℚ) : ℚ := roundEven (x / 2 ^ exponent p emin x) * 2 ^ exponent p emin x

theorem fl_of_dvd {p : Nat} {emin : Int} {x : ℚ} {m : Int} (h : x = m * 2 ^ exponent p emin x) : fl p emin x = x := by
  have h2 : (2 : ℚ) ^ exponent p emin x ≠ 0 := (zpow_pos (by norm_num) _).ne'
  have h3 : x / 2 ^ exponent p emin x = m := by
    rw [div_eq_iff h2]; exact h
  unfold fl
  rw [h3, roundEven_intCast]
  exact h.symm

theorem fl_error (p : Nat) (emin : Int) (x : ℚ) : |fl p emin x - x| ≤ 2 ^ exponent p emin x / 2 := by
  have h2 : (0 : ℚ) < 2 ^ exponent p emin x := zpow_pos (by norm_num) _
  have h := abs_sub_roundEven (x / 2 ^ exponent p emin x)
  have e : fl p emin x - x = -((x / 2 ^ exponent p emin x - roundEven (x / 2 ^ exponent p emin x)) * 2 ^ exponent p emin x) := by
    unfold fl
    field_simp
    ring
  rw [e, abs_neg, abs_mul, abs_of_pos h2]
  nlinarith

theorem fl_zero (p : Nat) (emin : Int) : fl p emin 0 = 0 := by simp [fl, roundEven]

/-- Multiples of a power of two are multiples of the lower ones. -/
theorem multiple_of_le {a b : Int} (h : b ≤ a) (m : Int) : ∃ n : Int, (m : ℚ) * 2 ^ a = n * 2 ^ b := by
  refine ⟨m * 2 ^ (a - b).toNat, ?_⟩
  have : (2 : ℚ) ^ a = 2 ^ (a - b).toNat * 2 ^ b := by
    rw [← zpow_natCast, ← zpow_add₀ (by norm_num)]
    congr 1
    omega
  rw [this]
  push_cast
  ring

theorem fl_eq_multiple {p : Nat} {emin : Int} {x : ℚ} (h : fl p emin x = x) : ∃ m : Int, x = m * 2 ^ exponent p emin x :=
  ⟨roundEven (x / 2 ^ exponent p emin x), by rw [← fl]; exact h.symm⟩

theorem fl_multiple_emin {p : Nat} {emin : Int} {x : ℚ} (h : fl p emin x = x) : ∃ m : Int, x = m * 2 ^ emin := by
  obtain ⟨m, h1⟩ := fl_eq_multiple h
  obtain ⟨n, h2⟩ := multiple_of_le (le_max_right (Int.log 2 |x| - p + 1) emin) m
  exact ⟨n, by rw [← h2]; exact h1⟩

theorem pow_log_le {x : ℚ} (h : x ≠ 0) : (2 : ℚ) ^ Int.log 2 |x| ≤ |x| :=
  Int.zpow_log_le_self (by norm_num) (abs_pos.2 h)

theorem lt_pow_log (x : ℚ) : |x| < (2 : ℚ) ^ (Int.log 2 |x| + 1) := Int.lt_zpow_succ_log_self (by norm_num) _

/-- The relative error is at most `2^-p` when there is no underflow. -/
theorem fl_relative {p : Nat} {emin : Int} {x : ℚ} (hx : x ≠ 0) (h : emin ≤ Int.log 2 |x| - p + 1) :
    |fl p emin x - x| ≤ 1 / 2 ^ p * |x| := by
  refine (fl_error p emin x).trans ?_
  rw [exponent, max_eq_left h]
  have h1 := pow_log_le hx
  have h2 : (2 : ℚ) ^ (Int.log 2 |x| - p + 1) = 2 ^ Int.log 2 |x| / 2 ^ p * 2 := by
    rw [zpow_add₀ (by norm_num), zpow_sub₀ (by norm_num), zpow_natCast, zpow_one]
  rw [h2]
  have h3 : (0 : ℚ) < 2 ^ p := by positivity
  rw [mul_div_assoc, div_self (by norm_num : (2 : ℚ) ≠ 0), mul_one, one_div, div_eq_inv_mul]
  exact mul_le_mul_of_nonneg_left h1 (by positivity)

theorem fl_idem {p : Nat} (hp : 1 ≤ p) (emin : Int) (x : ℚ) : fl p emin (fl p emin x) = fl p emin x := by
  by_cases hx : fl p emin x = 0
  · rw [hx, fl_zero]
  set y := fl p emin x with hy
  have hy' : y = roundEven (x / 2 ^ exponent p emin x) * 2 ^ exponent p emin x := rfl
  by_cases hle : exponent p emin y ≤ exponent p emin x
  · obtain ⟨n, h1⟩ := multiple_of_le hle (roundEven (x / 2 ^ exponent p emin x))
    exact fl_of_dvd (m := n) (by rw [← h1]; exact hy')
  · -- the result is rounded up to the next power of 2
    have hlt := not_le.1 hle
    set E := exponent p emin x with hE
    set N := roundEven (x / 2 ^ E) with hN
    have hEy : exponent p emin y = Int.log 2 |y| - p + 1 := by
      unfold exponent
      refine max_eq_left ?_
      have h1 : emin ≤ E := le_max_right _ _
      by_contra h2
      have h3 : exponent p emin y = emin := max_eq_right (by omega)
      omega
    have h2E : (0 : ℚ) < 2 ^ E := zpow_pos (by norm_num) _
    have hxE : |x / 2 ^ E| < 2 ^ p := by
      rw [abs_div, abs_of_pos h2E, div_lt_iff₀ h2E]
      refine (lt_pow_log x).trans_le ?_
      rw [← zpow_natCast, ← zpow_add₀ (by norm_num)]
      refine zpow_le_zpow_right₀ (by norm_num) ?_
      have : Int.log 2 |x| - p + 1 ≤ E := le_max_left _ _
      omega
    have hNp : |N| ≤ 2 ^ p := by
      have h1 := abs_sub_roundEven (x / 2 ^ E)
      have h2 : |(N : ℚ)| < 2 ^ p + 1 := by
        have h3 : |(N : ℚ)| ≤ |x / 2 ^ E| + |x / 2 ^ E - N| := by
          have := abs_sub (x / 2 ^ E) (x / 2 ^ E - N)
          simpa using this
        linarith
      have h3 : |N| < 2 ^ p + 1 := by exact_mod_cast h2
      omega
    have hNlow : (2 : Int) ^ p ≤ |N| := by
      have h1 := pow_log_le hx
      have h2 : (2 : ℚ) ^ (E + p) ≤ |y| := (zpow_le_zpow_right₀ (by norm_num) (by omega)).trans h1
      rw [hy', abs_mul, abs_of_pos h2E, zpow_add₀ (by norm_num), mul_comm, zpow_natCast] at h2
      have h3 := le_of_mul_le_mul_right h2 h2E
      exact_mod_cast h3
    have hNeq : |N| = 2 ^ p := le_antisymm hNp hNlow
    have hyabs : |y| = 2 ^ (E + p) := by
      rw [hy', abs_mul, abs_of_pos h2E, zpow_add₀ (by norm_num), mul_comm (2 ^ E : ℚ), zpow_natCast]
      congr 1
      exact_mod_cast hNeq
    have hlogy : Int.log 2 |y| = E + p := by
      rw [hyabs]
      exact Int.log_zpow (by norm_num) _
    have hEy' : exponent p emin y = E + 1 := by rw [hEy, hlogy]; omega
    have hdvd : ∃ m : Int, N = m * 2 := by
      obtain ⟨k, rfl⟩ : ∃ k, p = k + 1 := ⟨p - 1, by omega⟩
      rcases abs_eq (by positivity) |>.1 hNeq with h | h
      · exact ⟨2 ^ k, by rw [h]; ring⟩
      · exact ⟨-2 ^ k, by rw [h]; ring⟩
    obtain ⟨m, hm⟩ := hdvd
    refine fl_of_dvd (m := m) ?_
    rw [hEy', hy', hm, zpow_add₀ (by norm_num), zpow_one]
    push_cast
    ring

theorem fl_sum (p : Nat) (emin : Int) {x y : ℚ} (hx : fl p emin x = x) (hy : fl p emin y = y) :
    |fl p emin (x + y) - (x + y)| ≤ 1 / 2 ^ p * |x + y| := by
  by_cases h0 : x + y = 0
  · rw [h0, fl_zero]; simp
  by_cases h : emin ≤ Int.log 2 |x + y| - p + 1
  · exact fl_relative h0 h
  · obtain ⟨m, hm⟩ := fl_multiple_emin hx
    obtain ⟨n, hn⟩ := fl_multiple_emin hy
    have e : exponent p emin (x + y) = emin := max_eq_right (by omega)
    have : fl p emin (x + y) = x + y := by
      refine fl_of_dvd (m := m + n) ?_
      rw [e]
      push_cast
      rw [add_mul, ← hm, ← hn]
    rw [this]
    simp only [sub_self, abs_zero]
    positivity

theorem fl_near (p : Nat) (emin : Int) (x : ℚ) : |fl p emin x - x| ≤ 1 / 2 ^ p * |x| + 2 ^ emin / 2 := by
  have h1 : (0 : ℚ) < 2 ^ emin := zpow_pos (by norm_num) _
  by_cases h0 : x = 0
  · rw [h0, fl_zero]
    simp only [sub_self, abs_zero, mul_zero, zero_add]
    linarith
  by_cases h : emin ≤ Int.log 2 |x| - p + 1
  · have := fl_relative h0 h
    linarith
  · have e : exponent p emin x = emin := max_eq_right (by omega)
    have h2 := fl_error p emin x
    rw [e] at h2
    have : 0 ≤ 1 / 2 ^ p * |x| := by positivity
    linarith

/-- The binary formats: e.g. `p = 24`, `emin = -149` for `float`, and `p = 53`, `emin = -1074` for `double`, as value type `T` in
LitlTransforms/LitlTransforms/Kernel.h:122. -/
def rounding (p : Nat) (hp : 1 ≤ p) (emin : Int) : Rounding ℚ where
  fl := fl p emin
  u := 1 / 2 ^ p
  eta := 2 ^ emin / 2
  u_nonneg := by positivity
  eta_nonneg := by
    have h1 : (0 : ℚ) < 2 ^ emin := zpow_pos (by norm_num) _
    linarith
  near := fl_near p emin
  idem := fl_idem hp emin
  sum := fun _ _ => fl_sum p emin
  zero := fl_zero p emin

end Binary

end Litl
