import Verif.Model.Rounding

/-!
# Lemmas about binary floating point numbers: order and integers
-/

namespace Litl

namespace Binary

theorem fl_le {p : Nat} {emin : Int} {x : ℚ} {m : Int} (h : x ≤ m * 2 ^ exponent p emin x) :
    fl p emin x ≤ m * 2 ^ exponent p emin x := by
  have h2 : (0 : ℚ) < 2 ^ exponent p emin x := zpow_pos (by norm_num) _
  unfold fl
  refine mul_le_mul_of_nonneg_right ?_ h2.le
  have := roundEven_mono (y := (m : ℚ)) ((div_le_iff₀ h2).2 h)
  rw [roundEven_intCast] at this
  exact_mod_cast this

theorem le_fl {p : Nat} {emin : Int} {x : ℚ} {m : Int} (h : m * 2 ^ exponent p emin x ≤ x) :
    m * 2 ^ exponent p emin x ≤ fl p emin x := by
  have h2 : (0 : ℚ) < 2 ^ exponent p emin x := zpow_pos (by norm_num) _
  unfold fl
  refine mul_le_mul_of_nonneg_right ?_ h2.le
  have := roundEven_mono (x := (m : ℚ)) ((le_div_iff₀ h2).2 h)
  rw [roundEven_intCast] at this
  exact_mod_cast this

theorem fl_nonneg {p : Nat} {emin : Int} {x : ℚ} (h : 0 ≤ x) : 0 ≤ fl p emin x := by
  have := le_fl (p := p) (emin := emin) (x := x) (m := 0) (by simpa using h)
  simpa using this

theorem fl_nonpos {p : Nat} {emin : Int} {x : ℚ} (h : x ≤ 0) : fl p emin x ≤ 0 := by
  have := fl_le (p := p) (emin := emin) (x := x) (m := 0) (by simpa using h)
  simpa using this

theorem exponent_mono (p : Nat) (emin : Int) {x y : ℚ} (hx : x ≠ 0) (h : |x| ≤ |y|) :
    exponent p emin x ≤ exponent p emin y := by
  have := Int.log_mono_right (b := 2) (abs_pos.2 hx) h
  unfold exponent
  omega

/-- Between two numbers of different exponents, there is a power of two which is a number with both exponents. -/
theorem exponent_lt {p : Nat} (hp : 1 ≤ p) {emin : Int} {x y : ℚ} (h : exponent p emin x < exponent p emin y) :
    |x| < 2 ^ Int.log 2 |y| ∧ exponent p emin x ≤ Int.log 2 |y| ∧ exponent p emin y ≤ Int.log 2 |y| := by
  have h1 : Int.log 2 |x| < Int.log 2 |y| ∧ exponent p emin x ≤ Int.log 2 |y| ∧ exponent p emin y ≤ Int.log 2 |y| := by
    unfold exponent at h ⊢
    omega
  exact ⟨(lt_pow_log x).trans_le (zpow_le_zpow_right₀ (by norm_num) (by omega)), h1.2⟩

/-- Rounding is monotone. -/
theorem fl_mono {p : Nat} (hp : 1 ≤ p) (emin : Int) {x y : ℚ} (h : x ≤ y) : fl p emin x ≤ fl p emin y := by
  have same : ∀ {x y : ℚ}, x ≤ y → exponent p emin x = exponent p emin y → fl p emin x ≤ fl p emin y := by
    intro x y h e
    have h2 : (0 : ℚ) < 2 ^ exponent p emin y := zpow_pos (by norm_num) _
    unfold fl
    rw [e]
    refine mul_le_mul_of_nonneg_right ?_ h2.le
    exact_mod_cast roundEven_mono (div_le_div_of_nonneg_right h h2.le)
  by_cases hx : x ≤ 0
  · by_cases hy : 0 ≤ y
    · exact (fl_nonpos hx).trans (fl_nonneg hy)
    · have hy0 : y ≠ 0 := by rintro rfl; exact hy le_rfl
      rcases (exponent_mono p emin hy0 (x := y) (y := x) (by
        rw [abs_of_nonpos hx, abs_of_neg (not_le.1 hy)]; linarith)).lt_or_eq with e | e
      · obtain ⟨h1, h2, h3⟩ := exponent_lt hp e
        have hx0 : x ≠ 0 := by rintro rfl; exact hy h
        have h4 := (pow_log_le hx0).trans_eq (abs_of_nonpos hx)
        rw [abs_of_neg (not_le.1 hy)] at h1
        obtain ⟨m, hm⟩ := multiple_of_le h3 (-1)
        obtain ⟨n, hn⟩ := multiple_of_le h2 (-1)
        have h5 := fl_le (p := p) (emin := emin) (x := x) (m := m) (by rw [← hm]; push_cast; linarith)
        have h6 := le_fl (p := p) (emin := emin) (x := y) (m := n) (by
          rw [← hn]; push_cast; linarith)
        rw [← hm] at h5
        rw [← hn] at h6
        exact h5.trans h6
      · exact same h e.symm
  · have hx' := not_le.1 hx
    rcases (exponent_mono p emin hx'.ne' (x := x) (y := y) (by
      rw [abs_of_pos hx', abs_of_pos (hx'.trans_le h)]; exact h)).lt_or_eq with e | e
    · obtain ⟨h1, h2, h3⟩ := exponent_lt hp e
      have h4 := (pow_log_le (hx'.trans_le h).ne').trans_eq (abs_of_pos (hx'.trans_le h))
      obtain ⟨m, hm⟩ := multiple_of_le h3 1
      obtain ⟨n, hn⟩ := multiple_of_le h2 1
      have h5 := le_fl (p := p) (emin := emin) (x := y) (m := m) (by
        rw [← hm]; push_cast; linarith)
      have h6 := fl_le (p := p) (emin := emin) (x := x) (m := n) (by
        rw [← hn]; push_cast; rw [abs_of_pos hx'] at h1; linarith)
      rw [← hm] at h5
      rw [← hn] at h6
      exact h6.trans h5
    · exact same h e

/-- Small multiples of the powers of two which are numbers are numbers. -/
theorem fl_mul_pow {p : Nat} {emin e : Int} (he : emin ≤ e) {n : Int} (h : |n| < 2 ^ p) :
    fl p emin (n * 2 ^ e) = n * 2 ^ e := by
  by_cases h0 : n = 0
  · subst h0; simp [fl_zero]
  · have h2 : (0 : ℚ) < 2 ^ e := zpow_pos (by norm_num) _
    have hlog : Int.log 2 |(n : ℚ) * 2 ^ e| < p + e := by
      have h1 : |(n : ℚ) * 2 ^ e| < 2 ^ ((p : Int) + e) := by
        rw [abs_mul, abs_of_pos h2, zpow_add₀ (by norm_num), zpow_natCast]
        refine mul_lt_mul_of_pos_right ?_ h2
        exact_mod_cast h
      have hne : (n : ℚ) * 2 ^ e ≠ 0 := mul_ne_zero (by exact_mod_cast h0) h2.ne'
      have h3 := (pow_log_le hne).trans_lt h1
      exact (zpow_lt_zpow_iff_right₀ (by norm_num)).1 h3
    obtain ⟨m, hm⟩ := multiple_of_le (a := e) (b := exponent p emin (n * 2 ^ e)) (by
      unfold exponent
      omega) n
    exact fl_of_dvd (m := m) hm

/-- Small integers are numbers. -/
theorem fl_intCast {p : Nat} {emin : Int} (he : emin ≤ 0) {n : Int} (h : |n| < 2 ^ p) : fl p emin n = n := by
  have := fl_mul_pow (p := p) he h
  simpa using this

/-- A value which is in the middle of no two integers is rounded to the closest one. -/
theorem roundEven_eq {x : ℚ} {m : Int} (h : |x - m| < 1 / 2) : roundEven x = m := by
  have h1 := abs_sub_roundEven x
  have h2 : |((roundEven x - m : Int) : ℚ)| < 1 := by
    push_cast
    have e : (roundEven x : ℚ) - m = (x - m) - (x - roundEven x) := by ring
    rw [e]
    exact (abs_sub _ _).trans_lt (by linarith)
  have h3 : |roundEven x - m| < 1 := by exact_mod_cast h2
  have := Int.abs_lt_one_iff.1 h3
  omega

/-- Integer logarithms. -/
theorem log_eq {x : ℚ} {k : Int} (h1 : 2 ^ k ≤ x) (h2 : x < 2 ^ (k + 1)) : Int.log 2 x = k := by
  have hx : 0 < x := lt_of_lt_of_le (zpow_pos (by norm_num) _) h1
  have a : k ≤ Int.log 2 x := (Int.zpow_le_iff_le_log (by norm_num) hx).1 (by exact_mod_cast h1)
  have b : Int.log 2 x < k + 1 := (Int.lt_zpow_iff_log_lt (by norm_num) hx).1 (by exact_mod_cast h2)
  omega

/-- The exponent of a normal number. -/
theorem exponent_eq {p : Nat} {emin e : Int} (he : emin ≤ e) {x : ℚ} (h1 : 2 ^ (e + p - 1) ≤ x) (h2 : x < 2 ^ (e + p)) :
    exponent p emin x = e := by
  have hx : 0 < x := lt_of_lt_of_le (zpow_pos (by norm_num) _) h1
  unfold exponent
  rw [abs_of_pos hx, log_eq h1 (by rwa [sub_add_cancel])]
  omega

/-- Rounding a normal number. -/
theorem fl_eq {p : Nat} {emin e : Int} (he : emin ≤ e) {x : ℚ} {m : Int} (h1 : 2 ^ (e + p - 1) ≤ x) (h2 : x < 2 ^ (e + p))
    (h : |x - m * 2 ^ e| < 2 ^ e / 2) : fl p emin x = m * 2 ^ e := by
  have h0 : (0 : ℚ) < 2 ^ e := zpow_pos (by norm_num) _
  rw [fl, exponent_eq he h1 h2, roundEven_eq (m := m)]
  have e1 : x / 2 ^ e - m = (x - m * 2 ^ e) / 2 ^ e := by field_simp
  rw [e1, abs_div, abs_of_pos h0, div_lt_iff₀ h0]
  linarith

end Binary

end Litl
