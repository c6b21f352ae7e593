import Verif.Lemmas.InterpolationRounding
import Verif.Spec.Nearest

/-!
# `Binary.fl` is rounding to nearest, ties to even
-/

namespace Litl.Binary

open Spec

theorem isNumber_iff {p : Nat} {emin : Int} {y : ℚ} : IsNumber p emin y ↔ fl p emin y = y := by
  constructor
  · rintro ⟨m, e, hm, he, rfl⟩
    exact fl_mul_pow he hm
  · intro h
    obtain ⟨m, hm⟩ := fl_eq_multiple h
    refine ⟨m, exponent p emin y, ?_, le_max_right _ _, hm⟩
    have h2 : (0 : ℚ) < 2 ^ exponent p emin y := zpow_pos (by norm_num) _
    have h1 : |y| < 2 ^ p * 2 ^ exponent p emin y := by
      refine (lt_pow_log y).trans_le ?_
      rw [← zpow_natCast, ← zpow_add₀ (by norm_num)]
      refine zpow_le_zpow_right₀ (by norm_num) ?_
      have : Int.log 2 |y| - p + 1 ≤ exponent p emin y := le_max_left _ _
      omega
    have h3 : |(m : ℚ)| < 2 ^ p := by
      rw [hm, abs_mul] at h1
      rw [← hm, abs_of_pos h2] at h1
      exact lt_of_mul_lt_mul_right h1 h2.le
    exact_mod_cast h3

theorem isNumber_fl {p : Nat} (hp : 1 ≤ p) (emin : Int) (x : ℚ) : IsNumber p emin (fl p emin x) :=
  isNumber_iff.2 (fl_idem hp emin x)

/-- The nearest integer; of two nearest ones, the even one. -/
theorem roundEven_nearest (x : ℚ) (k : Int) :
    |(roundEven x : ℚ) - x| ≤ |(k : ℚ) - x| ∧
      (k ≠ roundEven x → |(roundEven x : ℚ) - x| = |(k : ℚ) - x| → (∃ n, roundEven x = 2 * n) ∧ |roundEven x - k| = 1) := by
  have h := Int.floor_add_fract x
  have h0 := Int.fract_nonneg x
  have h1 := Int.fract_lt_one x
  have hk : k ≤ ⌊x⌋ ∨ ⌊x⌋ + 1 ≤ k := by omega
  have hkq : (k : ℚ) ≤ ⌊x⌋ ∨ (⌊x⌋ : ℚ) + 1 ≤ k := by
    rcases hk with h | h
    · left; exact_mod_cast h
    · right; exact_mod_cast h
  generalize hf : ⌊x⌋ = f at *
  generalize hr : Int.fract x = r at *
  have hx : x = f + r := h.symm
  have hR : roundEven x = if 2 * r < 1 then f else if 1 < 2 * r then f + 1 else if f % 2 = 0 then f else f + 1 := by
    unfold roundEven; rw [hf, hr]
  rw [hR]
  have e1 : |(f : ℚ) - x| = r := by rw [hx]; rw [abs_of_nonpos (by linarith)]; ring
  have e2 : |((f + 1 : Int) : ℚ) - x| = 1 - r := by rw [hx]; push_cast; rw [abs_of_nonneg (by linarith)]; ring
  have e3 : (k : ℚ) ≤ f → |(k : ℚ) - x| = r + (f - k) := by
    intro h; rw [hx, abs_of_nonpos (by linarith)]; ring
  have e4 : (f : ℚ) + 1 ≤ k → |(k : ℚ) - x| = (1 - r) + (k - (f + 1)) := by
    intro h; rw [hx, abs_of_nonneg (by linarith)]; ring
  have half : ¬ 2 * r < 1 → ¬ 1 < 2 * r → r = 1 / 2 := by intro a b; linarith [not_lt.1 a, not_lt.1 b]
  rcases hkq with hq | hq
  · rw [e3 hq]
    split_ifs with c1 c2 c3
    · rw [e1]; refine ⟨by linarith, fun hne he => absurd ?_ hne⟩
      have : (k : ℚ) = f := by linarith
      exact_mod_cast this
    · rw [e2]; refine ⟨by linarith, fun hne he => ?_⟩
      exfalso; linarith
    · rw [e1]; refine ⟨by linarith, fun hne he => absurd ?_ hne⟩
      have : (k : ℚ) = f := by linarith
      exact_mod_cast this
    · have hr2 := half c1 c2
      rw [e2]; refine ⟨by linarith, fun hne he => ?_⟩
      have : (k : ℚ) = f := by linarith
      have hkf : k = f := by exact_mod_cast this
      refine ⟨⟨(f + 1) / 2, by omega⟩, ?_⟩
      rw [hkf]; simp
  · rw [e4 hq]
    split_ifs with c1 c2 c3
    · rw [e1]; refine ⟨by linarith, fun hne he => ?_⟩
      exfalso; linarith
    · rw [e2]; refine ⟨by linarith, fun hne he => absurd ?_ hne⟩
      have : (k : ℚ) = f + 1 := by linarith
      exact_mod_cast this
    · have hr2 := half c1 c2
      rw [e1]; refine ⟨by linarith, fun hne he => ?_⟩
      have : (k : ℚ) = f + 1 := by linarith
      have hkf : k = f + 1 := by exact_mod_cast this
      refine ⟨⟨f / 2, by omega⟩, ?_⟩
      rw [hkf]; simp
    · rw [e2]; refine ⟨by linarith, fun hne he => absurd ?_ hne⟩
      have : (k : ℚ) = f + 1 := by linarith
      exact_mod_cast this

/-- Among the multiples of the last bit, the result is the nearest one. -/
theorem fl_nearest_multiple (p : Nat) (emin : Int) (x : ℚ) (k : Int) :
    |fl p emin x - x| ≤ |k * 2 ^ exponent p emin x - x| ∧
      (k * 2 ^ exponent p emin x ≠ fl p emin x → |fl p emin x - x| = |k * 2 ^ exponent p emin x - x| →
        ∃ n : Int, fl p emin x = 2 * n * |fl p emin x - k * 2 ^ exponent p emin x|) := by
  set E := exponent p emin x with hE
  have h2 : (0 : ℚ) < 2 ^ E := zpow_pos (by norm_num) _
  obtain ⟨a, b⟩ := roundEven_nearest (x / 2 ^ E) k
  have hfl : fl p emin x = roundEven (x / 2 ^ E) * 2 ^ E := rfl
  have scale : ∀ n : Int, |(n : ℚ) * 2 ^ E - x| = |(n : ℚ) - x / 2 ^ E| * 2 ^ E := by
    intro n
    have : (n : ℚ) * 2 ^ E - x = (n - x / 2 ^ E) * 2 ^ E := by field_simp
    rw [this, abs_mul, abs_of_pos h2]
  rw [hfl, scale, scale]
  refine ⟨mul_le_mul_of_nonneg_right a h2.le, fun hne he => ?_⟩
  obtain ⟨⟨n, hn⟩, hd⟩ := b (by rintro rfl; exact hne rfl) (mul_right_cancel₀ h2.ne' he)
  refine ⟨n, ?_⟩
  have hd' : |(roundEven (x / 2 ^ E) : ℚ) - k| = 1 := by exact_mod_cast hd
  rw [← sub_mul, abs_mul, abs_of_pos h2, hd', hn]
  push_cast
  ring

/-- The computed rounding is rounding to nearest, ties to even. -/
theorem fl_isNearest {p : Nat} (hp : 1 ≤ p) (emin : Int) (x : ℚ) : IsNearest p emin x (fl p emin x) := by
  refine ⟨isNumber_fl hp emin x, fun z hz => ?_⟩
  by_cases hx : x = 0
  · subst hx
    rw [fl_zero]
    simp only [sub_self, abs_zero, sub_zero]
    exact ⟨abs_nonneg z, fun hne he => absurd (abs_eq_zero.1 he.symm) hne⟩
  by_cases hle : exponent p emin x ≤ exponent p emin z
  · obtain ⟨m, hm⟩ := fl_eq_multiple (isNumber_iff.1 hz)
    obtain ⟨k, hk⟩ := multiple_of_le hle m
    have hz' : z = k * 2 ^ exponent p emin x := by rw [← hk]; exact hm
    have := fl_nearest_multiple p emin x k
    rw [← hz'] at this
    exact this
  · obtain ⟨h1, _, h3⟩ := exponent_lt hp (not_le.1 hle)
    have h4 := pow_log_le hx
    -- the power of two between `z` and `x`
    have key : |fl p emin x - x| ≤ |x| - 2 ^ Int.log 2 |x| := by
      rcases le_total 0 x with h | h
      · obtain ⟨k, hk⟩ := multiple_of_le h3 1
        have := (fl_nearest_multiple p emin x k).1
        rw [← hk] at this
        rw [abs_of_nonneg h] at h4 this ⊢
        refine this.trans_eq ?_
        rw [abs_of_nonpos (by push_cast; linarith)]
        push_cast
        ring
      · obtain ⟨k, hk⟩ := multiple_of_le h3 (-1)
        have := (fl_nearest_multiple p emin x k).1
        rw [← hk] at this
        rw [abs_of_nonpos h] at h4 this ⊢
        refine this.trans_eq ?_
        rw [abs_of_nonneg (by push_cast; linarith)]
        push_cast
        ring
    have h5 : |x| - |z| ≤ |z - x| := by rw [abs_sub_comm]; exact abs_sub_abs_le_abs_sub x z
    exact ⟨by linarith, fun _ he => by exfalso; linarith⟩

/-- There is only one nearest number. -/
theorem isNearest_unique {p : Nat} (hp : 1 ≤ p) {emin : Int} {x y : ℚ} (h : IsNearest p emin x y) : y = fl p emin x := by
  by_contra hne
  have h' := fl_isNearest hp emin x
  have a := h.2 _ h'.1
  have b := h'.2 _ h.1
  have e := le_antisymm a.1 b.1
  obtain ⟨m, hm⟩ := a.2 (fun c => hne c.symm) e
  obtain ⟨n, hn⟩ := b.2 hne e.symm
  rw [abs_sub_comm] at hn
  set d := |y - fl p emin x| with hd
  have hd0 : 0 < d := abs_pos.2 (sub_ne_zero.2 hne)
  have e1 : y - fl p emin x = ((2 * (m - n) : Int) : ℚ) * d := by
    push_cast
    linarith
  have e2 : d = |((2 * (m - n) : Int) : ℚ)| * d := by
    conv_lhs => rw [hd, e1, abs_mul, abs_of_pos hd0]
  have e3 : |((2 * (m - n) : Int) : ℚ)| = 1 := by
    have := mul_right_cancel₀ hd0.ne' (e2.symm.trans (one_mul d).symm)
    exact this
  have e4 : |2 * (m - n)| = 1 := by exact_mod_cast e3
  rcases (abs_eq (by norm_num)).1 e4 with h | h <;> omega

theorem isNearest_iff {p : Nat} (hp : 1 ≤ p) {emin : Int} {x y : ℚ} : IsNearest p emin x y ↔ y = fl p emin x :=
  ⟨isNearest_unique hp, fun h => h ▸ fl_isNearest hp emin x⟩

end Litl.Binary
