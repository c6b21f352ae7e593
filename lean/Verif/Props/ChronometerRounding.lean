import Verif.Model.ChronometerRounding
import Verif.Props.DistributionRounding
import Verif.Lemmas.InterpolationRounding
import Verif.Spec.Statistics

/-!
# C101: statistics of the chronometer in floating point arithmetic
-/

namespace Litl.Chronometer

open Spec

/-! ## Sums -/

theorem incrementsFl_eq (R : Rounding ℚ) (counts : List Int) :
    incrementsFl R counts = counts.map fun c : Int => (Fl.of (R.fl c) : Fl R) := by
  have key : ∀ (v : List (Fl R)), counts.foldl pushFl v = v ++ counts.map fun c : Int => (Fl.of (R.fl c) : Fl R) := by
    induction counts with
    | nil => simp
    | cons c l ih => intro v; rw [List.foldl_cons, ih, pushFl]; simp
  rw [incrementsFl, key, List.nil_append]

/-- The sum of the squares of deviations. -/
theorem sum_sq_sub (l : List ℚ) (c : ℚ) :
    (l.map fun y => (y - c) ^ 2).sum = (l.map fun y => y ^ 2).sum - 2 * c * l.sum + l.length * c ^ 2 := by
  induction l with
  | nil => simp
  | cons x l ih => simp only [List.map_cons, List.sum_cons, ih, List.length_cons]; push_cast; ring

theorem dispersion_eq {x : List ℚ} (h : x ≠ []) : dispersion x = power x - average x ^ 2 := by
  have hn : (x.length : ℚ) ≠ 0 := by exact_mod_cast (List.length_pos_iff.2 h).ne'
  unfold dispersion power
  have := sum_sq_sub x (average x)
  unfold average at this ⊢
  rw [this]
  simp only [List.length_map]
  field_simp
  ring

/-- Cauchy-Schwarz inequality, for the numbers which are not null. -/
theorem sum_sq_le (l : List ℚ) :
    l.sum ^ 2 ≤ (l.filter fun y => y ≠ 0).length * (l.map fun y => y ^ 2).sum ∧ 0 ≤ (l.map fun y => y ^ 2).sum := by
  induction l with
  | nil => simp
  | cons y l ih =>
    obtain ⟨h1, h2⟩ := ih
    simp only [List.sum_cons, List.map_cons]
    have hy : 0 ≤ y ^ 2 := sq_nonneg y
    refine ⟨?_, by linarith⟩
    by_cases h : y = 0
    · subst h
      simpa using h1
    · rw [List.filter_cons_of_pos (by simpa using h), List.length_cons]
      set k := (l.filter fun y => y ≠ 0).length
      set s := l.sum
      set t := (l.map fun y => y ^ 2).sum
      push_cast
      rcases Nat.eq_zero_or_pos k with hk | hk
      · rw [hk] at h1 ⊢
        have : s = 0 := by
          simp only [Nat.cast_zero, zero_mul] at h1
          exact pow_eq_zero_iff (n := 2) (by norm_num) |>.1 (le_antisymm h1 (sq_nonneg s))
        rw [this]
        simp only [Nat.cast_zero]
        nlinarith
      · have hk' : (0 : ℚ) < k := by exact_mod_cast hk
        have : (k : ℚ) * (2 * (y * s)) ≤ k * (t + k * y ^ 2) := by nlinarith [sq_nonneg (k * y - s)]
        have := le_of_mul_le_mul_left this hk'
        nlinarith

theorem abs_average_sq_le (x : List ℚ) : average (x.map fun y => |y|) ^ 2 ≤ power x := by
  obtain ⟨h1, h2⟩ := sum_sq_le (x.map fun y => |y|)
  rw [List.map_map] at h1 h2
  have e : ((fun y : ℚ => y ^ 2) ∘ fun y : ℚ => |y|) = fun y => y ^ 2 := by funext y; simp
  rw [e] at h1 h2
  have hle := List.length_filter_le (fun y : ℚ => decide (y ≠ 0)) (x.map fun y => |y|)
  rw [List.length_map] at hle
  unfold power average
  simp only [List.length_map]
  rcases Nat.eq_zero_or_pos x.length with h0 | h0
  · simp [h0]
  have hn : (0 : ℚ) < x.length := by exact_mod_cast h0
  rw [div_pow, div_le_div_iff₀ (by positivity) hn]
  have hle' : (((x.map fun y => |y|).filter fun y => decide (y ≠ 0)).length : ℚ) ≤ x.length := by exact_mod_cast hle
  have := mul_le_mul_of_nonneg_right hle' h2
  nlinarith

theorem average_abs_le (x : List ℚ) : |average x| ≤ average (x.map fun y => |y|) := by
  unfold average
  rw [abs_div, List.length_map, abs_of_nonneg (by positivity : (0 : ℚ) ≤ x.length)]
  refine div_le_div_of_nonneg_right ?_ (by positivity)
  induction x with
  | nil => simp
  | cons x l ih =>
    simp only [List.map_cons, List.sum_cons]
    exact (abs_add_le _ _).trans (by linarith)

theorem power_nonneg (x : List ℚ) : 0 ≤ power x := (sq_nonneg _).trans (abs_average_sq_le x)

theorem dispersion_nonneg (x : List ℚ) : 0 ≤ dispersion x := by
  unfold dispersion average
  refine div_nonneg (List.sum_nonneg ?_) (by positivity)
  intro y hy
  obtain ⟨z, -, rfl⟩ := List.mem_map.1 hy
  positivity

theorem dispersion_le_power (x : List ℚ) : dispersion x ≤ power x := by
  by_cases h : x = []
  · subst h; simp [dispersion, power, average]
  · rw [dispersion_eq h]
    have := sq_nonneg (average x)
    linarith

/-! ## Accuracy -/

section

variable {R : Rounding ℚ}

/-- No underflow: the relative error of the rounding of `x` is at most the unit roundoff. -/
def Normal (R : Rounding ℚ) (x : ℚ) : Prop := |R.fl x - x| ≤ R.u * |x|

theorem squaresFl_eq (v : List (Fl R)) : squaresFl v = (v.map fun x => x * x).foldl (· + ·) 0 := by
  rw [squaresFl, List.foldl_map]

theorem rounded_squares (v : List (Fl R)) (h : ∀ x ∈ v, Normal R (x.val * x.val)) :
    |((v.map fun x => x * x).map Fl.val).sum - ((v.map Fl.val).map fun y => y ^ 2).sum| ≤
      R.u * ((v.map Fl.val).map fun y => y ^ 2).sum ∧
    ((v.map fun x => x * x).map fun x => |x.val|).sum ≤ (1 + R.u) * ((v.map Fl.val).map fun y => y ^ 2).sum := by
  induction v with
  | nil => simp
  | cons x v ih =>
    obtain ⟨h1, h2⟩ := ih fun y hy => h y (by simp [hy])
    have hx := h x (by simp)
    unfold Normal at hx
    rw [abs_mul_self] at hx
    simp only [List.map_cons, List.sum_cons, Fl.val_mul]
    set a := R.fl (x.val * x.val)
    have ea : |a| ≤ (1 + R.u) * x.val ^ 2 := by
      have := abs_add_le (a - x.val * x.val) (x.val * x.val)
      rw [sub_add_cancel, abs_mul_self] at this
      nlinarith
    constructor
    · rw [add_sub_add_comm]
      refine (abs_add_le _ _).trans ?_
      rw [sq]
      linarith
    · linarith

theorem squaresFl_accurate (v : List (Fl R)) (h : ∀ x ∈ v, Normal R (x.val * x.val)) :
    |(squaresFl v).val - ((v.map Fl.val).map fun y => y ^ 2).sum| ≤
      ((1 + R.u) ^ (v.length + 1) - 1) * ((v.map Fl.val).map fun y => y ^ 2).sum := by
  have hu := R.u_nonneg
  obtain ⟨h1, h2⟩ := rounded_squares v h
  have h3 := Distribution.foldl_error (v.map fun x => x * x) (by
    intro x hx
    obtain ⟨y, -, rfl⟩ := List.mem_map.1 hx
    rw [Fl.val_mul, R.idem]) 0 (by rw [Fl.val_zero, R.zero])
  rw [← squaresFl_eq, Fl.val_zero, zero_add, abs_zero, zero_add, List.length_map] at h3
  set S := ((v.map Fl.val).map fun y => y ^ 2).sum
  set T := ((v.map fun x => x * x).map Fl.val).sum
  set A := ((v.map fun x => x * x).map fun x => |x.val|).sum
  have hp : 1 ≤ (1 + R.u) ^ v.length := one_le_pow₀ (by linarith)
  have h4 := mul_le_mul_of_nonneg_left h2 (by linarith : 0 ≤ (1 + R.u) ^ v.length - 1)
  have h5 := abs_add_le ((squaresFl v).val - T) (T - S)
  rw [sub_add_sub_cancel] at h5
  rw [pow_succ]
  linarith

/-- Errors of products and quotients add up. -/
theorem fl_step {x y P e : ℚ} (hy : |x - y| ≤ e * P) (hP : |y| ≤ P) (hx : Normal R x) :
    |R.fl x - y| ≤ ((1 + R.u) * (1 + e) - 1) * P := by
  have hu := R.u_nonneg
  unfold Normal at hx
  have h1 := abs_add_le (R.fl x - x) (x - y)
  rw [sub_add_sub_cancel] at h1
  have h2 := abs_add_le (x - y) y
  rw [sub_add_cancel] at h2
  have h3 : R.u * |x| ≤ R.u * (e * P + P) := mul_le_mul_of_nonneg_left (by linarith) hu
  linarith

/-- **C101**: the mean of the increments is accurate. -/
theorem C101_mean (v : List (Fl R)) (hv : ∀ x ∈ v, R.fl x.val = x.val) (hne : v ≠ []) (hn : R.fl v.length = v.length)
    (h : Normal R ((v.foldl (· + ·) 0).val / v.length)) :
    |(meanFl v).val - average (v.map Fl.val)| ≤
      ((1 + R.u) ^ (v.length + 1) - 1) * average ((v.map Fl.val).map fun y => |y|) := by
  have hL : (0 : ℚ) < v.length := by exact_mod_cast List.length_pos_iff.2 hne
  have h1 := Distribution.foldl_error v hv 0 (by rw [Fl.val_zero, R.zero])
  rw [Fl.val_zero, zero_add, abs_zero, zero_add] at h1
  have e : (meanFl v).val = R.fl ((v.foldl (· + ·) 0).val / v.length) := by
    rw [meanFl, Fl.val_div, Fl.val_natCast, hn]
  rw [e]
  generalize (v.foldl (· + ·) 0).val = s at h1 h ⊢
  have h2 : |s / v.length - average (v.map Fl.val)| ≤
      ((1 + R.u) ^ v.length - 1) * average ((v.map Fl.val).map fun y => |y|) := by
    unfold average
    simp only [List.length_map]
    rw [List.map_map, ← sub_div, abs_div, abs_of_pos hL, ← mul_div_assoc]
    exact div_le_div_of_nonneg_right h1 hL.le
  have := fl_step h2 (average_abs_le _) h
  rwa [add_sub_cancel, mul_comm (1 + R.u), ← pow_succ] at this

/-- **C101**: the square of the standard deviation is accurate with respect to the mean of the squares, if nothing underflows. -/
theorem C101_variance (v : List (Fl R)) (hv : ∀ x ∈ v, R.fl x.val = x.val) (hne : v ≠ []) (hn : R.fl v.length = v.length)
    (hneg : ∀ x, R.fl (-x) = -R.fl x) (h1 : ∀ x ∈ v, Normal R (x.val * x.val)) (h2 : Normal R ((v.foldl (· + ·) 0).val / v.length))
    (h3 : Normal R ((squaresFl v).val / v.length)) (h4 : Normal R ((meanFl v).val * (meanFl v).val)) :
    |(varianceFl v).val - dispersion (v.map Fl.val)| ≤
      (2 * (1 + R.u) ^ (2 * v.length + 4) - 2) * power (v.map Fl.val) := by
  have hu := R.u_nonneg
  have hL : (0 : ℚ) < v.length := by exact_mod_cast List.length_pos_iff.2 hne
  set x := v.map Fl.val with hx
  set n := v.length with hnn
  set Q := power x with hQ
  set B := average (x.map fun y => |y|) with hB
  set μ := average x with hμ
  have hB2 : B ^ 2 ≤ Q := abs_average_sq_le x
  have hB0 : 0 ≤ B := (abs_nonneg _).trans (average_abs_le x)
  have hμB : |μ| ≤ B := average_abs_le x
  have hQ0 : 0 ≤ Q := power_nonneg x
  have hp : ∀ k, 1 ≤ (1 + R.u) ^ k := fun k => one_le_pow₀ (by linarith)
  -- mean of the squares
  have a1 : |R.fl ((squaresFl v).val / n) - Q| ≤ ((1 + R.u) ^ (n + 2) - 1) * Q := by
    have := fl_step (R := R) (x := (squaresFl v).val / n) (y := Q) (P := Q) (e := (1 + R.u) ^ (n + 1) - 1) (by
      have e : Q = (x.map fun y => y ^ 2).sum / n := by
        rw [hQ, power, average, List.length_map, hx, List.length_map]
      rw [e, ← sub_div, abs_div, abs_of_pos hL, ← mul_div_assoc]
      exact div_le_div_of_nonneg_right (squaresFl_accurate v h1) hL.le) (by rw [abs_of_nonneg hQ0]) h3
    rw [add_sub_cancel] at this
    rw [pow_succ, mul_comm ((1 + R.u) ^ (n + 1))]
    exact this
  -- square of the mean
  have a2 := C101_mean v hv hne hn h2
  set m := (meanFl v).val with hm
  have a3 : |m * m - μ ^ 2| ≤ ((1 + R.u) ^ (2 * n + 2) - 1) * B ^ 2 := by
    set g := (1 + R.u) ^ (n + 1) with hg
    have hg1 : 1 ≤ g := hp _
    have e1 : m * m - μ ^ 2 = (m - μ) * (m + μ) := by ring
    have e2 : (1 + R.u) ^ (2 * n + 2) = g * g := by rw [hg, ← pow_add]; congr 1; omega
    have b1 : |m + μ| ≤ (g + 1) * B := by
      have e3 : m + μ = (m - μ) + 2 * μ := by ring
      rw [e3]
      have := abs_add_le (m - μ) (2 * μ)
      rw [abs_mul, abs_two] at this
      linarith
    rw [e1, abs_mul, e2]
    calc |m - μ| * |m + μ| ≤ ((g - 1) * B) * ((g + 1) * B) :=
          mul_le_mul a2 b1 (abs_nonneg _) (mul_nonneg (by linarith) hB0)
      _ = (g * g - 1) * B ^ 2 := by ring
  have a4 : |R.fl (m * m) - μ ^ 2| ≤ ((1 + R.u) ^ (2 * n + 3) - 1) * Q := by
    have := fl_step (R := R) a3 (by rw [abs_of_nonneg (sq_nonneg μ), ← sq_abs]; exact pow_le_pow_left₀ (abs_nonneg _) hμB 2) h4
    rw [add_sub_cancel] at this
    rw [pow_succ (1 + R.u), mul_comm ((1 + R.u) ^ (2 * n + 2))]
    refine this.trans (mul_le_mul_of_nonneg_left hB2 ?_)
    have := one_le_mul_of_one_le_of_one_le (by linarith : 1 ≤ 1 + R.u) (hp (2 * n + 2))
    linarith
  -- difference
  have e : (varianceFl v).val = R.fl (R.fl ((squaresFl v).val / n) - R.fl (m * m)) := by
    rw [varianceFl, Fl.val_sub, Fl.val_div, Fl.val_mul, Fl.val_natCast, hn]
  have a5 : |(R.fl ((squaresFl v).val / n) - R.fl (m * m)) - dispersion x| ≤
      (((1 + R.u) ^ (n + 2) - 1) + ((1 + R.u) ^ (2 * n + 3) - 1)) * Q := by
    rw [dispersion_eq (by rw [hx]; simpa using hne)]
    have e2 : ∀ a b : ℚ, (a - b) - (Q - μ ^ 2) = (a - Q) - (b - μ ^ 2) := by intros; ring
    rw [e2]
    refine (abs_sub _ _).trans ?_
    linarith
  have a6 : Normal R (R.fl ((squaresFl v).val / n) - R.fl (m * m)) := by
    unfold Normal
    have := R.sum (R.fl ((squaresFl v).val / n)) (-R.fl (m * m)) (R.idem _) (by rw [hneg, R.idem])
    rwa [← sub_eq_add_neg] at this
  have a7 := fl_step (R := R) a5 (by
    rw [abs_of_nonneg (dispersion_nonneg x)]
    exact dispersion_le_power x) a6
  rw [e]
  refine a7.trans (mul_le_mul_of_nonneg_right ?_ hQ0)
  have b1 : (1 + R.u) ^ (n + 2) ≤ (1 + R.u) ^ (2 * n + 3) := pow_le_pow_right₀ (by linarith) (by omega)
  have b2 : (1 + R.u) ^ (2 * n + 4) = (1 + R.u) ^ (2 * n + 3) * (1 + R.u) := pow_succ _ _
  rw [b2]
  nlinarith [hp (2 * n + 3), hp (n + 2)]

end

/-! ## Integral counts -/

theorem normal_binary {p : Nat} (hp : 1 ≤ p) {emin : Int} {x : ℚ} (h : x = 0 ∨ 2 ^ (emin + p - 1) ≤ |x|) :
    Normal (Binary.rounding p hp emin) x := by
  change |Binary.fl p emin x - x| ≤ 1 / 2 ^ p * |x|
  rcases h with rfl | h
  · simp [Binary.fl_zero]
  have h0 : x ≠ 0 := by
    rintro rfl
    rw [abs_zero] at h
    exact absurd h (not_le.2 (zpow_pos (by norm_num) _))
  have hlog : emin + p - 1 ≤ Int.log 2 |x| :=
    (Int.zpow_le_iff_le_log (by norm_num) (abs_pos.2 h0)).1 (by exact_mod_cast h)
  exact Binary.fl_relative h0 (by omega)

/-- For integers which are not all equal, the variance is not too small. -/
theorem gap (c : List Int) (hc : ¬ ∀ a ∈ c, ∀ b ∈ c, a = b) :
    (c.length : ℚ) - 1 ≤ c.length * ((c.map (Int.cast : Int → ℚ)).map fun y => y ^ 2).sum - (c.map (Int.cast : Int → ℚ)).sum ^ 2 := by
  obtain ⟨c₀, l, rfl⟩ : ∃ c₀ l, c = c₀ :: l := by
    cases c with
    | nil => exact absurd (by simp) hc
    | cons a l => exact ⟨a, l, rfl⟩
  set c := c₀ :: l with hcdef
  set x := c.map (Int.cast : Int → ℚ) with hx
  set y : List ℚ := x.map fun z : ℚ => z - (c₀ : ℚ) with hy
  have hlen : y.length = c.length := by simp [hy, hx]
  have hsum : y.sum = x.sum - c.length * c₀ := by
    have : ∀ l : List ℚ, (l.map fun z : ℚ => z - (c₀ : ℚ)).sum = l.sum - l.length * c₀ := by
      intro l
      induction l with
      | nil => simp
      | cons a l ih => simp only [List.map_cons, List.sum_cons, ih, List.length_cons]; push_cast; ring
    rw [hy, this, hx, List.length_map]
  have hsq : (y.map fun z => z ^ 2).sum = (x.map fun z => z ^ 2).sum - 2 * c₀ * x.sum + c.length * c₀ ^ 2 := by
    have := sum_sq_sub x c₀
    rw [hy, List.map_map]
    have e : ((fun z : ℚ => z ^ 2) ∘ fun z : ℚ => z - (c₀ : ℚ)) = fun z : ℚ => (z - (c₀ : ℚ)) ^ 2 := rfl
    rw [e, this, hx, List.length_map]
  obtain ⟨h1, h2⟩ := sum_sq_le y
  set k := (y.filter fun z => z ≠ 0).length with hk
  -- the integers which are not null
  have hge : (k : ℚ) ≤ (y.map fun z => z ^ 2).sum := by
    have : ∀ d : List Int, (((d.map (Int.cast : Int → ℚ)).filter fun z => z ≠ 0).length : ℚ) ≤
        ((d.map (Int.cast : Int → ℚ)).map fun z => z ^ 2).sum := by
      intro d
      induction d with
      | nil => simp
      | cons a d ih =>
        by_cases h : a = 0
        · subst h
          simpa using ih
        · rw [List.map_cons, List.filter_cons_of_pos (by simpa using h), List.length_cons, List.map_cons, List.sum_cons]
          have : (1 : ℚ) ≤ (a : ℚ) ^ 2 := by
            have h1 : 1 ≤ a ^ 2 := by
              have := Int.one_le_abs h
              nlinarith [sq_abs a]
            exact_mod_cast h1
          push_cast
          linarith
    have e : y = (c.map fun z => z - c₀).map (Int.cast : Int → ℚ) := by
      rw [hy, hx, List.map_map, List.map_map]
      refine List.map_congr_left fun z _ => ?_
      simp
    rw [hk, e]
    exact this _
  -- the first one is null, and another one is not
  have hk1 : 1 ≤ k := by
    rw [hk, Nat.one_le_iff_ne_zero, Ne, List.length_eq_zero_iff, List.filter_eq_nil_iff]
    intro h
    refine hc fun a ha b hb => ?_
    have e : ∀ z ∈ c, z = c₀ := by
      intro z hz
      have := h ((z : ℚ) - c₀) (List.mem_map.2 ⟨(z : ℚ), List.mem_map.2 ⟨z, hz, rfl⟩, rfl⟩)
      simp only [ne_eq, decide_not, Bool.not_eq_eq_eq_not, Bool.not_true, decide_eq_false_iff_not, not_not, sub_eq_zero] at this
      exact_mod_cast this
    rw [e a ha, e b hb]
  have hk2 : k + 1 ≤ c.length := by
    have e : y = 0 :: (l.map (Int.cast : Int → ℚ)).map fun z : ℚ => z - (c₀ : ℚ) := by simp [hy, hx, hcdef]
    have : k = (((l.map (Int.cast : Int → ℚ)).map fun z : ℚ => z - (c₀ : ℚ)).filter fun z => z ≠ 0).length := by
      rw [hk, e, List.filter_cons_of_neg (by simp)]
    have h3 := List.length_filter_le (fun z : ℚ => decide (z ≠ 0)) ((l.map (Int.cast : Int → ℚ)).map fun z : ℚ => z - (c₀ : ℚ))
    rw [← this] at h3
    simp only [List.length_map] at h3
    rw [hcdef, List.length_cons]
    omega
  have id : c.length * (x.map fun z => z ^ 2).sum - x.sum ^ 2 = c.length * (y.map fun z => z ^ 2).sum - y.sum ^ 2 := by
    rw [hsum, hsq]; ring
  rw [id]
  have q1 : (1 : ℚ) ≤ k := by exact_mod_cast hk1
  have q2 : (k : ℚ) + 1 ≤ c.length := by exact_mod_cast hk2
  have q3 := mul_le_mul_of_nonneg_left hge (by linarith : (0 : ℚ) ≤ c.length - k)
  nlinarith

section

variable {p : Nat} {hp : 1 ≤ p} {emin : Int}

theorem natAbs_le_sum {c : List Int} : ∀ a ∈ c, |a| ≤ (c.map fun a => a ^ 2).sum := by
  intro a ha
  have h1 : |a| ≤ a ^ 2 := by
    rw [← sq_abs]
    rcases eq_or_ne a 0 with rfl | h
    · simp
    · nlinarith [Int.one_le_abs h]
  refine h1.trans ?_
  refine List.single_le_sum ?_ _ (List.mem_map.2 ⟨a, ha, rfl⟩)
  intro z hz
  obtain ⟨b, -, rfl⟩ := List.mem_map.1 hz
  positivity

/-- Sums of integers are exact, as long as those of their absolute values are small. -/
theorem foldl_exact (he : emin ≤ 0) (c : List Int) (acc : Int) (h : |acc| + (c.map fun a => |a|).sum < 2 ^ p) :
    ((c.map fun a : Int => (Fl.of (a : ℚ) : Fl (Binary.rounding p hp emin))).foldl (· + ·) (Fl.of (acc : ℚ))).val =
      ((acc + c.sum : Int) : ℚ) := by
  induction c generalizing acc with
  | nil => simp; rfl
  | cons a c ih =>
    rw [List.map_cons, List.sum_cons] at h
    have h0 : 0 ≤ (c.map fun a => |a|).sum := List.sum_nonneg (by simp)
    have h1 := abs_add_le acc a
    have e : (Fl.of (acc : ℚ) + Fl.of (a : ℚ) : Fl (Binary.rounding p hp emin)) = Fl.of ((acc + a : Int) : ℚ) := by
      change Binary.fl p emin ((acc : ℚ) + a) = _
      rw [← Int.cast_add, Binary.fl_intCast he (by omega)]
      rfl
    rw [List.map_cons, List.foldl_cons, e, ih (acc + a) (by omega), List.sum_cons, add_assoc]

theorem sum_abs_le (c : List Int) : (c.map fun a => |a|).sum ≤ (c.map fun a => a ^ 2).sum := by
  induction c with
  | nil => simp
  | cons a c ih =>
    simp only [List.map_cons, List.sum_cons]
    have h1 : |a| ≤ a ^ 2 := by
      rw [← sq_abs]
      rcases eq_or_ne a 0 with rfl | h
      · simp
      · nlinarith [Int.one_le_abs h]
    omega

/-- Relative errors which are too small to exceed the variance. -/
theorem variance_core {n u S T m mm q : ℚ} (hnq : 0 < n) (hn2 : 2 ≤ n) (hu0 : 0 ≤ u) (hu1 : u ≤ 1 / 32) (hT0 : 0 ≤ T)
    (huT : u * T ≤ 1 / 16) (hgap : n - 1 ≤ n * T - S ^ 2) (nS : |m - S / n| ≤ u * |S / n|) (nT : |q - T / n| ≤ u * |T / n|)
    (nM : |mm - m * m| ≤ u * |m * m|) : mm < q := by
  have hST : S ^ 2 ≤ n * T := by linarith
  have hμ2 : (S / n) ^ 2 * n ^ 2 = S ^ 2 := by field_simp
  generalize S / n = μ at nS hμ2
  have b1 : |m| ≤ (1 + u) * |μ| := by
    have := abs_add_le (m - μ) μ
    rw [sub_add_cancel] at this
    linarith
  have b2 : m * m ≤ (1 + u) ^ 2 * μ ^ 2 := by
    rw [← abs_mul_abs_self m, ← sq_abs μ, ← mul_pow, sq]
    exact mul_le_mul b1 b1 (abs_nonneg _) (by positivity)
  have b3 : mm ≤ (1 + u) ^ 3 * μ ^ 2 := by
    rw [abs_mul_self] at nM
    have h1 := le_abs_self (mm - m * m)
    have h2 : (1 + u) * (m * m) ≤ (1 + u) * ((1 + u) ^ 2 * μ ^ 2) := mul_le_mul_of_nonneg_left b2 (by linarith)
    calc mm ≤ (1 + u) * (m * m) := by linarith
      _ ≤ _ := h2
      _ = _ := by ring
  have b4 : (1 - u) * (T / n) ≤ q := by
    rw [abs_of_nonneg (div_nonneg hT0 hnq.le)] at nT
    have := neg_abs_le (q - T / n)
    linarith
  have h1 : (1 - u) * (T * n) ≤ q * n ^ 2 := by
    have := mul_le_mul_of_nonneg_right b4 (by positivity : (0 : ℚ) ≤ n ^ 2)
    have e : (1 - u) * (T / n) * n ^ 2 = (1 - u) * (T * n) := by field_simp
    rwa [e] at this
  have h2 : mm * n ^ 2 ≤ (1 + u) ^ 3 * S ^ 2 := by
    have := mul_le_mul_of_nonneg_right b3 (by positivity : (0 : ℚ) ≤ n ^ 2)
    rwa [mul_assoc, hμ2] at this
  have h3 : u * S ^ 2 ≤ n / 16 := by
    have := mul_le_mul_of_nonneg_left hST hu0
    have := mul_le_mul_of_nonneg_left huT hnq.le
    linarith
  have h4 : (1 + u) ^ 3 * S ^ 2 ≤ S ^ 2 + 7 / 2 * (u * S ^ 2) := by
    have k1 : u * u ≤ u * (1 / 32) := mul_le_mul_of_nonneg_left hu1 hu0
    have k2 : u * (u * u) ≤ u * (u * (1 / 32)) := mul_le_mul_of_nonneg_left k1 hu0
    have : (1 + u) ^ 3 ≤ 1 + 7 / 2 * u := by
      have e : (1 + u) ^ 3 = 1 + 3 * u + 3 * (u * u) + u * (u * u) := by ring
      rw [e]
      linarith
    have := mul_le_mul_of_nonneg_right this (sq_nonneg S)
    linarith
  have h5 : u * (T * n) ≤ n / 16 := by
    have := mul_le_mul_of_nonneg_left huT hnq.le
    linarith
  have h6 : mm * n ^ 2 < q * n ^ 2 := by linarith
  exact lt_of_mul_lt_mul_right h6 (by positivity)

/-- **C101** for integral counts the squares of which are exact, with a large margin: the argument of the square root is not
negative, and it is null for constant counts only. -/
theorem variance_integers (hp5 : 5 ≤ p) (he : emin ≤ -(3 * p + 1)) (c : List Int) (hne : c ≠ []) (hn : c.length < 2 ^ p)
    (hc : (c.map fun a => a ^ 2).sum ≤ 2 ^ (p - 4)) :
    let v := (varianceFl (incrementsFl (Binary.rounding p hp emin) c)).val
    0 ≤ v ∧ (v = 0 ↔ ∀ a ∈ c, ∀ b ∈ c, a = b) := by
  intro v
  have hpp : (2 : Int) ^ p = 16 * 2 ^ (p - 4) := by
    obtain ⟨q, rfl⟩ : ∃ q, p = q + 4 := ⟨p - 4, by omega⟩
    rw [Nat.add_sub_cancel, pow_add]; ring
  have hpos : (0 : Int) < 2 ^ (p - 4) := by positivity
  have hlt : (c.map fun a => a ^ 2).sum < 2 ^ p := by omega
  have hfl : ∀ a ∈ c, Binary.fl p emin (a : ℚ) = a := fun a ha =>
    Binary.fl_intCast (by omega) ((natAbs_le_sum a ha).trans_lt hlt)
  set R := Binary.rounding p hp emin with hR
  have hinc : incrementsFl R c = c.map fun a : Int => (Fl.of (a : ℚ) : Fl R) := by
    rw [incrementsFl_eq]
    exact List.map_congr_left fun a ha => hfl a ha
  set n := c.length with hnn
  have hn0 : 0 < n := List.length_pos_iff.2 hne
  have hnq : (0 : ℚ) < n := by exact_mod_cast hn0
  have hn1 : Binary.fl p emin (n : ℚ) = n := by
    have := Binary.fl_intCast (p := p) (emin := emin) (by omega) (n := (n : Int)) (by
      rw [abs_of_nonneg (by positivity)]; exact_mod_cast hn)
    exact_mod_cast this
  set S : ℚ := (c.map (Int.cast : Int → ℚ)).sum with hS
  set T : ℚ := ((c.map (Int.cast : Int → ℚ)).map fun y => y ^ 2).sum with hT
  have hScast : ((c.sum : Int) : ℚ) = S := by
    rw [hS]
    clear * -
    induction c with
    | nil => simp
    | cons a c ih => simp [ih]
  have hTcast : (((c.map fun a => a ^ 2).sum : Int) : ℚ) = T := by
    rw [hT]
    clear * -
    induction c with
    | nil => simp
    | cons a c ih => simp [ih]
  have e1 : ((incrementsFl R c).foldl (· + ·) 0).val = S := by
    have := foldl_exact (p := p) (hp := hp) (emin := emin) (by omega) c 0 (by
      rw [abs_zero, zero_add]
      exact (sum_abs_le c).trans_lt hlt)
    rw [zero_add, hScast] at this
    rw [hinc, ← this]
    simp only [Int.cast_zero]
    rfl
  have e2 : (squaresFl (incrementsFl R c)).val = T := by
    have := foldl_exact (p := p) (hp := hp) (emin := emin) (by omega) (c.map fun a => a ^ 2) 0 (by
      rw [abs_zero, zero_add, List.map_map]
      have : ((fun a : Int => |a|) ∘ fun a : Int => a ^ 2) = fun a => a ^ 2 := by funext a; simp
      rw [this]
      exact hlt)
    rw [zero_add, hTcast] at this
    rw [squaresFl_eq, hinc, ← this, List.map_map, List.map_map]
    have : (c.map ((fun x : Fl R => x * x) ∘ fun a : Int => (Fl.of (a : ℚ) : Fl R))) =
        c.map ((fun a : Int => (Fl.of (a : ℚ) : Fl R)) ∘ fun a : Int => a ^ 2) := by
      refine List.map_congr_left fun a ha => ?_
      change Binary.fl p emin ((a : ℚ) * a) = ((a ^ 2 : Int) : ℚ)
      have h1 : (a : ℚ) * a = ((a ^ 2 : Int) : ℚ) := by push_cast; ring
      rw [h1, Binary.fl_intCast (by omega)]
      rw [abs_of_nonneg (sq_nonneg a)]
      refine lt_of_le_of_lt (List.single_le_sum ?_ _ (List.mem_map.2 ⟨a, ha, rfl⟩)) hlt
      intro z hz
      obtain ⟨b, -, rfl⟩ := List.mem_map.1 hz
      positivity
    rw [this]
    simp only [Int.cast_zero]
    rfl
  have hlen : (incrementsFl R c).length = n := by rw [hinc, List.length_map]
  set m := Binary.fl p emin (S / n) with hm
  have e3 : (meanFl (incrementsFl R c)).val = m := by
    rw [meanFl, Fl.val_div, Fl.val_natCast, e1, hlen]
    change Binary.fl p emin (S / Binary.fl p emin n) = _
    rw [hn1]
  set q := Binary.fl p emin (T / n) with hq
  set mm := Binary.fl p emin (m * m) with hmm
  have e4 : v = Binary.fl p emin (q - mm) := by
    change (varianceFl (incrementsFl R c)).val = _
    rw [varianceFl, Fl.val_sub, Fl.val_div, Fl.val_mul, Fl.val_natCast, e2, e3, hlen]
    change Binary.fl p emin (Binary.fl p emin (T / Binary.fl p emin n) - _) = _
    rw [hn1]
    rfl
  by_cases hall : ∀ a ∈ c, ∀ b ∈ c, a = b
  · -- all equal
    obtain ⟨c₀, hc₀⟩ := List.exists_mem_of_ne_nil c hne
    have hrep : c = List.replicate n c₀ := List.eq_replicate_iff.2 ⟨rfl, fun a ha => hall a ha c₀ hc₀⟩
    have s1 : S = n * c₀ := by rw [hS, hrep]; simp
    have s2 : T = n * (c₀ : ℚ) ^ 2 := by rw [hT, hrep]; simp
    have m1 : m = c₀ := by
      rw [hm, s1, mul_div_cancel_left₀ _ hnq.ne', hfl c₀ hc₀]
    have mq : q = mm := by
      rw [hq, hmm, m1, s2, mul_div_cancel_left₀ _ hnq.ne', sq]
    rw [e4, mq, sub_self, Binary.fl_zero]
    exact ⟨le_rfl, fun _ => hall, fun _ => rfl⟩
  · -- errors
    have hgap := gap c hall
    rw [← hT, ← hS, ← hnn] at hgap
    have hn2 : (2 : ℚ) ≤ n := by
      have : 2 ≤ n := by
        by_contra h
        obtain ⟨a, ha⟩ : ∃ a, c = [a] := List.length_eq_one_iff.1 (by omega)
        exact hall (by rw [ha]; simp)
      exact_mod_cast this
    set u : ℚ := 1 / 2 ^ p with hu
    have hP : (0 : ℚ) < 2 ^ p := by positivity
    have hP32 : (32 : ℚ) ≤ 2 ^ p := by
      calc (32 : ℚ) = 2 ^ 5 := by norm_num
        _ ≤ 2 ^ p := pow_le_pow_right₀ (by norm_num) hp5
    have hu0 : 0 < u := by positivity
    have hu1 : u ≤ 1 / 32 := by rw [hu]; exact one_div_le_one_div_of_le (by norm_num) hP32
    have huT : u * T ≤ 1 / 16 := by
      have h1 : 16 * T ≤ 2 ^ p := by
        rw [← hTcast]
        have : 16 * (c.map fun a => a ^ 2).sum ≤ 2 ^ p := by omega
        exact_mod_cast this
      rw [hu, div_mul_eq_mul_div, one_mul, div_le_iff₀ hP]
      linarith
    have hnp : (n : ℚ) < 2 ^ p := by exact_mod_cast hn
    -- no underflow
    have inv : (2 : ℚ) ^ (-(p : Int)) ≤ 1 / n := by
      rw [zpow_neg, zpow_natCast, ← one_div]
      exact one_div_le_one_div_of_le hnq hnp.le
    have mono : (2 : ℚ) ^ (emin + p - 1) ≤ 2 ^ (-(2 * p + 2) : Int) := zpow_le_zpow_right₀ (by norm_num) (by omega)
    have mono' : (2 : ℚ) ^ (-(2 * p + 2) : Int) ≤ 2 ^ (-(p : Int)) := zpow_le_zpow_right₀ (by norm_num) (by omega)
    have int_div : ∀ z : Int, (z : ℚ) / n = 0 ∨ 1 / n ≤ |(z : ℚ) / n| := by
      intro z
      rcases eq_or_ne z 0 with rfl | h
      · simp
      · right
        rw [abs_div, abs_of_pos hnq]
        refine div_le_div_of_nonneg_right ?_ hnq.le
        exact_mod_cast Int.one_le_abs h
    have nS : |m - S / n| ≤ u * |S / n| := by
      refine normal_binary hp ?_
      rw [← hScast]
      exact (int_div c.sum).imp_right fun h => (mono.trans mono').trans (inv.trans h)
    have nT : |q - T / n| ≤ u * |T / n| := by
      refine normal_binary hp ?_
      rw [← hTcast]
      exact (int_div _).imp_right fun h => (mono.trans mono').trans (inv.trans h)
    have nM : |mm - m * m| ≤ u * |m * m| := by
      refine normal_binary hp ?_
      rw [← hScast] at nS
      rcases int_div c.sum with h | h
      · left
        rw [h, abs_zero, mul_zero, sub_zero, abs_nonpos_iff] at nS
        rw [nS, mul_zero]
      · right
        refine mono.trans ?_
        have h1 : 1 / 2 * |(c.sum : ℚ) / n| ≤ |m| := by
          have := abs_sub_abs_le_abs_sub ((c.sum : ℚ) / n) m
          rw [abs_sub_comm] at this
          nlinarith [abs_nonneg ((c.sum : ℚ) / n)]
        have h2 : (2 : ℚ) ^ (-(p + 1) : Int) ≤ |m| := by
          have e : (2 : ℚ) ^ (-(p + 1) : Int) = 1 / 2 * 2 ^ (-(p : Int)) := by
            rw [neg_add, zpow_add₀ (by norm_num)]
            norm_num
            ring
          rw [e]
          linarith
        have e : (2 : ℚ) ^ (-(2 * p + 2) : Int) = 2 ^ (-(p + 1) : Int) * 2 ^ (-(p + 1) : Int) := by
          rw [← zpow_add₀ (by norm_num)]
          congr 1
          ring
        rw [abs_mul, e]
        have h0 : (0 : ℚ) ≤ 2 ^ (-(p + 1) : Int) := (zpow_pos (by norm_num) _).le
        exact mul_le_mul h2 h2 h0 (abs_nonneg _)
    have b6 : mm < q := variance_core hnq hn2 hu0.le hu1 (sum_sq_le _).2 huT hgap nS nT nM
    replace b6 : 0 < q - mm := sub_pos.2 b6
    have b7 : 0 < Binary.fl p emin (q - mm) := by
      have h1 := Binary.fl_sum p emin (x := q) (y := -mm) (Binary.fl_idem hp emin _) (by
        rw [Binary.fl_neg, Binary.fl_idem hp emin])
      rw [← sub_eq_add_neg, abs_of_pos b6] at h1
      have := neg_abs_le (Binary.fl p emin (q - mm) - (q - mm))
      nlinarith
    rw [e4]
    exact ⟨b7.le, fun h => absurd h b7.ne', fun h => absurd h hall⟩

end

/-- `std::sqrt()` of non-negative numbers is null only at 0. -/
def Roots {R : Rounding ℚ} (sqrt : Fl R → Fl R) : Prop := ∀ x : Fl R, 0 ≤ x.val → ((sqrt x).val = 0 ↔ x.val = 0)

/-- **C101** (full statement, violated by the code): for `double`s, the standard deviation of integral counts is a number, and it
is null exactly if all the increments are equal. -/
def C101_Statement : Prop :=
  ∀ (sqrt : Fl (Binary.rounding 53 (by norm_num) (-1074)) → Fl (Binary.rounding 53 (by norm_num) (-1074))) (c : List Int),
    Roots sqrt → c ≠ [] → c.length < 2 ^ 53 → (∀ a ∈ c, 0 ≤ a ∧ a < 2 ^ 53) →
    ∃ r, stdevFl sqrt (incrementsFl _ c) = some r ∧ (r.val = 0 ↔ ∀ a ∈ c, ∀ b ∈ c, a = b)

theorem incrementsFl_ne {R : Rounding ℚ} {c : List Int} (h : c ≠ []) : incrementsFl R c ≠ [] := by
  rw [incrementsFl_eq]
  simpa using h

/-- **C101** in every binary format, for integral counts the sum of squares of which is at most a 16th of the largest number of
consecutive integers: the standard deviation is a number, which is null exactly if all the increments are equal.
Missing: larger counts, for which it may not be a number (`C101_equal`, `C101_different`). -/
theorem C101_integers_partial {p : Nat} (hp : 1 ≤ p) (hp5 : 5 ≤ p) {emin : Int} (he : emin ≤ -(3 * p + 1))
    (sqrt : Fl (Binary.rounding p hp emin) → Fl (Binary.rounding p hp emin)) (hs : Roots sqrt) (c : List Int) (hne : c ≠ [])
    (hn : c.length < 2 ^ p) (hc : (c.map fun a => a ^ 2).sum ≤ 2 ^ (p - 4)) :
    ∃ r, stdevFl sqrt (incrementsFl _ c) = some r ∧ (r.val = 0 ↔ ∀ a ∈ c, ∀ b ∈ c, a = b) := by
  obtain ⟨h1, h2⟩ := variance_integers (hp := hp) hp5 he c hne hn hc
  refine ⟨_, ?_, (hs _ h1).trans h2⟩
  rw [stdevFl, if_neg (incrementsFl_ne hne), if_neg (not_lt.2 ?_)]
  exact h1

/-- **C101**: the standard deviation is a number if the variance is larger than the rounding errors. -/
theorem C101_number {R : Rounding ℚ} (sqrt : Fl R → Fl R) (v : List (Fl R)) (hv : ∀ x ∈ v, R.fl x.val = x.val) (hne : v ≠ [])
    (hn : R.fl v.length = v.length) (hneg : ∀ x, R.fl (-x) = -R.fl x) (h1 : ∀ x ∈ v, Normal R (x.val * x.val))
    (h2 : Normal R ((v.foldl (· + ·) 0).val / v.length)) (h3 : Normal R ((squaresFl v).val / v.length))
    (h4 : Normal R ((meanFl v).val * (meanFl v).val))
    (h : (2 * (1 + R.u) ^ (2 * v.length + 4) - 2) * power (v.map Fl.val) ≤ dispersion (v.map Fl.val)) :
    stdevFl sqrt v = some (sqrt (varianceFl v)) := by
  have h5 := C101_variance v hv hne hn hneg h1 h2 h3 h4
  have h6 := neg_abs_le ((varianceFl v).val - dispersion (v.map Fl.val))
  rw [stdevFl, if_neg hne, if_neg (not_lt.2 ?_)]
  change (0 : ℚ) ≤ (varianceFl v).val
  linarith

/-- The standard deviation is not a number if there are no increments. -/
theorem C101_empty {R : Rounding ℚ} (sqrt : Fl R → Fl R) : stdevFl sqrt (incrementsFl R []) = none := by
  rw [stdevFl, if_pos (by rw [incrementsFl_eq]; rfl)]

/-! ## Counterexamples -/

/-- Ties are rounded to even. -/
theorem fl_tie {p : Nat} {emin e : Int} (he : emin ≤ e) {x : ℚ} {m : Int} (h1 : 2 ^ (e + p - 1) ≤ x) (h2 : x < 2 ^ (e + p))
    (h : x = (m + 1 / 2) * 2 ^ e) : Binary.fl p emin x = (if m % 2 = 0 then m else m + 1 : Int) * 2 ^ e := by
  have h0 : (0 : ℚ) < 2 ^ e := zpow_pos (by norm_num) _
  have e1 : x / 2 ^ e = (m : ℚ) + 1 / 2 := by rw [h]; field_simp
  have h3 : Int.fract ((m : ℚ) + 1 / 2) = 1 / 2 := by rw [Int.fract_intCast_add, Int.fract_eq_self]; norm_num
  have h4 : ⌊(m : ℚ) + 1 / 2⌋ = m := by rw [Int.floor_intCast_add]; norm_num
  rw [Binary.fl, Binary.exponent_eq he h1 h2, e1, Binary.roundEven, h3, h4, if_neg (by norm_num), if_neg (by norm_num)]

/-- **C101**: five equal increments of 94 906 262 ns (less than 0.1 s). -/
theorem C101_equal (sqrt : Fl (Binary.rounding 53 (by norm_num) (-1074)) → Fl (Binary.rounding 53 (by norm_num) (-1074))) :
    stdevFl sqrt (incrementsFl _ (List.replicate 5 94906262)) = none := by
  have hi : ∀ n : Int, |n| < 2 ^ 53 → Binary.fl 53 (-1074) n = n := fun n h => Binary.fl_intCast (by norm_num) h
  have hi' : ∀ (n : Int) (x : ℚ), x = n → |n| < 2 ^ 53 → Binary.fl 53 (-1074) x = x := by
    rintro n x rfl h; exact hi n h
  have c0 : Binary.fl 53 (-1074) 94906262 = 94906262 := hi' 94906262 _ (by norm_num) (by norm_num)
  have a2 : Binary.fl 53 (-1074) (94906262 + 94906262) = 189812524 := by
    rw [hi' 189812524 _ (by norm_num) (by norm_num)]; norm_num
  have a3 : Binary.fl 53 (-1074) (189812524 + 94906262) = 284718786 := by
    rw [hi' 284718786 _ (by norm_num) (by norm_num)]; norm_num
  have a4 : Binary.fl 53 (-1074) (284718786 + 94906262) = 379625048 := by
    rw [hi' 379625048 _ (by norm_num) (by norm_num)]; norm_num
  have a5 : Binary.fl 53 (-1074) (379625048 + 94906262) = 474531310 := by
    rw [hi' 474531310 _ (by norm_num) (by norm_num)]; norm_num
  have n5 : Binary.fl 53 (-1074) 5 = 5 := hi' 5 _ (by norm_num) (by norm_num)
  have am : Binary.fl 53 (-1074) (474531310 / 5) = 94906262 := by
    rw [hi' 94906262 _ (by norm_num) (by norm_num)]; norm_num
  have sq : Binary.fl 53 (-1074) (94906262 * 94906262) = 9007198566812644 := by
    rw [hi' 9007198566812644 _ (by norm_num) (by norm_num)]; norm_num
  have t1 : Binary.fl 53 (-1074) 9007198566812644 = 9007198566812644 := hi' 9007198566812644 _ (by norm_num) (by norm_num)
  have t2 : Binary.fl 53 (-1074) (9007198566812644 + 9007198566812644) = 18014397133625288 := by
    rw [Binary.fl_eq (e := 1) (m := 9007198566812644)] <;> norm_num
  have t3 : Binary.fl 53 (-1074) (18014397133625288 + 9007198566812644) = 27021595700437932 := by
    rw [Binary.fl_eq (e := 2) (m := 6755398925109483)] <;> norm_num
  have t4 : Binary.fl 53 (-1074) (27021595700437932 + 9007198566812644) = 36028794267250576 := by
    rw [Binary.fl_eq (e := 2) (m := 9007198566812644)] <;> norm_num
  have t5 : Binary.fl 53 (-1074) (36028794267250576 + 9007198566812644) = 45035992834063216 := by
    rw [fl_tie (e := 3) (m := 5629499104257902)] <;> norm_num
  have tq : Binary.fl 53 (-1074) (45035992834063216 / 5) = 9007198566812643 := by
    rw [Binary.fl_eq (e := 0) (m := 9007198566812643)] <;> norm_num
  have td : Binary.fl 53 (-1074) (9007198566812643 - 9007198566812644) = -1 := by
    rw [hi' (-1) _ (by norm_num) (by norm_num)]; norm_num
  rw [stdevFl, if_neg (incrementsFl_ne (by decide)), if_pos]
  rw [incrementsFl_eq]
  change Binary.fl 53 (-1074) (Binary.fl 53 (-1074) (Binary.fl 53 (-1074) (Binary.fl 53 (-1074) (Binary.fl 53 (-1074)
    (Binary.fl 53 (-1074) (Binary.fl 53 (-1074) (0 + Binary.fl 53 (-1074) (Binary.fl 53 (-1074) ((94906262 : Int) : ℚ) *
      Binary.fl 53 (-1074) ((94906262 : Int) : ℚ))) + Binary.fl 53 (-1074) (Binary.fl 53 (-1074) ((94906262 : Int) : ℚ) *
      Binary.fl 53 (-1074) ((94906262 : Int) : ℚ))) + Binary.fl 53 (-1074) (Binary.fl 53 (-1074) ((94906262 : Int) : ℚ) *
      Binary.fl 53 (-1074) ((94906262 : Int) : ℚ))) + Binary.fl 53 (-1074) (Binary.fl 53 (-1074) ((94906262 : Int) : ℚ) *
      Binary.fl 53 (-1074) ((94906262 : Int) : ℚ))) + Binary.fl 53 (-1074) (Binary.fl 53 (-1074) ((94906262 : Int) : ℚ) *
      Binary.fl 53 (-1074) ((94906262 : Int) : ℚ))) / Binary.fl 53 (-1074) ((5 : Nat) : ℚ)) -
    Binary.fl 53 (-1074) (Binary.fl 53 (-1074) (Binary.fl 53 (-1074) (Binary.fl 53 (-1074) (Binary.fl 53 (-1074)
      (Binary.fl 53 (-1074) (Binary.fl 53 (-1074) (0 + Binary.fl 53 (-1074) ((94906262 : Int) : ℚ)) +
      Binary.fl 53 (-1074) ((94906262 : Int) : ℚ)) + Binary.fl 53 (-1074) ((94906262 : Int) : ℚ)) +
      Binary.fl 53 (-1074) ((94906262 : Int) : ℚ)) + Binary.fl 53 (-1074) ((94906262 : Int) : ℚ)) /
      Binary.fl 53 (-1074) ((5 : Nat) : ℚ)) *
    Binary.fl 53 (-1074) (Binary.fl 53 (-1074) (Binary.fl 53 (-1074) (Binary.fl 53 (-1074)
      (Binary.fl 53 (-1074) (Binary.fl 53 (-1074) (0 + Binary.fl 53 (-1074) ((94906262 : Int) : ℚ)) +
      Binary.fl 53 (-1074) ((94906262 : Int) : ℚ)) + Binary.fl 53 (-1074) ((94906262 : Int) : ℚ)) +
      Binary.fl 53 (-1074) ((94906262 : Int) : ℚ)) + Binary.fl 53 (-1074) ((94906262 : Int) : ℚ)) /
      Binary.fl 53 (-1074) ((5 : Nat) : ℚ)))) < 0
  simp only [Int.cast_ofNat, Nat.cast_ofNat, zero_add, c0, a2, a3, a4, a5, n5, am, sq, t1, t2, t3, t4, t5, tq, td]
  norm_num

/-- **C101**: two increments of about 1 s, which differ by 1 ns. -/
theorem C101_different (sqrt : Fl (Binary.rounding 53 (by norm_num) (-1074)) → Fl (Binary.rounding 53 (by norm_num) (-1074))) :
    stdevFl sqrt (incrementsFl _ [1000000008, 1000000009]) = none := by
  have hi' : ∀ (n : Int) (x : ℚ), x = n → |n| < 2 ^ 53 → Binary.fl 53 (-1074) x = x := by
    rintro n x rfl h; exact Binary.fl_intCast (by norm_num) h
  have c0 : Binary.fl 53 (-1074) 1000000008 = 1000000008 := hi' 1000000008 _ (by norm_num) (by norm_num)
  have c1 : Binary.fl 53 (-1074) 1000000009 = 1000000009 := hi' 1000000009 _ (by norm_num) (by norm_num)
  have n2 : Binary.fl 53 (-1074) 2 = 2 := hi' 2 _ (by norm_num) (by norm_num)
  have a2 : Binary.fl 53 (-1074) (1000000008 + 1000000009) = 2000000017 := by
    rw [hi' 2000000017 _ (by norm_num) (by norm_num)]; norm_num
  have am : Binary.fl 53 (-1074) (2000000017 / 2) = 2000000017 / 2 := by
    rw [Binary.fl_eq (e := -23) (m := 8388608071303168)] <;> norm_num
  have s0 : Binary.fl 53 (-1074) (1000000008 * 1000000008) = 1000000016000000000 := by
    rw [fl_tie (e := 7) (m := 7812500125000000)] <;> norm_num
  have t0 : Binary.fl 53 (-1074) 1000000016000000000 = 1000000016000000000 := by
    rw [Binary.fl_eq (e := 7) (m := 7812500125000000)] <;> norm_num
  have s1 : Binary.fl 53 (-1074) (1000000009 * 1000000009) = 1000000018000000128 := by
    rw [Binary.fl_eq (e := 7) (m := 7812500140625001)] <;> norm_num
  have t1 : Binary.fl 53 (-1074) (1000000016000000000 + 1000000018000000128) = 2000000034000000000 := by
    rw [fl_tie (e := 8) (m := 7812500132812500)] <;> norm_num
  have tq : Binary.fl 53 (-1074) (2000000034000000000 / 2) = 1000000017000000000 := by
    rw [Binary.fl_eq (e := 7) (m := 7812500132812500)] <;> norm_num
  have mm : Binary.fl 53 (-1074) (2000000017 / 2 * (2000000017 / 2)) = 1000000017000000128 := by
    rw [Binary.fl_eq (e := 7) (m := 7812500132812501)] <;> norm_num
  have td : Binary.fl 53 (-1074) (1000000017000000000 - 1000000017000000128) = -128 := by
    rw [hi' (-128) _ (by norm_num) (by norm_num)]; norm_num
  rw [stdevFl, if_neg (incrementsFl_ne (by decide)), if_pos]
  rw [incrementsFl_eq]
  change Binary.fl 53 (-1074) (Binary.fl 53 (-1074) (Binary.fl 53 (-1074) (Binary.fl 53 (-1074) (0 + Binary.fl 53 (-1074)
      (Binary.fl 53 (-1074) ((1000000008 : Int) : ℚ) * Binary.fl 53 (-1074) ((1000000008 : Int) : ℚ))) + Binary.fl 53 (-1074)
      (Binary.fl 53 (-1074) ((1000000009 : Int) : ℚ) * Binary.fl 53 (-1074) ((1000000009 : Int) : ℚ))) /
      Binary.fl 53 (-1074) ((2 : Nat) : ℚ)) -
    Binary.fl 53 (-1074) (Binary.fl 53 (-1074) (Binary.fl 53 (-1074) (Binary.fl 53 (-1074) (0 +
      Binary.fl 53 (-1074) ((1000000008 : Int) : ℚ)) + Binary.fl 53 (-1074) ((1000000009 : Int) : ℚ)) /
      Binary.fl 53 (-1074) ((2 : Nat) : ℚ)) *
    Binary.fl 53 (-1074) (Binary.fl 53 (-1074) (Binary.fl 53 (-1074) (0 +
      Binary.fl 53 (-1074) ((1000000008 : Int) : ℚ)) + Binary.fl 53 (-1074) ((1000000009 : Int) : ℚ)) /
      Binary.fl 53 (-1074) ((2 : Nat) : ℚ)))) < 0
  simp only [Int.cast_ofNat, Nat.cast_ofNat, zero_add, c0, c1, n2, a2, am, s0, t0, s1, t1, tq, mm, td]
  norm_num

/-- **C101**: the full statement is violated. -/
theorem C101_violated : ¬ C101_Statement := by
  intro h
  obtain ⟨r, hr, -⟩ := h (fun x => x) (List.replicate 5 94906262) (fun _ _ => Iff.rfl) (by decide) (by norm_num) (by
    intro a ha
    rw [List.eq_of_mem_replicate ha]
    norm_num)
  rw [C101_equal] at hr
  cases hr

/-- Non-vacuity: three increments of 12, 13 and 14 ms. -/
example (sqrt : Fl (Binary.rounding 53 (by norm_num) (-1074)) → Fl (Binary.rounding 53 (by norm_num) (-1074)))
    (hs : Roots sqrt) : ∃ r, stdevFl sqrt (incrementsFl _ [12000, 13000, 14000]) = some r ∧ r.val ≠ 0 := by
  obtain ⟨r, h1, h2⟩ := C101_integers_partial (by norm_num) (by norm_num) (by norm_num) sqrt hs [12000, 13000, 14000]
    (by simp) (by norm_num) (by norm_num)
  exact ⟨r, h1, fun h => absurd (h2.1 h 12000 (by simp) 13000 (by simp)) (by norm_num)⟩

/-- Non-vacuity: two increments of 1 and 3, in single precision. -/
example : ∀ sqrt : Fl (Binary.rounding 24 (by norm_num) (-149)) → Fl (Binary.rounding 24 (by norm_num) (-149)),
    stdevFl sqrt (incrementsFl _ [1, 3]) = some (sqrt (varianceFl (incrementsFl _ [1, 3]))) ∧
    |(varianceFl (incrementsFl (Binary.rounding 24 (by norm_num) (-149)) [1, 3])).val - 1| ≤ 1 / 2 ^ 16 := by
  set R := Binary.rounding 24 (by norm_num) (-149) with hR
  intro sqrt
  have hf : ∀ n : Int, |n| < 2 ^ 24 → R.fl n = n := fun n h => Binary.fl_intCast (by norm_num) h
  have f0 : R.fl 0 = 0 := R.zero
  have f1 : R.fl 1 = 1 := by exact_mod_cast hf 1 (by norm_num)
  have f2 : R.fl 2 = 2 := by exact_mod_cast hf 2 (by norm_num)
  have f3 : R.fl 3 = 3 := by exact_mod_cast hf 3 (by norm_num)
  have f4 : R.fl 4 = 4 := by exact_mod_cast hf 4 (by norm_num)
  have f5 : R.fl 5 = 5 := by exact_mod_cast hf 5 (by norm_num)
  have f9 : R.fl 9 = 9 := by exact_mod_cast hf 9 (by norm_num)
  have f10 : R.fl 10 = 10 := by exact_mod_cast hf 10 (by norm_num)
  have hv : incrementsFl R [1, 3] = [Fl.of 1, Fl.of 3] := by
    rw [incrementsFl_eq]
    simp only [List.map_cons, List.map_nil, Int.cast_one, Int.cast_ofNat, f1, f3]
  have e1 : (([Fl.of 1, Fl.of 3] : List (Fl R)).foldl (· + ·) 0).val = 4 := by
    change R.fl (R.fl (0 + 1) + 3) = 4
    rw [zero_add, f1, show (1 : ℚ) + 3 = 4 by norm_num, f4]
  have e2 : (squaresFl ([Fl.of 1, Fl.of 3] : List (Fl R))).val = 10 := by
    change R.fl (R.fl (0 + R.fl (1 * 1)) + R.fl (3 * 3)) = 10
    rw [zero_add, show (1 : ℚ) * 1 = 1 by norm_num, show (3 : ℚ) * 3 = 9 by norm_num, f1, f1, f9,
      show (1 : ℚ) + 9 = 10 by norm_num, f10]
  have e3 : (meanFl ([Fl.of 1, Fl.of 3] : List (Fl R))).val = 2 := by
    rw [meanFl, Fl.val_div, Fl.val_natCast, e1]
    change R.fl (4 / R.fl ((2 : Nat) : ℚ)) = 2
    rw [Nat.cast_ofNat, f2, show (4 : ℚ) / 2 = 2 by norm_num, f2]
  have hn : ∀ x : ℚ, R.fl x = x → Normal R x := by
    intro x hx
    rw [Normal, hx, sub_self, abs_zero]
    exact mul_nonneg R.u_nonneg (abs_nonneg _)
  have hfl : ∀ x ∈ ([Fl.of 1, Fl.of 3] : List (Fl R)), R.fl x.val = x.val := by
    intro x hx
    simp only [List.mem_cons, List.not_mem_nil, or_false] at hx
    rcases hx with rfl | rfl
    · exact f1
    · exact f3
  have hsq : ∀ x ∈ ([Fl.of 1, Fl.of 3] : List (Fl R)), Normal R (x.val * x.val) := by
    intro x hx
    simp only [List.mem_cons, List.not_mem_nil, or_false] at hx
    rcases hx with rfl | rfl
    · exact hn _ (by change R.fl (1 * 1) = 1 * 1; rw [one_mul, f1])
    · exact hn _ (by change R.fl (3 * 3) = 3 * 3; rw [show (3 : ℚ) * 3 = 9 by norm_num, f9])
  have hlen : (([Fl.of 1, Fl.of 3] : List (Fl R)).length : ℚ) = 2 := by norm_num
  have ed : dispersion (([Fl.of 1, Fl.of 3] : List (Fl R)).map Fl.val) = 1 := by
    change dispersion [1, 3] = 1
    norm_num [dispersion, average]
  have ep : power (([Fl.of 1, Fl.of 3] : List (Fl R)).map Fl.val) = 5 := by
    change power [1, 3] = 5
    norm_num [power, average]
  have hu : R.u = 1 / 2 ^ 24 := rfl
  rw [hv]
  have k1 := C101_number sqrt [Fl.of 1, Fl.of 3] hfl (by simp) (by rw [hlen, f2]) (fun x => Binary.fl_neg _ _ x) hsq
    (by rw [e1, hlen]; exact hn _ (by rw [show (4 : ℚ) / 2 = 2 by norm_num, f2]))
    (by rw [e2, hlen]; exact hn _ (by rw [show (10 : ℚ) / 2 = 5 by norm_num, f5]))
    (by rw [e3]; exact hn _ (by rw [show (2 : ℚ) * 2 = 4 by norm_num, f4]))
    (by rw [ed, ep, hu]; norm_num)
  have k2 := C101_variance ([Fl.of 1, Fl.of 3] : List (Fl R)) hfl (by simp) (by rw [hlen, f2]) (fun x => Binary.fl_neg _ _ x) hsq
    (by rw [e1, hlen]; exact hn _ (by rw [show (4 : ℚ) / 2 = 2 by norm_num, f2]))
    (by rw [e2, hlen]; exact hn _ (by rw [show (10 : ℚ) / 2 = 5 by norm_num, f5]))
    (by rw [e3]; exact hn _ (by rw [show (2 : ℚ) * 2 = 4 by norm_num, f4]))
  rw [ed, ep, hu] at k2
  exact ⟨k1, k2.trans (by norm_num)⟩

end Litl.Chronometer
