import Verif.Lemmas.Rounding
import Verif.Model.Distribution

/-!
# C87: sum and mean in floating point arithmetic
-/

namespace Litl

namespace Distribution

variable {K : Type} [Field K] [LinearOrder K] [IsStrictOrderedRing K]

/-- **C87** (full statement, violated by the code): in every binary format, the mean is between the minimum and the maximum. -/
def C87_Statement : Prop :=
  ∀ (p : Nat) (hp : 1 ≤ p) (emin : Int) (data : List (Fl (Binary.rounding p hp emin))) (a b : ℚ), data ≠ [] →
    (∀ x ∈ data, Binary.fl p emin x.val = x.val ∧ a ≤ x.val ∧ x.val ≤ b) →
    a ≤ (mean (ofValues data)).val ∧ (mean (ofValues data)).val ≤ b

section

variable {R : Rounding K}

/-- The partial sums. -/
theorem foldl_error (l : List (Fl R)) (hl : ∀ x ∈ l, R.fl x.val = x.val) (s : Fl R) (hs : R.fl s.val = s.val) :
    |(l.foldl (· + ·) s).val - (s.val + (l.map Fl.val).sum)| ≤
      ((1 + R.u) ^ l.length - 1) * (|s.val| + (l.map fun x => |x.val|).sum) := by
  have hu := R.u_nonneg
  induction l generalizing s with
  | nil => simp
  | cons x l ih =>
    have hx := hl x (by simp)
    have h1 := ih (fun y hy => hl y (by simp [hy])) (s + x) (by rw [Fl.val_add, R.idem])
    have h2 := R.sum _ _ hs hx
    simp only [List.foldl_cons, List.map_cons, List.sum_cons, List.length_cons]
    rw [Fl.val_add] at h1
    set t := R.fl (s.val + x.val)
    set S := (l.map Fl.val).sum
    set A := (l.map fun x => |x.val|).sum
    have hA : 0 ≤ A := List.sum_nonneg (by simp)
    have hp : 1 ≤ (1 + R.u) ^ l.length := one_le_pow₀ (by linarith)
    have h3 : |s.val + x.val| ≤ |s.val| + |x.val| := abs_add_le _ _
    have h4 : |t| ≤ (1 + R.u) * (|s.val| + |x.val|) := by
      have e : t = (t - (s.val + x.val)) + (s.val + x.val) := by ring
      have := abs_add_le (t - (s.val + x.val)) (s.val + x.val)
      rw [← e] at this
      nlinarith
    have e : (l.foldl (· + ·) (s + x)).val - (s.val + (x.val + S)) =
        ((l.foldl (· + ·) (s + x)).val - (t + S)) + (t - (s.val + x.val)) := by ring
    rw [e]
    refine (abs_add_le _ _).trans ?_
    have h5 : ((1 + R.u) ^ l.length - 1) * (|t| + A) ≤
        ((1 + R.u) ^ l.length - 1) * ((1 + R.u) * (|s.val| + |x.val|) + A) :=
      mul_le_mul_of_nonneg_left (by linarith) (by linarith)
    have h6 : R.u * |s.val + x.val| ≤ R.u * (|s.val| + |x.val|) := mul_le_mul_of_nonneg_left h3 hu
    have h7 : 0 ≤ (1 + R.u) ^ l.length * R.u * A := by positivity
    rw [pow_succ]
    linarith

/-- **C87**: the sum is accurate. -/
theorem C87_sum (data : List (Fl R)) (h : ∀ x ∈ data, R.fl x.val = x.val) :
    |(ofValues data).sum.val - (data.map Fl.val).sum| ≤
      ((1 + R.u) ^ (data.length - 1) - 1) * (data.map fun x => |x.val|).sum := by
  cases data with
  | nil =>
    have : ((0 : Fl R)).val = 0 := rfl
    simp [ofValues, this]
  | cons x l =>
    have hx := h x (by simp)
    have e : (0 : Fl R) + x = x := by
      change R.fl (0 + x.val) = x.val
      rw [zero_add, hx]
    have := foldl_error l (fun y hy => h y (by simp [hy])) x hx
    simpa [ofValues, e] using this

/-- **C87**: the mean is accurate, as long as the size is exact. -/
theorem C87_mean_accurate (data : List (Fl R)) (h : ∀ x ∈ data, R.fl x.val = x.val) (hne : data ≠ [])
    (hn : R.fl (data.length : K) = data.length) :
    |(mean (ofValues data)).val - (data.map Fl.val).sum / data.length| ≤
      ((1 + R.u) ^ data.length - 1) * ((data.map fun x => |x.val|).sum / data.length) + R.eta := by
  have hu := R.u_nonneg
  have h1 := C87_sum data h
  have hl : 0 < data.length := List.length_pos_iff.2 hne
  have hL : (0 : K) < data.length := by exact_mod_cast hl
  have e : (mean (ofValues data)).val = R.fl ((ofValues data).sum.val / data.length) := by
    change R.fl ((ofValues data).sum.val / R.fl (data.length : K)) = _
    rw [hn]
  rw [e]
  set s := (ofValues data).sum.val
  set S := (data.map Fl.val).sum
  set A := (data.map fun x => |x.val|).sum
  have h2 := R.near (s / data.length)
  have hS : |S| ≤ A := by
    have : ∀ l : List (Fl R), |(l.map Fl.val).sum| ≤ (l.map fun x => |x.val|).sum := by
      intro l
      induction l with
      | nil => simp
      | cons x l ih =>
        simp only [List.map_cons, List.sum_cons]
        exact (abs_add_le _ _).trans (by linarith)
    exact this data
  have h3 : |s / data.length - S / data.length| ≤ ((1 + R.u) ^ (data.length - 1) - 1) * (A / data.length) := by
    rw [← sub_div, abs_div, abs_of_pos hL, ← mul_div_assoc]
    exact div_le_div_of_nonneg_right h1 hL.le
  have h4 : |s / data.length| ≤ (1 + R.u) ^ (data.length - 1) * (A / data.length) := by
    have e1 : s / data.length = (s / data.length - S / data.length) + S / data.length := by ring
    have h5 := abs_add_le (s / data.length - S / data.length) (S / data.length)
    rw [← e1, abs_div S, abs_of_pos hL] at h5
    have h6 := div_le_div_of_nonneg_right hS hL.le
    linarith
  have h7 := mul_le_mul_of_nonneg_left h4 hu
  have h8 := abs_add_le (R.fl (s / data.length) - s / data.length) (s / data.length - S / data.length)
  rw [sub_add_sub_cancel] at h8
  obtain ⟨n, hn'⟩ : ∃ n, data.length = n + 1 := ⟨data.length - 1, by omega⟩
  have e2 : (1 + R.u) ^ data.length = (1 + R.u) ^ (data.length - 1) * (1 + R.u) := by
    rw [hn', Nat.add_sub_cancel, pow_succ]
  rw [e2]
  linarith

omit [IsStrictOrderedRing K] in
/-- **C87**: the sum is exact, as long as the partial sums are floating point numbers.
Missing: the other data, for which the error is bounded only (`C87_sum`). -/
theorem C87_sum_exact_partial (data : List (Fl R))
    (h : ∀ n ≤ data.length, R.fl ((data.take n).map Fl.val).sum = ((data.take n).map Fl.val).sum) :
    (ofValues data).sum.val = (data.map Fl.val).sum := by
  have key : ∀ n ≤ data.length, ((data.take n).foldl (· + ·) (0 : Fl R)).val = ((data.take n).map Fl.val).sum := by
    intro n
    induction n with
    | zero => intro _; simp; rfl
    | succ n ih =>
      intro hn
      have e : data.take (n + 1) = data.take n ++ [data[n]] := by rw [List.take_append_getElem]
      rw [← h (n + 1) hn, e, List.foldl_append, List.foldl_cons, List.foldl_nil, Fl.val_add, ih (by omega), List.map_append,
        List.sum_append, List.map_cons, List.map_nil, List.sum_cons, List.sum_nil, add_zero]
  have := key data.length le_rfl
  rwa [List.take_length] at this

end

/-- **C87**: in every binary format, there are three equal values whose mean is less than them. -/
theorem C87_mean_of_constant (p : Nat) (hp : 3 ≤ p) (emin : Int) (he : emin ≤ 0) :
    let v : Fl (Binary.rounding p (by omega) emin) := Fl.of (2 ^ p - 2)
    Binary.fl p emin v.val = v.val ∧ (mean (ofValues [v, v, v])).val = v.val - 1 := by
  intro v
  obtain ⟨q, rfl⟩ : ∃ q, p = q + 3 := ⟨p - 3, by omega⟩
  set Q : ℚ := 2 ^ q with hQ
  have hQ1 : (1 : ℚ) ≤ Q := one_le_pow₀ (by norm_num)
  have zq : ∀ k : ℕ, (2 : ℚ) ^ ((q : ℤ) + k) = Q * 2 ^ k := by
    intro k
    rw [zpow_add₀ (by norm_num), zpow_natCast, zpow_natCast]
  have hpow : (8 : Int) ≤ 2 ^ (q + 3) := by
    have : 1 ≤ (2 : Int) ^ q := one_le_pow₀ (by norm_num)
    rw [pow_add]
    omega
  have hv : v.val = 8 * Q - 2 := by
    change (2 : ℚ) ^ (q + 3) - 2 = _
    rw [hQ]
    ring
  have f1 : Binary.fl (q + 3) emin (8 * Q - 2) = 8 * Q - 2 := by
    have := Binary.fl_intCast (p := q + 3) he (n := 2 ^ (q + 3) - 2) (by rw [abs_of_nonneg (by omega)]; omega)
    have e : ((2 ^ (q + 3) - 2 : Int) : ℚ) = 8 * Q - 2 := by
      push_cast
      rw [hQ]
      ring
    rwa [e] at this
  have f2 : Binary.fl (q + 3) emin (8 * Q - 2 + (8 * Q - 2)) = 16 * Q - 4 := by
    have := Binary.fl_mul_pow (p := q + 3) (emin := emin) (e := 1) (by omega) (n := 2 ^ (q + 3) - 2)
      (by rw [abs_of_nonneg (by omega)]; omega)
    have e : ((2 ^ (q + 3) - 2 : Int) : ℚ) * 2 ^ (1 : ℤ) = 16 * Q - 4 := by
      push_cast
      rw [hQ]
      ring
    rw [e] at this
    rw [← this]
    congr 1
    ring
  have f3 : Binary.fl (q + 3) emin (16 * Q - 4 + (8 * Q - 2)) = 24 * Q - 8 := by
    have e0 : 16 * Q - 4 + (8 * Q - 2) = 24 * Q - 6 := by ring
    rw [e0, Binary.fl, Binary.exponent_eq (e := 2) (by omega) (by
      push_cast
      rw [show (2 : ℤ) + (q + 3) - 1 = q + (4 : ℕ) by push_cast; ring, zq]
      linarith) (by
      push_cast
      rw [show (2 : ℤ) + (q + 3) = q + (5 : ℕ) by push_cast; ring, zq]
      linarith)]
    have e1 : (24 * Q - 6) / 2 ^ (2 : ℤ) = ((6 * 2 ^ q - 2 : Int) : ℚ) + 1 / 2 := by
      push_cast
      rw [hQ]
      ring
    have h3 : Int.fract (((6 * 2 ^ q - 2 : ℤ) : ℚ) + 1 / 2) = 1 / 2 := by
      rw [Int.fract_intCast_add, Int.fract_eq_self]; norm_num
    have h4 : ⌊((6 * 2 ^ q - 2 : ℤ) : ℚ) + 1 / 2⌋ = 6 * 2 ^ q - 2 := by
      rw [Int.floor_intCast_add]; norm_num
    rw [e1, Binary.roundEven, h3, h4, if_neg (by norm_num), if_neg (by norm_num), if_pos (by omega)]
    push_cast
    rw [hQ]
    ring
  have f4 : Binary.fl (q + 3) emin 3 = 3 := by
    have := Binary.fl_intCast (p := q + 3) he (n := 3) (by norm_num; omega)
    exact_mod_cast this
  have f5 : Binary.fl (q + 3) emin ((24 * Q - 8) / 3) = 8 * Q - 3 := by
    have e1 : (24 * Q - 8) / 3 = 8 * Q - 8 / 3 := by ring
    have e3 : ((2 ^ (q + 3) - 3 : Int) : ℚ) * 2 ^ (0 : ℤ) = 8 * Q - 3 := by
      push_cast
      rw [hQ]
      ring
    rw [e1, Binary.fl_eq (e := 0) (m := 2 ^ (q + 3) - 3) he, e3]
    · rw [show (0 : ℤ) + ((q + 3 : ℕ) : ℤ) - 1 = q + (2 : ℕ) by push_cast; ring, zq]
      linarith
    · rw [show (0 : ℤ) + ((q + 3 : ℕ) : ℤ) = q + (3 : ℕ) by push_cast; ring, zq]
      linarith
    · rw [e3, zpow_zero, abs_lt]
      constructor <;> linarith
  refine ⟨by rw [hv, f1], ?_⟩
  change Binary.fl (q + 3) emin (Binary.fl (q + 3) emin (Binary.fl (q + 3) emin (Binary.fl (q + 3) emin (0 + v.val) + v.val) + v.val) /
    Binary.fl (q + 3) emin ((3 : ℕ) : ℚ)) = _
  rw [hv, zero_add, f1, f2, f3, Nat.cast_ofNat, f4, f5]
  ring

/-- **C87**: the full statement is violated. -/
theorem C87_violated : ¬ C87_Statement := by
  intro h
  obtain ⟨h1, h2⟩ := C87_mean_of_constant 24 (by omega) (-149) (by omega)
  set v : Fl (Binary.rounding 24 (by omega) (-149)) := Fl.of (2 ^ 24 - 2)
  have := (h 24 (by omega) (-149) [v, v, v] v.val v.val (by simp) (by
    intro x hx
    obtain rfl : x = v := by simpa using hx
    exact ⟨h1, le_rfl, le_rfl⟩)).1
  rw [h2] at this
  linarith

/-- Non-vacuity: the mean of three values of type `float`, from the accurate sum. -/
example : ∃ x : Fl (Binary.rounding 24 (by omega) (-149)), mean (ofValues [Fl.of 1, Fl.of 2, Fl.of 4]) = x ∧
    |x.val - 7 / 3| ≤ 1 / 2 ^ 21 := by
  refine ⟨_, rfl, ?_⟩
  have hf : ∀ n : Int, |n| < 2 ^ 24 → Binary.fl 24 (-149) n = n := fun n h => Binary.fl_intCast (by omega) h
  have := C87_mean_accurate (R := Binary.rounding 24 (by omega) (-149)) [Fl.of 1, Fl.of 2, Fl.of 4] (by
    intro x hx
    simp only [List.mem_cons, List.not_mem_nil, or_false] at hx
    rcases hx with rfl | rfl | rfl
    · exact_mod_cast hf 1 (by norm_num)
    · exact_mod_cast hf 2 (by norm_num)
    · exact_mod_cast hf 4 (by norm_num)) (by simp) (by exact_mod_cast hf 3 (by norm_num))
  have e : ∀ y : ℚ, (Fl.of y : Fl (Binary.rounding 24 (by omega) (-149))).val = y := fun _ => rfl
  simp only [List.map_cons, List.map_nil, e, List.sum_cons, List.sum_nil, List.length_cons, List.length_nil] at this
  change |_| ≤ ((1 + 1 / 2 ^ 24) ^ 3 - 1) * _ + (2 : ℚ) ^ (-149 : ℤ) / 2 at this
  norm_num at this ⊢
  exact this.trans (by norm_num)

/-- Non-vacuity: integers are summed exactly. -/
example : (ofValues [Fl.of 1, Fl.of 2, Fl.of 4] : Distribution (Fl (Binary.rounding 24 (by omega) (-149)))).sum.val = 7 := by
  have hf : ∀ n : Int, |n| < 2 ^ 24 → Binary.fl 24 (-149) n = n := fun n h => Binary.fl_intCast (by omega) h
  have e : ∀ y : ℚ, (Fl.of y : Fl (Binary.rounding 24 (by omega) (-149))).val = y := fun _ => rfl
  rw [C87_sum_exact_partial]
  · simp only [List.map_cons, List.map_nil, e, List.sum_cons, List.sum_nil]
    norm_num
  · intro n hn
    simp only [List.length_cons, List.length_nil] at hn
    obtain rfl | rfl | rfl | rfl : n = 0 ∨ n = 1 ∨ n = 2 ∨ n = 3 := by omega
    · exact_mod_cast hf 0 (by norm_num)
    · have := hf 1 (by norm_num)
      simp only [List.take_succ_cons, List.take_zero, List.map_cons, List.map_nil, e, List.sum_cons, List.sum_nil]
      norm_num at this ⊢
      exact this
    · have := hf 3 (by norm_num)
      simp only [List.take_succ_cons, List.take_zero, List.map_cons, List.map_nil, e, List.sum_cons, List.sum_nil]
      norm_num at this ⊢
      exact this
    · have := hf 7 (by norm_num)
      simp only [List.take_succ_cons, List.take_zero, List.map_cons, List.map_nil, e, List.sum_cons, List.sum_nil]
      norm_num at this ⊢
      exact this

end Distribution

end Litl
