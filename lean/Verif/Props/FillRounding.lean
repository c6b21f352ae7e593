import Verif.Lemmas.Rounding
import Verif.Props.Fill
import Mathlib.Tactic.IntervalCases

/-!
# C86: `range()` and `linspace()` in floating point arithmetic
-/

namespace Litl

open Spec Container

variable {K : Type} [Field K] [LinearOrder K] [IsStrictOrderedRing K]

namespace Spec

/-- The i-th of `n` evenly spaced values. -/
def evenly (min max : K) (n i : Nat) : K := min + (max - min) * i / ((n : K) - 1)

end Spec

namespace Rounding

/-- Rounding does not change the order. -/
def Monotone (R : Rounding K) : Prop := ∀ x y, x ≤ y → R.fl x ≤ R.fl y

/-- The rounding errors (of a relative difference, quotient and product) are too small for the value before the last one to be
farther from the first bound than the other bound, at distance `d`. -/
def Resolves (R : Rounding K) (n : Nat) (d : K) : Prop :=
  (1 + R.u) ^ 3 * (((n : K) - 2) / ((n : K) - 1) * d + n * R.eta) ≤ d

end Rounding

namespace Rounded

variable (R : Rounding K)

/-- What `linspace()` computes: the increment. -/
def increment (min max : K) (n i : Nat) : K := R.fl (R.fl (R.fl (max - min) / R.fl (n - 1 : Nat)) * R.fl i)

/-- What `linspace()` computes. -/
def spaced (min max : K) (n i : Nat) : K := if i + 1 = n then max else R.fl (min + increment R min max n i)

omit [IsStrictOrderedRing K] in
/-- `linspace()` with rounded operators. -/
theorem linspace_eq (mem : List (Fl R)) (a n kmin kmax : Nat) (min max : Fl R) (ha : a + n ≤ mem.length) (hn : 0 < n)
    (hn' : n < 2 ^ 64) (hmin : mem[kmin]? = some min) (hmax : mem[kmax]? = some max)
    (h : kmin < a ∨ a + n ≤ kmin) (h' : kmax < a ∨ a + n ≤ kmax) :
    ∃ m, linspaceMem mem a n kmin kmax = .ok m ∧ SameOutside mem m a n ∧
      (elements m a n).map Fl.val = (List.range n).map (spaced R min.val max.val n) := by
  obtain ⟨m, h1, _, h2, h3⟩ := linspaceMem_spec mem a n kmin kmax min max ha hn hn' hmin hmax h h'
  refine ⟨m, h1, h3, ?_⟩
  rw [h2, List.map_map]
  refine List.map_congr_left fun i _ => ?_
  simp only [Function.comp_apply, spaced, increment]
  split
  · rfl
  · simp only [Fl.val_add, Fl.val_mul, Fl.val_div, Fl.val_sub, Fl.val_natCast]

/-- One rounded product. -/
theorem step_error {x y k A E c : K} (hy : |y| ≤ A) (h : |x - y| ≤ (c - 1) * A + E) :
    |R.fl (x * k) - y * k| ≤ ((1 + R.u) * c - 1) * (A * |k|) + ((1 + R.u) * |k| * E + R.eta) := by
  have hu := R.u_nonneg
  have hn := R.near (x * k)
  rw [abs_mul] at hn
  have h1 : |R.fl (x * k) - y * k| ≤ |R.fl (x * k) - x * k| + |x - y| * |k| := by
    have e : R.fl (x * k) - y * k = (R.fl (x * k) - x * k) + (x - y) * k := by ring
    rw [e, ← abs_mul]
    exact abs_add_le _ _
  have h2 : |x| ≤ A + |x - y| := by
    have e : x = y + (x - y) := by ring
    calc |x| = |y + (x - y)| := by rw [← e]
      _ ≤ |y| + |x - y| := abs_add_le _ _
      _ ≤ _ := by linarith
  have hk := abs_nonneg k
  have h3 : |x| * |k| ≤ (A + |x - y|) * |k| := mul_le_mul_of_nonneg_right h2 hk
  have h4 := mul_le_mul_of_nonneg_left h3 hu
  have h5 : |x - y| * |k| ≤ ((c - 1) * A + E) * |k| := mul_le_mul_of_nonneg_right h hk
  have h6 := mul_le_mul_of_nonneg_left h5 (by linarith : 0 ≤ 1 + R.u)
  linarith

/-- The error of the increment. -/
theorem increment_error {min max : K} {n i : Nat} (hn : 2 ≤ n) (hi : i < n) (hc : ∀ j < n, R.fl (j : K) = j) :
    |increment R min max n i - (max - min) * i / ((n : K) - 1)| ≤
      ((1 + R.u) ^ 3 - 1) * (|max - min| * i / ((n : K) - 1)) + (1 + R.u) ^ 2 * ((i : K) + 2) * R.eta := by
  have hu := R.u_nonneg
  have he := R.eta_nonneg
  have hN : (1 : K) ≤ (n : K) - 1 := by
    have : (2 : K) ≤ n := by exact_mod_cast hn
    linarith
  have hN0 : (0 : K) < (n : K) - 1 := by linarith
  have hi' : (i : K) ≤ (n : K) - 1 := by
    have : ((i + 1 : Nat) : K) ≤ n := by exact_mod_cast hi
    push_cast at this
    linarith
  have hi0 : (0 : K) ≤ i := Nat.cast_nonneg i
  have h1 : |R.fl (max - min) - (max - min)| ≤ ((1 + R.u) - 1) * |max - min| + R.eta := by
    have := R.near (max - min)
    linarith
  have h2 := step_error R (k := ((n : K) - 1)⁻¹) le_rfl h1
  have h3 := step_error R (k := (i : K)) (c := (1 + R.u) * (1 + R.u)) (by rw [abs_mul]) h2
  have e1 : |((n : K) - 1)⁻¹| = ((n : K) - 1)⁻¹ := abs_of_pos (inv_pos.2 hN0)
  have e2 : |(i : K)| = i := abs_of_nonneg hi0
  rw [e1, e2] at h3
  have e3 : increment R min max n i = R.fl (R.fl (R.fl (max - min) * ((n : K) - 1)⁻¹) * i) := by
    unfold increment
    rw [hc _ (by omega), hc _ hi, Nat.cast_sub (by omega), Nat.cast_one, div_eq_mul_inv]
  rw [e3, show (max - min) * i / ((n : K) - 1) = (max - min) * ((n : K) - 1)⁻¹ * i by
    rw [div_eq_mul_inv]; ring]
  refine h3.trans ?_
  have h4 : ((n : K) - 1)⁻¹ * i ≤ 1 := by
    rw [inv_mul_eq_div, div_le_one hN0]; exact hi'
  have h5 : (1 + R.u) * i * ((1 + R.u) * ((n : K) - 1)⁻¹ * R.eta + R.eta) + R.eta ≤ (1 + R.u) ^ 2 * ((i : K) + 2) * R.eta := by
    have h6 : (1 + R.u) ^ 2 * (((n : K) - 1)⁻¹ * i) ≤ (1 + R.u) ^ 2 * 1 := mul_le_mul_of_nonneg_left h4 (by positivity)
    have h7 : (1 + R.u) * i ≤ (1 + R.u) ^ 2 * i := mul_le_mul_of_nonneg_right (by nlinarith) hi0
    have h8 : (1 : K) ≤ (1 + R.u) ^ 2 := by nlinarith
    have h9 : (1 + R.u) ^ 2 * (((n : K) - 1)⁻¹ * i) + (1 + R.u) * i + 1 ≤ (1 + R.u) ^ 2 * ((i : K) + 2) := by linarith
    have h10 := mul_le_mul_of_nonneg_right h9 he
    linarith
  have h6 : |max - min| * i / ((n : K) - 1) = |max - min| * ((n : K) - 1)⁻¹ * i := by
    rw [div_eq_mul_inv]; ring
  rw [h6]
  have h7 : (1 + R.u) * ((1 + R.u) * (1 + R.u)) = (1 + R.u) ^ 3 := by ring
  rw [h7]
  linarith

/-- The increment is not greater than the distance between the bounds. -/
theorem increment_le {min max : K} {n i : Nat} (hn : 2 ≤ n) (hi : i + 1 < n) (hc : ∀ j < n, R.fl (j : K) = j)
    (h : R.Resolves n |max - min|) : |increment R min max n i| ≤ |max - min| := by
  have hu := R.u_nonneg
  have he := R.eta_nonneg
  have hN : (1 : K) ≤ (n : K) - 1 := by
    have : (2 : K) ≤ n := by exact_mod_cast hn
    linarith
  have hN0 : (0 : K) < (n : K) - 1 := by linarith
  have hi' : (i : K) ≤ (n : K) - 2 := by
    have : ((i + 2 : Nat) : K) ≤ n := by exact_mod_cast hi
    push_cast at this
    linarith
  have hi0 : (0 : K) ≤ i := Nat.cast_nonneg i
  have h1 := increment_error R (min := min) (max := max) hn (by omega : i < n) hc
  have h2 : |(max - min) * i / ((n : K) - 1)| = |max - min| * i / ((n : K) - 1) := by
    rw [abs_div, abs_mul, abs_of_nonneg hi0, abs_of_pos hN0]
  have h3 : |increment R min max n i| ≤ |(max - min) * i / ((n : K) - 1)| +
      |increment R min max n i - (max - min) * i / ((n : K) - 1)| := by
    have := abs_add_le ((max - min) * i / ((n : K) - 1)) (increment R min max n i - (max - min) * i / ((n : K) - 1))
    simpa using this
  rw [h2] at h3
  refine h3.trans (le_trans ?_ h)
  have h4 : |max - min| * i / ((n : K) - 1) ≤ ((n : K) - 2) / ((n : K) - 1) * |max - min| := by
    rw [div_mul_eq_mul_div, mul_comm]
    exact div_le_div_of_nonneg_right (mul_le_mul_of_nonneg_right hi' (abs_nonneg _)) hN0.le
  have h5 := mul_le_mul_of_nonneg_left h4 (by positivity : 0 ≤ (1 + R.u) ^ 3)
  have h6 : (1 + R.u) ^ 2 * ((i : K) + 2) ≤ (1 + R.u) ^ 3 * n :=
    mul_le_mul (by nlinarith [sq_nonneg (1 + R.u)]) (by linarith) (by linarith) (by positivity)
  have h7 := mul_le_mul_of_nonneg_right h6 he
  linarith

/-- Increments are monotone. -/
theorem increment_mono (hm : R.Monotone) {min max : K} {n i j : Nat} (hij : i ≤ j) :
    (min ≤ max → increment R min max n i ≤ increment R min max n j) ∧
    (max ≤ min → increment R min max n j ≤ increment R min max n i) := by
  have h0 := R.zero
  have hN : 0 ≤ R.fl ((n - 1 : Nat) : K) := by rw [← h0]; exact hm _ _ (Nat.cast_nonneg _)
  have hij' : R.fl (i : K) ≤ R.fl (j : K) := hm _ _ (by exact_mod_cast hij)
  unfold increment
  constructor
  · intro h
    refine hm _ _ (mul_le_mul_of_nonneg_left hij' ?_)
    have hd : 0 ≤ R.fl (max - min) := by rw [← h0]; exact hm _ _ (by linarith)
    conv_lhs => rw [← h0]
    exact hm _ _ (div_nonneg hd hN)
  · intro h
    refine hm _ _ (mul_le_mul_of_nonpos_left hij' ?_)
    have hd : R.fl (max - min) ≤ 0 := by
      conv_rhs => rw [← h0]
      exact hm _ _ (by linarith)
    conv_rhs => rw [← h0]
    exact hm _ _ (div_nonpos_of_nonpos_of_nonneg hd hN)

/-- The values are sorted. -/
theorem spaced_mono (hm : R.Monotone) {min max : K} {n i j : Nat} (hn : 2 ≤ n) (hij : i < j) (hj : j < n)
    (hc : ∀ j < n, R.fl (j : K) = j) (hmax : R.fl max = max) (h : R.Resolves n |max - min|) :
    (min ≤ max → spaced R min max n i ≤ spaced R min max n j) ∧
    (max ≤ min → spaced R min max n j ≤ spaced R min max n i) := by
  have hb := abs_le.1 (increment_le R (min := min) (max := max) hn (by omega : i + 1 < n) hc h)
  have hi := increment_mono R hm (min := min) (max := max) (n := n) hij.le
  unfold spaced
  rw [if_neg (by omega)]
  constructor
  · intro hle
    split
    · conv_rhs => rw [← hmax]
      refine hm _ _ ?_
      rw [abs_of_nonneg (by linarith)] at hb
      linarith
    · exact hm _ _ (by linarith [hi.1 hle])
  · intro hle
    split
    · conv_lhs => rw [← hmax]
      refine hm _ _ ?_
      rw [abs_of_nonpos (by linarith)] at hb
      linarith
    · exact hm _ _ (by linarith [hi.2 hle])

end Rounded

/-- The arguments of `range()` and `linspace()`: `n` elements at `a`, and values `x` and `y` stored elsewhere. -/
structure Arguments {α : Type} (mem : List α) (a n k k' : Nat) (x y : α) : Prop where
  fits : a + n ≤ mem.length
  size : 2 ≤ n
  size_lt : n < 2 ^ 64
  first : mem[k]? = some x
  second : mem[k']? = some y
  first_outside : k < a ∨ a + n ≤ k
  second_outside : k' < a ∨ a + n ≤ k'

section Linspace

variable {R : Rounding K} {mem : List (Fl R)} {a n kmin kmax : Nat} {min max : Fl R}

omit [IsStrictOrderedRing K] in
/-- **C86**: the first and last values of `linspace()` are exactly the bounds. -/
theorem C86_linspace_bounds (h : Arguments mem a n kmin kmax min max) (hmin : R.fl min.val = min.val) :
    ∃ m, linspaceMem mem a n kmin kmax = .ok m ∧ SameOutside mem m a n ∧ m[a]? = some min ∧ m[a + (n - 1)]? = some max := by
  obtain ⟨m, h1, h2, h3⟩ := Rounded.linspace_eq R mem a n kmin kmax min max h.fits (by have := h.size; omega) h.size_lt h.first
    h.second h.first_outside h.second_outside
  have hn := h.size
  have key : ∀ i < n, (m[a + i]?).map Fl.val = some (Rounded.spaced R min.val max.val n i) := by
    intro i hi
    have := congrArg (·[i]?) h3
    simpa [elements_getElem?, hi] using this
  have inj : ∀ {o : Option (Fl R)} {x : Fl R}, o.map Fl.val = some x.val → o = some x := by
    intro o x hx
    obtain ⟨y, rfl, e⟩ := Option.map_eq_some_iff.1 hx
    exact congrArg some e
  refine ⟨m, h1, h2, ?_, ?_⟩
  · have := key 0 (by omega)
    rw [Rounded.spaced, if_neg (by omega), Rounded.increment, Nat.cast_zero, R.zero, mul_zero, R.zero] at this
    rw [Nat.add_zero, add_zero, hmin] at this
    exact inj this
  · have := key (n - 1) (by omega)
    rw [Rounded.spaced, if_pos (by omega)] at this
    exact inj this

/-- **C86**: the values of `linspace()` are sorted, and hence between the bounds, as long as the indices are exact and there are
no too many values.
Missing: too many values, or bounds which are too close to each other, see `C86_violated`. -/
theorem C86_linspace_sorted_partial (hm : R.Monotone) (h : Arguments mem a n kmin kmax min max) (hmax : R.fl max.val = max.val)
    (hc : ∀ j < n, R.fl (j : K) = j) (hr : R.Resolves n |max.val - min.val|) :
    ∃ m, linspaceMem mem a n kmin kmax = .ok m ∧ SameOutside mem m a n ∧
      (min.val ≤ max.val → ((elements m a n).map Fl.val).Pairwise (· ≤ ·)) ∧
      (max.val ≤ min.val → ((elements m a n).map Fl.val).Pairwise (· ≥ ·)) := by
  obtain ⟨m, h1, h2, h3⟩ := Rounded.linspace_eq R mem a n kmin kmax min max h.fits (by have := h.size; omega) h.size_lt h.first
    h.second h.first_outside h.second_outside
  refine ⟨m, h1, h2, fun hle => ?_, fun hle => ?_⟩ <;> rw [h3, List.pairwise_map] <;>
    refine List.Pairwise.imp_of_mem (fun {i j} _ hj hij => ?_) List.pairwise_lt_range
  · exact (Rounded.spaced_mono R hm h.size hij (List.mem_range.1 hj) hc hmax hr).1 hle
  · exact (Rounded.spaced_mono R hm h.size hij (List.mem_range.1 hj) hc hmax hr).2 hle

/-- **C86**: the values of `linspace()` are accurate, as long as the indices are exact. -/
theorem C86_linspace_accurate (h : Arguments mem a n kmin kmax min max) (hc : ∀ j < n, R.fl (j : K) = j) :
    ∃ m, linspaceMem mem a n kmin kmax = .ok m ∧ SameOutside mem m a n ∧ ∀ i < n, ∃ x, m[a + i]? = some x ∧
      |x.val - evenly min.val max.val n i| ≤ R.u * |evenly min.val max.val n i| +
        (1 + R.u) * ((1 + R.u) ^ 3 - 1) * (|max.val - min.val| * i / ((n : K) - 1)) +
        (1 + R.u) ^ 3 * ((i : K) + 3) * R.eta := by
  obtain ⟨m, h1, h2, h3⟩ := Rounded.linspace_eq R mem a n kmin kmax min max h.fits (by have := h.size; omega) h.size_lt h.first
    h.second h.first_outside h.second_outside
  have hn := h.size
  refine ⟨m, h1, h2, fun i hi => ?_⟩
  have key : (m[a + i]?).map Fl.val = some (Rounded.spaced R min.val max.val n i) := by
    have := congrArg (·[i]?) h3
    simpa [elements_getElem?, hi] using this
  obtain ⟨x, hx, e⟩ := Option.map_eq_some_iff.1 key
  refine ⟨x, hx, ?_⟩
  have hu := R.u_nonneg
  have he := R.eta_nonneg
  have hN : (1 : K) ≤ (n : K) - 1 := by
    have : (2 : K) ≤ n := by exact_mod_cast hn
    linarith
  have hN0 : (0 : K) < (n : K) - 1 := by linarith
  have hi0 : (0 : K) ≤ i := Nat.cast_nonneg i
  have hpow : 1 ≤ (1 + R.u) ^ 3 := one_le_pow₀ (by linarith)
  have hq : 0 ≤ |max.val - min.val| * i / ((n : K) - 1) := by positivity
  rw [e, Rounded.spaced]
  split
  · rename_i hlast
    have : evenly min.val max.val n i = max.val := by
      have e1 : (i : K) = (n : K) - 1 := by rw [← hlast]; push_cast; ring
      rw [evenly, e1, mul_div_assoc, div_self hN0.ne']
      ring
    rw [this, sub_self, abs_zero]
    have h4 : 0 ≤ (1 + R.u) * ((1 + R.u) ^ 3 - 1) := mul_nonneg (by linarith) (by linarith)
    have h5 := mul_nonneg h4 hq
    have h6 : 0 ≤ R.u * |max.val| := by positivity
    have h7 : 0 ≤ (1 + R.u) ^ 3 * ((i : K) + 3) * R.eta := by positivity
    linarith
  · have h4 := Rounded.increment_error R (min := min.val) (max := max.val) hn hi hc
    have h5 := R.near (min.val + Rounded.increment R min.val max.val n i)
    set t := Rounded.increment R min.val max.val n i
    set t' := (max.val - min.val) * i / ((n : K) - 1) with ht'
    have e1 : evenly min.val max.val n i = min.val + t' := rfl
    rw [e1]
    have h6 : |R.fl (min.val + t) - (min.val + t')| ≤ |R.fl (min.val + t) - (min.val + t)| + |t - t'| := by
      have e2 : R.fl (min.val + t) - (min.val + t') = (R.fl (min.val + t) - (min.val + t)) + (t - t') := by ring
      rw [e2]; exact abs_add_le _ _
    have h7 : |min.val + t| ≤ |min.val + t'| + |t - t'| := by
      have e2 : min.val + t = (min.val + t') + (t - t') := by ring
      rw [e2]; exact abs_add_le _ _
    have h8 := mul_le_mul_of_nonneg_left h7 hu
    have h9 := mul_le_mul_of_nonneg_left h4 (by linarith : 0 ≤ 1 + R.u)
    have h10 : R.eta ≤ (1 + R.u) ^ 3 * R.eta := le_mul_of_one_le_left he hpow
    have h11 : (1 + R.u) * ((1 + R.u) ^ 2 * ((i : K) + 2) * R.eta) + (1 + R.u) ^ 3 * R.eta =
        (1 + R.u) ^ 3 * ((i : K) + 3) * R.eta := by ring
    linarith

end Linspace

section Range

variable {R : Rounding K} {mem : List (Fl R)} {a n kmin kstep : Nat} {min step : Fl R}

omit [IsStrictOrderedRing K] in
theorem range_getElem (h : Arguments mem a n kmin kstep min step) :
    ∃ m, rangeMem mem a n kmin kstep = .ok m ∧ SameOutside mem m a n ∧ ∀ i < n, m[a + i]? = some ((· + step)^[i] min) := by
  obtain ⟨m, h1, hl, h2, h3⟩ := rangeMem_spec mem a n kmin kstep min step h.fits h.first h.second h.second_outside
  refine ⟨m, h1, h3, fun i hi => ?_⟩
  have := congrArg (·[i]?) h2
  simp only [elements_getElem?, if_pos hi] at this
  rw [this]
  simp [hi]

omit [IsStrictOrderedRing K] in
theorem fl_iterate (hmin : R.fl min.val = min.val) (i : Nat) :
    R.fl ((· + step)^[i] min).val = ((· + step)^[i] min).val := by
  cases i with
  | zero => exact hmin
  | succ i => rw [Function.iterate_succ_apply', Fl.val_add, R.idem]

/-- **C86**: the values of `range()` are sorted, in the order of the sign of the step. -/
theorem C86_range_sorted (hm : R.Monotone) (h : Arguments mem a n kmin kstep min step) (hmin : R.fl min.val = min.val) :
    ∃ m, rangeMem mem a n kmin kstep = .ok m ∧ SameOutside mem m a n ∧ ∀ i j x y, i ≤ j → j < n →
      m[a + i]? = some x → m[a + j]? = some y →
      (0 ≤ step.val → x.val ≤ y.val) ∧ (step.val ≤ 0 → y.val ≤ x.val) := by
  obtain ⟨m, h1, h2, h3⟩ := range_getElem h
  refine ⟨m, h1, h2, fun i j x y hij hj hx hy => ?_⟩
  rw [h3 i (by omega)] at hx
  rw [h3 j hj] at hy
  cases hx
  cases hy
  obtain ⟨d, rfl⟩ := Nat.exists_eq_add_of_le hij
  clear hj hij
  induction d with
  | zero => exact ⟨fun _ => le_rfl, fun _ => le_rfl⟩
  | succ d ih =>
    have hfl := fl_iterate (step := step) hmin (i + d)
    rw [← Nat.add_assoc, Function.iterate_succ_apply', Fl.val_add]
    refine ⟨fun hs => (ih.1 hs).trans ?_, fun hs => le_trans ?_ (ih.2 hs)⟩
    · conv_lhs => rw [← hfl]
      exact hm _ _ (by linarith)
    · conv_rhs => rw [← hfl]
      exact hm _ _ (by linarith)

/-- **C86**: the values of `range()` are accurate, with an error which grows with the index. -/
theorem C86_range_accurate (h : Arguments mem a n kmin kstep min step) (hmin : R.fl min.val = min.val)
    (hstep : R.fl step.val = step.val) :
    ∃ m, rangeMem mem a n kmin kstep = .ok m ∧ SameOutside mem m a n ∧ ∀ i < n, ∃ x, m[a + i]? = some x ∧
      |x.val - (min.val + i * step.val)| ≤ ((1 + R.u) ^ i - 1) * (|min.val| + i * |step.val|) := by
  obtain ⟨m, h1, h2, h3⟩ := range_getElem h
  refine ⟨m, h1, h2, fun i hi => ⟨_, h3 i hi, ?_⟩⟩
  clear hi
  have hu := R.u_nonneg
  induction i with
  | zero => simp
  | succ i ih =>
    have hs := R.sum _ _ (fl_iterate (step := step) hmin i) hstep
    rw [Function.iterate_succ_apply', Fl.val_add]
    set x := ((· + step)^[i] min).val
    set y := min.val + i * step.val with hy
    have e1 : min.val + ((i + 1 : Nat) : K) * step.val = y + step.val := by rw [hy]; push_cast; ring
    rw [e1]
    have h4 : |R.fl (x + step.val) - (y + step.val)| ≤ |R.fl (x + step.val) - (x + step.val)| + |x - y| := by
      have e2 : R.fl (x + step.val) - (y + step.val) = (R.fl (x + step.val) - (x + step.val)) + (x - y) := by ring
      rw [e2]; exact abs_add_le _ _
    have hi0 : (0 : K) ≤ i := Nat.cast_nonneg i
    have h5 : |y + step.val| ≤ |min.val| + (i + 1) * |step.val| := by
      have e2 : y + step.val = min.val + ((i : K) + 1) * step.val := by rw [hy]; ring
      rw [e2]
      refine (abs_add_le _ _).trans ?_
      rw [abs_mul, abs_of_nonneg (by linarith : (0 : K) ≤ (i : K) + 1)]
    have h6 : |x + step.val| ≤ |y + step.val| + |x - y| := by
      have e2 : x + step.val = (y + step.val) + (x - y) := by ring
      rw [e2]; exact abs_add_le _ _
    have h7 := mul_le_mul_of_nonneg_left (h6.trans (add_le_add h5 le_rfl)) hu
    have hp : 1 ≤ (1 + R.u) ^ i := one_le_pow₀ (by linarith)
    have hA : 0 ≤ |step.val| := abs_nonneg _
    have h8 : ((1 + R.u) ^ i - 1) * (|min.val| + i * |step.val|) ≤ ((1 + R.u) ^ i - 1) * (|min.val| + (i + 1) * |step.val|) :=
      mul_le_mul_of_nonneg_left (by linarith) (by linarith)
    have h9 := mul_le_mul_of_nonneg_left (ih.trans h8) (by linarith : 0 ≤ 1 + R.u)
    rw [pow_succ]
    push_cast
    linarith

omit [IsStrictOrderedRing K] in
/-- **C86**: the values of `range()` are exact, as long as all of them are floating point numbers.
Missing: the other values, for which the error is bounded only. -/
theorem C86_range_exact_partial (h : Arguments mem a n kmin kstep min step)
    (hr : ∀ i < n, R.fl (min.val + i * step.val) = min.val + i * step.val) :
    ∃ m, rangeMem mem a n kmin kstep = .ok m ∧ SameOutside mem m a n ∧
      (elements m a n).map Fl.val = (List.range n).map fun i : Nat => min.val + i * step.val := by
  obtain ⟨m, h1, hl, h2, h3⟩ := rangeMem_spec mem a n kmin kstep min step h.fits h.first h.second h.second_outside
  refine ⟨m, h1, h3, ?_⟩
  rw [h2, List.map_map]
  refine List.map_congr_left fun i hi => ?_
  rw [List.mem_range] at hi
  rw [Function.comp_apply]
  induction i with
  | zero => simp
  | succ i ih =>
    rw [Function.iterate_succ_apply', Fl.val_add, ih (by omega), ← hr (i + 1) hi]
    push_cast
    ring_nf

end Range

namespace Binary

theorem rounding_monotone (p : Nat) (hp : 1 ≤ p) (emin : Int) : (rounding p hp emin).Monotone := fun _ _ => fl_mono hp emin

/-- Not too many values, and bounds which are not too close to each other. -/
theorem rounding_resolves {p : Nat} (hp : 1 ≤ p) {emin : Int} {n : Nat} (hn : 2 ≤ n) (hn' : 4 * n ≤ 2 ^ p) {d : ℚ}
    (hd : 8 * n ^ 2 * 2 ^ emin ≤ d) : (rounding p hp emin).Resolves n d := by
  have h0 : (0 : ℚ) < 2 ^ emin := zpow_pos (by norm_num) _
  have hP : (0 : ℚ) < 2 ^ p := by positivity
  have hn2 : (2 : ℚ) ≤ n := by exact_mod_cast hn
  have hN : (0 : ℚ) < (n : ℚ) - 1 := by linarith
  have hu : 0 < (1 : ℚ) / 2 ^ p := by positivity
  have hun : (1 : ℚ) / 2 ^ p * n ≤ 1 / 4 := by
    rw [div_mul_eq_mul_div, div_le_iff₀ hP]
    have : ((4 * n : Nat) : ℚ) ≤ ((2 ^ p : Nat) : ℚ) := by exact_mod_cast hn'
    push_cast at this
    linarith
  change (1 + 1 / 2 ^ p) ^ 3 * (((n : ℚ) - 2) / (n - 1) * d + n * (2 ^ emin / 2)) ≤ d
  set u : ℚ := 1 / 2 ^ p
  have hu8 : u ≤ 1 / 8 := by nlinarith
  set c := (1 + u) ^ 3 with hc
  have hc1 : c ≤ 1 + 7 / 2 * u := by rw [hc]; nlinarith [mul_nonneg hu.le (mul_nonneg hu.le hu.le), mul_nonneg hu.le hu.le]
  have hc0 : 0 < c := by positivity
  have hd0 : 0 ≤ d := le_trans (by positivity) hd
  have h1 : c * ((n : ℚ) - 2) ≤ (n : ℚ) - 2 + 7 / 8 := by nlinarith
  have h2 := mul_le_mul_of_nonneg_right h1 hd0
  have h3 : c * (n * (2 ^ emin / 2)) * ((n : ℚ) - 1) ≤ d / 8 := by
    have : c * (n * (2 ^ emin / 2)) * ((n : ℚ) - 1) ≤ 2 * (n * (2 ^ emin / 2)) * n := by
      refine mul_le_mul (mul_le_mul_of_nonneg_right (by linarith) (by positivity)) (by linarith) hN.le (by positivity)
    nlinarith
  have e : c * (((n : ℚ) - 2) / (n - 1) * d + n * (2 ^ emin / 2)) =
      (c * ((n : ℚ) - 2) * d + c * (n * (2 ^ emin / 2)) * ((n : ℚ) - 1)) / (n - 1) := by
    field_simp
  rw [e, div_le_iff₀ hN]
  linarith

end Binary

/-- **C86**: for binary formats, such as `float` and `double`.
Missing: too many values, or bounds which are too close to each other, see `C86_violated`. -/
theorem C86_linspace_binary_partial {p : Nat} (hp : 1 ≤ p) {emin : Int} (he : emin ≤ 0) {mem : List (Fl (Binary.rounding p hp emin))}
    {a n kmin kmax : Nat} {min max : Fl (Binary.rounding p hp emin)} (h : Arguments mem a n kmin kmax min max)
    (hmin : Binary.fl p emin min.val = min.val) (hmax : Binary.fl p emin max.val = max.val) (hn : 4 * n ≤ 2 ^ p)
    (hd : 8 * n ^ 2 * 2 ^ emin ≤ max.val - min.val) :
    ∃ m, linspaceMem mem a n kmin kmax = .ok m ∧ SameOutside mem m a n ∧ m[a]? = some min ∧ m[a + (n - 1)]? = some max ∧
      ((elements m a n).map Fl.val).Pairwise (· ≤ ·) := by
  have h0 : (0 : ℚ) < 2 ^ emin := zpow_pos (by norm_num) _
  have hle : min.val ≤ max.val := by
    have : (0 : ℚ) ≤ 8 * n ^ 2 * 2 ^ emin := by positivity
    linarith
  obtain ⟨m, h1, h2, h3, h4⟩ := C86_linspace_bounds h hmin
  obtain ⟨m', h1', _, h5, _⟩ := C86_linspace_sorted_partial (Binary.rounding_monotone p hp emin) h hmax
    (fun j hj => Binary.fl_intCast (n := (j : Int)) he (by
      rw [abs_of_nonneg (by omega)]
      have : j < 2 ^ p := by omega
      exact_mod_cast this))
    (Binary.rounding_resolves hp h.size hn (by rwa [abs_of_nonneg (by linarith)]))
  rw [h1] at h1'
  cases h1'
  exact ⟨m, h1, h2, h3, h4, h5 hle⟩

/-- **C86** (full statement, violated by the code): in every binary format, the values of `linspace()` are sorted. -/
def C86_Statement : Prop :=
  ∀ (p : Nat) (hp : 1 ≤ p) (emin : Int) (mem : List (Fl (Binary.rounding p hp emin))) (a n kmin kmax : Nat)
    (min max : Fl (Binary.rounding p hp emin)), Arguments mem a n kmin kmax min max →
    Binary.fl p emin min.val = min.val → Binary.fl p emin max.val = max.val → min.val ≤ max.val →
    ∃ m, linspaceMem mem a n kmin kmax = .ok m ∧ ((elements m a n).map Fl.val).Pairwise (· ≤ ·)

/-- The value before the last is too large. -/
theorem Rounded.overshoot (p : Nat) (hp : 4 ≤ p) (emin : Int) (he : emin ≤ -p) :
    Rounded.spaced (Binary.rounding p (by omega) emin) 0 (2 ^ p - 1) (2 ^ (p + 1) - 3) (2 ^ (p + 1) - 5) = 2 ^ p := by
  obtain ⟨q, rfl⟩ : ∃ q, p = q + 4 := ⟨p - 4, by omega⟩
  set Q : ℚ := 2 ^ q with hQ
  have hQ1 : (1 : ℚ) ≤ Q := one_le_pow₀ (by norm_num)
  have z1 : (2 : ℚ) ^ (1 : ℤ) = 2 := by norm_num
  have zq : ∀ k : ℕ, (2 : ℚ) ^ ((q : ℤ) + k) = Q * 2 ^ k := by
    intro k
    rw [zpow_add₀ (by norm_num), zpow_natCast, zpow_natCast]
  have hpow : 16 ≤ 2 ^ (q + 4) := by
    have : 1 ≤ 2 ^ q := Nat.one_le_two_pow
    rw [pow_add]
    omega
  have hpow' : 2 ^ (q + 4 + 1) = 2 * 2 ^ (q + 4) := by rw [pow_succ]; ring
  have c1 : ((2 ^ (q + 4 + 1) - 3 - 1 : Nat) : ℚ) = ((2 ^ (q + 4) - 2 : Int) : ℚ) * 2 ^ (1 : ℤ) := by
    rw [Nat.cast_sub (by omega), Nat.cast_sub (by omega)]
    push_cast
    ring
  have c2 : ((2 ^ (q + 4 + 1) - 5 : Nat) : ℚ) = 32 * Q - 5 := by
    rw [Nat.cast_sub (by omega)]
    push_cast
    ring
  have f1 : Binary.fl (q + 4) emin ((2 ^ (q + 4 + 1) - 3 - 1 : Nat) : ℚ) = 32 * Q - 4 := by
    rw [c1, Binary.fl_mul_pow (by push_cast at he; omega)]
    · push_cast
      rw [hQ]
      ring
    · rw [abs_of_nonneg (by have : (16 : Int) ≤ 2 ^ (q + 4) := by exact_mod_cast hpow
                            omega)]
      omega
  have f2 : Binary.fl (q + 4) emin ((2 : ℚ) ^ (q + 4) - 1 - 0) = 16 * Q - 1 := by
    have := Binary.fl_intCast (p := q + 4) (emin := emin) (by push_cast at he; omega) (n := 2 ^ (q + 4) - 1) (by
      rw [abs_of_nonneg (by have : (16 : Int) ≤ 2 ^ (q + 4) := by exact_mod_cast hpow
                            omega)]
      omega)
    push_cast at this
    rw [sub_zero, this, hQ]
    ring
  have f3 : Binary.fl (q + 4) emin ((2 ^ (q + 4 + 1) - 5 : Nat) : ℚ) = 32 * Q - 4 := by
    rw [c2, Binary.fl, Binary.exponent_eq (e := 1) (by push_cast at he; omega) (by
      push_cast
      rw [show (1 : ℤ) + (q + 4) - 1 = q + (4 : ℕ) by push_cast; ring, zq]
      linarith) (by
      push_cast
      rw [show (1 : ℤ) + (q + 4) = q + (5 : ℕ) by push_cast; ring, zq]
      linarith)]
    have e1 : (32 * Q - 5) / 2 ^ (1 : ℤ) = ((2 ^ (q + 4) - 3 : Int) : ℚ) + 1 / 2 := by
      push_cast
      rw [hQ]
      ring
    have h3 : Int.fract (((2 ^ (q + 4) - 3 : ℤ) : ℚ) + 1 / 2) = 1 / 2 := by
      rw [Int.fract_intCast_add, Int.fract_eq_self]; norm_num
    have h4 : ⌊((2 ^ (q + 4) - 3 : ℤ) : ℚ) + 1 / 2⌋ = 2 ^ (q + 4) - 3 := by
      rw [Int.floor_intCast_add]; norm_num
    have h5 : ¬ ((2 : Int) ^ (q + 4) - 3) % 2 = 0 := by
      rw [pow_succ]
      omega
    rw [e1, Binary.roundEven, h3, h4, if_neg (by norm_num), if_neg (by norm_num), if_neg h5]
    push_cast
    rw [hQ]
    ring
  have f4 : Binary.fl (q + 4) emin ((16 * Q - 1) / (32 * Q - 4)) = 1 / 2 + 1 / (16 * Q) := by
    have z : (2 : ℚ) ^ (-((q : ℤ) + 4)) = 1 / (16 * Q) := by
      rw [zpow_neg, show (q : ℤ) + 4 = q + (4 : ℕ) by push_cast; ring, zq]
      norm_num
      ring
    have d1 : (0 : ℚ) < 32 * Q - 4 := by linarith
    have d2 : (0 : ℚ) < 16 * Q := by linarith
    have e1 : (16 * Q - 1) / (32 * Q - 4) = 1 / 2 + 1 / (32 * Q - 4) := by
      rw [div_eq_iff d1.ne', add_mul, div_mul_cancel₀ _ d1.ne']
      ring
    have d3 : 1 / (32 * Q - 4) ≤ 1 / (16 * Q) := one_div_le_one_div_of_le d2 (by linarith)
    have d4 : 1 / (32 * Q) < 1 / (32 * Q - 4) := one_div_lt_one_div_of_lt d1 (by linarith)
    have d5 : 1 / (16 * Q) ≤ 1 / 16 := one_div_le_one_div_of_le (by norm_num) (by linarith)
    have d6 : 0 < 1 / (32 * Q - 4) := by positivity
    have e2 : 1 / (32 * Q) = 1 / (16 * Q) / 2 := by
      field_simp
      norm_num
    have e3 : ((2 ^ (q + 3) + 1 : Int) : ℚ) * 2 ^ (-((q : ℤ) + 4)) = 1 / 2 + 1 / (16 * Q) := by
      rw [z]
      push_cast
      rw [pow_add, ← hQ]
      field_simp
      ring
    rw [Binary.fl_eq (e := -((q : ℤ) + 4)) (m := 2 ^ (q + 3) + 1) (by push_cast at he; exact he), e3]
    · rw [show -((q : ℤ) + 4) + ((q + 4 : ℕ) : ℤ) - 1 = -1 by push_cast; ring, e1]
      norm_num
      linarith
    · rw [show -((q : ℤ) + 4) + ((q + 4 : ℕ) : ℤ) = 0 by push_cast; ring, e1, zpow_zero]
      linarith
    · rw [e3, z, e1, abs_lt]
      constructor <;> linarith
  have f5 : Binary.fl (q + 4) emin ((1 / 2 + 1 / (16 * Q)) * (32 * Q - 4)) = 16 * Q := by
    have e1 : (1 / 2 + 1 / (16 * Q)) * (32 * Q - 4) = 16 * Q - 1 / (4 * Q) := by
      field_simp
      ring
    have d1 : 1 / (4 * Q) ≤ 1 / 4 := one_div_le_one_div_of_le (by norm_num) (by linarith)
    have d2 : 0 < 1 / (4 * Q) := by positivity
    have e3 : ((2 ^ (q + 4) : Int) : ℚ) * 2 ^ (0 : ℤ) = 16 * Q := by
      push_cast
      rw [hQ]
      ring
    rw [e1, Binary.fl_eq (e := 0) (m := 2 ^ (q + 4)) (by push_cast at he; omega), e3]
    · rw [show (0 : ℤ) + ((q + 4 : ℕ) : ℤ) - 1 = q + (3 : ℕ) by push_cast; ring, zq]
      linarith
    · rw [show (0 : ℤ) + ((q + 4 : ℕ) : ℤ) = q + (4 : ℕ) by push_cast; ring, zq]
      linarith
    · rw [e3, zpow_zero, abs_lt]
      constructor <;> linarith
  have f6 : Binary.fl (q + 4) emin (0 + 16 * Q) = 16 * Q := by
    have e1 : 0 + 16 * Q = ((1 : Int) : ℚ) * 2 ^ ((q : ℤ) + (4 : ℕ)) := by
      rw [zq]
      push_cast
      ring
    rw [e1, Binary.fl_mul_pow (by push_cast at he ⊢; omega) (by
      rw [abs_one]
      have : (16 : Int) ≤ 2 ^ (q + 4) := by exact_mod_cast hpow
      omega), zq]
    push_cast
    ring
  rw [Rounded.spaced, if_neg (by omega), Rounded.increment]
  change Binary.fl (q + 4) emin (0 + Binary.fl (q + 4) emin (Binary.fl (q + 4) emin (Binary.fl (q + 4) emin (2 ^ (q + 4) - 1 - 0) /
    Binary.fl (q + 4) emin ((2 ^ (q + 4 + 1) - 3 - 1 : Nat) : ℚ)) * Binary.fl (q + 4) emin ((2 ^ (q + 4 + 1) - 5 : Nat) : ℚ))) = _
  rw [f1, f2, f3, f4, f5, f6, hQ]
  ring

/-- **C86**: with `2 ^ (p + 1) - 3` values (about 33 million values of type `float`) from 0 to `2 ^ p - 1`, the value before the
last one is greater than the last one.
None of the operations underflows. -/
theorem C86_linspace_overshoot (p : Nat) (hp : 4 ≤ p) (emin : Int) (he : emin ≤ -p)
    {mem : List (Fl (Binary.rounding p (by omega) emin))} {a kmin kmax : Nat}
    (h : Arguments mem a (2 ^ (p + 1) - 3) kmin kmax (Fl.of 0) (Fl.of (2 ^ p - 1))) :
    ∃ m, linspaceMem mem a (2 ^ (p + 1) - 3) kmin kmax = .ok m ∧
      m[a + (2 ^ (p + 1) - 5)]? = some (Fl.of (2 ^ p)) ∧ m[a + (2 ^ (p + 1) - 4)]? = some (Fl.of (2 ^ p - 1)) := by
  have hn : 32 ≤ 2 ^ (p + 1) := by
    calc 32 = 2 ^ 5 := by norm_num
      _ ≤ 2 ^ (p + 1) := Nat.pow_le_pow_right (by norm_num) (by omega)
  obtain ⟨m, h1, h2, h3⟩ := Rounded.linspace_eq _ mem a _ kmin kmax _ _ h.fits (by have := h.size; omega) h.size_lt h.first
    h.second h.first_outside h.second_outside
  have key : ∀ i < 2 ^ (p + 1) - 3, ∀ x : ℚ, Rounded.spaced (Binary.rounding p (by omega) emin) 0 (2 ^ p - 1) (2 ^ (p + 1) - 3) i = x →
      m[a + i]? = some (Fl.of x) := by
    intro i hi x hx
    have := congrArg (·[i]?) h3
    simp only [List.getElem?_map, elements_getElem?, if_pos hi, List.getElem?_range hi, Option.map_some] at this
    obtain ⟨y, e, e'⟩ := Option.map_eq_some_iff.1 this
    rw [e]
    exact congrArg some (e'.trans hx)
  refine ⟨m, h1, key _ (by omega) _ (Rounded.overshoot p hp emin he), key _ (by omega) _ ?_⟩
  rw [Rounded.spaced, if_pos (by omega)]

/-- The arguments of the example below. -/
theorem arguments_overshoot : Arguments (List.replicate 29 (Fl.of 0) ++ [Fl.of 0, Fl.of 15] :
    List (Fl (Binary.rounding 4 (by omega) (-4)))) 0 (2 ^ (4 + 1) - 3) 29 30 (Fl.of 0) (Fl.of (2 ^ 4 - 1)) where
  fits := by simp
  size := by norm_num
  size_lt := by norm_num
  first := rfl
  second := by
    rw [show (2 : ℚ) ^ 4 - 1 = 15 by norm_num]
    rfl
  first_outside := by omega
  second_outside := by omega

/-- **C86**: the full statement is violated. -/
theorem C86_violated : ¬ C86_Statement := by
  intro h
  obtain ⟨m, h1, h2, h3⟩ := C86_linspace_overshoot 4 (by omega) (-4) (by omega) arguments_overshoot
  obtain ⟨m', h1', h4⟩ := h 4 (by omega) (-4) _ _ _ _ _ _ _ arguments_overshoot (Binary.fl_zero 4 (-4)) (by
    have := Binary.fl_intCast (p := 4) (emin := -4) (by omega) (n := 15) (by norm_num)
    push_cast at this
    change Binary.fl 4 (-4) (2 ^ 4 - 1) = 2 ^ 4 - 1
    rw [show (2 : ℚ) ^ 4 - 1 = 15 by norm_num]
    exact this) (by
    change (0 : ℚ) ≤ 2 ^ 4 - 1
    norm_num)
  rw [h1] at h1'
  cases h1'
  rw [List.pairwise_iff_getElem] at h4
  have e1 : ((elements m 0 (2 ^ (4 + 1) - 3)).map Fl.val)[27]? = some (2 ^ 4 : ℚ) := by
    rw [List.getElem?_map, elements_getElem?, if_pos (by norm_num)]
    have h2' : m[0 + 27]? = some (Fl.of (2 ^ 4)) := h2
    rw [h2']
    rfl
  have e2 : ((elements m 0 (2 ^ (4 + 1) - 3)).map Fl.val)[28]? = some (2 ^ 4 - 1 : ℚ) := by
    rw [List.getElem?_map, elements_getElem?, if_pos (by norm_num)]
    have h3' : m[0 + 28]? = some (Fl.of (2 ^ 4 - 1)) := h3
    rw [h3']
    rfl
  obtain ⟨l1, e1⟩ := List.getElem?_eq_some_iff.1 e1
  obtain ⟨l2, e2⟩ := List.getElem?_eq_some_iff.1 e2
  have := h4 27 28 l1 l2 (by omega)
  rw [e1, e2] at this
  norm_num at this

/-- The documentation of `range()`, "the difference between two adjacent values is exactly `step`", for binary formats. -/
def C86_RangeStatement : Prop :=
  ∀ (p : Nat) (hp : 1 ≤ p) (emin : Int) (mem : List (Fl (Binary.rounding p hp emin))) (a n kmin kstep : Nat)
    (min step : Fl (Binary.rounding p hp emin)), Arguments mem a n kmin kstep min step →
    Binary.fl p emin min.val = min.val → Binary.fl p emin step.val = step.val →
    ∃ m, rangeMem mem a n kmin kstep = .ok m ∧ ∀ i x y, i + 1 < n → m[a + i]? = some x → m[a + (i + 1)]? = some y →
      y.val - x.val = step.val

/-- **C86**: when the step is too small with respect to the minimum, all of the values are the same, whatever their number. -/
theorem C86_range_stuck (p : Nat) (hp : 1 ≤ p) (emin : Int) (he : emin ≤ 0)
    {mem : List (Fl (Binary.rounding p hp emin))} {a n kmin kstep : Nat}
    (h : Arguments mem a n kmin kstep (Fl.of (2 ^ (p + 1))) (Fl.of 1)) :
    ∃ m, rangeMem mem a n kmin kstep = .ok m ∧ SameOutside mem m a n ∧ ∀ i < n, m[a + i]? = some (Fl.of (2 ^ (p + 1))) := by
  obtain ⟨m, h1, h2, h3⟩ := range_getElem h
  refine ⟨m, h1, h2, fun i hi => (h3 i hi).trans (congrArg some ?_)⟩
  clear hi
  induction i with
  | zero => rfl
  | succ i ih =>
    rw [Function.iterate_succ_apply', ih]
    change Binary.fl p emin (2 ^ (p + 1) + 1) = (2 ^ (p + 1) : ℚ)
    obtain ⟨q, rfl⟩ : ∃ q, p = q + 1 := ⟨p - 1, by omega⟩
    have hq : (1 : ℚ) ≤ 2 ^ q := one_le_pow₀ (by norm_num)
    have e : ((2 ^ q : Int) : ℚ) * 2 ^ (2 : ℤ) = 2 ^ (q + 1 + 1) := by
      push_cast
      ring
    have z : ∀ k : Nat, (2 : ℚ) ^ ((q : ℤ) + k) = 2 ^ q * 2 ^ k := by
      intro k
      rw [zpow_add₀ (by norm_num), zpow_natCast, zpow_natCast]
    have e' : (2 : ℚ) ^ (q + 1 + 1) = 2 ^ q * 4 := by ring
    rw [Binary.fl_eq (e := 2) (m := 2 ^ q) (by omega), e]
    · rw [show (2 : ℤ) + ((q + 1 : ℕ) : ℤ) - 1 = q + (2 : ℕ) by push_cast; ring, z, e']
      linarith
    · rw [show (2 : ℤ) + ((q + 1 : ℕ) : ℤ) = q + (3 : ℕ) by push_cast; ring, z, e']
      linarith
    · rw [e, add_sub_cancel_left, abs_one]
      norm_num

/-- The arguments of the example below. -/
theorem arguments_stuck : Arguments ([Fl.of 0, Fl.of 0, Fl.of 16, Fl.of 1] : List (Fl (Binary.rounding 3 (by omega) (-4))))
    0 2 2 3 (Fl.of (2 ^ (3 + 1))) (Fl.of 1) where
  fits := by simp
  size := by norm_num
  size_lt := by norm_num
  first := by
    rw [show (2 : ℚ) ^ (3 + 1) = 16 by norm_num]
    rfl
  second := rfl
  first_outside := by omega
  second_outside := by omega

/-- **C86**: the statement about `range()` is violated. -/
theorem C86_range_violated : ¬ C86_RangeStatement := by
  intro h
  obtain ⟨m, h1, _, h2⟩ := C86_range_stuck 3 (by omega) (-4) (by omega) arguments_stuck
  obtain ⟨m', h1', h3⟩ := h 3 (by omega) (-4) _ _ _ _ _ _ _ arguments_stuck (by
      have := Binary.fl_mul_pow (p := 3) (emin := -4) (e := 4) (by omega) (n := 1) (by norm_num)
      norm_num at this
      change Binary.fl 3 (-4) (2 ^ (3 + 1)) = 2 ^ (3 + 1)
      norm_num
      exact this) (by
      have := Binary.fl_intCast (p := 3) (emin := -4) (by omega) (n := 1) (by norm_num)
      push_cast at this
      exact this)
  rw [h1] at h1'
  cases h1'
  have := h3 0 _ _ (by omega) (h2 0 (by omega)) (h2 1 (by omega))
  rw [sub_self] at this
  exact zero_ne_one this

/-- The values of type `float`, but infinities and NaNs. -/
abbrev Single := Fl (Binary.rounding 24 (by omega) (-149))

/-- The values of a format with only 3 bits. -/
abbrev Tiny := Fl (Binary.rounding 3 (by omega) (-4))

/-- Seven values of type `float`, from 1 to 2. -/
theorem arguments_float : Arguments (List.replicate 7 (Fl.of 0) ++ [Fl.of 1, Fl.of 2] :
    List Single) 0 7 7 8 (Fl.of 1) (Fl.of 2) where
  fits := by simp
  size := by norm_num
  size_lt := by norm_num
  first := rfl
  second := rfl
  first_outside := by omega
  second_outside := by omega

theorem float_int (n : Int) (h : |n| < 2 ^ 24) : Binary.fl 24 (-149) n = n := Binary.fl_intCast (by omega) h

/-- The theorems above, with values of type `float`: the step is not a floating point number, but the values are sorted, accurate,
and between the bounds. -/
example : ∃ m : List Single, linspaceMem (List.replicate 7 (Fl.of 0) ++ [Fl.of 1, Fl.of 2] : List Single)
      0 7 7 8 = .ok m ∧
    m[0]? = some (Fl.of 1) ∧ m[6]? = some (Fl.of 2) ∧ ((elements m 0 7).map Fl.val).Pairwise (· ≤ ·) ∧
    ∀ i < 7, ∃ x : Single, m[i]? = some x ∧ |x.val - evenly 1 2 7 i| ≤ 1 / 2 ^ 21 := by
  obtain ⟨m, h1, _, h3, h4, h5⟩ := C86_linspace_binary_partial (by omega) (by omega) arguments_float
    (by have := float_int 1 (by norm_num)
        push_cast at this
        exact this)
    (by have := float_int 2 (by norm_num)
        push_cast at this
        exact this)
    (by norm_num)
    (by change _ ≤ (2 : ℚ) - 1
        norm_num)
  obtain ⟨m', h1', _, h6⟩ := C86_linspace_accurate arguments_float (fun j hj => float_int j (by
    rw [abs_of_nonneg (by omega)]
    omega))
  rw [h1] at h1'
  cases h1'
  refine ⟨m, h1, by simpa using h3, by simpa using h4, h5, fun i hi => ?_⟩
  obtain ⟨x, hx, e⟩ := h6 i hi
  refine ⟨x, by simpa using hx, e.trans ?_⟩
  change (1 / 2 ^ 24 : ℚ) * |evenly 1 2 7 i| + (1 + 1 / 2 ^ 24) * ((1 + 1 / 2 ^ 24) ^ 3 - 1) * (|2 - 1| * i / ((7 : ℕ) - 1)) +
    (1 + 1 / 2 ^ 24) ^ 3 * ((i : ℚ) + 3) * (2 ^ (-149 : ℤ) / 2) ≤ 1 / 2 ^ 21
  rw [evenly]
  interval_cases i <;> norm_num [abs_of_pos]

/-- The theorems above, with values of type `float`: integers are exact. -/
example : ∃ m : List Single, rangeMem (List.replicate 7 (Fl.of 0) ++ [Fl.of 1, Fl.of 2] : List Single)
      0 7 7 8 = .ok m ∧ (elements m 0 7).map Fl.val = [1, 3, 5, 7, 9, 11, 13] := by
  obtain ⟨m, h1, _, h2⟩ := C86_range_exact_partial arguments_float (fun i hi => by
    have := float_int (1 + i * 2) (by
      rw [abs_of_nonneg (by omega)]
      omega)
    push_cast at this
    exact this)
  refine ⟨m, h1, h2.trans ?_⟩
  change (List.range 7).map (fun i : Nat => (1 : ℚ) + i * 2) = _
  simp [List.range_succ]
  norm_num

/-- The theorems above: the values are sorted and accurate, even if they are all the same. -/
example : ∃ m, rangeMem ([Fl.of 0, Fl.of 0, Fl.of 16, Fl.of 1] : List Tiny) 0 2 2 3 = .ok m ∧
    ∃ x : Tiny, m[1]? = some x ∧ |x.val - 17| ≤ 17 / 8 ∧ 16 ≤ x.val := by
  have hmin : Binary.fl 3 (-4) (2 ^ (3 + 1)) = 2 ^ (3 + 1) := by
    have := Binary.fl_mul_pow (p := 3) (emin := -4) (e := 4) (by omega) (n := 1) (by norm_num)
    norm_num at this ⊢
    exact this
  obtain ⟨m, h1, _, h2⟩ := C86_range_accurate arguments_stuck hmin (by
      have := Binary.fl_intCast (p := 3) (emin := -4) (by omega) (n := 1) (by norm_num)
      push_cast at this
      exact this)
  obtain ⟨x, hx, e⟩ := h2 1 (by omega)
  obtain ⟨m', h1', _, h3⟩ := C86_range_sorted (Binary.rounding_monotone 3 (by omega) (-4)) arguments_stuck hmin
  rw [h1] at h1'
  cases h1'
  obtain ⟨y, hy, e'⟩ := h2 0 (by omega)
  have h4 := (h3 0 1 y x (by omega) (by omega) hy hx).1 (zero_le_one (α := ℚ))
  change |y.val - (2 ^ (3 + 1) + ((0 : ℕ) : ℚ) * 1)| ≤ ((1 + 1 / 2 ^ 3) ^ 0 - 1) * (|2 ^ (3 + 1)| + ((0 : ℕ) : ℚ) * |1|) at e'
  norm_num at e'
  refine ⟨m, h1, x, hx, ?_, by linarith⟩
  change |x.val - (2 ^ (3 + 1) + ((1 : ℕ) : ℚ) * 1)| ≤ ((1 + 1 / 2 ^ 3) ^ 1 - 1) * (|2 ^ (3 + 1)| + ((1 : ℕ) : ℚ) * |1|) at e
  norm_num at e ⊢
  exact e

end Litl
