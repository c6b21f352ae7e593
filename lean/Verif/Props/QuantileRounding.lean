import Verif.Model.QuantileRounding
import Verif.Lemmas.Rounding
import Verif.Props.Distribution
import Verif.Props.FillRounding

/-!
# Quantiles in floating point arithmetic (C92)
-/

namespace Litl

open Spec

namespace Binary

/-- The fractional part of a nonnegative number is a number. -/
theorem fl_fract {p : Nat} {emin : Int} {x : ℚ} (hx : 0 ≤ x) (h : fl p emin x = x) :
    fl p emin (Int.fract x) = Int.fract x := by
  obtain ⟨m, hm⟩ := fl_eq_multiple h
  have hfle : Int.fract x ≤ x := by
    have := Int.floor_nonneg.2 hx
    have h1 : (0 : ℚ) ≤ ⌊x⌋ := by exact_mod_cast this
    have := Int.floor_add_fract x
    linarith
  have hle : emin ≤ exponent p emin x := le_max_right _ _
  have hlog : Int.log 2 |x| - p + 1 ≤ exponent p emin x := le_max_left _ _
  have hlt := lt_pow_log x
  set E := exponent p emin x with hEdef
  have h2 : (0 : ℚ) < 2 ^ E := zpow_pos (by norm_num) _
  by_cases hE : 0 ≤ E
  · have : Int.fract x = 0 := by
      rw [Int.fract_eq_iff]
      refine ⟨le_rfl, by norm_num, m * 2 ^ E.toNat, ?_⟩
      have e : (2 : ℚ) ^ E = 2 ^ E.toNat := by
        rw [← zpow_natCast, Int.toNat_of_nonneg hE]
      rw [e] at hm
      rw [sub_zero, hm]
      push_cast
      ring
    rw [this, fl_zero]
  · obtain ⟨k, hk⟩ : ∃ k : Nat, E = -k := ⟨(-E).toNat, by omega⟩
    have hfr : Int.fract x = ((m - ⌊x⌋ * 2 ^ k : Int) : ℚ) * 2 ^ E := by
      have e1 : (2 : ℚ) ^ k * 2 ^ E = 1 := by
        rw [hk, ← zpow_natCast, ← zpow_add₀ (by norm_num)]
        simp
      push_cast
      rw [sub_mul, ← hm, mul_assoc, e1, mul_one]
      rfl
    rw [hfr]
    refine fl_mul_pow hle ?_
    have h0 := Int.fract_nonneg x
    have h3 : ((m - ⌊x⌋ * 2 ^ k : Int) : ℚ) * 2 ^ E < 2 ^ p * 2 ^ E := by
      rw [← hfr]
      refine (hfle.trans (le_abs_self x)).trans_lt (hlt.trans_le ?_)
      rw [← zpow_natCast, ← zpow_add₀ (by norm_num)]
      exact zpow_le_zpow_right₀ (by norm_num) (by omega)
    have h4 := lt_of_mul_lt_mul_right h3 h2.le
    rw [hfr] at h0
    have h5 := nonneg_of_mul_nonneg_left h0 h2
    have h6 : 0 ≤ m - ⌊x⌋ * 2 ^ k := by exact_mod_cast h5
    have h7 : m - ⌊x⌋ * 2 ^ k < 2 ^ p := by exact_mod_cast h4
    rw [abs_of_nonneg h6]
    exact h7

/-- Ties are rounded to even. -/
theorem roundEven_tie {x : ℚ} {m : Int} (hm : m % 2 = 0) (h : |x - m| = 1 / 2) : roundEven x = m := by
  rcases abs_eq (by norm_num) |>.1 h with h | h
  · have e : x = (m : ℚ) + 1 / 2 := by linarith
    have h3 : Int.fract ((m : ℚ) + 1 / 2) = 1 / 2 := by
      rw [Int.fract_intCast_add, Int.fract_eq_self]; norm_num
    have h4 : ⌊(m : ℚ) + 1 / 2⌋ = m := by
      rw [Int.floor_intCast_add]; norm_num
    rw [e, roundEven, h3, h4, if_neg (by norm_num), if_neg (by norm_num), if_pos hm]
  · have e : x = ((m - 1 : Int) : ℚ) + 1 / 2 := by push_cast; linarith
    have h3 : Int.fract (((m - 1 : Int) : ℚ) + 1 / 2) = 1 / 2 := by
      rw [Int.fract_intCast_add, Int.fract_eq_self]; norm_num
    have h4 : ⌊((m - 1 : Int) : ℚ) + 1 / 2⌋ = m - 1 := by
      rw [Int.floor_intCast_add]; norm_num
    rw [e, roundEven, h3, h4, if_neg (by norm_num), if_neg (by norm_num), if_neg (by omega)]
    omega

theorem fl_tie {p : Nat} {emin e : Int} (he : emin ≤ e) {x : ℚ} {m : Int} (hm : m % 2 = 0) (h1 : 2 ^ (e + p - 1) ≤ x)
    (h2 : x < 2 ^ (e + p)) (h : |x - m * 2 ^ e| = 2 ^ e / 2) : fl p emin x = m * 2 ^ e := by
  have h0 : (0 : ℚ) < 2 ^ e := zpow_pos (by norm_num) _
  rw [fl, exponent_eq he h1 h2, roundEven_tie (m := m) hm]
  have e1 : x / 2 ^ e - m = (x - m * 2 ^ e) / 2 ^ e := by field_simp
  rw [e1, abs_div, abs_of_pos h0, h]
  field_simp

end Binary

namespace Distribution

variable {R : Rounding ℚ}

/-- The states which can be reached from the construction by a history of queries of floating point values. -/
inductive ReachableFl (data : List (Fl R)) : Distribution (Fl R) → Prop
  | init : ReachableFl data (ofValues data)
  | nth {d d' : Distribution (Fl R)} {n : Nat} {x : Fl R} : ReachableFl data d → Nth d n x d' → ReachableFl data d'
  | sort {d d' : Distribution (Fl R)} : ReachableFl data d → Sorts d d' → ReachableFl data d'
  | quantile {o : EvalOrder} {d d' : Distribution (Fl R)} {q : ℚ} {x : Fl R} : ReachableFl data d → QuantileFl o d q x d' →
      ReachableFl data d'

theorem QuantileFl.inv {data : List (Fl R)} {o : EvalOrder} {d d' : Distribution (Fl R)} {q : ℚ} {x : Fl R}
    (h : QuantileFl o d q x d') (hi : Inv data d) : Inv data d' := by
  cases h with
  | exact _ _ h1 => exact (h1.inv hi).1
  | lr _ _ h1 h2 => exact (h2.inv (h1.inv hi).1).1
  | rl _ _ h1 h2 => exact (h2.inv (h1.inv hi).1).1
  | late _ _ h1 h2 _ _ => exact (h2.inv (h1.inv hi).1).1

theorem ReachableFl.inv {data : List (Fl R)} {d : Distribution (Fl R)} (h : ReachableFl data d) : Inv data d := by
  induction h with
  | init => exact inv_ofValues data
  | nth _ h ih => exact (h.inv ih).1
  | sort _ h ih => exact (h.inv ih).1
  | quantile _ h ih => exact h.inv ih

/-- The indices of the values are numbers, e.g. there are at most 2^53 values of type `double`. -/
structure Countable (data : List (Fl R)) : Prop where
  length : data.length < 2 ^ 64
  exact : ∀ j : Nat, j < data.length → R.fl j = j

/-- The abscissa which is computed. -/
def position (R : Rounding ℚ) (size : Nat) (q : ℚ) : ℚ := R.fl (q * ((size : ℚ) - 1))

theorem abscissa_eq {data : List (Fl R)} (hc : Countable data) (hne : data ≠ []) (q : ℚ) :
    abscissa R data.length q = position R data.length q := by
  have hl := List.length_pos_iff.2 hne
  have hlen := hc.length
  have e : lastIndex data.length = data.length - 1 := by
    unfold lastIndex
    omega
  unfold abscissa position
  rw [e, hc.exact _ (by omega), Nat.cast_sub hl, Nat.cast_one]

theorem nth_lt {d d' : Distribution (Fl R)} {n : Nat} {x : Fl R} (h : Nth d n x d') : n < d.values.length := by
  cases h with
  | sorted _ hx => exact (List.getElem?_eq_some_iff.1 hx).1
  | unsorted _ hn _ _ => exact hn

/-- **C92**: `quantile(q)` has a defined behaviour if and only if there are values, and the abscissa which is computed from `q` is
greater than -1 and at most that of the last value, in any evaluation order and whatever the history. -/
theorem C92_defined {data : List (Fl R)} (hc : Countable data) (o : EvalOrder) {d : Distribution (Fl R)}
    (hd : ReachableFl data d) (q : ℚ) :
    (∃ r d', QuantileFl o d q r d') ↔
      data ≠ [] ∧ -1 < position R data.length q ∧ position R data.length q ≤ data.length - 1 := by
  have hi := hd.inv
  have hp := hi.perm.length_eq
  by_cases hne : data = []
  · refine ⟨?_, fun h => absurd hne h.1⟩
    rintro ⟨r, d', h⟩
    exfalso
    rw [hne, List.length_nil] at hp
    cases h with
    | exact _ _ h1 => have := nth_lt h1; omega
    | lr _ _ h1 _ => have := nth_lt h1; omega
    | rl _ _ h1 _ => have := nth_lt h1; omega
    | late _ _ h1 _ _ _ => have := nth_lt h1; omega
  have hl := List.length_pos_iff.2 hne
  have ha := abscissa_eq hc hne q
  rw [← hp] at ha
  have hlen := hc.length
  constructor
  · rintro ⟨r, d', h⟩
    refine ⟨hne, ?_⟩
    rw [← hp, ← ha]
    have hfl : ∀ f : Nat, f < d.values.length → R.fl f = f := fun f hf => hc.exact f (by omega)
    have hint : ∀ f : Nat, f + 1 < d.values.length + 1 → (f : ℚ) ≤ (d.values.length : ℚ) - 1 := by
      intro f hf
      have : f + 1 ≤ d.values.length := by omega
      have : ((f + 1 : Nat) : ℚ) ≤ d.values.length := by exact_mod_cast this
      push_cast at this
      linarith
    have hstep : ∀ f : Nat, Truncates (abscissa R d.values.length q) f → f + 1 < d.values.length →
        -1 < abscissa R d.values.length q ∧ abscissa R d.values.length q ≤ d.values.length - 1 := by
      rintro f ⟨h1, _, h3⟩ hf
      refine ⟨h1, ?_⟩
      have h4 := hint (f + 1) (by omega)
      have h5 := Nat.lt_floor_add_one (abscissa R d.values.length q)
      rw [← h3] at h5
      push_cast at h4
      linarith
    cases h with
    | @exact _ _ _ _ _ f h1 h2 h3 =>
      refine ⟨h1.1, ?_⟩
      have h4 := nth_lt h3
      rw [h2, hfl f h4]
      exact hint f (by omega)
    | @lr _ d1 _ _ _ _ f h1 _ h3 h4 =>
      have e := (h3.inv hi).1.perm.length_eq
      have := nth_lt h4
      exact hstep f h1 (by omega)
    | @rl _ d1 _ _ _ _ f h1 _ h3 h4 =>
      have := nth_lt h3
      exact hstep f h1 (by omega)
    | @late _ d1 _ _ _ _ _ _ f h1 _ h3 h4 _ _ =>
      have e := (h3.inv hi).1.perm.length_eq
      have := nth_lt h4
      exact hstep f h1 (by omega)
  · rintro ⟨_, h1, h2⟩
    rw [← hp, ← ha] at h1 h2
    have hc1 : d.values.length < 2 ^ 64 := by omega
    have hc2 : ((d.values.length : Nat) : ℚ) < 2 ^ 64 := by exact_mod_cast hc1
    have ht : Truncates (abscissa R d.values.length q) ⌊abscissa R d.values.length q⌋₊ := ⟨h1, by linarith, rfl⟩
    set n := abscissa R d.values.length q with hn
    set f := ⌊n⌋₊ with hf
    have hfle : f ≤ d.values.length - 1 := by
      refine Nat.floor_le_of_le ?_
      rw [Nat.cast_sub (by omega), Nat.cast_one]
      exact h2
    have hfl : R.fl f = f := hc.exact f (by omega)
    by_cases he : n = R.fl f
    · obtain ⟨x, d', h⟩ := Nth.exists d f (by omega)
      exact ⟨x, d', .exact ht he h⟩
    · have hlt : f + 1 < d.values.length := by
        by_contra hc'
        have e : f = d.values.length - 1 := by omega
        rcases lt_or_ge n 0 with h0 | h0
        · -- a negative abscissa is that of a single value
          have hf0 : f = 0 := Nat.floor_of_nonpos h0.le
          have : d.values.length = 1 := by omega
          have : n = 0 := by
            rw [ha, this]
            unfold position
            simp [R.zero]
          linarith
        · have h3 : (f : ℚ) ≤ n := Nat.floor_le h0
          have h4 : (f : ℚ) = (d.values.length : ℚ) - 1 := by
            rw [e, Nat.cast_sub (by omega), Nat.cast_one]
          exact he (by rw [hfl]; linarith)
      cases o with
      | lr =>
        obtain ⟨x, d1, h⟩ := Nth.exists d f (by omega)
        have e1 := (h.inv hi).1.perm.length_eq
        obtain ⟨y, d', h'⟩ := Nth.exists d1 (f + 1) (by omega)
        exact ⟨_, _, .lr ht he h h'⟩
      | rl =>
        obtain ⟨y, d1, h⟩ := Nth.exists d (f + 1) (by omega)
        have e1 := (h.inv hi).1.perm.length_eq
        obtain ⟨x, d', h'⟩ := Nth.exists d1 f (by omega)
        exact ⟨_, _, .rl ht he h h'⟩
      | late =>
        obtain ⟨x, d1, h⟩ := Nth.exists d f (by omega)
        have e1 := (h.inv hi).1.perm.length_eq
        obtain ⟨y, d', h'⟩ := Nth.exists d1 (f + 1) (by omega)
        have e2 := (h'.inv (h.inv hi).1).1.perm.length_eq
        exact ⟨_, _, .late ht he h h' (List.getElem?_eq_getElem (by omega)) (List.getElem?_eq_getElem (by omega))⟩

/-- **C92**: for `q` between 0 and 1, rounding does not move the abscissa out of the values. -/
theorem C92_in_range (hm : R.Monotone) {data : List (Fl R)} (hc : Countable data) (hne : data ≠ []) (o : EvalOrder)
    {d : Distribution (Fl R)} (hd : ReachableFl data d) {q : ℚ} (h0 : 0 ≤ q) (h1 : q ≤ 1) :
    0 ≤ position R data.length q ∧ ∃ r d', QuantileFl o d q r d' := by
  have hl := List.length_pos_iff.2 hne
  have hL : (0 : ℚ) ≤ (data.length : ℚ) - 1 := by
    have : (1 : ℚ) ≤ data.length := by exact_mod_cast hl
    linarith
  have e : R.fl ((data.length : ℚ) - 1) = (data.length : ℚ) - 1 := by
    have := hc.exact (data.length - 1) (by omega)
    rwa [Nat.cast_sub hl, Nat.cast_one] at this
  have h2 : 0 ≤ position R data.length q := by
    have := hm 0 (q * ((data.length : ℚ) - 1)) (mul_nonneg h0 hL)
    rwa [R.zero] at this
  refine ⟨h2, (C92_defined hc o hd q).2 ⟨hne, by linarith, ?_⟩⟩
  have := hm (q * ((data.length : ℚ) - 1)) ((data.length : ℚ) - 1) (by nlinarith)
  rwa [e] at this

/-- **C92**, exactly: what is returned, if operands are read in due time. -/
theorem C92_exact {data : List (Fl R)} (hc : Countable data) {o : EvalOrder} (ho : o ≠ .late) {d d' : Distribution (Fl R)}
    (hd : ReachableFl data d) {q : ℚ} {r : Fl R} (h : QuantileFl o d q r d') :
    ∃ (k : Nat) (x y : Fl R), k = ⌊position R data.length q⌋₊ ∧ IsNth data k x ∧
      (position R data.length q = k ∧ r = x ∨ position R data.length q ≠ k ∧ IsNth data (k + 1) y ∧
        ∃ t, t = R.fl (position R data.length q - k) ∧
          r.val = R.fl (R.fl (x.val * t) + R.fl (y.val * R.fl (1 - t)))) := by
  have hi := hd.inv
  have hp := hi.perm.length_eq
  have hne : data ≠ [] := ((C92_defined hc o hd q).1 ⟨r, d', h⟩).1
  have ha := abscissa_eq hc hne q
  rw [← hp] at ha
  have hfl : ∀ f : Nat, f < d.values.length → R.fl f = f := fun f hf => hc.exact f (by omega)
  rw [← hp, ← ha]
  cases h with
  | @exact _ _ _ _ _ f h1 h2 h3 =>
    rw [hfl f (nth_lt h3)] at h2
    exact ⟨f, r, r, h1.2.2, (h3.inv hi).2.1, .inl ⟨h2, rfl⟩⟩
  | @lr _ d1 _ _ x y f h1 h2 h3 h4 =>
    obtain ⟨i1, i2, _⟩ := h3.inv hi
    rw [hfl f (nth_lt h3)] at h2
    refine ⟨f, x, y, h1.2.2, i2, .inr ⟨h2, (h4.inv i1).2.1, _, rfl, ?_⟩⟩
    unfold weight
    rw [hfl f (nth_lt h3)]
    rfl
  | @rl _ d1 _ _ x y f h1 h2 h3 h4 =>
    obtain ⟨i1, i2, _⟩ := h3.inv hi
    have hlt : f < d.values.length := by
      have := nth_lt h3
      omega
    rw [hfl f hlt] at h2
    refine ⟨f, x, y, h1.2.2, (h4.inv i1).2.1, .inr ⟨h2, i2, _, rfl, ?_⟩⟩
    unfold weight
    rw [hfl f hlt]
    rfl
  | late => exact absurd rfl ho

/-- **C92**: if `q * (size - 1)` is an integer, then the quantile is the value of this rank, exactly, in any evaluation order. -/
theorem C92_rank {data : List (Fl R)} (hc : Countable data) {o : EvalOrder} {d d' : Distribution (Fl R)}
    (hd : ReachableFl data d) {q : ℚ} {r : Fl R} (h : QuantileFl o d q r d') {k : Nat}
    (hk : q * ((data.length : ℚ) - 1) = k) (hlt : k < data.length) : IsNth data k r := by
  have hi := hd.inv
  have hp := hi.perm.length_eq
  have hne : data ≠ [] := ((C92_defined hc o hd q).1 ⟨r, d', h⟩).1
  have ha := abscissa_eq hc hne q
  have hk' := hc.exact k hlt
  unfold position at ha
  rw [hk, hk', ← hp] at ha
  have hfk : ∀ {f : Nat}, Truncates (abscissa R d.values.length q) f → f = k := by
    rintro f ⟨_, _, h3⟩
    rw [h3, ha, Nat.floor_natCast]
  cases h with
  | exact h1 _ h3 =>
    rw [← hfk h1]
    exact (h3.inv hi).2.1
  | lr h1 h2 _ _ => rw [hfk h1, ha, hk'] at h2; exact absurd rfl h2
  | rl h1 h2 _ _ => rw [hfk h1, ha, hk'] at h2; exact absurd rfl h2
  | late h1 h2 _ _ _ _ => rw [hfk h1, ha, hk'] at h2; exact absurd rfl h2

/-- **C92**: `quantile(0)` is the minimum and `quantile(1)` is the maximum, exactly. -/
theorem C92_extrema {data : List (Fl R)} (hc : Countable data) (hne : data ≠ []) {o : EvalOrder} {d d' : Distribution (Fl R)}
    (hd : ReachableFl data d) {r : Fl R} :
    (QuantileFl o d 0 r d' → r ∈ data ∧ ∀ y ∈ data, r ≤ y) ∧ (QuantileFl o d 1 r d' → r ∈ data ∧ ∀ y ∈ data, y ≤ r) := by
  have hl := List.length_pos_iff.2 hne
  constructor
  · intro h
    have hn := C92_rank hc hd h (k := 0) (by simp) hl
    refine ⟨hn.mem, fun y hy => ?_⟩
    have := hn.1
    rw [Nat.le_zero, List.countP_eq_zero] at this
    simpa using this y hy
  · intro h
    have hn := C92_rank hc hd h (k := data.length - 1) (by rw [Nat.cast_sub hl]; simp) (by omega)
    refine ⟨hn.mem, fun y hy => ?_⟩
    have h1 := hn.2
    have h2 := List.countP_le_length (p := fun y => decide (y ≤ r)) (l := data)
    have := List.countP_eq_length.1 (show data.countP (fun y => decide (y ≤ r)) = data.length by omega) y hy
    simpa using this

section Binary

variable {p : Nat} {hp : 1 ≤ p} {emin : Int}

/-- **C92**: up to rounding errors, the quantile is the value which is interpolated between two consecutive values, with the
weights of C31. -/
theorem C92_accurate (he : emin ≤ 0) {data : List (Fl (Binary.rounding p hp emin))} (hc : Countable data) {o : EvalOrder}
    (ho : o ≠ .late) {d d' : Distribution (Fl (Binary.rounding p hp emin))} (hd : ReachableFl data d) {q : ℚ}
    (h0 : 0 ≤ q) {r : Fl (Binary.rounding p hp emin)} (h : QuantileFl o d q r d') :
    ∃ (k : Nat) (t : ℚ) (x y : Fl (Binary.rounding p hp emin)), 0 ≤ t ∧ t < 1 ∧
      Binary.fl p emin (q * ((data.length : ℚ) - 1)) = k + t ∧ IsNth data k x ∧
      (t = 0 ∧ r = x ∨ t ≠ 0 ∧ IsNth data (k + 1) y ∧ |r.val - (t * x.val + (1 - t) * y.val)| ≤
        ((1 + 1 / 2 ^ p) ^ 3 - 1) * (t * |x.val| + (1 - t) * |y.val|) + (1 + 1 / 2 ^ p) * 2 ^ emin) := by
  obtain ⟨hne, _, _⟩ := (C92_defined hc o hd q).1 ⟨r, d', h⟩
  obtain ⟨k, x, y, hk, hx, h1⟩ := C92_exact hc ho hd h
  have hl := List.length_pos_iff.2 hne
  have hL : (0 : ℚ) ≤ (data.length : ℚ) - 1 := by
    have : (1 : ℚ) ≤ data.length := by exact_mod_cast hl
    linarith
  set n := position (Binary.rounding p hp emin) data.length q with hn
  have hn0 : 0 ≤ n := Binary.fl_nonneg (mul_nonneg h0 hL)
  have hkn : (k : ℚ) ≤ n := hk ▸ Nat.floor_le hn0
  have hnk : n < k + 1 := hk ▸ Nat.lt_floor_add_one n
  refine ⟨k, n - k, x, y, by linarith, by linarith, ?_, hx, ?_⟩
  · rw [add_sub_cancel]
    rfl
  rcases h1 with ⟨h1, rfl⟩ | ⟨h1, hy, t, ht, hr⟩
  · exact .inl ⟨by rw [h1]; ring, rfl⟩
  refine .inr ⟨sub_ne_zero.2 h1, hy, ?_⟩
  have hfr : Int.fract n = n - k := by
    rw [Int.fract_eq_iff]
    exact ⟨by linarith, by linarith, k, by push_cast; ring⟩
  have hnn : Binary.fl p emin n = n := Binary.fl_idem hp emin _
  have htn : t = n - k := by
    have := Binary.fl_fract hn0 hnn
    rw [hfr] at this
    rw [ht]
    exact this
  have htt : Binary.fl p emin t = t := by
    rw [ht]
    exact Binary.fl_idem hp emin _
  have ht0 : 0 ≤ t := by rw [htn]; linarith
  have ht1 : 0 ≤ 1 - t := by rw [htn]; linarith
  rw [← htn]
  have hone : Binary.fl p emin 1 = 1 := by
    have : (1 : Int) < 2 ^ p := one_lt_pow₀ (by norm_num) (by omega)
    have := Binary.fl_intCast (p := p) he (n := 1) (by rw [abs_one]; exact this)
    exact_mod_cast this
  have hneg : Binary.fl p emin (-t) = -t := by
    obtain ⟨m, hm⟩ := Binary.fl_eq_multiple htt
    refine Binary.fl_of_dvd (m := -m) ?_
    have e : Binary.exponent p emin (-t) = Binary.exponent p emin t := by
      unfold Binary.exponent
      rw [abs_neg]
    rw [e]
    push_cast
    rw [neg_mul, ← hm]
  set u : ℚ := 1 / 2 ^ p with hu
  have hu0 : 0 ≤ u := by positivity
  set η : ℚ := 2 ^ emin / 2 with hη
  have hη0 : 0 ≤ η := by
    have : (0 : ℚ) < 2 ^ emin := zpow_pos (by norm_num) _
    rw [hη]; linarith
  have e1 : |Binary.fl p emin (1 - t) - (1 - t)| ≤ u * (1 - t) := by
    have := Binary.fl_sum p emin hone hneg
    rwa [← sub_eq_add_neg, abs_of_nonneg ht1] at this
  set s := Binary.fl p emin (1 - t) with hs
  have es : |s| ≤ (1 + u) * (1 - t) := by
    have := abs_add_le (s - (1 - t)) (1 - t)
    rw [sub_add_cancel, abs_of_nonneg ht1] at this
    linarith
  have e2 := Binary.fl_near p emin (x.val * t)
  set a := Binary.fl p emin (x.val * t) with ha
  rw [abs_mul, abs_of_nonneg ht0] at e2
  have e3 := Binary.fl_near p emin (y.val * s)
  set b := Binary.fl p emin (y.val * s) with hb
  rw [abs_mul] at e3
  have e4 := Binary.fl_sum p emin (Binary.fl_idem hp emin (x.val * t)) (Binary.fl_idem hp emin (y.val * s))
  have hr' : r.val = Binary.fl p emin (a + b) := hr
  rw [← ha, ← hb, ← hr'] at e4
  have hy0 := abs_nonneg y.val
  have hx0 := abs_nonneg x.val
  have g1 : |a - x.val * t| ≤ u * (|x.val| * t) + η := e2
  have g2 : |b - y.val * (1 - t)| ≤ ((1 + u) ^ 2 - 1) * (|y.val| * (1 - t)) + η := by
    have h3 : |y.val * s - y.val * (1 - t)| ≤ |y.val| * (u * (1 - t)) := by
      rw [← mul_sub, abs_mul]
      exact mul_le_mul_of_nonneg_left e1 hy0
    have h4 : u * (|y.val| * |s|) ≤ u * (|y.val| * ((1 + u) * (1 - t))) :=
      mul_le_mul_of_nonneg_left (mul_le_mul_of_nonneg_left es hy0) hu0
    have h5 := abs_add_le (b - y.val * s) (y.val * s - y.val * (1 - t))
    rw [sub_add_sub_cancel] at h5
    have e : ((1 + u) ^ 2 - 1) * (|y.val| * (1 - t)) = u * (|y.val| * ((1 + u) * (1 - t))) + |y.val| * (u * (1 - t)) := by ring
    rw [e]
    linarith
  set A := |x.val| * t with hA
  set B := |y.val| * (1 - t) with hB
  have hA0 : 0 ≤ A := mul_nonneg hx0 ht0
  have hB0 : 0 ≤ B := mul_nonneg hy0 ht1
  have hu2 : (0 : ℚ) ≤ (1 + u) ^ 2 - 1 := by nlinarith
  have g3 : |(a + b) - (x.val * t + y.val * (1 - t))| ≤ ((1 + u) ^ 2 - 1) * (A + B) + 2 * η := by
    have h5 := abs_add_le (a - x.val * t) (b - y.val * (1 - t))
    have e : a + b - (x.val * t + y.val * (1 - t)) = a - x.val * t + (b - y.val * (1 - t)) := by ring
    rw [e]
    have : u * A ≤ ((1 + u) ^ 2 - 1) * A := by
      refine mul_le_mul_of_nonneg_right ?_ hA0
      nlinarith
    linarith
  have g4 : |x.val * t + y.val * (1 - t)| ≤ A + B := by
    refine (abs_add_le _ _).trans ?_
    rw [abs_mul, abs_mul, abs_of_nonneg ht0, abs_of_nonneg ht1]
  have g5 : |a + b| ≤ (1 + u) ^ 2 * (A + B) + 2 * η := by
    have h5 := abs_add_le ((a + b) - (x.val * t + y.val * (1 - t))) (x.val * t + y.val * (1 - t))
    rw [sub_add_cancel] at h5
    have : ((1 + u) ^ 2 - 1) * (A + B) + (A + B) = (1 + u) ^ 2 * (A + B) := by ring
    linarith
  have g6 : |r.val - (x.val * t + y.val * (1 - t))| ≤ u * ((1 + u) ^ 2 * (A + B) + 2 * η) +
      (((1 + u) ^ 2 - 1) * (A + B) + 2 * η) := by
    have h5 := abs_add_le (r.val - (a + b)) ((a + b) - (x.val * t + y.val * (1 - t)))
    rw [sub_add_sub_cancel] at h5
    have := mul_le_mul_of_nonneg_left g5 hu0
    linarith
  have e5 : t * x.val + (1 - t) * y.val = x.val * t + y.val * (1 - t) := by ring
  rw [e5]
  refine g6.trans (le_of_eq ?_)
  rw [hA, hB, show (2 : ℚ) ^ emin = 2 * η by rw [hη]; ring]
  ring

/-- **C92**: quantiles are between the minimum and the maximum, up to rounding errors.
Missing: this is false without the error term, see `C92_violated`. -/
theorem C92_bounds_partial (he : emin ≤ 0) {data : List (Fl (Binary.rounding p hp emin))} (hc : Countable data)
    {o : EvalOrder} (ho : o ≠ .late) {d d' : Distribution (Fl (Binary.rounding p hp emin))} (hd : ReachableFl data d)
    {q : ℚ} (h0 : 0 ≤ q) {r : Fl (Binary.rounding p hp emin)} (h : QuantileFl o d q r d') {a b M : ℚ}
    (ha : ∀ x ∈ data, a ≤ x.val) (hb : ∀ x ∈ data, x.val ≤ b) (hM : ∀ x ∈ data, |x.val| ≤ M) :
    a - (((1 + 1 / 2 ^ p) ^ 3 - 1) * M + (1 + 1 / 2 ^ p) * 2 ^ emin) ≤ r.val ∧
    r.val ≤ b + (((1 + 1 / 2 ^ p) ^ 3 - 1) * M + (1 + 1 / 2 ^ p) * 2 ^ emin) := by
  obtain ⟨k, t, x, y, t0, t1, _, hx, h1⟩ := C92_accurate he hc ho hd h0 h
  have hu : (0 : ℚ) ≤ 1 / 2 ^ p := by positivity
  have hc3 : (0 : ℚ) ≤ (1 + 1 / 2 ^ p) ^ 3 - 1 := by
    have : (1 : ℚ) ≤ (1 + 1 / 2 ^ p) ^ 3 := one_le_pow₀ (by linarith)
    linarith
  have h2 : (0 : ℚ) ≤ (1 + 1 / 2 ^ p) * 2 ^ emin := by
    have : (0 : ℚ) < 2 ^ emin := zpow_pos (by norm_num) _
    positivity
  have ax := ha x hx.mem
  have bx := hb x hx.mem
  have mx := hM x hx.mem
  have hM0 := (abs_nonneg _).trans mx
  have h3 := mul_nonneg hc3 hM0
  rcases h1 with ⟨_, rfl⟩ | ⟨_, hy, h1⟩
  · constructor <;> linarith
  · have ay := ha y hy.mem
    have bY := hb y hy.mem
    have my := hM y hy.mem
    have h4 : t * |x.val| + (1 - t) * |y.val| ≤ M := by
      have := mul_le_mul_of_nonneg_left mx t0
      have := mul_le_mul_of_nonneg_left my (by linarith : (0 : ℚ) ≤ 1 - t)
      linarith
    have h5 := mul_le_mul_of_nonneg_left h4 hc3
    have h6 : a ≤ t * x.val + (1 - t) * y.val := by
      have := mul_le_mul_of_nonneg_left ax t0
      have := mul_le_mul_of_nonneg_left ay (by linarith : (0 : ℚ) ≤ 1 - t)
      linarith
    have h7 : t * x.val + (1 - t) * y.val ≤ b := by
      have := mul_le_mul_of_nonneg_left bx t0
      have := mul_le_mul_of_nonneg_left bY (by linarith : (0 : ℚ) ≤ 1 - t)
      linarith
    rw [abs_le] at h1
    constructor <;> linarith [h1.1, h1.2]

/-- **C92**: the median of an odd number of values is the middle one; that of an even number of values is the rounded mean of the
two middle ones, which is between them. -/
theorem C92_median (he : emin ≤ -1) {data : List (Fl (Binary.rounding p hp emin))} (hlen : data.length ≤ 2 ^ (p - 1))
    (hsize : data.length < 2 ^ 64) {o : EvalOrder} (ho : o ≠ .late) {d d' : Distribution (Fl (Binary.rounding p hp emin))}
    (hd : ReachableFl data d) {r : Fl (Binary.rounding p hp emin)} (h : QuantileFl o d (1 / 2) r d')
    (hv : ∀ x ∈ data, Binary.fl p emin x.val = x.val ∧ Binary.fl p emin (x.val / 2) = x.val / 2) :
    (∀ m, data.length = 2 * m + 1 → IsNth data m r) ∧
    ∀ m, data.length = 2 * (m + 1) → ∃ x y, IsNth data m x ∧ IsNth data (m + 1) y ∧
      r.val = Binary.fl p emin ((x.val + y.val) / 2) ∧ x ≤ r ∧ r ≤ y := by
  have hpow : 2 * 2 ^ (p - 1) = 2 ^ p := by
    obtain ⟨k, rfl⟩ : ∃ k, p = k + 1 := ⟨p - 1, by omega⟩
    rw [Nat.add_sub_cancel, pow_succ]
    ring
  have hint : ∀ j : Nat, j < 2 ^ p → Binary.fl p emin j = j := by
    intro j hj
    have := Binary.fl_intCast (p := p) (emin := emin) (by omega) (n := j) (by
      rw [abs_of_nonneg (by positivity)]
      exact_mod_cast hj)
    exact_mod_cast this
  have hc : Countable data := ⟨hsize, fun j hj => hint j (by omega)⟩
  constructor
  · intro m hm
    exact C92_rank hc hd h (by rw [hm]; push_cast; ring) (by omega)
  · intro m hm
    obtain ⟨k, x, y, hk, hx, h1⟩ := C92_exact hc ho hd h
    have hpos : position (Binary.rounding p hp emin) data.length (1 / 2) = m + 1 / 2 := by
      unfold position
      have := Binary.fl_mul_pow (p := p) he (n := 2 * m + 1) (by
        rw [abs_of_nonneg (by positivity)]
        have : 2 * m + 1 < 2 ^ p := by omega
        exact_mod_cast this)
      have e : ((2 * m + 1 : Int) : ℚ) * 2 ^ (-1 : Int) = m + 1 / 2 := by
        push_cast
        rw [zpow_neg, zpow_one]
        ring
      rw [e] at this
      have e2 : 1 / 2 * ((data.length : ℚ) - 1) = m + 1 / 2 := by
        rw [hm]
        push_cast
        ring
      rw [e2]
      exact this
    have hkm : k = m := by
      rw [hk, hpos, Nat.floor_eq_iff (by positivity)]
      constructor <;> linarith
    subst hkm
    rw [hpos] at h1
    rcases h1 with ⟨h1, _⟩ | ⟨_, hy, t, ht, hr⟩
    · exfalso; linarith
    · have hhalf : Binary.fl p emin (1 / 2) = 1 / 2 := by
        have := Binary.fl_mul_pow (p := p) he (n := 1) (by
          rw [abs_one]
          exact one_lt_pow₀ (by norm_num) (by omega))
        have e : ((1 : Int) : ℚ) * 2 ^ (-1 : Int) = 1 / 2 := by
          rw [zpow_neg, zpow_one]
          norm_num
        rwa [e] at this
      have ht' : t = 1 / 2 := by
        rw [ht, add_sub_cancel_left]
        exact hhalf
      have hr' : r.val = Binary.fl p emin ((x.val + y.val) / 2) := by
        rw [hr, ht']
        show Binary.fl p emin (Binary.fl p emin (x.val * (1 / 2)) + Binary.fl p emin (y.val * Binary.fl p emin (1 - 1 / 2))) = _
        rw [show (1 : ℚ) - 1 / 2 = 1 / 2 by norm_num, hhalf, mul_one_div, mul_one_div, (hv x hx.mem).2, (hv y hy.mem).2]
        congr 1
        ring
      have hxy : x.val ≤ y.val := by
        by_contra hc'
        have hlt : y < x := not_le.1 hc'
        have h2 := hx.1
        have h3 := hy.2
        have : data.countP (· ≤ y) ≤ data.countP (· < x) := List.countP_mono_left fun z _ hz => by
          simp only [decide_eq_true_eq] at hz ⊢
          exact lt_of_le_of_lt hz hlt
        omega
      refine ⟨x, y, hx, hy, hr', ?_, ?_⟩
      · show x.val ≤ r.val
        rw [hr', ← (hv x hx.mem).1]
        refine Binary.fl_mono hp emin ?_
        rw [(hv x hx.mem).1]
        linarith
      · show r.val ≤ y.val
        rw [hr', ← (hv y hy.mem).1]
        refine Binary.fl_mono hp emin ?_
        rw [(hv y hy.mem).1]
        linarith

end Binary

/-! ## Counterexample and examples -/

/-- `double`. -/
abbrev double : Rounding ℚ := Binary.rounding 53 (by norm_num) (-1074)

/-- **C92**, in full: quantiles of values of type `double` are between the minimum and the maximum. -/
def C92_Statement : Prop :=
  ∀ (data : List (Fl double)) (o : EvalOrder) (d d' : Distribution (Fl double)) (q : ℚ) (r : Fl double), data ≠ [] →
    data.length ≤ 2 ^ 53 → (∀ x ∈ data, Binary.fl 53 (-1074) x.val = x.val) → Binary.fl 53 (-1074) q = q → 0 ≤ q → q ≤ 1 →
    ReachableFl data d → QuantileFl o d q r d' → (∃ x ∈ data, x ≤ r) ∧ ∃ y ∈ data, r ≤ y

/-- The number 0.2. -/
def fifth : ℚ := 7205759403792794 * 2 ^ (-55 : Int)

theorem double_int (n : Int) (h : |n| < 2 ^ 53) : Binary.fl 53 (-1074) n = n := Binary.fl_intCast (by norm_num) h

theorem countable_three : Countable [Fl.of 3, Fl.of 3] (R := double) where
  length := by decide
  exact := by
    intro j hj
    have hj' : j < 2 := hj
    exact_mod_cast double_int j (by rw [abs_of_nonneg (by positivity)]; norm_num; omega)

theorem double_fifth : Binary.fl 53 (-1074) fifth = fifth := by
  have := Binary.fl_mul_pow (p := 53) (emin := -1074) (e := -55) (by norm_num) (n := 7205759403792794) (by norm_num)
  exact_mod_cast this

/-- **C92**: the quantile of {3, 3} for `q` = 0.2 is the number after 3. -/
theorem C92_quantile_of_constant {o : EvalOrder} (ho : o ≠ .late) {d d' : Distribution (Fl double)} {r : Fl double}
    (hd : ReachableFl [Fl.of 3, Fl.of 3] d) (h : QuantileFl o d fifth r d') : r.val = 3 + 1 / 2 ^ 51 := by
  obtain ⟨k, x, y, hk, hx, h1⟩ := C92_exact countable_three ho hd h
  have hpos : position double 2 fifth = fifth := by
    show Binary.fl 53 (-1074) (fifth * ((2 : Nat) - 1)) = _
    rw [Nat.cast_ofNat, show (2 : ℚ) - 1 = 1 by norm_num, mul_one, double_fifth]
  have hlen : ([Fl.of 3, Fl.of 3] : List (Fl double)).length = 2 := rfl
  rw [hlen, hpos] at hk h1
  have f0 : 0 < fifth ∧ fifth < 1 := by unfold fifth; constructor <;> norm_num
  have hk0 : k = 0 := by
    rw [hk, Nat.floor_eq_iff f0.1.le]
    constructor
    · simpa using f0.1.le
    · simpa using f0.2
  subst hk0
  rw [Nat.cast_zero] at h1
  have hx3 : x = Fl.of 3 := by
    have := hx.mem
    simpa using this
  rcases h1 with ⟨h1, _⟩ | ⟨_, hy, t, ht, hr⟩
  · exact absurd h1 f0.1.ne'
  have hy3 : y = Fl.of 3 := by
    have := hy.mem
    simpa using this
  rw [sub_zero] at ht
  have ht' : t = fifth := ht.trans double_fifth
  subst hx3
  subst hy3
  rw [hr, ht']
  show Binary.fl 53 (-1074) (Binary.fl 53 (-1074) (3 * fifth) + Binary.fl 53 (-1074) (3 * Binary.fl 53 (-1074) (1 - fifth))) = _
  have e1 : Binary.fl 53 (-1074) (1 - fifth) = ((7205759403792794 : Int) : ℚ) * 2 ^ (-53 : Int) := by
    refine Binary.fl_tie (by norm_num) (by norm_num) ?_ ?_ ?_ <;> unfold fifth <;> norm_num
  have e2 : Binary.fl 53 (-1074) (3 * fifth) = ((5404319552844596 : Int) : ℚ) * 2 ^ (-53 : Int) := by
    refine Binary.fl_tie (by norm_num) (by norm_num) ?_ ?_ ?_ <;> unfold fifth <;> norm_num
  have e3 : Binary.fl 53 (-1074) (3 * (((7205759403792794 : Int) : ℚ) * 2 ^ (-53 : Int))) =
      ((5404319552844596 : Int) : ℚ) * 2 ^ (-51 : Int) := by
    refine Binary.fl_tie (by norm_num) (by norm_num) ?_ ?_ ?_ <;> norm_num
  have e4 : ((5404319552844596 : Int) : ℚ) * 2 ^ (-53 : Int) + ((5404319552844596 : Int) : ℚ) * 2 ^ (-51 : Int) =
      ((6755399441055745 : Int) : ℚ) * 2 ^ (-51 : Int) := by norm_num
  rw [e1, e2, e3, e4, Binary.fl_mul_pow (by norm_num) (by norm_num)]
  norm_num

/-- **C92** is refuted: 3.0000000000000004 is greater than the maximum of {3, 3}. -/
theorem C92_violated : ¬ C92_Statement := by
  intro h
  have f0 : 0 < fifth ∧ fifth < 1 := by unfold fifth; constructor <;> norm_num
  obtain ⟨_, r, d', hq⟩ := C92_in_range (R := double) (Binary.rounding_monotone 53 (by norm_num) _) countable_three (by simp)
    .lr (.init (data := [Fl.of 3, Fl.of 3])) f0.1.le f0.2.le
  have hr := C92_quantile_of_constant (by simp) .init hq
  obtain ⟨_, y, hy, hle⟩ := h _ _ _ _ fifth r (by simp) (by norm_num) (by
    intro x hx
    have : x = Fl.of 3 := by simpa using hx
    subst this
    exact_mod_cast double_int 3 (by norm_num)) double_fifth f0.1.le f0.2.le .init hq
  have : y = Fl.of 3 := by simpa using hy
  subst this
  have h3 : r.val ≤ 3 := hle
  rw [hr] at h3
  norm_num at h3

/-- Non-vacuity: the median, the bounds and the extrema of the values 1, 2, 4, 7. -/
example : ∃ (d' : Distribution (Fl double)) (r : Fl double),
    QuantileFl .rl (ofValues [Fl.of 4, Fl.of 1, Fl.of 7, Fl.of 2]) (1 / 2) r d' ∧ r.val = 3 := by
  have hv : ∀ x ∈ ([Fl.of 4, Fl.of 1, Fl.of 7, Fl.of 2] : List (Fl double)),
      Binary.fl 53 (-1074) x.val = x.val ∧ Binary.fl 53 (-1074) (x.val / 2) = x.val / 2 := by
    have key : ∀ n : Int, |n| < 2 ^ 53 → Binary.fl 53 (-1074) n = n ∧ Binary.fl 53 (-1074) ((n : ℚ) / 2) = n / 2 := by
      intro n hn
      refine ⟨double_int n hn, ?_⟩
      have := Binary.fl_mul_pow (p := 53) (emin := -1074) (e := -1) (by norm_num) hn
      rwa [zpow_neg, zpow_one, ← div_eq_mul_inv] at this
    intro x hx
    simp only [List.mem_cons, List.not_mem_nil, or_false] at hx
    rcases hx with rfl | rfl | rfl | rfl
    · have := key 4 (by norm_num)
      push_cast at this
      exact this
    · have := key 1 (by norm_num)
      push_cast at this
      exact this
    · have := key 7 (by norm_num)
      push_cast at this
      exact this
    · have := key 2 (by norm_num)
      push_cast at this
      exact this
  have hc : Countable ([Fl.of 4, Fl.of 1, Fl.of 7, Fl.of 2] : List (Fl double)) :=
    ⟨by decide, fun j hj => by
      have hj' : j < 4 := hj
      exact_mod_cast double_int j (by rw [abs_of_nonneg (by positivity)]; norm_num; omega)⟩
  obtain ⟨_, r, d', hq⟩ := C92_in_range (R := double) (Binary.rounding_monotone 53 (by norm_num) _) hc (by simp) .rl .init
    (q := 1 / 2) (by norm_num) (by norm_num)
  refine ⟨d', r, hq, ?_⟩
  obtain ⟨x, y, hx, hy, hr, _⟩ := (C92_median (by norm_num) (by norm_num) (by norm_num) (by simp) .init hq hv).2 1 rfl
  have hx' : x = Fl.of 2 := hx.unique (by unfold IsNth; decide)
  have hy' : y = Fl.of 4 := hy.unique (by unfold IsNth; decide)
  rw [hr, hx', hy']
  have := double_int 3 (by norm_num)
  show Binary.fl 53 (-1074) ((2 + 4) / 2) = 3
  norm_num at this ⊢
  exact this

/-- Non-vacuity: the quantile of {3, 3} is not accurate, but it is almost, and the behaviour is undefined if `q` is 2. -/
example : (∃ (d' : Distribution (Fl double)) (r : Fl double), QuantileFl .lr (ofValues [Fl.of 3, Fl.of 3]) fifth r d' ∧
      3 < r.val ∧ r.val ≤ 3 + (((1 + 1 / 2 ^ 53) ^ 3 - 1) * 3 + (1 + 1 / 2 ^ 53) * 2 ^ (-1074 : Int))) ∧
    ¬ ∃ r d', QuantileFl .lr (ofValues ([Fl.of 3, Fl.of 3] : List (Fl double))) 2 r d' := by
  have f0 : 0 < fifth ∧ fifth < 1 := by unfold fifth; constructor <;> norm_num
  constructor
  · obtain ⟨_, r, d', hq⟩ := C92_in_range (R := double) (Binary.rounding_monotone 53 (by norm_num) _) countable_three (by simp)
      .lr (.init (data := [Fl.of 3, Fl.of 3])) f0.1.le f0.2.le
    have h3 : ∀ x ∈ ([Fl.of 3, Fl.of 3] : List (Fl double)), x.val = 3 := by
      intro x hx
      have : x = Fl.of 3 := by simpa using hx
      rw [this]
      rfl
    refine ⟨d', r, hq, ?_, ?_⟩
    · rw [C92_quantile_of_constant (by simp) .init hq]
      norm_num
    · exact (C92_bounds_partial (by norm_num) countable_three (by simp) .init f0.1.le hq (a := 3) (b := 3) (M := 3)
        (fun x hx => (h3 x hx).ge) (fun x hx => (h3 x hx).le) (fun x hx => by rw [h3 x hx]; norm_num)).2
  · rw [C92_defined countable_three .lr .init]
    rintro ⟨_, _, h⟩
    have e : position double 2 2 = 2 := by
      show Binary.fl 53 (-1074) (2 * ((2 : Nat) - 1)) = 2
      have := double_int 2 (by norm_num)
      norm_num at this ⊢
      exact this
    have h' : position double 2 2 ≤ (2 : Nat) - 1 := h
    rw [e] at h'
    norm_num at h'

end Distribution

end Litl
