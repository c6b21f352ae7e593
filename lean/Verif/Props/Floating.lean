import Verif.Model.Floating
import Verif.Props.QuantileRounding
import Verif.Props.DistributionIntegers

/-!
# The floating point type of integers (C113)
-/

namespace Litl

namespace Spec

/-- An integer which can be written with `p` significant bits. -/
def HasBits (p : Nat) (x : Int) : Prop := ∃ (m : Int) (e : Nat), |m| < 2 ^ p ∧ x = m * 2 ^ e

end Spec

open Spec

section Conversion

variable {p : Nat} {hp : 1 ≤ p} {emin : Int}

/-- **C113**, exactly: an integer is not changed if and only if it has at most as many significant bits as the floating point
type. -/
theorem C113_exact (he : emin ≤ 0) (x : Int) : (floating (Binary.rounding p hp emin) x).val = x ↔ HasBits p x := by
  change Binary.fl p emin x = x ↔ _
  constructor
  · intro h
    obtain ⟨m, hm⟩ := Binary.fl_eq_multiple h
    have hlt := Binary.lt_pow_log (x : ℚ)
    by_cases hE : Binary.exponent p emin x ≤ 0
    · refine ⟨x, 0, ?_, by simp⟩
      have h1 : Int.log 2 |(x : ℚ)| - p + 1 ≤ 0 := (le_max_left _ _).trans hE
      have h2 : |(x : ℚ)| < 2 ^ (p : Int) := hlt.trans_le (zpow_le_zpow_right₀ (by norm_num) (by omega))
      rw [zpow_natCast] at h2
      exact_mod_cast h2
    · have hE' : Binary.exponent p emin x = Int.log 2 |(x : ℚ)| - p + 1 := by
        unfold Binary.exponent at hE ⊢
        omega
      obtain ⟨e, hee⟩ : ∃ e : Nat, Binary.exponent p emin x = e := ⟨(Binary.exponent p emin x).toNat, by omega⟩
      have h0 : (0 : ℚ) < 2 ^ e := by positivity
      rw [hee, zpow_natCast] at hm
      refine ⟨m, e, ?_, by exact_mod_cast hm⟩
      have h1 : Int.log 2 |(x : ℚ)| + 1 = ((p + e : Nat) : Int) := by
        push_cast
        omega
      rw [h1, zpow_natCast, hm, abs_mul, abs_of_pos h0, pow_add] at hlt
      have := lt_of_mul_lt_mul_right hlt h0.le
      exact_mod_cast this
  · rintro ⟨m, e, hm, rfl⟩
    have := Binary.fl_mul_pow (p := p) (emin := emin) (e := (e : Int)) (by omega) hm
    rw [zpow_natCast] at this
    push_cast
    exact this

/-- The first integer which does not have enough bits. -/
theorem not_hasBits (hp : 1 ≤ p) : ¬ HasBits p (2 ^ p + 1) := by
  rintro ⟨m, e, hm, h⟩
  rcases Nat.eq_zero_or_pos e with rfl | he
  · have := le_abs_self m
    rw [pow_zero, mul_one] at h
    omega
  · obtain ⟨a, rfl⟩ := Nat.exists_eq_add_of_lt he
    obtain ⟨b, rfl⟩ := Nat.exists_eq_add_of_le' hp
    have h1 : m * 2 ^ (0 + a + 1) = 2 * (m * 2 ^ a) := by ring
    have h2 : (2 : Int) ^ (b + 1) = 2 * 2 ^ b := by ring
    omega

/-- **C113**: a floating point type can handle any value of an integral type if and only if it has as many digits. -/
theorem C113_iff (he : emin ≤ 0) (t : IntType) :
    (∀ x, t.Mem x → (floating (Binary.rounding p hp emin) x).val = x) ↔ t.digits ≤ p := by
  constructor
  · intro h
    by_contra hc
    refine not_hasBits hp ((C113_exact he _).1 (h _ ⟨?_, ?_⟩))
    · have h1 : (0 : Int) < 2 ^ p := by positivity
      have h2 : (0 : Int) < 2 ^ t.digits := by positivity
      unfold IntType.lowest
      split <;> omega
    · have h1 : (2 : Int) ^ (p + 1) ≤ 2 ^ t.digits := pow_le_pow_right₀ (by norm_num) (by omega)
      have h2 : (2 : Int) ^ 1 ≤ 2 ^ p := pow_le_pow_right₀ (by norm_num) hp
      rw [pow_succ] at h1
      unfold IntType.highest
      omega
  · intro h x hx
    rw [C113_exact he]
    have h1 : (2 : Int) ^ t.digits ≤ 2 ^ p := pow_le_pow_right₀ (by norm_num) h
    have h2 : -2 ^ t.digits ≤ x := by
      have := hx.1
      have h2 : (0 : Int) < 2 ^ t.digits := by positivity
      unfold IntType.lowest at this
      split at this <;> omega
    have h3 : x < 2 ^ t.digits := by
      have := hx.2
      unfold IntType.highest at this
      omega
    by_cases h4 : x = -2 ^ p
    · refine ⟨-1, p, ?_, by rw [h4]; ring⟩
      rw [abs_neg, abs_one]
      exact one_lt_pow₀ (by norm_num) (by omega)
    · refine ⟨x, 0, ?_, by ring⟩
      rw [abs_lt]
      exact ⟨by omega, by omega⟩

/-- **C113**: conversions preserve the (large) order. -/
theorem C113_monotone {x y : Int} (h : x ≤ y) :
    (floating (Binary.rounding p hp emin) x).val ≤ (floating (Binary.rounding p hp emin) y).val :=
  Binary.fl_mono hp emin (by exact_mod_cast h)

/-- **C113**: the relative error of a conversion is that of a rounding. -/
theorem C113_error (he : emin ≤ 1 - p) (x : Int) :
    |(floating (Binary.rounding p hp emin) x).val - x| ≤ |(x : ℚ)| / 2 ^ p := by
  change |Binary.fl p emin x - x| ≤ _
  by_cases hx : x = 0
  · subst hx
    simp [Binary.fl_zero]
  · have hx' : (x : ℚ) ≠ 0 := by exact_mod_cast hx
    have h1 : (1 : ℚ) ≤ |(x : ℚ)| := by
      have := Int.one_le_abs hx
      exact_mod_cast this
    have h2 : 0 ≤ Int.log 2 |(x : ℚ)| := by
      have := Int.log_mono_right (b := 2) (by norm_num) h1
      rwa [Int.log_one_right] at this
    have := Binary.fl_relative hx' (p := p) (emin := emin) (by omega)
    rw [div_eq_inv_mul, ← one_div]
    exact this

/-- **C113**: conversions do not overflow: the result is at most the number of values of the type. -/
theorem C113_finite (he : emin ≤ 0) (t : IntType) {x : Int} (hx : t.Mem x) :
    |(floating (Binary.rounding p hp emin) x).val| ≤ 2 ^ t.digits := by
  have hone : |(1 : Int)| < 2 ^ p := by
    rw [abs_one]
    exact one_lt_pow₀ (by norm_num) (by omega)
  have hb : ∀ s : Int, |s| < 2 ^ p → (floating (Binary.rounding p hp emin) (s * 2 ^ t.digits)).val = ((s * 2 ^ t.digits : Int) : ℚ) :=
    fun s hs => (C113_exact he _).2 ⟨s, _, hs, rfl⟩
  have h1 := hb 1 hone
  have h2 := hb (-1) (by rwa [abs_neg])
  have h3 : -1 * 2 ^ t.digits ≤ x := by
    have := hx.1
    have h2 : (0 : Int) < 2 ^ t.digits := by positivity
    unfold IntType.lowest at this
    split at this <;> omega
  have h4 : x ≤ 1 * 2 ^ t.digits := by
    have := hx.2
    unfold IntType.highest at this
    omega
  have h5 := C113_monotone (hp := hp) (emin := emin) h3
  have h6 := C113_monotone (hp := hp) (emin := emin) h4
  rw [h2] at h5
  rw [h1] at h6
  push_cast at h5 h6
  rw [abs_le]
  exact ⟨by linarith, by linarith⟩

end Conversion

/-- **C113**: `Floating` can handle any value of the integral types, i.e. those of at most 64 digits. -/
def C113_Statement : Prop :=
  ∀ t : IntType, t.digits ≤ 64 → ∀ x, t.Mem x → (floating Distribution.double x).val = x

/-- **C113** does not hold for 64 bit integers, e.g. for `Index`. -/
theorem C113_violated : ¬ C113_Statement := fun h => by
  have := (C113_iff (p := 53) (hp := by norm_num) (emin := -1074) (by norm_num) ⟨63, true⟩).1 (h ⟨63, true⟩ (by norm_num))
  norm_num at this

/-- **C113** for types of at most 53 digits, e.g. for integers of 8, 16 and 32 bits.
Missing: integers of 64 bits, for which it does not hold (`C113_iff`). -/
theorem C113_partial (t : IntType) (ht : t.digits ≤ 53) (x : Int) (hx : t.Mem x) :
    (floating Distribution.double x).val = x :=
  (C113_iff (by norm_num) t).2 ht x hx

example : (floating Distribution.double (-2 ^ 31)).val = (-2 ^ 31 : Int) := C113_partial ⟨31, true⟩ (by norm_num) _ (by decide)

/-- `Index` values of 60 bits may have less significant bits. -/
example : HasBits 53 (2 ^ 60 + 2 ^ 20) ∧ ¬ HasBits 53 (2 ^ 53 + 1) := ⟨⟨2 ^ 40 + 1, 20, by norm_num, by norm_num⟩, not_hasBits (by norm_num)⟩

namespace Distribution

variable {R : Rounding ℚ}

theorem QuantileOfIntegers.inv {data : List Int} {o : EvalOrder} {d d' : Distribution Int} {q : ℚ} {r : Fl R}
    (h : QuantileOfIntegers o d q r d') (hi : Inv data d) : Inv data d' := by
  cases h with
  | exact _ _ h1 => exact (h1.inv hi).1
  | lr _ _ h1 h2 => exact (h2.inv (h1.inv hi).1).1
  | rl _ _ h1 h2 => exact (h2.inv (h1.inv hi).1).1
  | late _ _ h1 h2 _ _ => exact (h2.inv (h1.inv hi).1).1

theorem ReachableIntegers.inv {t : IntType} {data : List Int} {d : Distribution Int} (h : ReachableIntegers R t data d) :
    Inv data d := by
  induction h with
  | @init d h =>
    unfold ofIntegers at h
    split at h
    · cases h
      exact ⟨List.Perm.refl _, fun h => by simpa using h⟩
    · cases h
  | nth _ h ih => exact (h.inv ih).1
  | sort _ h ih => exact (h.inv ih).1
  | quantile _ h ih => exact h.inv ih

theorem isNth_floating (hm : R.Monotone) {data : List Int} {n : Nat} {x : Int} (h : IsNth data n x) :
    IsNth (data.map (floating R)) n (floating R x) := by
  have hmono : ∀ {a b : Int}, a ≤ b → floating R a ≤ floating R b := fun {a b} hab => hm a b (by exact_mod_cast hab)
  unfold IsNth at *
  rw [List.countP_map, List.countP_map]
  refine ⟨le_trans (List.countP_mono_left fun y _ hy => ?_) h.1, lt_of_lt_of_le h.2 (List.countP_mono_left fun y _ hy => ?_)⟩
  · simp only [Function.comp, decide_eq_true_eq] at hy ⊢
    by_contra hc
    exact absurd (hmono (not_lt.1 hc)) (not_le.2 hy)
  · simp only [Function.comp, decide_eq_true_eq] at hy ⊢
    exact hmono hy

/-- **C113**: quantiles of integers are quantiles of the integers once converted, whatever the histories (if operands are read in
due time).
Therefore what is known about the quantiles of floating point values (C92) applies. -/
theorem C113_quantile (hm : R.Monotone) {t : IntType} {data : List Int} {o : EvalOrder} (ho : o ≠ .late)
    {d d' : Distribution Int} (hd : ReachableIntegers R t data d) {q : ℚ} {r : Fl R} (h : QuantileOfIntegers o d q r d') {e : Distribution (Fl R)} (he : ReachableFl (data.map (floating R)) e) :
    ∃ e', QuantileFl o e q r e' := by
  have hi := hd.inv
  have hl := hi.perm.length_eq
  have hei := he.inv
  have hel : e.values.length = d.values.length := by rw [hei.perm.length_eq, List.length_map, hl]
  have key : ∀ {f : Nat} {x : Int} {v : Fl R} {e₀ e₁ : Distribution (Fl R)}, Inv (data.map (floating R)) e₀ → IsNth data f x →
      Nth e₀ f v e₁ → v = floating R x := fun hi' hx hv => (hv.inv hi').2.1.unique (isNth_floating hm hx)
  cases h with
  | @exact _ _ _ _ x f h1 h2 h3 =>
    obtain ⟨i1, n1, g1, _⟩ := h3.inv hi
    obtain ⟨l1, _⟩ := List.getElem?_eq_some_iff.1 g1
    have p1 := i1.perm.length_eq
    obtain ⟨v, e', hv⟩ := Nth.exists e f (by omega)
    have := key hei n1 hv
    subst this
    rw [← hel] at h1 h2
    exact ⟨e', .exact h1 h2 hv⟩
  | @lr _ d1 _ _ x y f h1 h2 h3 h4 =>
    obtain ⟨i1, n1, g1, _⟩ := h3.inv hi
    obtain ⟨i2, n2, g2, _⟩ := h4.inv i1
    obtain ⟨l1, _⟩ := List.getElem?_eq_some_iff.1 g1
    obtain ⟨l2, _⟩ := List.getElem?_eq_some_iff.1 g2
    have p1 := i1.perm.length_eq
    have p2 := i2.perm.length_eq
    obtain ⟨v, e1, hv⟩ := Nth.exists e f (by omega)
    have ie := (hv.inv hei).1
    have p3 := ie.perm.length_eq
    rw [List.length_map] at p3
    obtain ⟨w, e', hw⟩ := Nth.exists e1 (f + 1) (by omega)
    have := key hei n1 hv
    subst this
    have := key ie n2 hw
    subst this
    rw [← hel] at h1 h2 ⊢
    exact ⟨e', .lr h1 h2 hv hw⟩
  | @rl _ d1 _ _ x y f h1 h2 h3 h4 =>
    obtain ⟨i1, n1, g1, _⟩ := h3.inv hi
    obtain ⟨i2, n2, g2, _⟩ := h4.inv i1
    obtain ⟨l1, _⟩ := List.getElem?_eq_some_iff.1 g1
    obtain ⟨l2, _⟩ := List.getElem?_eq_some_iff.1 g2
    have p1 := i1.perm.length_eq
    have p2 := i2.perm.length_eq
    obtain ⟨v, e1, hv⟩ := Nth.exists e (f + 1) (by omega)
    have ie := (hv.inv hei).1
    have p3 := ie.perm.length_eq
    rw [List.length_map] at p3
    obtain ⟨w, e', hw⟩ := Nth.exists e1 f (by omega)
    have := key hei n1 hv
    subst this
    have := key ie n2 hw
    subst this
    rw [← hel] at h1 h2 ⊢
    exact ⟨e', .rl h1 h2 hv hw⟩
  | late => exact absurd rfl ho

/-- If the operands are read late, the upper one is that of the required rank, and the lower one is some value which is not
greater; it has the required rank if values were already sorted. -/
theorem C113_late {t : IntType} {data : List Int} {d d' : Distribution Int} (hd : ReachableIntegers R t data d) {q : ℚ} {r : Fl R}
    (h : QuantileOfIntegers .late d q r d') : ∃ (f : Nat) (x : Int), Truncates (abscissa R data.length q) f ∧ x ∈ data ∧
      (abscissa R data.length q = R.fl f ∧ IsNth data f x ∧ r = floating R x ∨
        abscissa R data.length q ≠ R.fl f ∧ (d.sorted = true → IsNth data f x) ∧ ∃ y, IsNth data (f + 1) y ∧ x ≤ y ∧
          r = blend (floating R x) (floating R y) (weight R (abscissa R data.length q) f)) := by
  have hi := hd.inv
  have hl := hi.perm.length_eq
  cases h with
  | @exact _ _ _ _ x f h1 h2 h3 =>
    obtain ⟨i1, n1, g1, _⟩ := h3.inv hi
    rw [hl] at h1 h2
    exact ⟨f, x, h1, i1.perm.mem_iff.1 (List.mem_of_getElem? g1), .inl ⟨h2, n1, rfl⟩⟩
  | @late _ d1 _ _ x y x' y' f h1 h2 h3 h4 hx hy =>
    obtain ⟨i1, n1, g1, _⟩ := h3.inv hi
    obtain ⟨i2, n2, g2, _⟩ := h4.inv i1
    rw [g2] at hy
    obtain rfl := Option.some.inj hy
    rw [hl] at h1 h2 ⊢
    refine ⟨f, x, h1, i2.perm.mem_iff.1 (List.mem_of_getElem? hx), .inr ⟨h2, fun hs => ?_, y', n2, ?_, rfl⟩⟩
    · cases h3 with
      | unsorted hs' => rw [hs] at hs'; cases hs'
      | sorted _ h3 =>
        cases h4 with
        | unsorted hs' => rw [hs] at hs'; cases hs'
        | sorted _ h4 =>
          rw [g1] at hx
          obtain rfl := Option.some.inj hx
          exact n1
    · cases h4 with
      | sorted hs _ =>
        obtain ⟨l1, e1⟩ := List.getElem?_eq_some_iff.1 hx
        obtain ⟨l2, e2⟩ := List.getElem?_eq_some_iff.1 g2
        rw [← e1, ← e2]
        exact List.pairwise_iff_getElem.1 (i1.sorted hs) f (f + 1) l1 l2 (by omega)
      | unsorted _ _ he _ => exact he.2 f (f + 1) x y' (by omega) le_rfl hx g2

theorem nth_lt' {α : Type} [LinearOrder α] {d d' : Distribution α} {n : Nat} {x : α} (h : Nth d n x d') :
    n < d.values.length ∧ d'.values.length = d.values.length := by
  cases h with
  | sorted _ hx => exact ⟨(List.getElem?_eq_some_iff.1 hx).1, rfl⟩
  | unsorted _ hn he _ => exact ⟨hn, he.1.length_eq⟩

/-- Whether quantiles are defined only depends on the number of values. -/
theorem quantileOfIntegers_iff (o : EvalOrder) (d : Distribution Int) (q : ℚ) :
    (∃ (r : Fl R) (d' : Distribution Int), QuantileOfIntegers o d q r d') ↔
      ∃ f, Truncates (abscissa R d.values.length q) f ∧ (abscissa R d.values.length q = R.fl f ∧ f < d.values.length ∨
        abscissa R d.values.length q ≠ R.fl f ∧ f + 1 < d.values.length) := by
  constructor
  · rintro ⟨r, d', h⟩
    cases h with
    | exact h1 h2 h3 => exact ⟨_, h1, .inl ⟨h2, (nth_lt' h3).1⟩⟩
    | lr h1 h2 h3 h4 => exact ⟨_, h1, .inr ⟨h2, (nth_lt' h3).2 ▸ (nth_lt' h4).1⟩⟩
    | rl h1 h2 h3 h4 => exact ⟨_, h1, .inr ⟨h2, (nth_lt' h3).1⟩⟩
    | late h1 h2 h3 h4 _ _ => exact ⟨_, h1, .inr ⟨h2, (nth_lt' h3).2 ▸ (nth_lt' h4).1⟩⟩
  · rintro ⟨f, h1, ⟨h2, h3⟩ | ⟨h2, h3⟩⟩
    · obtain ⟨x, d', h⟩ := Nth.exists d f h3
      exact ⟨_, _, .exact h1 h2 h⟩
    · cases o with
      | lr =>
        obtain ⟨x, d1, h⟩ := Nth.exists d f (by omega)
        obtain ⟨y, d', h'⟩ := Nth.exists d1 (f + 1) (by rw [(nth_lt' h).2]; exact h3)
        exact ⟨_, _, .lr h1 h2 h h'⟩
      | rl =>
        obtain ⟨y, d1, h⟩ := Nth.exists d (f + 1) h3
        obtain ⟨x, d', h'⟩ := Nth.exists d1 f (by rw [(nth_lt' h).2]; omega)
        exact ⟨_, _, .rl h1 h2 h h'⟩
      | late =>
        obtain ⟨x, d1, h⟩ := Nth.exists d f (by omega)
        obtain ⟨y, d', h'⟩ := Nth.exists d1 (f + 1) (by rw [(nth_lt' h).2]; exact h3)
        have e : d'.values.length = d.values.length := (nth_lt' h').2.trans (nth_lt' h).2
        exact ⟨_, _, .late h1 h2 h h' (List.getElem?_eq_getElem (by omega)) (List.getElem?_eq_getElem (by omega))⟩

theorem quantileFl_iff (o : EvalOrder) (d : Distribution (Fl R)) (q : ℚ) :
    (∃ (r : Fl R) (d' : Distribution (Fl R)), QuantileFl o d q r d') ↔
      ∃ f, Truncates (abscissa R d.values.length q) f ∧ (abscissa R d.values.length q = R.fl f ∧ f < d.values.length ∨
        abscissa R d.values.length q ≠ R.fl f ∧ f + 1 < d.values.length) := by
  constructor
  · rintro ⟨r, d', h⟩
    cases h with
    | exact h1 h2 h3 => exact ⟨_, h1, .inl ⟨h2, (nth_lt' h3).1⟩⟩
    | lr h1 h2 h3 h4 => exact ⟨_, h1, .inr ⟨h2, (nth_lt' h3).2 ▸ (nth_lt' h4).1⟩⟩
    | rl h1 h2 h3 h4 => exact ⟨_, h1, .inr ⟨h2, (nth_lt' h3).1⟩⟩
    | late h1 h2 h3 h4 _ _ => exact ⟨_, h1, .inr ⟨h2, (nth_lt' h3).2 ▸ (nth_lt' h4).1⟩⟩
  · rintro ⟨f, h1, ⟨h2, h3⟩ | ⟨h2, h3⟩⟩
    · obtain ⟨x, d', h⟩ := Nth.exists d f h3
      exact ⟨_, _, .exact h1 h2 h⟩
    · cases o with
      | lr =>
        obtain ⟨x, d1, h⟩ := Nth.exists d f (by omega)
        obtain ⟨y, d', h'⟩ := Nth.exists d1 (f + 1) (by rw [(nth_lt' h).2]; exact h3)
        exact ⟨_, _, .lr h1 h2 h h'⟩
      | rl =>
        obtain ⟨y, d1, h⟩ := Nth.exists d (f + 1) h3
        obtain ⟨x, d', h'⟩ := Nth.exists d1 f (by rw [(nth_lt' h).2]; omega)
        exact ⟨_, _, .rl h1 h2 h h'⟩
      | late =>
        obtain ⟨x, d1, h⟩ := Nth.exists d f (by omega)
        obtain ⟨y, d', h'⟩ := Nth.exists d1 (f + 1) (by rw [(nth_lt' h).2]; exact h3)
        have e : d'.values.length = d.values.length := (nth_lt' h').2.trans (nth_lt' h).2
        exact ⟨_, _, .late h1 h2 h h' (List.getElem?_eq_getElem (by omega)) (List.getElem?_eq_getElem (by omega))⟩

/-- **C113**: `quantile(q)` of integers has a defined behaviour if and only if there are values, and the abscissa which is computed
from `q` is greater than -1 and at most that of the last value, in any evaluation order and whatever the history. -/
theorem C113_defined {t : IntType} {data : List Int} (hc : Countable (data.map (floating R))) (o : EvalOrder)
    {d : Distribution Int} (hd : ReachableIntegers R t data d) (q : ℚ) :
    (∃ (r : Fl R) (d' : Distribution Int), QuantileOfIntegers o d q r d') ↔
      data ≠ [] ∧ -1 < position R data.length q ∧ position R data.length q ≤ data.length - 1 := by
  have h1 := C92_defined hc o .init q
  have h2 := quantileFl_iff o (ofValues (data.map (floating R))) q
  have e : (ofValues (data.map (floating R))).values.length = d.values.length := by
    rw [hd.inv.perm.length_eq]
    exact List.length_map _
  rw [e] at h2
  rw [quantileOfIntegers_iff, ← h2, h1, List.length_map, ne_eq, List.map_eq_nil_iff]

/-- **C113**: if `q * (size - 1)` is an integer, then the quantile is the conversion of the value of this rank, in any evaluation
order. -/
theorem C113_rank {t : IntType} {data : List Int} (hc : Countable (data.map (floating R))) (hne : data ≠ []) {o : EvalOrder}
    {d d' : Distribution Int} (hd : ReachableIntegers R t data d) {q : ℚ} {r : Fl R} (h : QuantileOfIntegers o d q r d') {k : Nat}
    (hk : q * ((data.length : ℚ) - 1) = k) (hlt : k < data.length) : ∃ x, IsNth data k x ∧ r = floating R x := by
  have hi := hd.inv
  have hp := hi.perm.length_eq
  have ha := abscissa_eq hc (by simpa using hne) q
  have hk' := hc.exact k (by simpa using hlt)
  unfold position at ha
  rw [List.length_map, hk, hk', ← hp] at ha
  have hfk : ∀ {f : Nat}, Truncates (abscissa R d.values.length q) f → f = k := by
    rintro f ⟨_, _, h3⟩
    rw [h3, ha, Nat.floor_natCast]
  cases h with
  | @exact _ _ _ _ x f h1 _ h3 =>
    rw [← hfk h1]
    exact ⟨x, (h3.inv hi).2.1, rfl⟩
  | lr h1 h2 _ _ => rw [hfk h1, ha, hk'] at h2; exact absurd rfl h2
  | rl h1 h2 _ _ => rw [hfk h1, ha, hk'] at h2; exact absurd rfl h2
  | late h1 h2 _ _ _ _ => rw [hfk h1, ha, hk'] at h2; exact absurd rfl h2

/-- **C113**: `quantile(0)` is `min()` and `quantile(1)` is `max()` if and only if these integers have few enough significant
bits. -/
theorem C113_extrema {p : Nat} {hp : 1 ≤ p} {emin : Int} (he : emin ≤ 0) {t : IntType} {data : List Int}
    (hc : Countable (data.map (floating (Binary.rounding p hp emin)))) {o : EvalOrder} {d d' e e' : Distribution Int}
    (hd : ReachableIntegers (Binary.rounding p hp emin) t data d) (he' : ReachableIntegers (Binary.rounding p hp emin) t data e)
    {r : Fl (Binary.rounding p hp emin)} {x : Int} :
    (Min e x e' → QuantileOfIntegers o d 0 r d' → (r.val = x ↔ HasBits p x)) ∧
    (data ≠ [] → Max e x e' → QuantileOfIntegers o d 1 r d' → (r.val = x ↔ HasBits p x)) := by
  constructor
  · intro hx h
    have h1 := (Nth.inv hx he'.inv).2.1
    have hl : 0 < data.length := lt_of_lt_of_le h1.2 List.countP_le_length
    obtain ⟨y, h2, rfl⟩ := C113_rank hc (List.length_pos_iff.1 hl) hd h (k := 0) (by simp) hl
    rw [h1.unique h2]
    exact C113_exact he y
  · intro hne hx h
    have hl := List.length_pos_iff.2 hne
    have h1 := (Nth.inv hx he'.inv).2.1
    rw [he'.inv.perm.length_eq] at h1
    obtain ⟨y, h2, rfl⟩ := C113_rank hc hne hd h (k := data.length - 1) (by rw [Nat.cast_sub hl]; simp) (by omega)
    rw [h1.unique h2]
    exact C113_exact he y

/-- **C113**: the mean is the conversion of the integer mean of C90. -/
theorem C113_mean (d : Distribution Int) :
    (d.values = [] → meanIntegers d = .error .ub ∧ meanFloating R d = .error .ub) ∧
    (d.values ≠ [] → ∃ m : Int, meanIntegers d = .ok (m : ℚ) ∧ meanFloating R d = .ok (floating R m)) := by
  unfold meanIntegers meanFloating
  constructor
  · intro h
    simp [h]
  · intro h
    have hl : d.values.length ≠ 0 := by simpa using h
    rw [if_neg hl, if_neg hl]
    exact ⟨_, rfl, rfl⟩

/-- A distribution of one value of type `unsigned long`. -/
def single (x : Int) : Distribution Int := ⟨[x], true, x⟩

theorem single_reachable : ofIntegers ⟨64, false⟩ [2 ^ 53 + 3] = .ok (single (2 ^ 53 + 3)) := by
  simp only [ofIntegers, single, List.pairwise_singleton, decide_true]
  rfl

/-- **C113**: a quantile may be greater than the maximum, if it is an integer of type `unsigned long`. -/
theorem C113_above_max : ∃ r : Fl double, QuantileOfIntegers .lr (single (2 ^ 53 + 3)) 0 r (single (2 ^ 53 + 3)) ∧
    Max (single (2 ^ 53 + 3)) (2 ^ 53 + 3) (single (2 ^ 53 + 3)) ∧ r.val = 2 ^ 53 + 4 := by
  refine ⟨floating double (2 ^ 53 + 3), .exact (f := 0) ⟨?_, ?_, ?_⟩ ?_ (.sorted rfl rfl), .sorted rfl rfl, ?_⟩
  all_goals try (simp [abscissa, Rounding.zero]; done)
  have e : Binary.fl 53 (-1074) ((2 ^ 53 + 3 : Int) : ℚ) = ((4503599627370498 : Int) : ℚ) * 2 ^ (1 : Int) := by
    refine Binary.fl_tie (by norm_num) (by norm_num) ?_ ?_ ?_ <;> norm_num
  change Binary.fl 53 (-1074) ((2 ^ 53 + 3 : Int) : ℚ) = _
  rw [e]
  norm_num

/-- Non-vacuity of `C113_quantile`, `C113_rank` and `C113_extrema`: the state is reachable and there are few values. -/
example : ReachableIntegers double ⟨64, false⟩ [2 ^ 53 + 3] (single (2 ^ 53 + 3)) ∧
    Countable ([(2 ^ 53 + 3 : Int)].map (floating double)) ∧ double.Monotone ∧ ¬ HasBits 53 (2 ^ 53 + 3) := by
  refine ⟨.init single_reachable, ⟨by decide, ?_⟩, Binary.rounding_monotone _ _ _, ?_⟩
  · intro j hj
    have hj' : j < 1 := hj
    have : j = 0 := by omega
    subst this
    simp [Rounding.zero]
  · rintro ⟨m, e, hm, h⟩
    rcases Nat.eq_zero_or_pos e with rfl | he
    · have := le_abs_self m
      rw [pow_zero, mul_one] at h
      omega
    · obtain ⟨a, rfl⟩ := Nat.exists_eq_add_of_lt he
      have h1 : m * 2 ^ (0 + a + 1) = 2 * (m * 2 ^ a) := by ring
      omega

end Distribution

end Litl
