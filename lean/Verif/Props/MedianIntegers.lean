import Verif.Lemmas.Rounding
import Verif.Lemmas.InterpolationRounding
import Verif.Model.MedianIntegers
import Verif.Props.Integers
import Verif.Props.MedianFilter
import Verif.Props.QuantileRounding

/-!
# C115: median of integers
-/

namespace Litl

open Spec

namespace MedianFilter

/-- `double`. -/
local notation "𝔻" => Binary.rounding 53 (by norm_num) (-1074)

/-! ## Order statistics -/

theorem MedianOfIntegers.exists (R : Rounding ℚ) (t u : IntType) (v : List Int) : ∃ r v', MedianOfIntegers R t u v r v' := by
  have hp : (v.insertionSort (· ≤ ·)).Perm v := List.perm_insertionSort _ _
  have hs : (v.insertionSort (· ≤ ·)).Pairwise (· ≤ ·) := List.pairwise_insertionSort _ _
  have hl := hp.length_eq
  rcases Nat.mod_two_eq_zero_or_one v.length with h | h
  · by_cases h0 : v = []
    · subst h0; exact ⟨_, _, .none⟩
    · have : v.length ≠ 0 := by simpa using h0
      by_cases h2 : v.length = 2
      · exact ⟨_, _, .two h2 (nthElement_sorted hp hs _)⟩
      · exact ⟨_, _, .even (x := (v.insertionSort (· ≤ ·))[v.length / 2]'(by omega))
          (y := (v.insertionSort (· ≤ ·))[v.length / 2 + 1]'(by omega)) h (by omega) (nthElement_sorted hp hs _)
          (nthElement_sorted (.refl _) hs _) (List.getElem?_eq_getElem _) (List.getElem?_eq_getElem _)⟩
  · exact ⟨_, _, .odd (x := (v.insertionSort (· ≤ ·))[v.length / 2]'(by omega)) h (nthElement_sorted hp hs _)
      (List.getElem?_eq_getElem _)⟩

theorem IsNth.mem_int {v : List Int} {n : Nat} {x : Int} (h : IsNth v n x) : x ∈ v := by
  have hp : (v.insertionSort (· ≤ ·)).Perm v := List.perm_insertionSort _ _
  have hs : (v.insertionSort (· ≤ ·)).Pairwise (· ≤ ·) := List.pairwise_insertionSort _ _
  exact hp.mem_iff.1 (List.mem_of_getElem? (sorted_isNth hp hs h))

/-- **C115**: the median of an odd number of integers is that of the spec, whatever the type. -/
theorem C115_odd {R : Rounding ℚ} {t : IntType} (ht : 2 ≤ t.digits) {v : List Int} (hm : ∀ x ∈ v, t.Mem x) {n : Nat}
    (hv : v.length = 2 * n + 1) (r : Res Int) :
    (∃ v', MedianOfIntegers R t t v r v') ↔ ∃ m, IsNth v n m ∧ r = .ok m := by
  have hn : v.length / 2 = n := by omega
  have key : ∀ {r v'}, MedianOfIntegers R t t v r v' → ∃ m, IsNth v n m ∧ r = .ok m := by
    intro r v' h
    cases h with
    | odd _ h hx =>
      rw [hn] at h hx
      have hi := NthElement.isNth h hx
      exact ⟨_, hi, by rw [IntType.convert_of_mem ht (hm _ (IsNth.mem_int hi))]⟩
    | none => simp at hv
    | two h _ => omega
    | even h _ _ _ _ _ => omega
  refine ⟨fun ⟨v', h⟩ => key h, fun ⟨m, hi, hr⟩ => ?_⟩
  obtain ⟨r', v', h⟩ := MedianOfIntegers.exists R t t v
  obtain ⟨m', hi', hr'⟩ := key h
  rw [hr, hi.unique hi', ← hr']
  exact ⟨v', h⟩

/-- What is computed for an even number of integers above two (see `C51_median_even`). -/
theorem C115_even {R : Rounding ℚ} {t u : IntType} {v : List Int} {n : Nat} (hv : v.length = 2 * n) (hn : 1 < n) (r : Res Int) :
    (∃ v', MedianOfIntegers R t u v r v') ↔
      ∃ k x y, k ≤ n ∧ IsNth v k x ∧ IsNth v (n + 1) y ∧ r = average R t u x y := by
  have hn2 : v.length / 2 = n := by omega
  constructor
  · rintro ⟨v', h⟩
    cases h with
    | odd h _ _ => omega
    | none => simp at hv; omega
    | two h _ => omega
    | even e1 e2 h1 h2 hx hy =>
      rw [hn2] at h1 h2 hx hy
      obtain ⟨k, hk, hkx, hky⟩ := (nthElement_pair (by omega)).1 ⟨_, _, h1, h2, hx, hy⟩
      exact ⟨k, _, _, hk, hkx, hky, rfl⟩
  · rintro ⟨k, x, y, hk, hx, hy, rfl⟩
    obtain ⟨v₁, v₂, h1, h2, hx', hy'⟩ := (nthElement_pair (n := n) (by omega)).2 ⟨k, hk, hx, hy⟩
    exact ⟨v₂, .even (v₁ := v₁) (by omega) (by omega) (hn2 ▸ h1) (hn2 ▸ h2) (hn2 ▸ hx') (hn2 ▸ hy')⟩

/-- The behaviour is undefined for two integers, and without integer. -/
theorem C115_small {R : Rounding ℚ} {t u : IntType} {v : List Int} (hv : v.length = 0 ∨ v.length = 2) (r : Res Int) :
    (∃ v', MedianOfIntegers R t u v r v') ↔ r = .error .ub := by
  have key : ∀ {r v'}, MedianOfIntegers R t u v r v' → r = .error .ub := by
    intro r v' h
    cases h with
    | odd h _ _ => omega
    | none => rfl
    | two _ _ => rfl
    | even _ h _ _ _ _ => omega
  refine ⟨fun ⟨v', h⟩ => key h, ?_⟩
  rintro rfl
  obtain ⟨r, v', h⟩ := MedianOfIntegers.exists R t u v
  rw [key h] at h
  exact ⟨v', h⟩

/-! ## Average -/

theorem toIndex_half_int (s : Int) : toIndex ((s : ℚ) * (1 / 2)) = s.tdiv 2 := by
  rcases le_or_gt 0 s with h | h
  · rw [toIndex_of_nonneg (by have : (0 : ℚ) ≤ s := by exact_mod_cast h
                              linarith), Int.tdiv_eq_ediv_of_nonneg h]
    rw [Int.floor_eq_iff]
    have h1 := Int.emod_add_mul_ediv s 2
    have h2 := Int.emod_nonneg s (by norm_num : (2 : Int) ≠ 0)
    have h3 := Int.emod_lt_of_pos s (by norm_num : (0 : Int) < 2)
    have e : (s : ℚ) = (s % 2 : Int) + 2 * (s / 2 : Int) := by exact_mod_cast h1.symm
    have g2 : (0 : ℚ) ≤ (s % 2 : Int) := by exact_mod_cast h2
    have g3 : ((s % 2 : Int) : ℚ) < 2 := by exact_mod_cast h3
    constructor <;> linarith
  · rw [toIndex_of_neg (by have : (s : ℚ) < 0 := by exact_mod_cast h
                           linarith)]
    have hs : s.tdiv 2 = -((-s) / 2) := by
      rw [← Int.tdiv_eq_ediv_of_nonneg (by omega), Int.neg_tdiv, neg_neg]
    rw [hs, Int.ceil_eq_iff]
    have h1 := Int.emod_add_mul_ediv (-s) 2
    have h2 := Int.emod_nonneg (-s) (by norm_num : (2 : Int) ≠ 0)
    have h3 := Int.emod_lt_of_pos (-s) (by norm_num : (0 : Int) < 2)
    have e : (-s : ℚ) = (-s % 2 : Int) + 2 * (-s / 2 : Int) := by exact_mod_cast h1.symm
    have g2 : (0 : ℚ) ≤ (-s % 2 : Int) := by exact_mod_cast h2
    have g3 : ((-s % 2 : Int) : ℚ) < 2 := by exact_mod_cast h3
    push_cast
    constructor <;> linarith

/-- Halving a sum which is a number of type `double`. -/
theorem fl_half_int {s : Int} (h : |s| ≤ 2 ^ 53) : Binary.fl 53 (-1074) (Binary.fl 53 (-1074) s * (1 / 2)) = s * (1 / 2) := by
  have h1 : Binary.fl 53 (-1074) s = s := by
    rcases h.lt_or_eq with h | h
    · exact Binary.fl_intCast (by norm_num) h
    · have hp : Binary.fl 53 (-1074) (2 ^ 53) = 2 ^ 53 := by
        have := Binary.fl_mul_pow (p := 53) (emin := -1074) (e := 53) (n := 1) (by norm_num) (by norm_num)
        rw [show (2 : ℚ) ^ (53 : Int) = 2 ^ 53 by norm_cast] at this
        simpa using this
      rcases abs_eq (by norm_num) |>.1 h with rfl | rfl
      · rw [show (((2 ^ 53 : Int)) : ℚ) = 2 ^ 53 by norm_num, hp]
      · rw [show (((-2 ^ 53 : Int)) : ℚ) = -2 ^ 53 by norm_num, Binary.fl_neg, hp]
  rw [h1]
  rcases h.lt_or_eq with h | h
  · have := Binary.fl_mul_pow (p := 53) (emin := -1074) (e := -1) (n := s) (by norm_num) h
    rwa [zpow_neg_one, ← one_div] at this
  · have hp : Binary.fl 53 (-1074) (2 ^ 52) = 2 ^ 52 := by
      have := Binary.fl_mul_pow (p := 53) (emin := -1074) (e := 52) (n := 1) (by norm_num) (by norm_num)
      rw [show (2 : ℚ) ^ (52 : Int) = 2 ^ 52 by norm_cast] at this
      simpa using this
    rcases abs_eq (by norm_num) |>.1 h with rfl | rfl
    · rw [show (((2 ^ 53 : Int)) : ℚ) * (1 / 2) = 2 ^ 52 by norm_num, hp]
    · rw [show (((-2 ^ 53 : Int)) : ℚ) * (1 / 2) = -2 ^ 52 by norm_num, Binary.fl_neg, hp]

theorem real_convert {t : IntType} (ht : 2 ≤ t.digits) (x : ℚ) :
    (Container.Scalar.real x).convert t = if t.Mem (toIndex x) then .ok (toIndex x) else .error .ub := by
  have h : ¬ (t.digits = 1 ∧ t.signed = false) := by omega
  show (if t.digits = 1 ∧ t.signed = false then _ else _) = _
  rw [if_neg h]

theorem tdiv_between {x y : Int} (h : x ≤ y) : x ≤ (x + y).tdiv 2 ∧ (x + y).tdiv 2 ≤ y := by
  rcases le_or_gt 0 (x + y) with h0 | h0
  · rw [Int.tdiv_eq_ediv_of_nonneg h0]
    omega
  · have hs : (x + y).tdiv 2 = -((-(x + y)) / 2) := by
      rw [← Int.tdiv_eq_ediv_of_nonneg (by omega), Int.neg_tdiv, neg_neg]
    rw [hs]
    omega

theorem mem_between {t : IntType} {x y z : Int} (hx : t.Mem x) (hy : t.Mem y) (h1 : min x y ≤ z) (h2 : z ≤ max x y) : t.Mem z := by
  unfold IntType.Mem at *
  omega

theorem tdiv_between' (x y : Int) : min x y ≤ (x + y).tdiv 2 ∧ (x + y).tdiv 2 ≤ max x y := by
  rcases le_total x y with h | h
  · rw [min_eq_left h, max_eq_right h]
    exact tdiv_between h
  · rw [min_eq_right h, max_eq_left h, add_comm]
    exact tdiv_between h

theorem result_of_mem {t : IntType} (ht : 2 ≤ t.digits) {s : Int} (h : t.Mem s) : t.result s = some s := by
  unfold IntType.result
  split_ifs
  · rfl
  · rw [IntType.convert_of_mem ht h]

theorem two_le_promoted {t : IntType} (ht : 2 ≤ t.digits) : 2 ≤ t.promoted.digits := by
  unfold IntType.promoted
  split_ifs
  · exact (by decide : 2 ≤ IntType.int.digits)
  · exact ht

theorem average_of_some {R : Rounding ℚ} {t u : IntType} {x y s : Int} (h : t.promoted.result (x + y) = some s) :
    average R t u x y = (Container.Scalar.real (R.fl (R.fl s * (1 / 2)))).convert u := by
  unfold average
  rw [h]

/-- **C115**: the average is right, truncated toward zero, if the sum is a number of the promoted type of at most 53 bits. -/
theorem C115_average {t : IntType} (ht : 2 ≤ t.digits) {x y : Int} (hx : t.Mem x) (hy : t.Mem y)
    (hs : t.promoted.Mem (x + y)) (h53 : |x + y| ≤ 2 ^ 53) : average 𝔻 t t x y = .ok ((x + y).tdiv 2) := by
  rw [average_of_some (result_of_mem (two_le_promoted ht) hs)]
  show (Container.Scalar.real (Binary.fl 53 (-1074) (Binary.fl 53 (-1074) ((x + y : Int) : ℚ) * (1 / 2)))).convert t = _
  rw [fl_half_int h53, real_convert ht, toIndex_half_int]
  have := tdiv_between' x y
  exact if_pos (mem_between hx hy this.1 this.2)

/-- If the result is of another type `u`, the average is only defined if it is a number of this type, where the median of an
odd number of neighbors is always defined, modulo the number of values. -/
theorem C115_output {t u : IntType} (ht : 2 ≤ t.digits) (hu : 2 ≤ u.digits) {x y : Int}
    (hs : t.promoted.Mem (x + y)) (h53 : |x + y| ≤ 2 ^ 53) :
    average 𝔻 t u x y = if u.Mem ((x + y).tdiv 2) then .ok ((x + y).tdiv 2) else .error .ub := by
  rw [average_of_some (result_of_mem (two_le_promoted ht) hs)]
  show (Container.Scalar.real (Binary.fl 53 (-1074) (Binary.fl 53 (-1074) ((x + y : Int) : ℚ) * (1 / 2)))).convert u = _
  rw [fl_half_int h53, real_convert hu, toIndex_half_int]

theorem C115_output_odd {R : Rounding ℚ} {t u : IntType} (hu : 2 ≤ u.digits) {v v' : List Int} {n : Nat}
    (hv : v.length = 2 * n + 1) {r : Res Int} (h : MedianOfIntegers R t u v r v') :
    ∃ m k, IsNth v n m ∧ r = .ok k ∧ u.Mem k ∧ u.count ∣ k - m := by
  have hn : v.length / 2 = n := by omega
  cases h with
  | odd _ h hx =>
    rw [hn] at h hx
    exact ⟨_, _, NthElement.isNth h hx, rfl, IntType.convert_spec hu _⟩
  | none => simp at hv
  | two h _ => omega
  | even h _ _ _ _ _ => omega

/-- The behaviour is undefined if the sum overflows, for signed integers... -/
theorem C115_overflow {R : Rounding ℚ} {t u : IntType} {x y : Int} (ht : t.promoted.signed = true)
    (hs : ¬ t.promoted.Mem (x + y)) : average R t u x y = .error .ub := by
  unfold average IntType.result
  rw [if_pos ht, if_neg hs]

/-- ... while it is reduced for unsigned ones: the average is lower than both values by half of the number of values, give or
take one. -/
theorem C115_wrap {t : IntType} (ht : 32 ≤ t.digits) (h53 : t.digits ≤ 53) (hu : t.signed = false) {x y : Int} (hx : t.Mem x)
    (hy : t.Mem y) (hs : t.highest < x + y) : average 𝔻 t t x y = .ok ((x + y - 2 ^ t.digits) / 2) := by
  have hp : t.promoted = t := by unfold IntType.promoted; rw [if_neg (by omega)]
  have hpos : (0 : Int) < 2 ^ t.digits := by positivity
  simp only [IntType.Mem, IntType.lowest, IntType.highest, hu, Bool.false_eq_true, if_false] at hx hy hs
  have hr : t.promoted.result (x + y) = some (x + y - 2 ^ t.digits) := by
    rw [hp]
    unfold IntType.result IntType.convert
    simp only [hu, Bool.false_eq_true, if_false]
    rw [if_neg (by omega)]
    congr 1
    rw [show x + y = (x + y - 2 ^ t.digits) + 2 ^ t.digits by ring, Int.add_emod_right, Int.emod_eq_of_lt (by omega) (by omega)]
    ring
  rw [average_of_some hr]
  have hle : (2 : Int) ^ t.digits ≤ 2 ^ 53 := pow_le_pow_right₀ (by norm_num) h53
  have ha : |x + y - 2 ^ t.digits| ≤ 2 ^ 53 := by rw [abs_of_nonneg (by omega)]; omega
  show (Container.Scalar.real (Binary.fl 53 (-1074) (Binary.fl 53 (-1074) ((x + y - 2 ^ t.digits : Int) : ℚ) * (1 / 2)))).convert t = _
  rw [fl_half_int ha, real_convert (by omega), toIndex_half_int, Int.tdiv_eq_ediv_of_nonneg (by omega)]
  refine if_pos ?_
  simp only [IntType.Mem, IntType.lowest, IntType.highest, hu, Bool.false_eq_true, if_false]
  omega

theorem fl_pow_int (k : Nat) : Binary.fl 53 (-1074) (2 ^ k) = 2 ^ k := by
  have := Binary.fl_mul_pow (p := 53) (emin := -1074) (e := k) (n := 1) (by omega) (by norm_num)
  rw [zpow_natCast] at this
  simpa using this

/-- The half of a number of `d` bits in double precision, truncated. -/
theorem half_bounds {d : Nat} (hd : 1 ≤ d) {s : Int} (h : |s| ≤ 2 ^ d) :
    let r := toIndex (Binary.fl 53 (-1074) (Binary.fl 53 (-1074) (s : ℚ) * (1 / 2)))
    |r| ≤ 2 ^ (d - 1) ∧ (0 ≤ s → 0 ≤ r) ∧ |(r : ℚ) - s / 2| < 2 + |(s : ℚ)| / 2 ^ 52 := by
  intro r
  set a := Binary.fl 53 (-1074) (s : ℚ) with ha
  set b := Binary.fl 53 (-1074) (a * (1 / 2)) with hb
  have hsq : |(s : ℚ)| ≤ 2 ^ d := by exact_mod_cast h
  rw [abs_le] at hsq
  have ha1 : a ≤ 2 ^ d := by
    rw [← fl_pow_int d]
    exact Binary.fl_mono (by norm_num) _ hsq.2
  have ha2 : -2 ^ d ≤ a := by
    rw [← fl_pow_int d, ← Binary.fl_neg]
    exact Binary.fl_mono (by norm_num) _ hsq.1
  have e : (2 : ℚ) ^ d = 2 * 2 ^ (d - 1) := by
    rw [← pow_succ']
    congr 1
    omega
  have hb1 : b ≤ 2 ^ (d - 1) := by
    rw [← fl_pow_int (d - 1)]
    exact Binary.fl_mono (by norm_num) _ (by linarith)
  have hb2 : -2 ^ (d - 1) ≤ b := by
    rw [← fl_pow_int (d - 1), ← Binary.fl_neg]
    exact Binary.fl_mono (by norm_num) _ (by linarith)
  have hr1 : |(r : ℚ) - b| < 1 ∧ (0 ≤ b → 0 ≤ r ∧ (r : ℚ) ≤ b) ∧ (b < 0 → r ≤ 0 ∧ b ≤ r) := by
    by_cases h0 : 0 ≤ b
    · have hr : r = ⌊b⌋ := toIndex_of_nonneg h0
      have h1 := Int.floor_le b
      have h2 := Int.lt_floor_add_one b
      rw [hr]
      exact ⟨by rw [abs_lt]; constructor <;> linarith, fun _ => ⟨Int.floor_nonneg.2 h0, h1⟩, fun h => absurd h0 (not_le.2 h)⟩
    · have h0 := not_le.1 h0
      have hr : r = ⌈b⌉ := toIndex_of_neg h0
      have h1 := Int.le_ceil b
      have h2 := Int.ceil_lt_add_one b
      rw [hr]
      exact ⟨by rw [abs_lt]; constructor <;> linarith, fun h => absurd h (not_le.2 h0),
        fun _ => ⟨Int.ceil_le.2 (by push_cast; exact h0.le), h1⟩⟩
  refine ⟨?_, ?_, ?_⟩
  · have : |(r : ℚ)| ≤ 2 ^ (d - 1) := by
      rw [abs_le]
      rcases le_or_gt 0 b with h0 | h0
      · obtain ⟨g1, g2⟩ := hr1.2.1 h0
        have : (0 : ℚ) ≤ r := by exact_mod_cast g1
        constructor <;> linarith
      · obtain ⟨g1, g2⟩ := hr1.2.2 h0
        have : (r : ℚ) ≤ 0 := by exact_mod_cast g1
        have : (0 : ℚ) ≤ 2 ^ (d - 1) := by positivity
        constructor <;> linarith
    exact_mod_cast this
  · intro hs
    have hs : (0 : ℚ) ≤ s := by exact_mod_cast hs
    have h1 : 0 ≤ a := Binary.fl_nonneg hs
    exact (hr1.2.1 (Binary.fl_nonneg (by linarith))).1
  · have g1 := Binary.fl_near 53 (-1074) (s : ℚ)
    have g2 := Binary.fl_near 53 (-1074) (a * (1 / 2))
    rw [← ha] at g1
    rw [← hb] at g2
    have tiny : (2 : ℚ) ^ (-1074 : Int) ≤ 1 / 4 := by
      have := zpow_le_zpow_right₀ (by norm_num : (1 : ℚ) ≤ 2) (by norm_num : (-1074 : Int) ≤ -2)
      refine this.trans (by norm_num)
    have habs : |a * (1 / 2)| ≤ |(s : ℚ)| / 2 + |a - s| / 2 := by
      rw [abs_mul, abs_of_pos (by norm_num : (0 : ℚ) < 1 / 2)]
      have := abs_add_le (s : ℚ) (a - s)
      rw [show (s : ℚ) + (a - s) = a by ring] at this
      linarith
    have h3 : |(r : ℚ) - s / 2| ≤ |(r : ℚ) - b| + |b - a * (1 / 2)| + |a - s| / 2 := by
      have e1 : (r : ℚ) - s / 2 = ((r : ℚ) - b) + (b - a * (1 / 2)) + (a - s) * (1 / 2) := by ring
      rw [e1]
      refine (abs_add_le _ _).trans ?_
      have h4 := abs_add_le ((r : ℚ) - b) (b - a * (1 / 2))
      have h5 : |(a - s) * (1 / 2)| = |a - s| / 2 := by
        rw [abs_mul, abs_of_pos (by norm_num : (0 : ℚ) < 1 / 2)]
        ring
      linarith
    have h0 := abs_nonneg (s : ℚ)
    have h6 := hr1.1
    generalize (2 : ℚ) ^ (-1074 : Int) = τ at tiny g1 g2
    generalize |a * (1 / 2)| = p1 at *
    generalize |a - (s : ℚ)| = p2 at *
    generalize |b - a * (1 / 2)| = p3 at *
    norm_num at g1 g2 ⊢
    linarith

/-- The average is defined if, and only if, the sum does not overflow, or is unsigned. -/
theorem C115_defined {t : IntType} (ht : 2 ≤ t.digits) (h64 : t.digits ≤ 64) {x y : Int} (hx : t.Mem x) (hy : t.Mem y) :
    (∃ r, average 𝔻 t t x y = .ok r) ↔ (t.promoted.signed = true → t.promoted.Mem (x + y)) := by
  constructor
  · rintro ⟨r, hr⟩ hs
    by_contra hc
    rw [C115_overflow hs hc] at hr
    cases hr
  · intro h
    by_cases h31 : t.digits ≤ 31
    · have hp : t.promoted = IntType.int := by unfold IntType.promoted; rw [if_pos h31]
      rw [hp] at h
      have hm := h rfl
      refine ⟨_, C115_average ht hx hy (hp ▸ hm) ?_⟩
      obtain ⟨h1, h2⟩ := hm
      rw [abs_le]
      have e1 : IntType.int.lowest = -2 ^ 31 := rfl
      have e2 : IntType.int.highest = 2 ^ 31 - 1 := rfl
      omega
    · have hp : t.promoted = t := by unfold IntType.promoted; rw [if_neg h31]
      rw [hp] at h
      have hpos : (0 : Int) < 2 ^ t.digits := by positivity
      obtain ⟨s, hs, hsm⟩ : ∃ s, t.result (x + y) = some s ∧ t.Mem s := by
        unfold IntType.result
        split_ifs with h1 h2
        · exact ⟨_, rfl, h2⟩
        · exact absurd (h h1) h2
        · exact ⟨_, rfl, (IntType.convert_spec ht _).1⟩
      have habs : |s| ≤ 2 ^ t.digits := by
        obtain ⟨h1, h2⟩ := hsm
        have : -2 ^ t.digits ≤ t.lowest := by unfold IntType.lowest; split <;> omega
        unfold IntType.highest at h2
        rw [abs_le]
        constructor <;> omega
      obtain ⟨b1, b2, _⟩ := half_bounds (by omega) habs
      rw [average_of_some (hp.symm ▸ hs), real_convert ht]
      refine ⟨_, if_pos ?_⟩
      have hlt : (2 : Int) ^ (t.digits - 1) < 2 ^ t.digits := pow_lt_pow_right₀ (by norm_num) (by omega)
      rw [abs_le] at b1
      have hlow : t.signed = true ∨ 0 ≤ s := by
        cases hsg : t.signed with
        | true => exact .inl rfl
        | false =>
          have := hsm.1
          simp only [IntType.lowest, hsg, Bool.false_eq_true, if_false] at this
          exact .inr this
      show t.lowest ≤ _ ∧ _ ≤ t.highest
      refine ⟨?_, ?_⟩
      · rcases hlow with h1 | h1
        · unfold IntType.lowest
          rw [if_pos h1]
          exact le_trans (by omega) b1.1
        · refine le_trans ?_ (b2 h1)
          unfold IntType.lowest
          split <;> omega
      · unfold IntType.highest
        exact le_trans b1.2 (by omega)

/-- For wider types, the average is accurate if the sum does not overflow. -/
theorem C115_wide {t : IntType} (ht : 2 ≤ t.digits) (h64 : t.digits ≤ 64) {x y : Int} (hx : t.Mem x) (hy : t.Mem y)
    (hs : t.promoted.Mem (x + y)) :
    ∃ r : Int, average 𝔻 t t x y = .ok r ∧ |(r : ℚ) - ((x + y : Int) : ℚ) / 2| < 2 + |((x + y : Int) : ℚ)| / 2 ^ 52 := by
  obtain ⟨r, hr⟩ := (C115_defined ht h64 hx hy).2 fun _ => hs
  refine ⟨r, hr, ?_⟩
  rw [average_of_some (result_of_mem (two_le_promoted ht) hs), real_convert ht] at hr
  have hd : 1 ≤ t.promoted.digits := (by omega : 1 ≤ 2).trans (two_le_promoted ht)
  have hpos : (0 : Int) < 2 ^ t.promoted.digits := by positivity
  have habs : |x + y| ≤ 2 ^ t.promoted.digits := by
    obtain ⟨h1, h2⟩ := hs
    have : -2 ^ t.promoted.digits ≤ t.promoted.lowest := by unfold IntType.lowest; split <;> omega
    unfold IntType.highest at h2
    rw [abs_le]
    constructor <;> omega
  have hb := (half_bounds hd habs).2.2
  split_ifs at hr
  cases hr
  exact hb

/-! ## Bounds -/

/-- The full property: the median lies in the range of the neighbors. -/
def C115_Statement : Prop :=
  ∀ (t : IntType), 2 ≤ t.digits → t.digits ≤ 64 → ∀ v : List Int, 2 < v.length → (∀ x ∈ v, t.Mem x) →
    ∀ r v', MedianOfIntegers 𝔻 t t v r v' → ∃ m, r = .ok m ∧ (∃ a ∈ v, a ≤ m) ∧ ∃ b ∈ v, m ≤ b

theorem isNth_constant (c : Int) {n k : Nat} (h : k < n) : IsNth (List.replicate n c) k c := by
  refine ⟨?_, ?_⟩
  · rw [List.countP_replicate]; simp
  · rw [List.countP_replicate]; simpa using h

/-- A constant image of 32-bit unsigned integers is not reproduced. -/
theorem C115_constant_unsigned (c : Int) (h1 : 2 ^ 31 ≤ c) (h2 : c < 2 ^ 32) {n : Nat} (hn : 1 < n) (r : Res Int) :
    (∃ v', MedianOfIntegers 𝔻 ⟨32, false⟩ ⟨32, false⟩ (List.replicate (2 * n) c) r v') ↔ r = .ok (c - 2 ^ 31) := by
  have hm : (⟨32, false⟩ : IntType).Mem c := ⟨by show (0 : Int) ≤ c; omega, by show c ≤ 2 ^ 32 - 1; omega⟩
  have hw := C115_wrap (t := ⟨32, false⟩) (by norm_num) (by norm_num) rfl hm hm
    (by show (2 : Int) ^ 32 - 1 < c + c; omega)
  have e : (c + c - 2 ^ (⟨32, false⟩ : IntType).digits) / 2 = c - 2 ^ 31 := by
    show (c + c - 2 ^ 32) / 2 = _
    omega
  rw [e] at hw
  rw [C115_even (by simp) hn]
  constructor
  · rintro ⟨k, x, y, _, hx, hy, rfl⟩
    rw [List.eq_of_mem_replicate (IsNth.mem_int hx), List.eq_of_mem_replicate (IsNth.mem_int hy), hw]
  · rintro rfl
    exact ⟨0, c, c, by omega, isNth_constant c (by omega), isNth_constant c (by omega), hw.symm⟩

/-- Nor is that of 31-bit signed integers. -/
theorem C115_constant_signed (R : Rounding ℚ) (c : Int) (h1 : 2 ^ 30 ≤ c) {n : Nat} (hn : 1 < n) (r : Res Int) :
    (∃ v', MedianOfIntegers R ⟨31, true⟩ ⟨31, true⟩ (List.replicate (2 * n) c) r v') ↔ r = .error .ub := by
  have hw : average R ⟨31, true⟩ ⟨31, true⟩ c c = .error .ub := by
    refine C115_overflow rfl fun hm => ?_
    have : c + c ≤ 2 ^ 31 - 1 := hm.2
    omega
  rw [C115_even (by simp) hn]
  constructor
  · rintro ⟨k, x, y, _, hx, hy, rfl⟩
    rw [List.eq_of_mem_replicate (IsNth.mem_int hx), List.eq_of_mem_replicate (IsNth.mem_int hy), hw]
  · rintro rfl
    exact ⟨0, c, c, by omega, isNth_constant c (by omega), isNth_constant c (by omega), hw.symm⟩

/-- Nor that of 64-bit integers of more than 53 bits, although nothing overflows. -/
theorem C115_constant_long {n : Nat} (hn : 1 < n) (r : Res Int) :
    (∃ v', MedianOfIntegers 𝔻 ⟨63, true⟩ ⟨63, true⟩ (List.replicate (2 * n) (2 ^ 53 + 1)) r v') ↔ r = .ok (2 ^ 53) := by
  have hw : average 𝔻 ⟨63, true⟩ ⟨63, true⟩ (2 ^ 53 + 1) (2 ^ 53 + 1) = .ok (2 ^ 53) := by
    have hr : (⟨63, true⟩ : IntType).promoted.result (2 ^ 53 + 1 + (2 ^ 53 + 1)) = some (2 ^ 54 + 2) := by decide
    rw [average_of_some hr, real_convert (by norm_num)]
    have e1 : Binary.fl 53 (-1074) (((2 ^ 54 + 2 : Int)) : ℚ) = 2 ^ 54 := by
      rw [Binary.fl_tie (e := 2) (m := 2 ^ 52) (by norm_num) (by norm_num) (by norm_num) (by norm_num) (by norm_num)]
      norm_num
    have e2 : Binary.fl 53 (-1074) ((2 : ℚ) ^ 54 * (1 / 2)) = 2 ^ 53 := by
      rw [show (2 : ℚ) ^ 54 * (1 / 2) = 2 ^ 53 by norm_num, fl_pow_int]
    have e3 : toIndex ((2 : ℚ) ^ 53) = 2 ^ 53 := by
      rw [toIndex_of_nonneg (by positivity), show ((2 : ℚ) ^ 53) = ((2 ^ 53 : Int) : ℚ) by norm_num, Int.floor_intCast]
    have e4 : toIndex ((𝔻).fl ((𝔻).fl (((2 ^ 54 + 2 : Int)) : ℚ) * (1 / 2))) = 2 ^ 53 := by
      show toIndex (Binary.fl 53 (-1074) (Binary.fl 53 (-1074) (((2 ^ 54 + 2 : Int)) : ℚ) * (1 / 2))) = _
      rw [e1, e2, e3]
    rw [e4]
    decide
  rw [C115_even (by simp) hn]
  constructor
  · rintro ⟨k, x, y, _, hx, hy, rfl⟩
    rw [List.eq_of_mem_replicate (IsNth.mem_int hx), List.eq_of_mem_replicate (IsNth.mem_int hy), hw]
  · rintro rfl
    exact ⟨0, _, _, by omega, isNth_constant _ (by omega), isNth_constant _ (by omega), hw.symm⟩

theorem C115_violated : ¬ C115_Statement := by
  intro h
  obtain ⟨v', hv'⟩ := (C115_constant_unsigned (2 ^ 32 - 1) (by norm_num) (by norm_num) (n := 2) (by norm_num) _).2 rfl
  obtain ⟨m, hm, ⟨a, ha, hle⟩, _⟩ := h ⟨32, false⟩ (by norm_num) (by norm_num) _ (by simp) (by
    intro x hx
    rw [List.eq_of_mem_replicate hx]
    decide) _ _ hv'
  rw [List.eq_of_mem_replicate ha] at hle
  cases hm
  norm_num at hle

/-- The property for the types of at most 30 bits, whose sums are numbers of type `int`, and more generally if no sum of
neighbors overflows or has more than 53 bits.

Missing: other sums, for which the property is false. -/
theorem C115_partial {t : IntType} (ht : 2 ≤ t.digits) {v : List Int} (hm : ∀ x ∈ v, t.Mem x) (h2 : 2 < v.length)
    (hs : ∀ x ∈ v, ∀ y ∈ v, t.promoted.Mem (x + y) ∧ |x + y| ≤ 2 ^ 53) {r : Res Int} {v' : List Int}
    (h : MedianOfIntegers 𝔻 t t v r v') : ∃ m, r = .ok m ∧ (∃ a ∈ v, a ≤ m) ∧ ∃ b ∈ v, m ≤ b := by
  rcases Nat.mod_two_eq_zero_or_one v.length with hv | hv
  · obtain ⟨k, x, y, _, hx, hy, rfl⟩ := (C115_even (n := v.length / 2) (by omega) (by omega) r).1 ⟨v', h⟩
    have hx := IsNth.mem_int hx
    have hy := IsNth.mem_int hy
    obtain ⟨h1, h3⟩ := hs x hx y hy
    refine ⟨_, C115_average ht (hm x hx) (hm y hy) h1 h3, ?_⟩
    have hb := tdiv_between' x y
    refine ⟨⟨min x y, ?_, hb.1⟩, ⟨max x y, ?_, hb.2⟩⟩
    · rcases min_choice x y with e | e <;> rw [e] <;> assumption
    · rcases max_choice x y with e | e <;> rw [e] <;> assumption
  · obtain ⟨m, hi, rfl⟩ := (C115_odd ht hm (n := v.length / 2) (by omega) r).1 ⟨v', h⟩
    exact ⟨m, rfl, ⟨m, IsNth.mem_int hi, le_rfl⟩, ⟨m, IsNth.mem_int hi, le_rfl⟩⟩

/-- In particular, the types of at most 30 bits.

Missing: wider types, see `C115_partial` and `C115_violated`. -/
theorem C115_narrow_partial {t : IntType} (ht : 2 ≤ t.digits) (h30 : t.digits ≤ 30) {v : List Int} (hm : ∀ x ∈ v, t.Mem x)
    (h2 : 2 < v.length) {r : Res Int} {v' : List Int} (h : MedianOfIntegers 𝔻 t t v r v') :
    ∃ m, r = .ok m ∧ (∃ a ∈ v, a ≤ m) ∧ ∃ b ∈ v, m ≤ b := by
  refine C115_partial ht hm h2 (fun x hx y hy => ?_) h
  have hle : (2 : Int) ^ t.digits ≤ 2 ^ 30 := pow_le_pow_right₀ (by norm_num) h30
  have hlow : -2 ^ t.digits ≤ t.lowest := by
    have : (0 : Int) < 2 ^ t.digits := by positivity
    unfold IntType.lowest
    split <;> omega
  obtain ⟨x1, x2⟩ := hm x hx
  obtain ⟨y1, y2⟩ := hm y hy
  unfold IntType.highest at x2 y2
  have hp : t.promoted = IntType.int := by unfold IntType.promoted; rw [if_pos (by omega)]
  rw [hp, abs_le]
  refine ⟨⟨?_, ?_⟩, ?_, ?_⟩
  · show (-2 ^ 31 : Int) ≤ _; omega
  · show _ ≤ (2 ^ 31 - 1 : Int); omega
  · omega
  · omega

/-! ## Examples -/

-- Bytes: the greatest sum is a number of type `int`.
example : (⟨8, false⟩ : IntType).Mem 255 ∧ (⟨8, false⟩ : IntType).promoted.Mem (255 + 254) ∧ |(255 + 254 : Int)| ≤ 2 ^ 53 ∧
    average 𝔻 ⟨8, false⟩ ⟨8, false⟩ 255 254 = .ok 254 :=
  ⟨by decide, by decide, by norm_num,
    (C115_average (by decide) (by decide) (by decide) (by decide) (by norm_num)).trans (by decide)⟩

-- Truncation is toward zero.
example : average 𝔻 ⟨15, true⟩ ⟨15, true⟩ (-3) (-2) = .ok (-2) :=
  (C115_average (by decide) (by decide) (by decide) (by decide) (by norm_num)).trans (by decide)

-- An average of shorts which is not a byte.
example : average 𝔻 ⟨15, true⟩ ⟨8, false⟩ 300 400 = .error .ub :=
  (C115_output (by decide) (by decide) (by decide) (by norm_num)).trans (by decide)

-- A median of three values.
example : ∃ v', MedianOfIntegers 𝔻 ⟨8, false⟩ ⟨8, false⟩ [200, 100, 255] (.ok 200) v' :=
  (C115_odd (by decide) (by decide) (n := 1) rfl _).2 ⟨200, ⟨by decide, by decide⟩, rfl⟩

-- Four bytes.
example : ∃ v', MedianOfIntegers 𝔻 ⟨8, false⟩ ⟨8, false⟩ [1, 2, 3, 4] (.ok 3) v' :=
  (C115_even (n := 2) rfl (by norm_num) _).2 ⟨2, 3, 4, by norm_num, ⟨by decide, by decide⟩, ⟨by decide, by decide⟩,
    ((C115_average (by decide) (by decide) (by decide) (by decide) (by norm_num)).trans (by decide)).symm⟩

-- `C115_wide`: two 64-bit integers whose sum does not overflow.
example : (⟨63, true⟩ : IntType).promoted.Mem (2 ^ 62 - 1 + 2 ^ 61) := by decide

end MedianFilter

end Litl
