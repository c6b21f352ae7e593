import Verif.Lemmas.InterpolationRounding
import Verif.Props.Interpolation
import Verif.Props.FillRounding

/-!
# Nearest-neighbor interpolation in floating point arithmetic (C93)
-/

namespace Litl

open Spec

namespace Binary

/-- The number before 1/2: 0.49999999999999994 for `double`. -/
def beforeHalf (p : Nat) : ℚ := 1 / 2 - 2 ^ (-1 - p : Int)

theorem pow_pred (p : Nat) : (2 : ℚ) ^ (-1 - p : Int) = 2 ^ (-p : Int) / 2 := by
  rw [sub_eq_add_neg, zpow_add₀ (by norm_num)]
  norm_num
  ring

theorem pow_neg_le {p : Nat} (hp : 2 ≤ p) : (2 : ℚ) ^ (-p : Int) ≤ 1 / 4 := by
  have : (2 : ℚ) ^ (-p : Int) ≤ 2 ^ (-2 : Int) := zpow_le_zpow_right₀ (by norm_num) (by omega)
  norm_num at this ⊢
  exact this

/-- An upper bound which is not rounded. -/
theorem floor_fl_eq {p : Nat} (hp : 1 ≤ p) {emin : Int} {y z : ℚ} (h0 : 0 ≤ y) (hk : fl p emin (⌊y⌋ : Int) = (⌊y⌋ : Int))
    (hyz : y ≤ z) (hz : fl p emin z = z) (hlt : z < ⌊y⌋ + 1) : toIndex (fl p emin y) = ⌊y⌋ := by
  rw [toIndex_of_nonneg (fl_nonneg h0), Int.floor_eq_iff]
  constructor
  · rw [← hk]
    exact fl_mono hp emin (Int.floor_le y)
  · refine lt_of_le_of_lt ?_ hlt
    rw [← hz]
    exact fl_mono hp emin hyz

/-- The rounded sum has the same integral part as the sum, with one exception. -/
theorem toIndex_half {p : Nat} (hp : 2 ≤ p) {emin : Int} (he : emin ≤ -1 - p) {x : ℚ} (h : fl p emin x = x)
    (h1 : -(1 / 2) ≤ x) (h2 : x ≤ 2 ^ (p - 2)) (hne : x ≠ beforeHalf p) : toIndex (fl p emin (x + 1 / 2)) = ⌊x + 1 / 2⌋ := by
  have hpow : (2 : ℚ) ^ (p - 2) * 4 = 2 ^ p := by
    obtain ⟨k, rfl⟩ : ∃ k, p = k + 2 := ⟨p - 2, by omega⟩
    rw [Nat.add_sub_cancel, pow_add]
    norm_num
  have hone : (1 : ℚ) ≤ 2 ^ (p - 2) := one_le_pow₀ (by norm_num)
  have hk : fl p emin (⌊x + 1 / 2⌋ : Int) = (⌊x + 1 / 2⌋ : Int) := by
    refine fl_intCast (by omega) ?_
    rw [abs_of_nonneg (Int.floor_nonneg.2 (by linarith))]
    have h3 := Int.floor_le (x + 1 / 2)
    have : ((⌊x + 1 / 2⌋ : Int) : ℚ) < ((2 ^ p : Int) : ℚ) := by push_cast; linarith
    exact_mod_cast this
  have hpp := pow_pred p
  have hp4 := pow_neg_le hp
  have hpos : (0 : ℚ) < 2 ^ (-p : Int) := zpow_pos (by norm_num) _
  by_cases hx : x < 1 / 2
  · -- between 0 and 1
    have hfl : ⌊x + 1 / 2⌋ = 0 := by
      rw [Int.floor_eq_iff]
      push_cast
      constructor <;> linarith
    refine floor_fl_eq (by omega) (z := 1 - 2 ^ (-p : Int)) (by linarith) hk ?_ ?_ ?_
    · by_cases hx4 : x < 1 / 4
      · linarith
      · obtain ⟨m, hm, hlt⟩ := fl_binade (e := -1) he h (by norm_num; linarith) (by norm_num; linarith)
        have hm1 : m ≠ 2 ^ p - 1 := by
          rintro rfl
          refine hne ?_
          rw [hm]
          have : (2 : ℚ) ^ p * 2 ^ (-1 - p : Int) = 1 / 2 := by
            rw [← zpow_natCast, ← zpow_add₀ (by norm_num)]
            norm_num
          push_cast
          rw [sub_mul, this, one_mul]
          rfl
        have hm2 : (m : ℚ) ≤ 2 ^ p - 2 := by
          have : m ≤ 2 ^ p - 2 := by omega
          exact_mod_cast this
        have e1 : (2 : ℚ) ^ p * 2 ^ (-p : Int) = 1 := by
          rw [← zpow_natCast, ← zpow_add₀ (by norm_num)]
          norm_num
        rw [hm, hpp]
        nlinarith
    · have := fl_mul_pow (p := p) (emin := emin) (e := -p) (by omega) (n := 2 ^ p - 1) (by
        rw [abs_of_nonneg (by have : (1 : Int) ≤ 2 ^ p := one_le_pow₀ (by norm_num)
                              omega)]
        omega)
      have e1 : (((2 ^ p - 1 : Int)) : ℚ) * 2 ^ (-p : Int) = 1 - 2 ^ (-p : Int) := by
        push_cast
        rw [sub_mul, one_mul, ← zpow_natCast, ← zpow_add₀ (by norm_num)]
        norm_num
      rw [e1] at this
      exact this
    · rw [hfl]
      push_cast
      linarith
  · -- the next powers of two
    have hx0 : 0 < x := by linarith
    have hlow := Int.zpow_log_le_self (b := 2) (by norm_num) hx0
    have hupp := Int.lt_zpow_succ_log_self (b := 2) (by norm_num) x
    push_cast at hlow hupp
    have hlog1 : -1 ≤ Int.log 2 x := by
      rw [← Int.zpow_le_iff_le_log (by norm_num) hx0]
      norm_num
      linarith
    have hlog2 : Int.log 2 x ≤ p - 2 := by
      have : Int.log 2 x < p - 2 + 1 := by
        rw [← Int.lt_zpow_iff_log_lt (by norm_num) hx0]
        refine h2.trans_lt ?_
        rw [← zpow_natCast]
        push_cast
        refine zpow_lt_zpow_right₀ (by norm_num) ?_
        omega
      omega
    obtain ⟨e, hee⟩ : ∃ e : Nat, Int.log 2 x + 1 = e := ⟨(Int.log 2 x + 1).toNat, by omega⟩
    rw [hee] at hupp
    rw [show Int.log 2 x = e - 1 by omega] at hlow
    obtain ⟨m, hm, hlt⟩ := fl_binade (e := e) (by omega) h hlow hupp
    have hm0 : 0 ≤ m := by
      have h3 : (0 : ℚ) < 2 ^ (e - p : Int) := zpow_pos (by norm_num) _
      rw [hm] at hx0
      have := (pos_iff_pos_of_mul_pos hx0).2 h3
      have : (0 : ℚ) ≤ m := this.le
      exact_mod_cast this
    have hhalf : (1 / 2 : ℚ) = ((2 ^ (p - e - 1) : Int) : ℚ) * 2 ^ (e - p : Int) := by
      push_cast
      rw [← zpow_natCast, ← zpow_add₀ (by norm_num)]
      rw [show ((p - e - 1 : Nat) : Int) + (e - p) = -1 by omega]
      norm_num
    rw [zpow_natCast] at hupp
    by_cases hy : x + 1 / 2 < 2 ^ e
    · refine floor_fl_eq (by omega) (z := x + 1 / 2) (by linarith) hk le_rfl ?_ (Int.lt_floor_add_one _)
      have hsum : x + 1 / 2 = ((m + 2 ^ (p - e - 1) : Int) : ℚ) * 2 ^ (e - p : Int) := by
        rw [Int.cast_add, add_mul, ← hhalf, ← hm]
      rw [hsum]
      refine fl_mul_pow (by omega) ?_
      rw [hsum] at hy
      have h3 : (0 : ℚ) < 2 ^ (e - p : Int) := zpow_pos (by norm_num) _
      have e1 : (2 : ℚ) ^ e = 2 ^ p * 2 ^ (e - p : Int) := by
        rw [← zpow_natCast, ← zpow_natCast, ← zpow_add₀ (by norm_num)]
        congr 1
        ring
      rw [e1] at hy
      have := lt_of_mul_lt_mul_right hy h3.le
      rw [abs_of_nonneg (by positivity)]
      exact_mod_cast this
    · rw [not_lt] at hy
      have hflo : ⌊x + 1 / 2⌋ = 2 ^ e := by
        rw [Int.floor_eq_iff]
        push_cast
        constructor <;> linarith
      refine floor_fl_eq (by omega) (z := 2 ^ e + 1 / 2) (by linarith) hk (by linarith) ?_ ?_
      · have hep : e + 2 ≤ p := by
          by_contra hc
          have : e = p - 1 := by omega
          have h5 : (2 : ℚ) ^ e = 2 ^ (p - 2) * 2 := by
            rw [this, ← pow_succ]
            congr 1
            omega
          linarith
        have e1 : (2 : ℚ) ^ e + 1 / 2 = ((2 ^ (e + 1) + 1 : Int) : ℚ) * 2 ^ (-1 : Int) := by
          push_cast
          rw [pow_succ]
          norm_num
          ring
        rw [e1]
        refine fl_mul_pow (by omega) ?_
        rw [abs_of_nonneg (by positivity)]
        have h6 : (2 : Int) ^ (e + 2) ≤ 2 ^ p := pow_le_pow_right₀ (by norm_num) hep
        have h7 : (2 : Int) ^ (e + 2) = 2 * 2 ^ (e + 1) := by ring
        have h8 : (1 : Int) < 2 ^ (e + 1) := one_lt_pow₀ (by norm_num) (by omega)
        omega
      · rw [hflo]
        push_cast
        linarith

/-- The exception. -/
theorem toIndex_beforeHalf {p : Nat} (hp : 2 ≤ p) {emin : Int} (he : emin ≤ -1 - p) :
    fl p emin (beforeHalf p) = beforeHalf p ∧ toIndex (fl p emin (beforeHalf p + 1 / 2)) = 1 := by
  have hpp := pow_pred p
  have hp4 := pow_neg_le hp
  have hpos : (0 : ℚ) < 2 ^ (-p : Int) := zpow_pos (by norm_num) _
  have e1 : (2 : ℚ) ^ p * 2 ^ (-p : Int) = 1 := by
    rw [← zpow_natCast, ← zpow_add₀ (by norm_num)]
    norm_num
  constructor
  · have := fl_mul_pow (p := p) (emin := emin) (e := -1 - p) he (n := 2 ^ p - 1) (by
      rw [abs_of_nonneg (by have : (1 : Int) ≤ 2 ^ p := one_le_pow₀ (by norm_num)
                            omega)]
      omega)
    have e2 : (((2 ^ p - 1 : Int)) : ℚ) * 2 ^ (-1 - p : Int) = beforeHalf p := by
      push_cast
      unfold beforeHalf
      rw [hpp]
      linarith
    rw [e2] at this
    exact this
  · have e3 : beforeHalf p + 1 / 2 = 1 - 2 ^ (-1 - p : Int) := by unfold beforeHalf; ring
    have hexp : exponent p emin (1 - 2 ^ (-1 - p : Int)) = -p := by
      refine exponent_eq (by omega) ?_ ?_
      · rw [show -(p : Int) + p - 1 = -1 by ring, hpp, show (2 : ℚ) ^ (-1 : Int) = 1 / 2 by norm_num]
        linarith
      · rw [neg_add_cancel, hpp, zpow_zero]
        linarith
    have hdiv : (1 - 2 ^ (-1 - p : Int)) / 2 ^ (-p : Int) = (2 ^ p - 1 / 2 : ℚ) := by
      rw [hpp, div_eq_iff hpos.ne']
      linarith
    have : fl p emin (beforeHalf p + 1 / 2) = 1 := by
      rw [e3, fl, hexp, hdiv]
      have hr : roundEven (2 ^ p - 1 / 2) = 2 ^ p := by
        have h3 : Int.fract ((2 : ℚ) ^ p - 1 / 2) = 1 / 2 := by
          rw [Int.fract_eq_iff]
          exact ⟨by norm_num, by norm_num, 2 ^ p - 1, by push_cast; ring⟩
        have h4 : ⌊(2 : ℚ) ^ p - 1 / 2⌋ = 2 ^ p - 1 := by
          rw [Int.floor_eq_iff]
          push_cast
          constructor <;> linarith
        have h5 : ((2 : Int) ^ p - 1) % 2 ≠ 0 := by
          obtain ⟨k, rfl⟩ : ∃ k, p = k + 1 := ⟨p - 1, by omega⟩
          rw [pow_succ]
          omega
        rw [roundEven, h3, h4, if_neg (by norm_num), if_neg (by norm_num), if_neg h5]
        ring
      rw [hr]
      push_cast
      exact e1
    rw [this]
    rw [toIndex_of_nonneg (by norm_num)]
    simp

end Binary

variable {p : Nat} {hp : 1 ≤ p} {emin : Int}

theorem mapM_ok {α β : Type _} (f : α → Res β) (g : α → β) : ∀ l : List α, (∀ x ∈ l, f x = .ok (g x)) → l.mapM f = .ok (l.map g)
  | [], _ => rfl
  | x :: l, h => by
    rw [List.mapM_cons, h x (by simp), mapM_ok f g l fun y hy => h y (by simp [hy])]
    rfl

/-- **C93**: which pixel is read, along each axis, for each position up to 2^51 (if numbers are `double`s): the closest one, with
one exception, the number before 1/2. -/
theorem C93_exact (h2 : 2 ≤ p) (h64 : p ≤ 64) (he : emin ≤ -1 - p) (r : Position → Res (Fl (Binary.rounding p hp emin)))
    (xs : List ℚ) (h : ∀ x ∈ xs, Binary.fl p emin x = x ∧ -(1 / 2) ≤ x ∧ x ≤ 2 ^ (p - 2)) :
    nearestFl _ r xs = r (xs.map fun x => if x = 1 / 2 - 2 ^ (-1 - p : Int) then 1 else ⌊x + 1 / 2⌋) := by
  unfold nearestFl
  rw [mapM_ok _ (fun x : ℚ => if x = 1 / 2 - 2 ^ (-1 - p : Int) then (1 : Int) else ⌊x + 1 / 2⌋)]
  · rfl
  · intro x hx
    obtain ⟨hfl, hlo, hhi⟩ := h x hx
    unfold indexOf
    show Checked.ck (toIndex (Binary.fl p emin (x + 1 / 2))) = _
    by_cases hb : x = Binary.beforeHalf p
    · rw [if_pos (show x = 1 / 2 - 2 ^ (-1 - p : Int) from hb), hb, (Binary.toIndex_beforeHalf h2 he).2]
      rfl
    · rw [if_neg (show ¬ x = 1 / 2 - 2 ^ (-1 - p : Int) from hb), Binary.toIndex_half h2 he hfl hlo hhi hb]
      refine ck_ok ⟨?_, ?_⟩
      · exact (by norm_num : (-2 ^ 63 : Int) ≤ 0).trans (Int.floor_nonneg.2 (by linarith))
      · rw [Int.floor_lt]
        have : (2 : ℚ) ^ (p - 2) ≤ 2 ^ 62 := pow_le_pow_right₀ (by norm_num) (by omega)
        push_cast
        norm_num at this ⊢
        linarith

/-- The closest index, for each number but one.
Missing: the number before 1/2, see `C93_exact`, and the positions below -1/2, see `C43_negative`. -/
theorem C93_closest_partial (h2 : 2 ≤ p) (h64 : p ≤ 64) (he : emin ≤ -1 - p)
    (r : Position → Res (Fl (Binary.rounding p hp emin))) (xs : List ℚ)
    (h : ∀ x ∈ xs, Binary.fl p emin x = x ∧ -(1 / 2) ≤ x ∧ x ≤ 2 ^ (p - 2) ∧ x ≠ 1 / 2 - 2 ^ (-1 - p : Int)) :
    ∃ q, nearestFl _ r xs = r q ∧ List.Forall₂ (fun (k : Int) (x : ℚ) => |(k : ℚ) - x| ≤ 1 / 2) q xs := by
  refine ⟨_, C93_exact h2 h64 he r xs fun x hx => ⟨(h x hx).1, (h x hx).2.1, (h x hx).2.2.1⟩, ?_⟩
  rw [List.forall₂_map_left_iff, List.forall₂_same]
  intro x hx
  rw [if_neg (h x hx).2.2.2, abs_le]
  have h3 := Int.floor_le (x + 1 / 2)
  have h4 := Int.lt_floor_add_one (x + 1 / 2)
  constructor <;> linarith

theorem forall₂_left {α β : Type _} {A : α → β → Prop} {B : α → Prop} (hAB : ∀ x y, A x y → B x) {xs : List α} {ys : List β}
    (h : List.Forall₂ A xs ys) : ∀ x ∈ xs, B x := by
  induction h with
  | nil => simp
  | cons h _ ih =>
    intro x hx
    rcases List.mem_cons.1 hx with rfl | hx
    · exact hAB _ _ h
    · exact ih x hx

/-- The pixel which is read is in the raster as soon as the position is between the centers of the first and last pixels; it is
the closest one, up to the distance between a number and the next one. -/
theorem C93_inside (h2 : 2 ≤ p) (h64 : p ≤ 64) (he : emin ≤ -1 - p) (r : Position → Res (Fl (Binary.rounding p hp emin)))
    (shape : Position) (xs : List ℚ)
    (h : List.Forall₂ (fun (x : ℚ) (n : Int) => Binary.fl p emin x = x ∧ 0 ≤ x ∧ x ≤ n - 1 ∧ n ≤ 2 ^ (p - 2)) xs shape) :
    ∃ q, nearestFl _ r xs = r q ∧ InShape shape q ∧
      List.Forall₂ (fun (k : Int) (x : ℚ) => |(k : ℚ) - x| ≤ 1 / 2 + 2 ^ (-1 - p : Int)) q xs := by
  have hpos : (0 : ℚ) < 2 ^ (-1 - p : Int) := zpow_pos (by norm_num) _
  have hle : (2 : ℚ) ^ (-1 - p : Int) ≤ 1 / 4 := by
    have := Binary.pow_neg_le h2
    rw [Binary.pow_pred]
    linarith
  have hb : ∀ x ∈ xs, Binary.fl p emin x = x ∧ -(1 / 2) ≤ x ∧ x ≤ 2 ^ (p - 2) := by
    refine forall₂_left ?_ h
    rintro x n ⟨h1, h3, h4, h5⟩
    have h6 : (n : ℚ) ≤ 2 ^ (p - 2) := by exact_mod_cast h5
    exact ⟨h1, by linarith, by linarith⟩
  refine ⟨_, C93_exact h2 h64 he r xs hb, ?_, ?_⟩
  · unfold InShape
    rw [List.forall₂_map_left_iff]
    refine h.imp ?_
    rintro x n ⟨h1, h3, h4, h5⟩
    split_ifs with hx
    · refine ⟨by norm_num, ?_⟩
      have : ((1 : Int) : ℚ) < n := by push_cast; rw [hx] at h4; linarith
      exact_mod_cast this
    · refine ⟨Int.floor_nonneg.2 (by linarith), ?_⟩
      rw [Int.floor_lt]
      linarith
  · rw [List.forall₂_map_left_iff, List.forall₂_same]
    intro x hx
    have h3 := Int.floor_le (x + 1 / 2)
    have h4 := Int.lt_floor_add_one (x + 1 / 2)
    rw [abs_le]
    split_ifs with hx'
    · rw [hx']
      push_cast
      constructor <;> linarith
    · constructor <;> linarith

/-- The pixel which is read is in the raster if the position is in the area of the pixels, for each number but one.
Missing: the number before 1/2, see `C93_out_of_bounds`. -/
theorem C93_area_partial (h2 : 2 ≤ p) (h64 : p ≤ 64) (he : emin ≤ -1 - p) (r : Position → Res (Fl (Binary.rounding p hp emin)))
    (shape : Position) (xs : List ℚ)
    (h : List.Forall₂ (fun (x : ℚ) (n : Int) => Binary.fl p emin x = x ∧ -(1 / 2) ≤ x ∧ x < n - 1 / 2 ∧ n ≤ 2 ^ (p - 2) ∧
      x ≠ 1 / 2 - 2 ^ (-1 - p : Int)) xs shape) :
    ∃ q, nearestFl _ r xs = r q ∧ InShape shape q ∧
      List.Forall₂ (fun (k : Int) (x : ℚ) => |(k : ℚ) - x| ≤ 1 / 2) q xs := by
  have hb : ∀ x ∈ xs, Binary.fl p emin x = x ∧ -(1 / 2) ≤ x ∧ x ≤ 2 ^ (p - 2) ∧ x ≠ 1 / 2 - 2 ^ (-1 - p : Int) := by
    refine forall₂_left ?_ h
    rintro x n ⟨h1, h3, h4, h5, h6⟩
    have h7 : (n : ℚ) ≤ 2 ^ (p - 2) := by exact_mod_cast h5
    exact ⟨h1, h3, by linarith, h6⟩
  refine ⟨_, C93_exact h2 h64 he r xs fun x hx => ⟨(hb x hx).1, (hb x hx).2.1, (hb x hx).2.2.1⟩, ?_, ?_⟩
  · unfold InShape
    rw [List.forall₂_map_left_iff]
    refine h.imp ?_
    rintro x n ⟨h1, h3, h4, h5, h6⟩
    rw [if_neg h6]
    refine ⟨Int.floor_nonneg.2 (by linarith), ?_⟩
    rw [Int.floor_lt]
    linarith
  · rw [List.forall₂_map_left_iff, List.forall₂_same]
    intro x hx
    have h3 := Int.floor_le (x + 1 / 2)
    have h4 := Int.lt_floor_add_one (x + 1 / 2)
    rw [if_neg (hb x hx).2.2.2, abs_le]
    constructor <;> linarith

/-- The number before 1/2 is in the area of the first pixel.  Yet, the next pixel is read, even if there is none: this is an
out-of-bounds read if the raster is not extrapolated. -/
theorem C93_out_of_bounds (h2 : 2 ≤ p) (h64 : p ≤ 64) (he : emin ≤ -1 - p) (v : Fl (Binary.rounding p hp emin)) :
    nearestFl _ (Raster.get ⟨[1], [v]⟩) [1 / 2 - 2 ^ (-1 - p : Int)] = .error .ub := by
  have hpos : (0 : ℚ) < 2 ^ (-1 - p : Int) := zpow_pos (by norm_num) _
  have hle : (2 : ℚ) ^ (-1 - p : Int) ≤ 1 / 4 := by
    have := Binary.pow_neg_le h2
    rw [Binary.pow_pred]
    linarith
  have hone : (1 : ℚ) ≤ 2 ^ (p - 2) := one_le_pow₀ (by norm_num)
  rw [C93_exact h2 h64 he _ _ (by
    intro x hx
    rw [List.mem_singleton.1 hx]
    exact ⟨(Binary.toIndex_beforeHalf h2 he).1, by linarith, by linarith⟩)]
  rw [List.map_singleton, if_pos rfl]
  rfl

/-- The positions above the range of `C93_exact`: the error is that of the sum.
Missing: the closest index; e.g. odd numbers above 2^52 are not read at all, see the example below. -/
theorem C93_large_partial (he : emin ≤ -1) (h2 : 2 ≤ p) (r : Position → Res (Fl (Binary.rounding p hp emin))) (xs : List ℚ)
    (h : ∀ x ∈ xs, Binary.fl p emin x = x ∧ -(1 / 2) ≤ x ∧ (x + 1 / 2) * (1 + 1 / 2 ^ p) < 2 ^ 63) :
    ∃ q, nearestFl _ r xs = r q ∧
      List.Forall₂ (fun (k : Int) (x : ℚ) => |(k : ℚ) - x| ≤ 1 / 2 + 1 / 2 ^ p * (x + 1 / 2)) q xs := by
  have hhalf : Binary.fl p emin (1 / 2) = 1 / 2 := by
    have := Binary.fl_mul_pow (p := p) (emin := emin) (e := -1) he (n := 1) (by
      rw [abs_one]
      exact one_lt_pow₀ (by norm_num) (by omega))
    norm_num at this ⊢
    exact this
  have key : ∀ x ∈ xs, |Binary.fl p emin (x + 1 / 2) - (x + 1 / 2)| ≤ 1 / 2 ^ p * (x + 1 / 2) ∧
      0 ≤ Binary.fl p emin (x + 1 / 2) := by
    intro x hx
    obtain ⟨h1, h3, h4⟩ := h x hx
    have := Binary.fl_sum p emin h1 hhalf
    rw [abs_of_nonneg (by linarith : 0 ≤ x + 1 / 2)] at this
    exact ⟨this, Binary.fl_nonneg (by linarith)⟩
  refine ⟨xs.map fun x => toIndex (Binary.fl p emin (x + 1 / 2)), ?_, ?_⟩
  · unfold nearestFl
    rw [mapM_ok _ (fun x : ℚ => toIndex (Binary.fl p emin (x + 1 / 2)))]
    · rfl
    · intro x hx
      obtain ⟨h1, h3⟩ := key x hx
      obtain ⟨_, _, h4⟩ := h x hx
      rw [abs_le] at h1
      unfold indexOf
      refine ck_ok ?_
      rw [show (Binary.rounding p hp emin).fl = Binary.fl p emin from rfl, toIndex_of_nonneg h3]
      refine ⟨(by norm_num : (-2 ^ 63 : Int) ≤ 0).trans (Int.floor_nonneg.2 h3), ?_⟩
      rw [Int.floor_lt]
      push_cast
      linarith
  · rw [List.forall₂_map_left_iff, List.forall₂_same]
    intro x hx
    obtain ⟨h1, h3⟩ := key x hx
    rw [toIndex_of_nonneg h3]
    have h5 := Int.floor_le (Binary.fl p emin (x + 1 / 2))
    have h6 := Int.lt_floor_add_one (Binary.fl p emin (x + 1 / 2))
    rw [abs_le] at h1 ⊢
    constructor <;> linarith

/-- The behaviour is undefined if one of the rounded coordinates is out of the range of `Index`, even if the raster is
extrapolated. -/
theorem C93_undefined {R : Rounding ℚ} (r : Position → Res (Fl R)) (xs : List ℚ) {x : ℚ} (hx : x ∈ xs)
    (h : R.fl (x + 1 / 2) ≤ -2 ^ 63 - 1 ∨ 2 ^ 63 ≤ R.fl (x + 1 / 2)) : nearestFl R r xs = .error .ub := by
  have hbad : indexOf (R.fl (x + 1 / 2)) = .error .ub := by
    unfold indexOf Checked.ck
    refine if_neg ?_
    rintro ⟨h1, h2⟩
    rcases h with h | h
    · rw [toIndex_of_neg (by linarith)] at h1
      have : ⌈R.fl (x + 1 / 2)⌉ ≤ -2 ^ 63 - 1 := Int.ceil_le.2 (by push_cast; linarith)
      omega
    · rw [toIndex_of_nonneg (by linarith)] at h2
      have : 2 ^ 63 ≤ ⌊R.fl (x + 1 / 2)⌋ := Int.le_floor.2 (by push_cast; exact h)
      omega
  have hall : ∀ l : List ℚ, x ∈ l → l.mapM (fun e => indexOf (R.fl (e + 1 / 2))) = .error .ub := by
    intro l
    induction l with
    | nil => simp
    | cons y l ih =>
      intro hy
      rw [List.mapM_cons]
      by_cases hxy : x = y
      · rw [← hxy, hbad]
        rfl
      · rw [ih (by simpa [hxy] using hy)]
        unfold indexOf Checked.ck
        split_ifs <;> rfl
  unfold nearestFl
  rw [hall xs hx]
  rfl

/-- `C93_undefined`: the position 2^63 has no index. -/
example (r : Position → Res (Fl (Binary.rounding 53 (by norm_num) (-1074)))) : nearestFl _ r [0, 2 ^ 63] = .error .ub := by
  refine C93_undefined r _ (x := 2 ^ 63) (by simp) (.inr ?_)
  have h1 : Binary.fl 53 (-1074) (2 ^ 63) = 2 ^ 63 := by
    have := Binary.fl_mul_pow (p := 53) (emin := -1074) (e := 63) (by norm_num) (n := 1) (by norm_num)
    norm_num at this ⊢
    exact this
  rw [← h1]
  exact Binary.fl_mono (by norm_num) _ (by rw [h1]; norm_num)

/-- **C93**, in full, for `double`: nearest-neighbor interpolation reads the closest pixel for each position of the area of the
pixels, without extrapolation. -/
def C93_Statement : Prop :=
  ∀ (r : Raster (Fl (Binary.rounding 53 (by norm_num) (-1074)))) (xs : List ℚ), (r.data.length : Int) = pixelCount r.shape →
    List.Forall₂ (fun (x : ℚ) (n : Int) => Binary.fl 53 (-1074) x = x ∧ -(1 / 2) ≤ x ∧ x < n - 1 / 2 ∧ n ≤ 2 ^ 51) xs r.shape →
    ∃ q, nearestFl _ r.get xs = r.get q ∧ InShape r.shape q ∧
      List.Forall₂ (fun (k : Int) (x : ℚ) => |(k : ℚ) - x| ≤ 1 / 2) q xs

/-- A raster of one pixel is not read at position 0.49999999999999994. -/
theorem C93_violated : ¬ C93_Statement := by
  intro h
  obtain ⟨q, h1, h2, _⟩ := h ⟨[1], [Fl.of 7]⟩ [1 / 2 - 2 ^ (-1 - 53 : Int)] rfl (by
    refine .cons ⟨?_, ?_, ?_, ?_⟩ .nil
    · exact (Binary.toIndex_beforeHalf (p := 53) (emin := -1074) (by norm_num) (by norm_num)).1
    · norm_num
    · norm_num
    · norm_num)
  have h3 := C93_out_of_bounds (p := 53) (hp := by norm_num) (emin := -1074) (by norm_num) (by norm_num) (by norm_num) (Fl.of 7)
  have h4 := h1.symm.trans h3
  obtain ⟨x, hx, _⟩ := get_inShape (⟨[1], [Fl.of 7]⟩ : Raster (Fl (Binary.rounding 53 (by norm_num) (-1074)))) q rfl h2
  rw [hx] at h4
  cases h4

/-- The numbers of the examples. -/
theorem double_quarters (n : Int) (h : |n| < 2 ^ 53) : Binary.fl 53 (-1074) (n / 4) = n / 4 := by
  have := Binary.fl_mul_pow (p := 53) (emin := -1074) (e := -2) (by norm_num) h
  rw [show (n : ℚ) * 2 ^ (-2 : Int) = n / 4 by norm_num; ring] at this
  exact this

/-- `C93_exact`, `C93_closest_partial` and `C93_area_partial`: in a raster of shape (2, 2), the pixel (1, 0) is read at position
(0.75, -0.25). -/
example : let r : Raster (Fl (Binary.rounding 53 (by norm_num) (-1074))) := ⟨[2, 2], [Fl.of 1, Fl.of 2, Fl.of 3, Fl.of 4]⟩
    nearestFl _ r.get [3 / 4, -1 / 4] = .ok (Fl.of 2) ∧
    List.Forall₂ (fun (x : ℚ) (n : Int) => Binary.fl 53 (-1074) x = x ∧ -(1 / 2) ≤ x ∧ x < n - 1 / 2 ∧ n ≤ 2 ^ (53 - 2) ∧
      x ≠ 1 / 2 - 2 ^ (-1 - (53 : Nat) : Int)) [3 / 4, -1 / 4] r.shape := by
  intro r
  have h3 := double_quarters 3 (by norm_num)
  have h1 := double_quarters (-1) (by norm_num)
  push_cast at h3 h1
  have hall : List.Forall₂ (fun (x : ℚ) (n : Int) => Binary.fl 53 (-1074) x = x ∧ -(1 / 2) ≤ x ∧ x < n - 1 / 2 ∧ n ≤ 2 ^ (53 - 2) ∧
      x ≠ 1 / 2 - 2 ^ (-1 - (53 : Nat) : Int)) [3 / 4, -1 / 4] r.shape :=
    .cons ⟨h3, by norm_num, by norm_num, by norm_num, by norm_num⟩
      (.cons ⟨h1, by norm_num, by norm_num, by norm_num, by norm_num⟩ .nil)
  refine ⟨?_, hall⟩
  rw [C93_exact (by norm_num) (by norm_num) (by norm_num) _ _ (by
    refine forall₂_left ?_ hall
    rintro x n ⟨h1, h2, h3, h4, _⟩
    have : (n : ℚ) ≤ 2 ^ (53 - 2) := by exact_mod_cast h4
    exact ⟨h1, h2, by linarith⟩)]
  have e1 : ⌊(3 / 4 + 1 / 2 : ℚ)⌋ = 1 := by norm_num
  have e2 : ⌊(-1 / 4 + 1 / 2 : ℚ)⌋ = 0 := by norm_num
  rw [List.map_cons, List.map_cons, List.map_nil, if_neg (by norm_num), if_neg (by norm_num), e1, e2]
  rfl

/-- `C93_inside`: in a raster of two pixels, the number before 1/2 is read at pixel 1, which is not the closest one. -/
example : let r : Raster (Fl (Binary.rounding 53 (by norm_num) (-1074))) := ⟨[2], [Fl.of 7, Fl.of 8]⟩
    nearestFl _ r.get [1 / 2 - 2 ^ (-1 - (53 : Nat) : Int)] = .ok (Fl.of 8) ∧
    List.Forall₂ (fun (x : ℚ) (n : Int) => Binary.fl 53 (-1074) x = x ∧ 0 ≤ x ∧ x ≤ n - 1 ∧ n ≤ 2 ^ (53 - 2))
      [1 / 2 - 2 ^ (-1 - (53 : Nat) : Int)] r.shape := by
  intro r
  have hb := (Binary.toIndex_beforeHalf (p := 53) (emin := -1074) (by norm_num) (by norm_num)).1
  refine ⟨?_, .cons ⟨hb, by norm_num, by norm_num, by norm_num⟩ .nil⟩
  rw [C93_exact (by norm_num) (by norm_num) (by norm_num) _ _ (by
    intro x hx
    rw [List.mem_singleton.1 hx]
    exact ⟨hb, by norm_num, by norm_num⟩), List.map_singleton, if_pos rfl]
  rfl

/-- `C93_large_partial`: pixel 2^52 + 1 is not read at position 2^52 + 1, but the next one. -/
example : (∀ r : Position → Res (Fl (Binary.rounding 53 (by norm_num) (-1074))), nearestFl _ r [2 ^ 52 + 1] = r [2 ^ 52 + 2]) ∧
    ∀ x ∈ [(2 : ℚ) ^ 52 + 1], Binary.fl 53 (-1074) x = x ∧ -(1 / 2) ≤ x ∧ (x + 1 / 2) * (1 + 1 / 2 ^ 53) < 2 ^ 63 := by
  constructor
  · intro r
    have h1 : Binary.fl 53 (-1074) ((2 : ℚ) ^ 52 + 1 + 1 / 2) = 2 ^ 52 + 2 := by
      have hexp : Binary.exponent 53 (-1074) ((2 : ℚ) ^ 52 + 1 + 1 / 2) = 0 :=
        Binary.exponent_eq (by norm_num) (by norm_num) (by norm_num)
      rw [Binary.fl, hexp, zpow_zero, div_one, mul_one]
      have e1 : Int.fract ((2 : ℚ) ^ 52 + 1 + 1 / 2) = 1 / 2 := by
        rw [Int.fract_eq_iff]
        exact ⟨by norm_num, by norm_num, 2 ^ 52 + 1, by push_cast; ring⟩
      have e2 : ⌊(2 : ℚ) ^ 52 + 1 + 1 / 2⌋ = 2 ^ 52 + 1 := by norm_num
      rw [Binary.roundEven, e1, e2]
      norm_num
    unfold nearestFl
    rw [mapM_ok _ (fun x : ℚ => toIndex (Binary.fl 53 (-1074) (x + 1 / 2)))]
    · rw [List.map_singleton, h1, toIndex_of_nonneg (by norm_num)]
      show r _ = _
      norm_num
    · intro x hx
      rw [List.mem_singleton.1 hx]
      unfold indexOf
      refine ck_ok ?_
      show IsI64 (toIndex (Binary.fl 53 (-1074) ((2 : ℚ) ^ 52 + 1 + 1 / 2)))
      rw [h1, toIndex_of_nonneg (by norm_num)]
      unfold IsI64
      norm_num
  · intro x hx
    rw [List.mem_singleton.1 hx]
    refine ⟨?_, by norm_num, by norm_num⟩
    have := Binary.fl_intCast (p := 53) (emin := -1074) (by norm_num) (n := 2 ^ 52 + 1) (by norm_num)
    exact_mod_cast this

end Litl
