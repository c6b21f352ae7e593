import Verif.Props.NearestRounding
import Verif.Props.QuantileRounding

/-!
# Linear interpolation in floating point arithmetic (C94)
-/

namespace Litl

open Spec

namespace Binary

/-- The product of a rounded difference and of a number below 1 does not exceed the difference. -/
theorem fl_mul_fl_le {p : Nat} (hp : 1 ≤ p) {emin : Int} (he : emin ≤ -p) {a b d : ℚ} (ha : fl p emin a = a)
    (hb : fl p emin b = b) (hab : b ≤ a) (hd : fl p emin d = d) (h0 : 0 ≤ d) (h1 : d < 1) :
    fl p emin (d * fl p emin (a - b)) ≤ a - b := by
  have hz : 0 ≤ a - b := by linarith
  have hD := fl_nonneg (p := p) (emin := emin) hz
  have hdD : d * fl p emin (a - b) ≤ fl p emin (a - b) := by nlinarith
  have hup := fl_mono hp emin hdD
  rw [fl_idem hp] at hup
  set z := a - b with hzdef
  by_cases hnum : fl p emin z = z
  · rw [hnum] at hup ⊢
    exact hup
  · have hz0 : z ≠ 0 := by
      intro h
      rw [h, fl_zero] at hnum
      exact hnum rfl
    have hzpos : 0 < z := lt_of_le_of_ne hz (Ne.symm hz0)
    have hE : emin < Int.log 2 |z| - p + 1 := by
      by_contra hc
      obtain ⟨m, hm⟩ := fl_multiple_emin ha
      obtain ⟨n, hn⟩ := fl_multiple_emin hb
      have e : exponent p emin z = emin := max_eq_right (by omega)
      refine hnum (fl_of_dvd (m := m - n) ?_)
      rw [e, hzdef]
      push_cast
      rw [sub_mul, ← hm, ← hn]
    have hEq : exponent p emin z = Int.log 2 |z| - p + 1 := max_eq_left hE.le
    have hlow := pow_log_le hz0
    have hlt := lt_pow_log z
    rw [abs_of_pos hzpos] at hlow hlt hEq hE
    set E := exponent p emin z with hEdef
    have h2E : (0 : ℚ) < 2 ^ E := zpow_pos (by norm_num) _
    have e1 : (2 : ℚ) ^ Int.log 2 z = 2 ^ (p - 1) * 2 ^ E := by
      rw [← zpow_natCast, ← zpow_add₀ (by norm_num)]
      congr 1
      omega
    have e2 : (2 : ℚ) ^ (Int.log 2 z + 1) = 2 ^ p * 2 ^ E := by
      rw [← zpow_natCast, ← zpow_add₀ (by norm_num)]
      congr 1
      omega
    set k := ⌊z / 2 ^ E⌋ with hk
    have hk1 : (k : ℚ) * 2 ^ E ≤ z := by
      have := Int.floor_le (z / 2 ^ E)
      rwa [le_div_iff₀ h2E] at this
    have hk2 : (2 : Int) ^ (p - 1) ≤ k := by
      refine Int.le_floor.2 ?_
      rw [le_div_iff₀ h2E]
      push_cast
      rw [← e1]
      exact hlow
    have hk3 : k < 2 ^ p := by
      refine Int.floor_lt.2 ?_
      rw [div_lt_iff₀ h2E]
      push_cast
      rw [← e2]
      exact hlt
    have hflk : fl p emin (k * 2 ^ E) = k * 2 ^ E := by
      refine fl_mul_pow (le_max_right _ _) ?_
      rw [abs_of_nonneg (le_trans (by positivity) hk2)]
      exact hk3
    have hflz : fl p emin z = roundEven (z / 2 ^ E) * 2 ^ E := rfl
    -- it is enough not to exceed the number below `z`
    suffices h : fl p emin (d * fl p emin z) ≤ k * 2 ^ E from h.trans hk1
    have hr : roundEven (z / 2 ^ E) = k ∨ roundEven (z / 2 ^ E) = k + 1 := by
      unfold roundEven
      split_ifs <;> simp [hk]
    rcases hr with hr | hr
    · rw [hflz, hr] at hup
      rw [hflz, hr]
      exact hup
    · rw [hr] at hflz
      push_cast at hflz
      have hdle := le_pred_pow hp (e := 0) (by omega) hd (by simpa using h1)
      rw [zpow_zero, zero_sub] at hdle
      have e3 : (2 : ℚ) ^ p * 2 ^ (-p : Int) = 1 := by
        rw [← zpow_natCast, ← zpow_add₀ (by norm_num)]
        norm_num
      have hpp : (0 : ℚ) < 2 ^ (-p : Int) := zpow_pos (by norm_num) _
      have hkq : (2 : ℚ) ^ (p - 1) ≤ k := by exact_mod_cast hk2
      have e4 : (2 : ℚ) ^ p = 2 * 2 ^ (p - 1) := by
        rw [← pow_succ']
        congr 1
        omega
      have hprod : d * fl p emin z ≤ (k + 1 - (k + 1) * 2 ^ (-p : Int)) * 2 ^ E := by
        rw [hflz, ← mul_assoc]
        refine mul_le_mul_of_nonneg_right ?_ h2E.le
        have : (0 : ℚ) ≤ k + 1 := by
          have : (0 : ℚ) < 2 ^ (p - 1) := by positivity
          linarith
        nlinarith
      by_cases hlast : k + 1 = 2 ^ p
      · rw [← hflk]
        refine fl_mono hp emin (hprod.trans ?_)
        refine mul_le_mul_of_nonneg_right ?_ h2E.le
        have : (k : ℚ) + 1 = 2 ^ p := by exact_mod_cast hlast
        rw [this, e3]
        linarith
      · have hhalf : 1 / 2 < ((k : ℚ) + 1) * 2 ^ (-p : Int) := by
          have h5 : (2 : ℚ) ^ (p - 1) * 2 ^ (-p : Int) = 1 / 2 := by
            rw [e4] at e3
            linarith
          nlinarith
        have hprod' : d * fl p emin z < (k + 1 / 2) * 2 ^ E := by
          refine hprod.trans_lt (mul_lt_mul_of_pos_right ?_ h2E)
          linarith
        by_cases hsmall : d * fl p emin z ≤ k * 2 ^ E
        · rw [← hflk]
          exact fl_mono hp emin hsmall
        · rw [not_le] at hsmall
          have hfl := fl_eq (p := p) (emin := emin) (e := E) (le_max_right _ _) (x := d * fl p emin z) (m := k) ?_ ?_ ?_
          · rw [hfl]
          · have h6 : (2 : ℚ) ^ (E + p - 1) = 2 ^ (p - 1) * 2 ^ E := by
              rw [← zpow_natCast, ← zpow_add₀ (by norm_num)]
              congr 1
              omega
            rw [h6]
            refine le_trans ?_ hsmall.le
            exact mul_le_mul_of_nonneg_right hkq h2E.le
          · have h6 : (2 : ℚ) ^ (E + p) = 2 ^ p * 2 ^ E := by
              rw [← zpow_natCast, ← zpow_add₀ (by norm_num)]
              congr 1
              omega
            rw [h6]
            refine hprod'.trans_le (mul_le_mul_of_nonneg_right ?_ h2E.le)
            have : k + 1 ≤ 2 ^ p := by omega
            have : (k : ℚ) + 1 ≤ 2 ^ p := by exact_mod_cast this
            linarith
          · rw [abs_lt]
            constructor <;> linarith

/-- Linear interpolation does not overshoot. -/
theorem lerp_bounds {p : Nat} (hp : 1 ≤ p) {emin : Int} (he : emin ≤ -p) {a b d lo hi : ℚ} (ha : fl p emin a = a)
    (hb : fl p emin b = b) (hd : fl p emin d = d) (h0 : 0 ≤ d) (h1 : d < 1) (hla : lo ≤ a) (hlb : lo ≤ b) (hah : a ≤ hi)
    (hbh : b ≤ hi) :
    lo ≤ fl p emin (fl p emin (d * fl p emin (a - b)) + b) ∧ fl p emin (fl p emin (d * fl p emin (a - b)) + b) ≤ hi := by
  rcases le_total b a with hab | hab
  · have h2 := fl_mul_fl_le hp he ha hb hab hd h0 h1
    have h3 : 0 ≤ fl p emin (d * fl p emin (a - b)) := fl_nonneg (mul_nonneg h0 (fl_nonneg (by linarith)))
    have h4 := fl_mono hp emin (x := b) (y := fl p emin (d * fl p emin (a - b)) + b) (by linarith)
    have h5 := fl_mono hp emin (x := fl p emin (d * fl p emin (a - b)) + b) (y := a) (by linarith)
    rw [hb] at h4
    rw [ha] at h5
    exact ⟨hlb.trans h4, h5.trans hah⟩
  · have h2 := fl_mul_fl_le hp he hb ha hab hd h0 h1
    have h3 : 0 ≤ fl p emin (d * fl p emin (b - a)) := fl_nonneg (mul_nonneg h0 (fl_nonneg (by linarith)))
    have e : fl p emin (d * fl p emin (a - b)) = -fl p emin (d * fl p emin (b - a)) := by
      rw [← neg_sub b a, fl_neg, mul_neg, fl_neg]
    rw [e]
    have h4 := fl_mono hp emin (x := a) (y := -fl p emin (d * fl p emin (b - a)) + b) (by linarith)
    have h5 := fl_mono hp emin (x := -fl p emin (d * fl p emin (b - a)) + b) (y := b) (by linarith)
    rw [ha] at h4
    rw [hb] at h5
    exact ⟨hla.trans h4, h5.trans hbh⟩

end Binary

section

variable {R : Rounding ℚ}

theorem floor_next {x : ℚ} (h1 : -2 ^ 63 < x) (h2 : x < 2 ^ 63 - 1) :
    floorOf x = .ok (floorIndex x) ∧ Checked.ck (floorIndex x + 1) = .ok (floorIndex x + 1) := by
  have hb := floorIndex_bounds x
  refine ⟨floorOf_eq h1 (by linarith), ck_ok ⟨?_, ?_⟩⟩
  · have : (((-2 ^ 63 : Int)) : ℚ) < ((floorIndex x + 1 : Int) : ℚ) := by push_cast; linarith
    have : (-2 ^ 63 : Int) < floorIndex x + 1 := by exact_mod_cast this
    omega
  · have : ((floorIndex x + 1 : Int) : ℚ) < ((2 ^ 63 : Int) : ℚ) := by push_cast; linarith
    exact_mod_cast this

/-- Relation between what is computed and the exact value, axis by axis. -/
theorem linearFlRev_rel (P : Nat → Fl R → ℚ → Prop) (r : Position → Res (Fl R)) (g : Position → ℚ) :
    ∀ (xs : List ℚ) (idx : Position), xs ≠ [] →
    (∀ x ∈ xs, -2 ^ 63 < x ∧ x < 2 ^ 63 - 1 ∧ ∀ k a b a' b', P k a a' → P k b b' →
      P (k + 1) (linearFormulaFl (offsetOf R x (floorIndex x)) a b) (linearFormula (x - floorIndex x) a' b')) →
    (∀ q, Within 1 q xs.reverse → ∃ v, r (q ++ idx) = .ok v ∧ P 0 v (g (q ++ idx))) →
    ∃ v y, linearFlRev r xs idx = .ok v ∧ linearRev (fun q => .ok (g q)) xs idx = .ok y ∧ P xs.length v y := by
  intro xs
  induction xs with
  | nil => intro idx h; exact absurd rfl h
  | cons x t ih =>
    intro idx _ hx h
    have hb := floorIndex_bounds x
    obtain ⟨hx1, hx2, hstep⟩ := hx x (by simp)
    obtain ⟨hf, hg⟩ := floor_next hx1 hx2
    have w0 : |((floorIndex x : Int) : ℚ) - x| ≤ 1 := by rw [abs_le]; constructor <;> linarith
    have w1 : |((floorIndex x + 1 : Int) : ℚ) - x| ≤ 1 := by
      push_cast; rw [abs_le]; constructor <;> linarith
    cases t with
    | nil =>
      obtain ⟨v0, h0, p0⟩ := h [floorIndex x] (.cons w0 .nil)
      obtain ⟨v1, h1, p1⟩ := h [floorIndex x + 1] (.cons w1 .nil)
      simp only [List.cons_append, List.nil_append] at h0 h1
      simp only [linearFlRev, hf, hg, h0, h1, bind, Except.bind, pure, Except.pure, linearRev]
      exact ⟨_, _, rfl, rfl, hstep 0 _ _ _ _ p0 p1⟩
    | cons y pos =>
      have hrec : ∀ k : Int, |(k : ℚ) - x| ≤ 1 → ∃ v y', linearFlRev r (y :: pos) (k :: idx) = .ok v ∧
          linearRev (fun q => .ok (g q)) (y :: pos) (k :: idx) = .ok y' ∧ P (y :: pos).length v y' := by
        intro k hk
        refine ih (k :: idx) (by simp) (fun z hz => hx z (List.mem_cons_of_mem _ hz)) fun q hq => ?_
        have := h (q ++ [k]) (by
          rw [List.reverse_cons]
          exact List.rel_append hq (.cons hk .nil))
        simpa using this
      obtain ⟨v0, y0, h0, h0', p0⟩ := hrec _ w0
      obtain ⟨v1, y1, h1, h1', p1⟩ := hrec _ w1
      simp only [linearFlRev, linearRev, hf, hg, h0, h1, h0', h1', bind, Except.bind, pure, Except.pure]
      exact ⟨_, _, rfl, rfl, hstep _ _ _ _ _ p0 p1⟩

theorem linearFl_rel (P : Nat → Fl R → ℚ → Prop) (r : Position → Res (Fl R)) (g : Position → ℚ) (xs : List ℚ) (hne : xs ≠ [])
    (hx : ∀ x ∈ xs, -2 ^ 63 < x ∧ x < 2 ^ 63 - 1 ∧ ∀ k a b a' b', P k a a' → P k b b' →
      P (k + 1) (linearFormulaFl (offsetOf R x (floorIndex x)) a b) (linearFormula (x - floorIndex x) a' b'))
    (h : ∀ q, Within 1 q xs → ∃ v, r q = .ok v ∧ P 0 v (g q)) :
    ∃ v, linearFl r xs = .ok v ∧ P xs.length v (multilinear g (xs.map fun x => 2 * floorIndex x + 1 - x)) := by
  obtain ⟨v, y, h1, h2, h3⟩ := linearFlRev_rel P r g xs.reverse [] (by simpa using hne)
    (fun x hxm => hx x (List.mem_reverse.1 hxm)) (by
      rw [List.reverse_reverse]
      simpa using h)
  have h4 : linearAt (fun q => .ok (g q)) xs = .ok y := h2
  rw [C42_mirrored (fun q => .ok (g q)) g xs hne fun _ _ => rfl] at h4
  rw [List.length_reverse] at h3
  cases h4
  exact ⟨v, h1, h3⟩

/-- **C94**: constant data is reproduced exactly, wherever the neighbors have indices. -/
theorem C94_constant (r : Position → Res (Fl R)) (c : Fl R) (hc : R.fl c.val = c.val) (xs : List ℚ) (hne : xs ≠ [])
    (hx : ∀ x ∈ xs, -2 ^ 63 < x ∧ x < 2 ^ 63 - 1) (h : ∀ q, Within 1 q xs → r q = .ok c) : linearFl r xs = .ok c := by
  obtain ⟨v, h1, h2⟩ := linearFl_rel (fun _ v _ => v = c) r (fun _ => 0) xs hne (fun x hxm => by
    refine ⟨(hx x hxm).1, (hx x hxm).2, ?_⟩
    rintro k a b _ _ rfl rfl
    show R.fl (R.fl (_ * R.fl (Fl.val _ - Fl.val _)) + Fl.val _) = _
    rw [sub_self, R.zero, mul_zero, R.zero, zero_add]
    exact hc) (fun q hq => ⟨c, h q hq, rfl⟩)
  rw [h1, h2]

/-- Where a neighbor has no index, the behaviour is undefined, whatever the extrapolation. -/
theorem C94_undefined (r : Position → Res (Fl R)) {x : ℚ} (h : x ≤ -2 ^ 63 ∨ 2 ^ 63 ≤ x) (xs : List ℚ) :
    linearFl r (xs ++ [x]) = .error .ub := by
  unfold linearFl
  rw [List.reverse_append, List.reverse_singleton, List.singleton_append]
  have hf : floorOf x = .error .ub := floorOf_ub (by rintro ⟨h1, h2⟩; rcases h with h | h <;> linarith)
  cases xs.reverse with
  | nil => simp only [linearFlRev, hf, bind, Except.bind]
  | cons y pos => simp only [linearFlRev, hf, bind, Except.bind]

end

section

variable {p : Nat} {hp : 1 ≤ p} {emin : Int}

local notation "𝔽" => Binary.rounding p hp emin

/-- **C94**: the values are between those of the neighbors, as soon as the weights are less than 1. -/
theorem C94_bounds (he : emin ≤ -p) (r : Position → Res (Fl 𝔽)) (lo hi : ℚ) (xs : List ℚ) (hne : xs ≠ [])
    (hx : ∀ x ∈ xs, -2 ^ 63 < x ∧ x < 2 ^ 63 - 1 ∧ Binary.fl p emin x = x ∧
      Binary.fl p emin (x - Binary.fl p emin (floorIndex x : Int)) < 1)
    (h : ∀ q, Within 1 q xs → ∃ v : Fl 𝔽, r q = .ok v ∧ Binary.fl p emin v.val = v.val ∧ lo ≤ v.val ∧ v.val ≤ hi) :
    ∃ v : Fl 𝔽, linearFl r xs = .ok v ∧ Binary.fl p emin v.val = v.val ∧ lo ≤ v.val ∧ v.val ≤ hi := by
  obtain ⟨v, h1, h2⟩ := linearFl_rel (fun _ (v : Fl 𝔽) _ => Binary.fl p emin v.val = v.val ∧ lo ≤ v.val ∧ v.val ≤ hi) r
    (fun _ => 0) xs hne (fun x hxm => by
      obtain ⟨hx1, hx2, hx3, hx4⟩ := hx x hxm
      refine ⟨hx1, hx2, ?_⟩
      rintro k a b _ _ ⟨ha1, ha2, ha3⟩ ⟨hb1, hb2, hb3⟩
      refine ⟨Binary.fl_idem hp emin _, ?_⟩
      have h0 : Binary.fl p emin (floorIndex x : Int) ≤ x := by
        conv_rhs => rw [← hx3]
        exact Binary.fl_mono hp emin (floorIndex_bounds x).1
      exact Binary.lerp_bounds hp he ha1 hb1 (Binary.fl_idem hp emin _) (Binary.fl_nonneg (sub_nonneg.2 h0)) hx4 ha2 hb2 ha3 hb3) h
  exact ⟨v, h1, h2⟩

/-- The weights are less than 1, and exact, at nonnegative positions. -/
theorem offset_nonneg (he : emin ≤ 0) {x : ℚ} (h : Binary.fl p emin x = x) (h0 : 0 ≤ x) :
    Binary.fl p emin (x - Binary.fl p emin (floorIndex x : Int)) = Int.fract x := by
  have hf : floorIndex x = ⌊x⌋ := by
    unfold floorIndex
    rw [toIndex_of_nonneg h0, if_neg (by linarith), sub_zero]
  rw [hf, Binary.fl_floor he h0 h]
  exact Binary.fl_fract h0 h

/-- The values are between those of the neighbors at nonnegative positions.
Missing: negative positions, where the computed weight may be 1, see `C94_violated` and `C94_negative_partial`. -/
theorem C94_nonneg_partial (he : emin ≤ -p) (r : Position → Res (Fl 𝔽)) (lo hi : ℚ) (xs : List ℚ) (hne : xs ≠ [])
    (hx : ∀ x ∈ xs, 0 ≤ x ∧ x < 2 ^ 63 - 1 ∧ Binary.fl p emin x = x)
    (h : ∀ q, Within 1 q xs → ∃ v : Fl 𝔽, r q = .ok v ∧ Binary.fl p emin v.val = v.val ∧ lo ≤ v.val ∧ v.val ≤ hi) :
    ∃ v : Fl 𝔽, linearFl r xs = .ok v ∧ Binary.fl p emin v.val = v.val ∧ lo ≤ v.val ∧ v.val ≤ hi := by
  refine C94_bounds he r lo hi xs hne (fun x hxm => ?_) h
  obtain ⟨h1, h2, h3⟩ := hx x hxm
  refine ⟨by linarith, h2, h3, ?_⟩
  rw [offset_nonneg (by omega) h3 h1]
  exact Int.fract_lt_one x

/-- The values are between those of the neighbors at positions which are neither negative integers nor numbers just below
integers.
Missing: these positions, see `C94_near_partial` and `C94_weight_one` in Verif/Props/InterpolationMixed.lean. -/
theorem C94_negative_partial (he : emin ≤ -p) (r : Position → Res (Fl 𝔽)) (lo hi : ℚ) (xs : List ℚ) (hne : xs ≠ [])
    (hx : ∀ x ∈ xs, -2 ^ 63 < x ∧ x < 2 ^ 63 - 1 ∧ Binary.fl p emin x = x ∧
      (0 ≤ x ∨ 1 - 2 ^ p ≤ x ∧ x ≠ ⌊x⌋ ∧ x ≤ ⌊x⌋ + 1 - 1 / 2 ^ p))
    (h : ∀ q, Within 1 q xs → ∃ v : Fl 𝔽, r q = .ok v ∧ Binary.fl p emin v.val = v.val ∧ lo ≤ v.val ∧ v.val ≤ hi) :
    ∃ v : Fl 𝔽, linearFl r xs = .ok v ∧ Binary.fl p emin v.val = v.val ∧ lo ≤ v.val ∧ v.val ≤ hi := by
  refine C94_bounds he r lo hi xs hne (fun x hxm => ?_) h
  obtain ⟨h1, h2, h3, h4⟩ := hx x hxm
  refine ⟨h1, h2, h3, ?_⟩
  by_cases h0 : 0 ≤ x
  · rw [offset_nonneg (by omega) h3 h0]
    exact Int.fract_lt_one x
  obtain ⟨h5, h6, h7⟩ := h4.resolve_left h0
  have hf : floorIndex x = ⌊x⌋ := by
    rcases floorIndex_eq x with ⟨h, _⟩ | ⟨_, h, _⟩
    · exact h
    · exact absurd h h6
  have hfl : Binary.fl p emin ((⌊x⌋ : Int) : ℚ) = (⌊x⌋ : Int) := by
    refine Binary.fl_intCast (by omega) ?_
    rw [abs_lt]
    constructor
    · have : 1 - 2 ^ p ≤ ⌊x⌋ := Int.le_floor.2 (by push_cast; exact h5)
      omega
    · have : ⌊x⌋ < 0 := Int.floor_lt.2 (by push_cast; exact not_le.1 h0)
      have : (0 : Int) < 2 ^ p := by positivity
      omega
  rw [hf, hfl]
  have e1 : (2 : ℚ) ^ p * 2 ^ (-p : Int) = 1 := by
    rw [← zpow_natCast, ← zpow_add₀ (by norm_num)]
    norm_num
  have e2 : (2 : ℚ) ^ (-p : Int) = 1 / 2 ^ p := by
    rw [zpow_neg, zpow_natCast, one_div]
  have hpred : Binary.fl p emin (1 - 1 / 2 ^ p) = 1 - 1 / 2 ^ p := by
    have := Binary.fl_mul_pow (p := p) (emin := emin) (e := -p) he (n := 2 ^ p - 1) (by
      rw [abs_of_nonneg (by have : (1 : Int) ≤ 2 ^ p := one_le_pow₀ (by norm_num)
                            omega)]
      omega)
    have e3 : (((2 ^ p - 1 : Int)) : ℚ) * 2 ^ (-p : Int) = 1 - 1 / 2 ^ p := by
      push_cast
      rw [sub_mul, e1, one_mul, e2]
    rw [e3] at this
    exact this
  refine lt_of_le_of_lt (Binary.fl_mono hp emin (y := 1 - 1 / 2 ^ p) (by linarith)) ?_
  rw [hpred]
  have : (0 : ℚ) < 1 / 2 ^ p := by positivity
  linarith

/-- The computed value is exact at nonnegative integers: that of the next pixel along each axis, as in exact arithmetic
(`C42_at_integers`). -/
theorem C94_at_integers (he : emin ≤ 0) (r : Position → Res (Fl 𝔽)) (g : Position → Fl 𝔽)
    (hg : ∀ q, Binary.fl p emin (g q).val = (g q).val) (q : Position) (hq : q ≠ [])
    (h0 : ∀ k ∈ q, 0 ≤ k ∧ k < 2 ^ 63 - 1 ∧ Binary.fl p emin k = k)
    (h : ∀ q', Within 1 q' (q.map fun k : Int => (k : ℚ)) → r q' = .ok (g q')) :
    linearFl r (q.map fun k : Int => (k : ℚ)) = .ok (g (q.map (· + 1))) := by
  obtain ⟨v, h1, h2⟩ := linearFl_rel (fun _ (v : Fl 𝔽) y => v.val = y ∧ Binary.fl p emin v.val = v.val) r (fun q => (g q).val)
    (q.map fun k : Int => (k : ℚ)) (by simpa using hq) (fun x hxm => by
      obtain ⟨k, hk, rfl⟩ := List.mem_map.1 hxm
      obtain ⟨hk0, hk1, hk2⟩ := h0 k hk
      have hk0' : (0 : ℚ) ≤ k := by exact_mod_cast hk0
      refine ⟨by linarith, by exact_mod_cast hk1, ?_⟩
      rintro _ a b a' b' ⟨ha, _⟩ ⟨hb, hb'⟩
      have hoff : (offsetOf 𝔽 k (floorIndex (k : ℚ))).val = 0 := by
        have := offset_nonneg (p := p) he hk2 hk0'
        rw [Int.fract_intCast] at this
        exact this
      have hfi : floorIndex (k : ℚ) = k := by
        unfold floorIndex
        rw [toIndex_of_nonneg hk0', if_neg (by linarith), sub_zero, Int.floor_intCast]
      refine ⟨?_, Binary.fl_idem hp emin _⟩
      show Binary.fl p emin (Binary.fl p emin ((offsetOf 𝔽 k (floorIndex (k : ℚ))).val * _) + b.val) = _
      rw [hoff, zero_mul, Binary.fl_zero, zero_add, hb', hfi, sub_self, linearFormula, zero_mul, zero_add]
      exact hb) (fun q' hq' => ⟨_, h q' hq', rfl, hg q'⟩)
  have h3 := C42_at_integers (K := ℚ) (fun q => (g q).val) q hq
  rw [C42_mirrored (fun q => .ok (g q).val) (fun q => (g q).val) _ (by simpa using hq) fun _ _ => rfl] at h3
  have h4 : (q.map fun k => if 0 ≤ k then k + 1 else k - 1) = q.map (· + 1) :=
    List.map_congr_left fun k hk => if_pos (h0 k hk).1
  rw [h4] at h3
  rw [h1]
  congr 1
  have h5 : v.val = (g (q.map (· + 1))).val := by
    rw [h2.1]
    exact Except.ok.inj h3
  exact h5

/-- Rounding errors along one axis. -/
theorem lerp_local (hp : 1 ≤ p) {d D a b A : ℚ} (h0 : 0 ≤ d) (h1 : d ≤ 1) (hD : |D - d| ≤ 1 / 2 ^ p * d) (ha : Binary.fl p emin a = a)
    (hb : Binary.fl p emin b = b) (hA : |a| ≤ A) (hB : |b| ≤ A) :
    |Binary.fl p emin (Binary.fl p emin (D * Binary.fl p emin (a - b)) + b) - (d * (a - b) + b)| ≤
      (2 * (1 + 1 / 2 ^ p) * ((1 + 1 / 2 ^ p) ^ 3 - 1) + 1 / 2 ^ p) * A + (1 + 1 / 2 ^ p) * (2 ^ emin / 2) := by
  set u : ℚ := 1 / 2 ^ p with hu
  have hu0 : 0 ≤ u := by positivity
  set η : ℚ := 2 ^ emin / 2 with hη
  have hη0 : 0 ≤ η := by
    have : (0 : ℚ) < 2 ^ emin := zpow_pos (by norm_num) _
    linarith
  have hA0 : 0 ≤ A := (abs_nonneg a).trans hA
  have hx1 : |a - b| ≤ 2 * A := (abs_sub a b).trans (by linarith)
  have hX1 : |Binary.fl p emin (a - b) - (a - b)| ≤ u * |a - b| := by
    have := Binary.fl_sum p emin ha (y := -b) (by rw [Binary.fl_neg, hb])
    rw [← sub_eq_add_neg] at this
    exact this
  set X := Binary.fl p emin (a - b) with hX
  have hX2 : |X| ≤ (1 + u) * (2 * A) := by
    have := abs_add_le (X - (a - b)) (a - b)
    rw [sub_add_cancel] at this
    nlinarith
  have hD1 : |D| ≤ 1 + u := by
    have := abs_add_le (D - d) d
    rw [sub_add_cancel, abs_of_nonneg h0] at this
    nlinarith
  -- product
  have e1 : D * X - d * (a - b) = D * (X - (a - b)) + (D - d) * (a - b) := by ring
  have h2 : |D * X - d * (a - b)| ≤ ((1 + u) ^ 2 - 1) * (2 * A) := by
    rw [e1]
    refine (abs_add_le _ _).trans ?_
    rw [abs_mul, abs_mul]
    have h3 : |D| * |X - (a - b)| ≤ (1 + u) * (u * (2 * A)) :=
      mul_le_mul hD1 (hX1.trans (mul_le_mul_of_nonneg_left hx1 hu0)) (abs_nonneg _) (by linarith)
    have h4 : |D - d| * |a - b| ≤ u * (2 * A) :=
      mul_le_mul (hD.trans (by nlinarith)) hx1 (abs_nonneg _) hu0
    nlinarith
  have hP : |Binary.fl p emin (D * X) - D * X| ≤ u * ((1 + u) ^ 2 * (2 * A)) + η := by
    refine (Binary.fl_near p emin (D * X)).trans ?_
    have : |D * X| ≤ (1 + u) ^ 2 * (2 * A) := by
      rw [abs_mul, pow_two, mul_assoc]
      exact mul_le_mul hD1 hX2 (abs_nonneg _) (by linarith)
    have := mul_le_mul_of_nonneg_left this hu0
    linarith
  set P := Binary.fl p emin (D * X) with hPdef
  have h5 : |P - d * (a - b)| ≤ ((1 + u) ^ 3 - 1) * (2 * A) + η := by
    have := abs_sub_le P (D * X) (d * (a - b))
    nlinarith
  -- sum
  have h6 : |d * (a - b) + b| ≤ A := by
    rw [show d * (a - b) + b = d * a + (1 - d) * b by ring]
    refine (abs_add_le _ _).trans ?_
    rw [abs_mul, abs_mul, abs_of_nonneg h0, abs_of_nonneg (by linarith : 0 ≤ 1 - d)]
    nlinarith
  have h7 : |P + b - (d * (a - b) + b)| ≤ ((1 + u) ^ 3 - 1) * (2 * A) + η := by
    rw [add_sub_add_right_eq_sub]
    exact h5
  have h8 : |P + b| ≤ A + (((1 + u) ^ 3 - 1) * (2 * A) + η) := by
    have := abs_add_le (P + b - (d * (a - b) + b)) (d * (a - b) + b)
    rw [sub_add_cancel] at this
    linarith
  have h9 : |Binary.fl p emin (P + b) - (P + b)| ≤ u * |P + b| := Binary.fl_sum p emin (Binary.fl_idem hp emin _) hb
  have h10 := abs_sub_le (Binary.fl p emin (P + b)) (P + b) (d * (a - b) + b)
  have h11 := mul_le_mul_of_nonneg_left h8 hu0
  nlinarith

/-- Roundoff of one step of linear interpolation: about 7 units. -/
def lerpRoundoff (p : Nat) : ℚ := 2 * (1 + 1 / 2 ^ p) * ((1 + 1 / 2 ^ p) ^ 3 - 1) + 1 / 2 ^ p

/-- **C94**: linear interpolation of dimension `n` is accurate up to about `7 n` units in the last place of the largest
neighbor; as in exact arithmetic, the position is mirrored (`C42_mirrored`). -/
theorem C94_accurate (he : emin ≤ 0) (r : Position → Res (Fl 𝔽)) (g : Position → ℚ) (M : ℚ) (hM : 0 ≤ M) (xs : List ℚ)
    (hne : xs ≠ []) (hx : ∀ x ∈ xs, -2 ^ 63 < x ∧ x < 2 ^ 63 - 1 ∧ Binary.fl p emin x = x ∧ 2 - 2 ^ p ≤ x)
    (h : ∀ q, Within 1 q xs → r q = .ok (Fl.of (g q)) ∧ Binary.fl p emin (g q) = g q ∧ |g q| ≤ M) :
    ∃ v : Fl 𝔽, linearFl r xs = .ok v ∧ |v.val - multilinear g (xs.map fun x => 2 * floorIndex x + 1 - x)| ≤
      (1 + lerpRoundoff p) ^ xs.length * (M + xs.length * ((1 + 1 / 2 ^ p) * (2 ^ emin / 2))) - M := by
  have hu0 : (0 : ℚ) ≤ 1 / 2 ^ p := by positivity
  have hη0 : (0 : ℚ) ≤ 2 ^ emin / 2 := by
    have : (0 : ℚ) < 2 ^ emin := zpow_pos (by norm_num) _
    linarith
  have hκ : 0 ≤ lerpRoundoff p := by
    unfold lerpRoundoff
    have : (1 : ℚ) ≤ (1 + 1 / 2 ^ p) ^ 3 := one_le_pow₀ (by linarith)
    have h3 : (0 : ℚ) ≤ 2 * (1 + 1 / 2 ^ p) * ((1 + 1 / 2 ^ p) ^ 3 - 1) := mul_nonneg (by linarith) (by linarith)
    linarith
  set κ := lerpRoundoff p with hκdef
  set ε : ℚ := (1 + 1 / 2 ^ p) * (2 ^ emin / 2) with hε
  have hε0 : 0 ≤ ε := mul_nonneg (by linarith) hη0
  set B : Nat → ℚ := fun k => (1 + κ) ^ k * (M + k * ε) with hB
  have hBM : ∀ k, M ≤ B k := fun k => by
    have h1 : (1 : ℚ) ≤ (1 + κ) ^ k := one_le_pow₀ (by linarith)
    have h2 : (0 : ℚ) ≤ k * ε := mul_nonneg (Nat.cast_nonneg k) hε0
    show M ≤ (1 + κ) ^ k * (M + k * ε)
    nlinarith
  have hBstep : ∀ k, (1 + κ) * B k + ε ≤ B (k + 1) := fun k => by
    have h1 : (1 : ℚ) ≤ (1 + κ) ^ (k + 1) := one_le_pow₀ (by linarith)
    show (1 + κ) * ((1 + κ) ^ k * (M + k * ε)) + ε ≤ (1 + κ) ^ (k + 1) * (M + (k + 1 : Nat) * ε)
    push_cast
    rw [← mul_assoc, ← pow_succ']
    nlinarith
  obtain ⟨v, h1, _, _, h2⟩ := linearFl_rel (fun k (v : Fl 𝔽) y => Binary.fl p emin v.val = v.val ∧ |y| ≤ M ∧
    |v.val - y| ≤ B k - M) r g xs hne (fun x hxm => by
      obtain ⟨hx1, hx2, hx3, hx4⟩ := hx x hxm
      refine ⟨hx1, hx2, ?_⟩
      rintro k a b a' b' ⟨ha1, ha2, ha3⟩ ⟨hb1, hb2, hb3⟩
      have hbnd := floorIndex_bounds x
      have hflf : Binary.fl p emin (floorIndex x : Int) = (floorIndex x : Int) := by
        by_cases h0 : 0 ≤ x
        · have hf : floorIndex x = ⌊x⌋ := by
            unfold floorIndex
            rw [toIndex_of_nonneg h0, if_neg (by linarith), sub_zero]
          rw [hf]
          exact Binary.fl_floor he h0 hx3
        · refine Binary.fl_intCast he ?_
          rw [abs_lt]
          constructor
          · have h3 : ((1 - 2 ^ p : Int) : ℚ) ≤ floorIndex x := by push_cast; linarith
            have : 1 - 2 ^ p ≤ floorIndex x := by exact_mod_cast h3
            omega
          · have h3 : ((floorIndex x : Int) : ℚ) < ((0 : Int) : ℚ) := by push_cast; linarith
            have : floorIndex x < 0 := by exact_mod_cast h3
            have : (0 : Int) < 2 ^ p := by positivity
            omega
      have hD : |Binary.fl p emin (x - Binary.fl p emin (floorIndex x : Int)) - (x - floorIndex x)| ≤
          1 / 2 ^ p * (x - floorIndex x) := by
        rw [hflf]
        have := Binary.fl_sum p emin hx3 (y := -(floorIndex x : ℚ)) (by rw [Binary.fl_neg, hflf])
        rw [← sub_eq_add_neg, abs_of_nonneg (by linarith : 0 ≤ x - (floorIndex x : ℚ))] at this
        exact this
      have hA : |a.val| ≤ B k := by
        have := abs_add_le (a.val - a') a'
        rw [sub_add_cancel] at this
        linarith
      have hB' : |b.val| ≤ B k := by
        have := abs_add_le (b.val - b') b'
        rw [sub_add_cancel] at this
        linarith
      have hloc := lerp_local hp (by linarith : 0 ≤ x - (floorIndex x : ℚ)) (by linarith) hD ha1 hb1 hA hB'
      set d := x - (floorIndex x : ℚ) with hd
      have hd0 : 0 ≤ d := by linarith
      have hd1 : d ≤ 1 := by linarith
      refine ⟨Binary.fl_idem hp emin _, ?_, ?_⟩
      · unfold linearFormula
        rw [show d * (a' - b') + b' = d * a' + (1 - d) * b' by ring]
        refine (abs_add_le _ _).trans ?_
        rw [abs_mul, abs_mul, abs_of_nonneg hd0, abs_of_nonneg (by linarith : 0 ≤ 1 - d)]
        nlinarith
      · have hconv : |d * (a.val - b.val) + b.val - (d * (a' - b') + b')| ≤ B k - M := by
          rw [show d * (a.val - b.val) + b.val - (d * (a' - b') + b') = d * (a.val - a') + (1 - d) * (b.val - b') by ring]
          refine (abs_add_le _ _).trans ?_
          rw [abs_mul, abs_mul, abs_of_nonneg hd0, abs_of_nonneg (by linarith : 0 ≤ 1 - d)]
          nlinarith
        have hloc' : |(linearFormulaFl (offsetOf 𝔽 x (floorIndex x)) a b).val - (d * (a.val - b.val) + b.val)| ≤ κ * B k + ε := hloc
        have htri := abs_sub_le (linearFormulaFl (offsetOf 𝔽 x (floorIndex x)) a b).val (d * (a.val - b.val) + b.val)
          (d * (a' - b') + b')
        have := hBstep k
        unfold linearFormula
        linarith) (fun q hq => by
      obtain ⟨h1, h2, h3⟩ := h q hq
      refine ⟨_, h1, h2, h3, ?_⟩
      rw [show (Fl.of (g q) : Fl 𝔽).val = g q from rfl, sub_self, abs_zero]
      exact sub_nonneg.2 (hBM 0))
  exact ⟨v, h1, h2⟩

/-- Inside of each pixel, interpolation along one axis is monotone: it decreases if the values increase, because the position is
mirrored. -/
theorem C94_monotone (r : Position → Res (Fl 𝔽)) {f : Int} {x y : ℚ} {a b : Fl 𝔽} (hf : -2 ^ 63 < f) (hf' : f < 2 ^ 63 - 2)
    (hx : floorIndex x = f) (hy : floorIndex y = f) (hxy : x ≤ y) (ha : r [f] = .ok a) (hb : r [f + 1] = .ok b) :
    ∃ v w : Fl 𝔽, linearFl r [x] = .ok v ∧ linearFl r [y] = .ok w ∧ (a ≤ b → w ≤ v) ∧ (b ≤ a → v ≤ w) := by
  have hev : ∀ z : ℚ, floorIndex z = f → linearFl r [z] = .ok (linearFormulaFl (offsetOf 𝔽 z f) a b) := by
    intro z hz
    have hbz := floorIndex_bounds z
    rw [hz] at hbz
    have h1 : ((-2 ^ 63 : Int) : ℚ) < f := by exact_mod_cast hf
    have h2 : (f : ℚ) < ((2 ^ 63 - 2 : Int) : ℚ) := by exact_mod_cast hf'
    push_cast at h1 h2
    obtain ⟨h3, h4⟩ := floor_next (x := z) (by linarith) (by linarith)
    rw [hz] at h3 h4
    show linearFlRev r [z] [] = _
    simp only [linearFlRev, h3, h4, ha, hb, bind, Except.bind, pure, Except.pure]
  have hoff : Binary.fl p emin (x - Binary.fl p emin f) ≤ Binary.fl p emin (y - Binary.fl p emin f) :=
    Binary.fl_mono hp emin (by linarith)
  refine ⟨_, _, hev x hx, hev y hy, fun hab => ?_, fun hab => ?_⟩
  · have h0 : Binary.fl p emin (a.val - b.val) ≤ 0 := Binary.fl_nonpos (sub_nonpos.2 hab)
    refine Binary.fl_mono hp emin (add_le_add_left (Binary.fl_mono hp emin ?_) _)
    exact mul_le_mul_of_nonpos_right hoff h0
  · have h0 : 0 ≤ Binary.fl p emin (a.val - b.val) := Binary.fl_nonneg (sub_nonneg.2 hab)
    refine Binary.fl_mono hp emin (add_le_add_left (Binary.fl_mono hp emin ?_) _)
    exact mul_le_mul_of_nonneg_right hoff h0

end

/-! ## Counterexample and examples -/

local notation "𝔻" => Binary.rounding 53 (by norm_num) (-1074)

/-- **C94**, in full, for `double`: linear interpolation is between the values of the neighbors. -/
def C94_Statement : Prop :=
  ∀ (r : Position → Res (Fl 𝔻)) (lo hi : ℚ) (xs : List ℚ), xs ≠ [] →
    (∀ x ∈ xs, Binary.fl 53 (-1074) x = x ∧ |x| ≤ 2 ^ 51) →
    (∀ q, Within 1 q xs → ∃ v : Fl 𝔻, r q = .ok v ∧ Binary.fl 53 (-1074) v.val = v.val ∧ lo ≤ v.val ∧ v.val ≤ hi) →
    ∃ v : Fl 𝔻, linearFl r xs = .ok v ∧ lo ≤ v.val ∧ v.val ≤ hi

/-- At position -1, between -2^53 and 3, the result is 4: the weight is 1, and the difference is rounded. -/
theorem C94_overshoot (r : Position → Res (Fl 𝔻)) (ha : r [-2] = .ok (Fl.of 3)) (hb : r [-1] = .ok (Fl.of (-2 ^ 53))) :
    linearFl r [-1] = .ok (Fl.of 4) := by
  have hf : floorOf (-1) = .ok (-2) := by
    have e : floorIndex (-1 : ℚ) = -2 := by
      unfold floorIndex
      rw [toIndex_of_neg (by norm_num), if_pos (by norm_num)]
      norm_num
    rw [floorOf_eq (by norm_num) (by norm_num), e]
  have hg : Checked.ck (-2 + 1) = .ok (-1) := rfl
  show linearFlRev r [-1] [] = _
  simp only [linearFlRev, hf, hg, ha, hb, bind, Except.bind, pure, Except.pure]
  congr 1
  show Binary.fl 53 (-1074) (Binary.fl 53 (-1074) (Binary.fl 53 (-1074) (-1 - Binary.fl 53 (-1074) (-2 : Int)) *
    Binary.fl 53 (-1074) (3 - -2 ^ 53)) + -2 ^ 53) = 4
  have h1 := Binary.fl_intCast (p := 53) (emin := -1074) (by norm_num) (n := -2) (by norm_num)
  have h2 := Binary.fl_intCast (p := 53) (emin := -1074) (by norm_num) (n := 1) (by norm_num)
  have h3 : Binary.fl 53 (-1074) (3 - -2 ^ 53) = 2 ^ 53 + 4 := by
    rw [Binary.fl_tie (e := 1) (m := 2 ^ 52 + 2) (by norm_num) (by norm_num) (by norm_num) (by norm_num) (by norm_num)]
    norm_num
  have h4 : Binary.fl 53 (-1074) (2 ^ 53 + 4) = 2 ^ 53 + 4 := by
    have := Binary.fl_mul_pow (p := 53) (emin := -1074) (e := 1) (by norm_num) (n := 2 ^ 52 + 2) (by norm_num)
    norm_num at this ⊢
    exact this
  have h5 := Binary.fl_intCast (p := 53) (emin := -1074) (by norm_num) (n := 4) (by norm_num)
  push_cast at h1 h2 h5
  push_cast
  rw [h1, show (-1 : ℚ) - -2 = 1 by norm_num, h2, h3, one_mul, h4, show (2 : ℚ) ^ 53 + 4 + -2 ^ 53 = 4 by norm_num, h5]

theorem C94_violated : ¬ C94_Statement := by
  intro h
  have hlarge : Binary.fl 53 (-1074) (-2 ^ 53) = -2 ^ 53 := by
    have := Binary.fl_mul_pow (p := 53) (emin := -1074) (e := 53) (by norm_num) (n := -1) (by norm_num)
    norm_num at this ⊢
    exact this
  have h3 := Binary.fl_intCast (p := 53) (emin := -1074) (by norm_num) (n := 3) (by norm_num)
  have h1 := Binary.fl_intCast (p := 53) (emin := -1074) (by norm_num) (n := -1) (by norm_num)
  push_cast at h1 h3
  obtain ⟨v, hv, _, hv'⟩ := h (fun q => .ok (if q = [-2] then Fl.of 3 else Fl.of (-2 ^ 53))) (-2 ^ 53) 3 [-1] (by simp)
    (by
      intro x hx
      rw [List.mem_singleton.1 hx]
      exact ⟨h1, by norm_num⟩)
    (by
      intro q _
      refine ⟨_, rfl, ?_⟩
      split_ifs
      · exact ⟨h3, by show (-2 ^ 53 : ℚ) ≤ 3; norm_num, le_rfl⟩
      · exact ⟨hlarge, le_rfl, by show (-2 ^ 53 : ℚ) ≤ 3; norm_num⟩)
  rw [C94_overshoot _ (by rfl) (by rfl)] at hv
  cases hv
  have : (4 : ℚ) ≤ 3 := hv'
  norm_num at this

/-- Hypotheses of `C94_nonneg_partial`, `C94_bounds`, `C94_negative_partial` and `C94_accurate`: the ramp 10 x + 100 y (a value
which is rounded nowhere near the origin) at position (0.25, 3.5). -/
example : let g : Position → ℚ := fun q => match q with | [i, j] => if |i| + |j| < 100 then 10 * i + 100 * j else 0 | _ => 0
    (∃ v : Fl 𝔻, linearFl (fun q => .ok (Fl.of (g q))) [1 / 4, 7 / 2] = .ok v ∧ -10000 ≤ v.val ∧ v.val ≤ 10000) ∧
    ∃ v : Fl 𝔻, linearFl (fun q => .ok (Fl.of (g q))) [1 / 4, 7 / 2] = .ok v ∧
      |v.val - multilinear g [3 / 4, 7 / 2]| ≤
        (1 + lerpRoundoff 53) ^ 2 * (10000 + 2 * ((1 + 1 / 2 ^ 53) * (2 ^ (-1074 : Int) / 2))) - 10000 := by
  intro g
  have hg : ∀ q, ∃ n : Int, g q = n ∧ |n| ≤ 10000 := by
    intro q
    rcases q with _ | ⟨i, _ | ⟨j, _ | ⟨k, l⟩⟩⟩
    · exact ⟨0, by simp [g], by norm_num⟩
    · exact ⟨0, by simp [g], by norm_num⟩
    · by_cases h : |i| + |j| < 100
      · refine ⟨10 * i + 100 * j, by simp [g, h], ?_⟩
        have h1 := abs_nonneg i
        have h2 := abs_nonneg j
        have h3 := le_abs_self i
        have h4 := le_abs_self j
        have h5 := neg_abs_le i
        have h6 := neg_abs_le j
        rw [abs_le]
        omega
      · exact ⟨0, by simp [g, h], by norm_num⟩
    · exact ⟨0, by simp [g], by norm_num⟩
  have hnum : ∀ q, Binary.fl 53 (-1074) (g q) = g q ∧ |g q| ≤ 10000 := by
    intro q
    obtain ⟨n, hn, hb⟩ := hg q
    rw [hn]
    exact ⟨Binary.fl_intCast (by norm_num) (lt_of_le_of_lt hb (by norm_num)), by exact_mod_cast hb⟩
  have hx : ∀ x ∈ [(1 / 4 : ℚ), 7 / 2], Binary.fl 53 (-1074) x = x ∧ 0 ≤ x ∧ x < 100 := by
    intro x hx
    have h1 := double_quarters 1 (by norm_num)
    have h2 := double_quarters 14 (by norm_num)
    push_cast at h1 h2
    simp only [List.mem_cons, List.not_mem_nil, or_false] at hx
    rcases hx with rfl | rfl
    · exact ⟨h1, by norm_num, by norm_num⟩
    · refine ⟨?_, by norm_num, by norm_num⟩
      norm_num at h2 ⊢
      exact h2
  refine ⟨?_, ?_⟩
  · obtain ⟨v, h1, _, h2⟩ := C94_nonneg_partial (p := 53) (hp := by norm_num) (emin := -1074) (by norm_num)
      (fun q => .ok (Fl.of (g q))) (-10000) 10000 [1 / 4, 7 / 2] (by simp)
      (fun x hxm => ⟨(hx x hxm).2.1, by have := (hx x hxm).2.2; linarith, (hx x hxm).1⟩)
      (fun q _ => ⟨_, rfl, (hnum q).1, (abs_le.1 (hnum q).2).1, (abs_le.1 (hnum q).2).2⟩)
    exact ⟨v, h1, h2⟩
  · obtain ⟨v, h1, h2⟩ := C94_accurate (p := 53) (hp := by norm_num) (emin := -1074) (by norm_num)
      (fun q => .ok (Fl.of (g q))) g 10000 (by norm_num) [1 / 4, 7 / 2] (by simp)
      (fun x hxm => by
        obtain ⟨h1, h2, h3⟩ := hx x hxm
        exact ⟨by linarith, by linarith, h1, by linarith⟩)
      (fun q _ => ⟨rfl, hnum q⟩)
    refine ⟨v, h1, ?_⟩
    have e1 : floorIndex (1 / 4 : ℚ) = 0 := by
      unfold floorIndex
      rw [toIndex_of_nonneg (by norm_num), if_neg (by norm_num)]
      norm_num
    have e2 : floorIndex (7 / 2 : ℚ) = 3 := by
      unfold floorIndex
      rw [toIndex_of_nonneg (by norm_num), if_neg (by norm_num)]
      norm_num
    rw [List.map_cons, List.map_cons, List.map_nil, e1, e2] at h2
    norm_num at h2 ⊢
    exact h2

/-- The accuracy for `double`: less than 7.1 units in the last place by dimension. -/
example : lerpRoundoff 53 ≤ 71 / 10 * (1 / 2 ^ 53) := by
  unfold lerpRoundoff
  norm_num

/-- `C94_constant`: a constant is reproduced at (-3, 0.3). -/
example : linearFl (fun _ => .ok (Fl.of 7) : Position → Res (Fl 𝔻)) [-3, 3 / 10] = .ok (Fl.of 7) := by
  refine C94_constant _ _ ?_ _ (by simp) ?_ fun _ _ => rfl
  · have := Binary.fl_intCast (p := 53) (emin := -1074) (by norm_num) (n := 7) (by norm_num)
    push_cast at this
    exact this
  · intro x hx
    simp only [List.mem_cons, List.not_mem_nil, or_false] at hx
    rcases hx with rfl | rfl <;> norm_num

end Litl
