import Verif.Model.InterpolationMixed
import Verif.Props.LinearRounding

/-!
# Linear interpolation of values which are not `double`s (C97)
-/

namespace Litl

open Spec

section

variable {R S C : Rounding ℚ}

/-- Relation between what is computed and the exact value, axis by axis. -/
theorem linearMixedRev_rel (P : Nat → Fl S → ℚ → Prop) (r : Position → Res (Fl S)) (g : Position → ℚ) :
    ∀ (xs : List ℚ) (idx : Position), xs ≠ [] →
    (∀ x ∈ xs, -2 ^ 63 < x ∧ x < 2 ^ 63 - 1 ∧ ∀ k a b a' b', P k a a' → P k b b' →
      P (k + 1) (lerpMixed R S C (offsetOf R x (floorIndex x)) a b) (linearFormula (x - floorIndex x) a' b')) →
    (∀ q, Within 1 q xs.reverse → ∃ v, r (q ++ idx) = .ok v ∧ P 0 v (g (q ++ idx))) →
    ∃ v y, linearMixedRev R S C r xs idx = .ok v ∧ linearRev (fun q => .ok (g q)) xs idx = .ok y ∧ P xs.length v y := by
  intro xs
  induction xs with
  | nil => intro idx h; exact absurd rfl h
  | cons x t ih =>
    intro idx _ hx h
    have hb := floorIndex_bounds x
    obtain ⟨hx1, hx2, hstep⟩ := hx x (by simp)
    obtain ⟨hf, hg⟩ := floor_next hx1 hx2
    have w0 : |((floorIndex x : Int) : ℚ) - x| ≤ 1 := by rw [abs_le]; constructor <;> linarith
    have w1 : |((floorIndex x + 1 : Int) : ℚ) - x| ≤ 1 := by
      push_cast; rw [abs_le]; constructor <;> linarith
    cases t with
    | nil =>
      obtain ⟨v0, h0, p0⟩ := h [floorIndex x] (.cons w0 .nil)
      obtain ⟨v1, h1, p1⟩ := h [floorIndex x + 1] (.cons w1 .nil)
      simp only [List.cons_append, List.nil_append] at h0 h1
      simp only [linearMixedRev, hf, hg, h0, h1, bind, Except.bind, pure, Except.pure, linearRev]
      exact ⟨_, _, rfl, rfl, hstep 0 _ _ _ _ p0 p1⟩
    | cons y pos =>
      have hrec : ∀ k : Int, |(k : ℚ) - x| ≤ 1 → ∃ v y', linearMixedRev R S C r (y :: pos) (k :: idx) = .ok v ∧
          linearRev (fun q => .ok (g q)) (y :: pos) (k :: idx) = .ok y' ∧ P (y :: pos).length v y' := by
        intro k hk
        refine ih (k :: idx) (by simp) (fun z hz => hx z (List.mem_cons_of_mem _ hz)) fun q hq => ?_
        have := h (q ++ [k]) (by
          rw [List.reverse_cons]
          exact List.rel_append hq (.cons hk .nil))
        simpa using this
      obtain ⟨v0, y0, h0, h0', p0⟩ := hrec _ w0
      obtain ⟨v1, y1, h1, h1', p1⟩ := hrec _ w1
      simp only [linearMixedRev, linearRev, hf, hg, h0, h1, h0', h1', bind, Except.bind, pure, Except.pure]
      exact ⟨_, _, rfl, rfl, hstep _ _ _ _ _ p0 p1⟩

theorem linearMixed_rel (P : Nat → Fl S → ℚ → Prop) (r : Position → Res (Fl S)) (g : Position → ℚ) (xs : List ℚ) (hne : xs ≠ [])
    (hx : ∀ x ∈ xs, -2 ^ 63 < x ∧ x < 2 ^ 63 - 1 ∧ ∀ k a b a' b', P k a a' → P k b b' →
      P (k + 1) (lerpMixed R S C (offsetOf R x (floorIndex x)) a b) (linearFormula (x - floorIndex x) a' b'))
    (h : ∀ q, Within 1 q xs → ∃ v, r q = .ok v ∧ P 0 v (g q)) :
    ∃ v, linearMixed R S C r xs = .ok v ∧ P xs.length v (multilinear g (xs.map fun x => 2 * floorIndex x + 1 - x)) := by
  obtain ⟨v, y, h1, h2, h3⟩ := linearMixedRev_rel P r g xs.reverse [] (by simpa using hne)
    (fun x hxm => hx x (List.mem_reverse.1 hxm)) (by
      rw [List.reverse_reverse]
      simpa using h)
  have h4 : linearAt (fun q => .ok (g q)) xs = .ok y := h2
  rw [C42_mirrored (fun q => .ok (g q)) g xs hne fun _ _ => rfl] at h4
  rw [List.length_reverse] at h3
  cases h4
  exact ⟨v, h1, h3⟩

/-- **C97**: constant data is reproduced exactly, wherever the neighbors have indices. -/
theorem C97_constant (r : Position → Res (Fl S)) (c : Fl S) (hc : S.fl c.val = c.val) (hc' : C.fl c.val = c.val) (xs : List ℚ)
    (hne : xs ≠ []) (hx : ∀ x ∈ xs, -2 ^ 63 < x ∧ x < 2 ^ 63 - 1) (h : ∀ q, Within 1 q xs → r q = .ok c) :
    linearMixed R S C r xs = .ok c := by
  obtain ⟨v, h1, h2⟩ := linearMixed_rel (R := R) (C := C) (fun _ v _ => v = c) r (fun _ => 0) xs hne (fun x hxm => by
    refine ⟨(hx x hxm).1, (hx x hxm).2, ?_⟩
    rintro k a b _ _ rfl rfl
    show S.fl (C.fl (C.fl (_ * S.fl (Fl.val _ - Fl.val _)) + Fl.val _)) = _
    rw [sub_self, S.zero, mul_zero, C.zero, zero_add, hc']
    exact hc) (fun q hq => ⟨c, h q hq, rfl⟩)
  rw [h1, h2]

/-- If all types are the same, this is `linearFl`. -/
theorem C97_same (r : Position → Res (Fl R)) (xs : List ℚ) : linearMixed R R R r xs = linearFl r xs := by
  have hf : ∀ d a b : Fl R, lerpMixed R R R d a b = linearFormulaFl d a b := fun d a b => R.idem _
  have h : ∀ (ys : List ℚ) (idx : Position), linearMixedRev R R R r ys idx = linearFlRev r ys idx := by
    intro ys
    induction ys with
    | nil => intro idx; rfl
    | cons y t ih =>
      intro idx
      cases t with
      | nil => simp only [linearMixedRev, linearFlRev, hf]
      | cons z t => simp only [linearMixedRev, linearFlRev, hf, ih]
  exact h _ _

end

namespace Binary

/-- The numbers of a format are numbers of each wider format. -/
theorem fl_widen {p p' : Nat} {emin emin' : Int} (hp : p ≤ p') (he : emin' ≤ emin) {x : ℚ} (h : fl p emin x = x) :
    fl p' emin' x = x := by
  have h1 : x = roundEven (x / 2 ^ exponent p emin x) * 2 ^ exponent p emin x := h.symm
  have h2 : (0 : ℚ) < 2 ^ exponent p emin x := zpow_pos (by norm_num) _
  set m := roundEven (x / 2 ^ exponent p emin x) with hm
  set E := exponent p emin x with hE
  have hlt : |m| < 2 ^ p := by
    have h3 := lt_pow_log x
    have h4 : Int.log 2 |x| + 1 ≤ p + E := by
      have := le_max_left (Int.log 2 |x| - p + 1) emin
      have hE' : E = max (Int.log 2 |x| - p + 1) emin := rfl
      omega
    have h5 : |x| < 2 ^ p * 2 ^ E := by
      refine h3.trans_le ?_
      rw [← zpow_natCast, ← zpow_add₀ (by norm_num)]
      exact zpow_le_zpow_right₀ (by norm_num) h4
    have h6 : |x| = |(m : ℚ)| * 2 ^ E := by
      conv_lhs => rw [h1]
      rw [abs_mul, abs_of_pos h2]
    rw [h6] at h5
    have h7 : |(m : ℚ)| < 2 ^ p := lt_of_mul_lt_mul_right h5 h2.le
    have h8 : ((|m| : Int) : ℚ) < ((2 ^ p : Int) : ℚ) := by push_cast; exact h7
    exact_mod_cast h8
  rw [h1]
  exact fl_mul_pow (he.trans (le_max_right _ _)) (hlt.trans_le (pow_le_pow_right₀ (by norm_num) hp))

/-- The difference of two positive numbers is a number if none is more than twice the other (Sterbenz). -/
theorem fl_sub_of_le {p : Nat} {emin : Int} {a b : ℚ} (ha : fl p emin a = a) (hb : fl p emin b = b) (h0 : 0 < b)
    (hba : b ≤ a) (hab : a ≤ 2 * b) : fl p emin (a - b) = a - b := by
  obtain ⟨m, hm⟩ := fl_eq_multiple ha
  obtain ⟨n, hn⟩ := fl_eq_multiple hb
  have hE : exponent p emin b ≤ exponent p emin a :=
    exponent_mono p emin h0.ne' (by rw [abs_of_pos h0, abs_of_pos (h0.trans_le hba)]; exact hba)
  set F := exponent p emin a with hF
  set E := exponent p emin b with hEd
  have h2 : (0 : ℚ) < 2 ^ E := zpow_pos (by norm_num) _
  obtain ⟨k, hk⟩ : ∃ k : Nat, F = E + k := ⟨(F - E).toNat, by omega⟩
  have hd : a - b = ((m * 2 ^ k - n : Int) : ℚ) * 2 ^ E := by
    rw [hm, hn, hk, zpow_add₀ (by norm_num), zpow_natCast]
    push_cast
    ring
  have hb' : b < 2 ^ p * 2 ^ E := by
    have h3 := lt_pow_log b
    rw [abs_of_pos h0] at h3
    refine h3.trans_le ?_
    rw [← zpow_natCast, ← zpow_add₀ (by norm_num)]
    refine zpow_le_zpow_right₀ (by norm_num) ?_
    have h4 : E = max (Int.log 2 |b| - p + 1) emin := rfl
    rw [abs_of_pos h0] at h4
    have := le_max_left (Int.log 2 b - p + 1) emin
    omega
  rw [hd]
  refine fl_mul_pow (le_max_right _ _) ?_
  have h5 : |((m * 2 ^ k - n : Int) : ℚ)| * 2 ^ E < 2 ^ p * 2 ^ E := by
    rw [← abs_of_pos h2, ← abs_mul, abs_of_pos h2, ← hd, abs_of_nonneg (by linarith)]
    linarith
  have h6 := lt_of_mul_lt_mul_right h5 h2.le
  have h7 : ((|m * 2 ^ k - n| : Int) : ℚ) < ((2 ^ p : Int) : ℚ) := by
    push_cast at h6 ⊢
    exact h6
  exact_mod_cast h7

/-- The difference of two numbers of an interval whose bounds have the same sign and whose largest magnitude is at most twice the
smallest one. -/
theorem fl_sub_near {p : Nat} {emin : Int} {a b lo hi : ℚ} (ha : fl p emin a = a) (hb : fl p emin b = b)
    (h : 0 < lo ∧ hi ≤ 2 * lo ∨ hi < 0 ∧ 2 * hi ≤ lo) (hla : lo ≤ a) (hlb : lo ≤ b) (hah : a ≤ hi) (hbh : b ≤ hi) :
    fl p emin (a - b) = a - b := by
  have key : ∀ {x y : ℚ}, fl p emin x = x → fl p emin y = y → 0 < x → 0 < y → x ≤ 2 * y → y ≤ 2 * x →
      fl p emin (x - y) = x - y := by
    intro x y hx hy h1 h2 h3 h4
    rcases le_total y x with h5 | h5
    · exact fl_sub_of_le hx hy h2 h5 h3
    · rw [← neg_sub, fl_neg, fl_sub_of_le hy hx h1 h5 h4]
  rcases h with ⟨h1, h2⟩ | ⟨h1, h2⟩
  · exact key ha hb (by linarith) (by linarith) (by linarith) (by linarith)
  · have := key (x := -b) (y := -a) (by rw [fl_neg, hb]) (by rw [fl_neg, ha]) (by linarith) (by linarith) (by linarith)
      (by linarith)
    rwa [neg_sub_neg] at this

end Binary

section

variable {p ps pc : Nat} {hp : 1 ≤ p} {hs : 1 ≤ ps} {hc : 1 ≤ pc} {emin es ec : Int}

local notation "𝔽" => Binary.rounding p hp emin

local notation "𝕊" => Binary.rounding ps hs es

local notation "ℭ" => Binary.rounding pc hc ec

/-- Interpolation between two values whose difference is a number. -/
theorem lerpMixed_exact (hps : ps ≤ pc) (hes : ec ≤ es) {d a b : ℚ} (h0 : 0 ≤ d) (h1 : d ≤ 1) (ha : Binary.fl ps es a = a)
    (hb : Binary.fl ps es b = b) (hab : Binary.fl ps es (a - b) = a - b) {lo hi : ℚ} (hla : lo ≤ a) (hlb : lo ≤ b) (hah : a ≤ hi)
    (hbh : b ≤ hi) (hc : 1 ≤ pc) (hs : 1 ≤ ps) :
    lo ≤ Binary.fl ps es (Binary.fl pc ec (Binary.fl pc ec (d * Binary.fl ps es (a - b)) + b)) ∧
      Binary.fl ps es (Binary.fl pc ec (Binary.fl pc ec (d * Binary.fl ps es (a - b)) + b)) ≤ hi := by
  have hwa := Binary.fl_widen hps hes ha
  have hwb := Binary.fl_widen hps hes hb
  have hwd := Binary.fl_widen hps hes hab
  rw [hab]
  have key : ∀ m : ℚ, Binary.fl ps es m = m → ∀ z, (m ≤ z → m ≤ Binary.fl ps es (Binary.fl pc ec z)) ∧
      (z ≤ m → Binary.fl ps es (Binary.fl pc ec z) ≤ m) := by
    intro m hm z
    have hm' := Binary.fl_widen hps hes hm
    constructor
    · intro h
      have h1 := Binary.fl_mono hc ec h
      rw [hm'] at h1
      have h2 := Binary.fl_mono hs es h1
      rwa [hm] at h2
    · intro h
      have h1 := Binary.fl_mono hc ec h
      rw [hm'] at h1
      have h2 := Binary.fl_mono hs es h1
      rwa [hm] at h2
  rcases le_total b a with hba | hba
  · have h2 : 0 ≤ Binary.fl pc ec (d * (a - b)) := Binary.fl_nonneg (mul_nonneg h0 (by linarith))
    have h3 : Binary.fl pc ec (d * (a - b)) ≤ a - b := by
      rw [← hwd]
      refine Binary.fl_mono hc ec ?_
      rw [hwd]
      nlinarith
    exact ⟨hlb.trans ((key b hb _).1 (by linarith)), ((key a ha _).2 (by linarith)).trans hah⟩
  · have h2 : Binary.fl pc ec (d * (a - b)) ≤ 0 := Binary.fl_nonpos (by nlinarith)
    have h3 : a - b ≤ Binary.fl pc ec (d * (a - b)) := by
      rw [← hwd]
      refine Binary.fl_mono hc ec ?_
      rw [hwd]
      nlinarith
    exact ⟨hla.trans ((key a ha _).1 (by linarith)), ((key b hb _).2 (by linarith)).trans hbh⟩

/-- Weights are between 0 and 1. -/
theorem offset_unit (he : emin ≤ 0) {x : ℚ} (hx : Binary.fl p emin x = x) : 0 ≤ (offsetOf 𝔽 x (floorIndex x)).val ∧
    (Binary.fl p emin (floorIndex x : Int) = (floorIndex x : Int) → (offsetOf 𝔽 x (floorIndex x)).val ≤ 1) := by
  have hb := floorIndex_bounds x
  have h0 : Binary.fl p emin (floorIndex x : Int) ≤ x := by
    conv_rhs => rw [← hx]
    exact Binary.fl_mono hp emin hb.1
  refine ⟨Binary.fl_nonneg (sub_nonneg.2 h0), fun h => ?_⟩
  show Binary.fl p emin (x - Binary.fl p emin (floorIndex x : Int)) ≤ 1
  rw [h]
  have h1 : Binary.fl p emin 1 = 1 := by
    have := Binary.fl_intCast (p := p) he (n := 1) (by rw [abs_one]; exact one_lt_pow₀ (by norm_num) (by omega))
    exact_mod_cast this
  rw [← h1]
  exact Binary.fl_mono hp emin (by linarith)

/-- Between two pixels of a line, the values are between those of the pixels, if their difference is a number, e.g. if they are
small integers.
Missing: the other pixels, for which this is false (`C97_violated`), and the other dimensions; see `C97_near_partial` and
`C97_accurate`. -/
theorem C97_bounds_partial (hps : ps ≤ pc) (hes : ec ≤ es) (he : emin ≤ 0) (r : Position → Res (Fl 𝕊)) {x : ℚ} {a b : Fl 𝕊}
    (h1 : -2 ^ 63 < x) (h2 : x < 2 ^ 63 - 1) (hx : Binary.fl p emin x = x)
    (hf : Binary.fl p emin (floorIndex x : Int) = (floorIndex x : Int))
    (ha : r [floorIndex x] = .ok a) (hb : r [floorIndex x + 1] = .ok b) (han : Binary.fl ps es a.val = a.val)
    (hbn : Binary.fl ps es b.val = b.val) (hab : Binary.fl ps es (a.val - b.val) = a.val - b.val) :
    ∃ v : Fl 𝕊, linearMixed 𝔽 𝕊 ℭ r [x] = .ok v ∧ min a.val b.val ≤ v.val ∧ v.val ≤ max a.val b.val := by
  obtain ⟨h3, h4⟩ := floor_next h1 h2
  obtain ⟨h5, h6⟩ := offset_unit (hp := hp) he hx
  refine ⟨lerpMixed 𝔽 𝕊 ℭ (offsetOf 𝔽 x (floorIndex x)) a b, ?_, ?_⟩
  · show linearMixedRev _ _ _ r [x] [] = _
    simp only [linearMixedRev, h3, h4, ha, hb, bind, Except.bind, pure, Except.pure]
  · exact lerpMixed_exact hps hes h5 (h6 hf) han hbn hab (min_le_left _ _) (min_le_right _ _) (le_max_left _ _)
      (le_max_right _ _) hc hs

/-- The floor of a position is a number. -/
theorem fl_floorIndex (he : emin ≤ 0) {x : ℚ} (hx : Binary.fl p emin x = x) (hx' : 2 - 2 ^ p ≤ x) :
    Binary.fl p emin (floorIndex x : Int) = (floorIndex x : Int) := by
  have hb := floorIndex_bounds x
  by_cases h0 : 0 ≤ x
  · have hf : floorIndex x = ⌊x⌋ := by
      unfold floorIndex
      rw [toIndex_of_nonneg h0, if_neg (by linarith), sub_zero]
    rw [hf]
    exact Binary.fl_floor he h0 hx
  · refine Binary.fl_intCast he ?_
    rw [abs_lt]
    constructor
    · have h3 : ((1 - 2 ^ p : Int) : ℚ) ≤ floorIndex x := by push_cast; linarith
      have : 1 - 2 ^ p ≤ floorIndex x := by exact_mod_cast h3
      omega
    · have h3 : ((floorIndex x : Int) : ℚ) < ((0 : Int) : ℚ) := by push_cast; linarith
      have : floorIndex x < 0 := by exact_mod_cast h3
      have : (0 : Int) < 2 ^ p := by positivity
      omega

/-- In any dimension, the values are between those of the neighbors, if these have the same sign and none is more than twice
another one.
Missing: the other neighbors, for which this may be false (`C97_violated`), see `C97_bounds_partial` in 1D and `C97_accurate`. -/
theorem C97_near_partial (hps : ps ≤ pc) (hes : ec ≤ es) (he : emin ≤ 0) (r : Position → Res (Fl 𝕊)) (lo hi : ℚ)
    (hn : 0 < lo ∧ hi ≤ 2 * lo ∨ hi < 0 ∧ 2 * hi ≤ lo) (xs : List ℚ) (hne : xs ≠ [])
    (hx : ∀ x ∈ xs, -2 ^ 63 < x ∧ x < 2 ^ 63 - 1 ∧ Binary.fl p emin x = x ∧ 2 - 2 ^ p ≤ x)
    (h : ∀ q, Within 1 q xs → ∃ v : Fl 𝕊, r q = .ok v ∧ Binary.fl ps es v.val = v.val ∧ lo ≤ v.val ∧ v.val ≤ hi) :
    ∃ v : Fl 𝕊, linearMixed 𝔽 𝕊 ℭ r xs = .ok v ∧ Binary.fl ps es v.val = v.val ∧ lo ≤ v.val ∧ v.val ≤ hi := by
  obtain ⟨v, h1, h2⟩ := linearMixed_rel (R := 𝔽) (C := ℭ) (fun _ (v : Fl 𝕊) _ => Binary.fl ps es v.val = v.val ∧ lo ≤ v.val ∧
    v.val ≤ hi) r (fun _ => 0) xs hne (fun x hxm => by
      obtain ⟨hx1, hx2, hx3, hx4⟩ := hx x hxm
      refine ⟨hx1, hx2, ?_⟩
      rintro k a b _ _ ⟨ha1, ha2, ha3⟩ ⟨hb1, hb2, hb3⟩
      refine ⟨Binary.fl_idem hs es _, ?_⟩
      obtain ⟨h5, h6⟩ := offset_unit (hp := hp) he hx3
      exact lerpMixed_exact hps hes h5 (h6 (fl_floorIndex he hx3 hx4)) ha1 hb1
        (Binary.fl_sub_near ha1 hb1 hn ha2 hb2 ha3 hb3) ha2 hb2 ha3 hb3 hc hs) h
  exact ⟨v, h1, h2⟩

/-- **C94**: at all positions, including negative ones, the values are between those of the neighbors, if these have the same
sign and none is more than twice another one.
Missing: the other neighbors at negative positions where the computed weight is 1, see `C94_weight_one`. -/
theorem C94_near_partial (he : emin ≤ 0) (r : Position → Res (Fl 𝔽)) (lo hi : ℚ)
    (hn : 0 < lo ∧ hi ≤ 2 * lo ∨ hi < 0 ∧ 2 * hi ≤ lo) (xs : List ℚ) (hne : xs ≠ [])
    (hx : ∀ x ∈ xs, -2 ^ 63 < x ∧ x < 2 ^ 63 - 1 ∧ Binary.fl p emin x = x ∧ 2 - 2 ^ p ≤ x)
    (h : ∀ q, Within 1 q xs → ∃ v : Fl 𝔽, r q = .ok v ∧ Binary.fl p emin v.val = v.val ∧ lo ≤ v.val ∧ v.val ≤ hi) :
    ∃ v : Fl 𝔽, linearFl r xs = .ok v ∧ Binary.fl p emin v.val = v.val ∧ lo ≤ v.val ∧ v.val ≤ hi := by
  obtain ⟨v, h1, h2⟩ := linearFl_rel (fun _ (v : Fl 𝔽) _ => Binary.fl p emin v.val = v.val ∧ lo ≤ v.val ∧ v.val ≤ hi) r
    (fun _ => 0) xs hne (fun x hxm => by
      obtain ⟨hx1, hx2, hx3, hx4⟩ := hx x hxm
      refine ⟨hx1, hx2, ?_⟩
      rintro k a b _ _ ⟨ha1, ha2, ha3⟩ ⟨hb1, hb2, hb3⟩
      refine ⟨Binary.fl_idem hp emin _, ?_⟩
      obtain ⟨h5, h6⟩ := offset_unit (hp := hp) he hx3
      have := lerpMixed_exact (pc := p) (ec := emin) le_rfl le_rfl h5 (h6 (fl_floorIndex he hx3 hx4)) ha1 hb1
        (Binary.fl_sub_near ha1 hb1 hn ha2 hb2 ha3 hb3) ha2 hb2 ha3 hb3 hp hp
      rw [Binary.fl_idem hp emin] at this
      exact this) h
  exact ⟨v, h1, h2⟩

/-- **C94**: between two pixels of a line, where the computed weight is 1, e.g. at negative integers, the value is that of the
first pixel as computed from its difference with the second one: it is out of bounds as soon as it is not exactly the former
and is beyond it. -/
theorem C94_weight_one (r : Position → Res (Fl 𝔽)) {x : ℚ} {a b : Fl 𝔽} (h1 : -2 ^ 63 < x) (h2 : x < 2 ^ 63 - 1)
    (hw : Binary.fl p emin (x - Binary.fl p emin (floorIndex x : Int)) = 1)
    (ha : r [floorIndex x] = .ok a) (hb : r [floorIndex x + 1] = .ok b) :
    ∃ v : Fl 𝔽, linearFl r [x] = .ok v ∧ v.val = Binary.fl p emin (Binary.fl p emin (a.val - b.val) + b.val) := by
  obtain ⟨h3, h4⟩ := floor_next h1 h2
  refine ⟨linearFormulaFl (offsetOf 𝔽 x (floorIndex x)) a b, ?_, ?_⟩
  · show linearFlRev r [x] [] = _
    simp only [linearFlRev, h3, h4, ha, hb, bind, Except.bind, pure, Except.pure]
  · show Binary.fl p emin (Binary.fl p emin (Binary.fl p emin (x - Binary.fl p emin (floorIndex x : Int)) *
      Binary.fl p emin (a.val - b.val)) + b.val) = _
    rw [hw, one_mul, Binary.fl_idem hp emin]

/-- **C97** for `long double`: the values are between those of the neighbors, as soon as the weights are less than 1. -/
theorem C97_bounds_wide (hps : p ≤ ps) (hes : es ≤ emin) (he' : es ≤ -ps) (r : Position → Res (Fl 𝕊)) (lo hi : ℚ)
    (xs : List ℚ) (hne : xs ≠ [])
    (hx : ∀ x ∈ xs, -2 ^ 63 < x ∧ x < 2 ^ 63 - 1 ∧ Binary.fl p emin x = x ∧
      Binary.fl p emin (x - Binary.fl p emin (floorIndex x : Int)) < 1)
    (h : ∀ q, Within 1 q xs → ∃ v : Fl 𝕊, r q = .ok v ∧ Binary.fl ps es v.val = v.val ∧ lo ≤ v.val ∧ v.val ≤ hi) :
    ∃ v : Fl 𝕊, linearMixed 𝔽 𝕊 𝕊 r xs = .ok v ∧ Binary.fl ps es v.val = v.val ∧ lo ≤ v.val ∧ v.val ≤ hi := by
  obtain ⟨v, h1, h2⟩ := linearMixed_rel (R := 𝔽) (C := 𝕊) (fun _ (v : Fl 𝕊) _ => Binary.fl ps es v.val = v.val ∧ lo ≤ v.val ∧
    v.val ≤ hi) r (fun _ => 0) xs hne (fun x hxm => by
      obtain ⟨hx1, hx2, hx3, hx4⟩ := hx x hxm
      refine ⟨hx1, hx2, ?_⟩
      rintro k a b _ _ ⟨ha1, ha2, ha3⟩ ⟨hb1, hb2, hb3⟩
      refine ⟨Binary.fl_idem hs es _, ?_⟩
      have h0 : Binary.fl p emin (floorIndex x : Int) ≤ x := by
        conv_rhs => rw [← hx3]
        exact Binary.fl_mono hp emin (floorIndex_bounds x).1
      have := Binary.lerp_bounds hs he' ha1 hb1 (Binary.fl_widen hps hes (Binary.fl_idem hp emin _))
        (Binary.fl_nonneg (sub_nonneg.2 h0)) hx4 ha2 hb2 ha3 hb3
      show lo ≤ Binary.fl ps es (Binary.fl ps es _) ∧ Binary.fl ps es (Binary.fl ps es _) ≤ hi
      rw [Binary.fl_idem hs es]
      exact this) h
  exact ⟨v, h1, h2⟩

/-- Rounding errors along one axis. -/
theorem lerpMixed_local (hc : 1 ≤ pc) (hps : ps ≤ pc) (hes : ec ≤ es) {d D a b A : ℚ} (h0 : 0 ≤ d) (h1 : d ≤ 1)
    (hD : |D - d| ≤ 1 / 2 ^ p * d) (ha : Binary.fl ps es a = a) (hb : Binary.fl ps es b = b) (hA : |a| ≤ A) (hB : |b| ≤ A) :
    |Binary.fl ps es (Binary.fl pc ec (Binary.fl pc ec (D * Binary.fl ps es (a - b)) + b)) - (d * (a - b) + b)| ≤
      ((1 + 1 / 2 ^ ps) * ((1 + 1 / 2 ^ pc) * (((1 + 1 / 2 ^ p) * (1 + 1 / 2 ^ ps) * (1 + 1 / 2 ^ pc) - 1) * 2) + 1 / 2 ^ pc) +
        1 / 2 ^ ps) * A + ((1 + 1 / 2 ^ ps) * (1 + 1 / 2 ^ pc) * (2 ^ ec / 2) + 2 ^ es / 2) := by
  have hbc := Binary.fl_widen hps hes hb
  have hX1 : |Binary.fl ps es (a - b) - (a - b)| ≤ 1 / 2 ^ ps * |a - b| := by
    have := Binary.fl_sum ps es ha (y := -b) (by rw [Binary.fl_neg, hb])
    rw [← sub_eq_add_neg] at this
    exact this
  have hP0 := Binary.fl_near pc ec (D * Binary.fl ps es (a - b))
  have hS0 := Binary.fl_sum pc ec (Binary.fl_idem hc ec (D * Binary.fl ps es (a - b))) hbc
  have hO0 := Binary.fl_near ps es (Binary.fl pc ec (Binary.fl pc ec (D * Binary.fl ps es (a - b)) + b))
  have hu0 : (0 : ℚ) ≤ 1 / 2 ^ p := by positivity
  have hv0 : (0 : ℚ) ≤ 1 / 2 ^ ps := by positivity
  have hw0 : (0 : ℚ) ≤ 1 / 2 ^ pc := by positivity
  have hη0 : (0 : ℚ) ≤ 2 ^ ec / 2 := by
    have : (0 : ℚ) < 2 ^ ec := zpow_pos (by norm_num) _
    linarith
  generalize Binary.fl ps es (Binary.fl pc ec (Binary.fl pc ec (D * Binary.fl ps es (a - b)) + b)) = O at *
  generalize Binary.fl pc ec (Binary.fl pc ec (D * Binary.fl ps es (a - b)) + b) = Q at *
  generalize Binary.fl pc ec (D * Binary.fl ps es (a - b)) = Pr at *
  generalize Binary.fl ps es (a - b) = X at *
  generalize (1 : ℚ) / 2 ^ p = u at *
  generalize (1 : ℚ) / 2 ^ ps = v at *
  generalize (1 : ℚ) / 2 ^ pc = w at *
  generalize (2 : ℚ) ^ ec / 2 = η at *
  generalize (2 : ℚ) ^ es / 2 = ζ at *
  have hA0 : 0 ≤ A := (abs_nonneg a).trans hA
  have hx1 : |a - b| ≤ 2 * A := (abs_sub a b).trans (by linarith)
  have hX2 : |X| ≤ (1 + v) * (2 * A) := by
    have := abs_add_le (X - (a - b)) (a - b)
    rw [sub_add_cancel] at this
    nlinarith
  have hD1 : |D| ≤ 1 + u := by
    have := abs_add_le (D - d) d
    rw [sub_add_cancel, abs_of_nonneg h0] at this
    nlinarith
  have h2 : |D * X - d * (a - b)| ≤ ((1 + u) * (1 + v) - 1) * (2 * A) := by
    rw [show D * X - d * (a - b) = D * (X - (a - b)) + (D - d) * (a - b) by ring]
    refine (abs_add_le _ _).trans ?_
    rw [abs_mul, abs_mul]
    have h3 : |D| * |X - (a - b)| ≤ (1 + u) * (v * (2 * A)) :=
      mul_le_mul hD1 (hX1.trans (mul_le_mul_of_nonneg_left hx1 hv0)) (abs_nonneg _) (by linarith)
    have h4 : |D - d| * |a - b| ≤ u * (2 * A) :=
      mul_le_mul (hD.trans (by nlinarith)) hx1 (abs_nonneg _) hu0
    nlinarith
  have hP : |Pr - D * X| ≤ w * ((1 + u) * (1 + v) * (2 * A)) + η := by
    refine hP0.trans ?_
    have : |D * X| ≤ (1 + u) * (1 + v) * (2 * A) := by
      rw [abs_mul, mul_assoc]
      exact mul_le_mul hD1 hX2 (abs_nonneg _) (by linarith)
    have := mul_le_mul_of_nonneg_left this hw0
    linarith
  have h5 : |Pr - d * (a - b)| ≤ ((1 + u) * (1 + v) * (1 + w) - 1) * (2 * A) + η := by
    have := abs_sub_le Pr (D * X) (d * (a - b))
    nlinarith
  have h6 : |d * (a - b) + b| ≤ A := by
    rw [show d * (a - b) + b = d * a + (1 - d) * b by ring]
    refine (abs_add_le _ _).trans ?_
    rw [abs_mul, abs_mul, abs_of_nonneg h0, abs_of_nonneg (by linarith : 0 ≤ 1 - d)]
    nlinarith
  generalize hE : ((1 + u) * (1 + v) * (1 + w) - 1) * (2 * A) + η = E at *
  have h7 : |Pr + b - (d * (a - b) + b)| ≤ E := by
    rw [add_sub_add_right_eq_sub]
    exact h5
  have h8 : |Pr + b| ≤ A + E := by
    have := abs_add_le (Pr + b - (d * (a - b) + b)) (d * (a - b) + b)
    rw [sub_add_cancel] at this
    linarith
  have h9 : |Q - (d * (a - b) + b)| ≤ (1 + w) * E + w * A := by
    have := abs_sub_le Q (Pr + b) (d * (a - b) + b)
    have := mul_le_mul_of_nonneg_left h8 hw0
    linarith
  have h10 : |Q| ≤ A + ((1 + w) * E + w * A) := by
    have := abs_add_le (Q - (d * (a - b) + b)) (d * (a - b) + b)
    rw [sub_add_cancel] at this
    linarith
  have h11 := abs_sub_le O Q (d * (a - b) + b)
  have h12 := mul_le_mul_of_nonneg_left h10 hv0
  have h13 : ((1 + v) * ((1 + w) * (((1 + u) * (1 + v) * (1 + w) - 1) * 2) + w) + v) * A + ((1 + v) * (1 + w) * η + ζ) =
      (1 + v) * ((1 + w) * E + w * A) + v * A + ζ := by
    rw [← hE]
    ring
  rw [h13]
  linarith

/-- Roundoff of one step of linear interpolation: about 3 units of the values if the other types are wider. -/
def lerpMixedRoundoff (p ps pc : Nat) : ℚ :=
  (1 + 1 / 2 ^ ps) * ((1 + 1 / 2 ^ pc) * (((1 + 1 / 2 ^ p) * (1 + 1 / 2 ^ ps) * (1 + 1 / 2 ^ pc) - 1) * 2) + 1 / 2 ^ pc) +
    1 / 2 ^ ps

/-- Underflow of one step of linear interpolation. -/
def lerpMixedUnderflow (ps pc : Nat) (es ec : Int) : ℚ := (1 + 1 / 2 ^ ps) * (1 + 1 / 2 ^ pc) * (2 ^ ec / 2) + 2 ^ es / 2

/-- **C97**: linear interpolation of dimension `n` is accurate up to about `3 n` units in the last place of the largest neighbor
(if values are `float`s), in addition to the errors `e0` of the values themselves (e.g. of the conversion of integers). -/
theorem C97_accurate (he : emin ≤ 0) (hps : ps ≤ pc) (hes : ec ≤ es) (r : Position → Res (Fl 𝕊)) (g : Position → ℚ) (M e0 : ℚ)
    (hM : 0 ≤ M) (he0 : 0 ≤ e0) (xs : List ℚ)
    (hne : xs ≠ []) (hx : ∀ x ∈ xs, -2 ^ 63 < x ∧ x < 2 ^ 63 - 1 ∧ Binary.fl p emin x = x ∧ 2 - 2 ^ p ≤ x)
    (h : ∀ q, Within 1 q xs → ∃ v : Fl 𝕊, r q = .ok v ∧ Binary.fl ps es v.val = v.val ∧ |v.val - g q| ≤ e0 ∧ |g q| ≤ M) :
    ∃ v : Fl 𝕊, linearMixed 𝔽 𝕊 ℭ r xs = .ok v ∧ |v.val - multilinear g (xs.map fun x => 2 * floorIndex x + 1 - x)| ≤
      (1 + lerpMixedRoundoff p ps pc) ^ xs.length * (M + e0 + xs.length * lerpMixedUnderflow ps pc es ec) - M := by
  have hu0 : (0 : ℚ) ≤ 1 / 2 ^ p := by positivity
  have hv0 : (0 : ℚ) ≤ 1 / 2 ^ ps := by positivity
  have hw0 : (0 : ℚ) ≤ 1 / 2 ^ pc := by positivity
  have hη0 : (0 : ℚ) < 2 ^ ec := zpow_pos (by norm_num) _
  have hζ0 : (0 : ℚ) < 2 ^ es := zpow_pos (by norm_num) _
  have hκ : 0 ≤ lerpMixedRoundoff p ps pc := by
    unfold lerpMixedRoundoff
    have h1 : (0 : ℚ) ≤ (1 + 1 / 2 ^ p) * (1 + 1 / 2 ^ ps) * (1 + 1 / 2 ^ pc) - 1 := by
      have h2 : (1 : ℚ) ≤ (1 + 1 / 2 ^ p) * (1 + 1 / 2 ^ ps) := one_le_mul_of_one_le_of_one_le (by linarith) (by linarith)
      have := one_le_mul_of_one_le_of_one_le h2 (by linarith : (1 : ℚ) ≤ 1 + 1 / 2 ^ pc)
      linarith
    positivity
  have hε0 : 0 ≤ lerpMixedUnderflow ps pc es ec := by
    unfold lerpMixedUnderflow
    positivity
  have hloc0 := @lerpMixed_local p ps pc es ec hc hps hes
  have hκdef : (1 + 1 / 2 ^ ps) * ((1 + 1 / 2 ^ pc) * (((1 + 1 / 2 ^ p) * (1 + 1 / 2 ^ ps) * (1 + 1 / 2 ^ pc) - 1) * 2) +
    1 / 2 ^ pc) + 1 / 2 ^ ps = lerpMixedRoundoff p ps pc := rfl
  have hεdef : (1 + 1 / 2 ^ ps) * (1 + 1 / 2 ^ pc) * (2 ^ ec / 2) + 2 ^ es / 2 = lerpMixedUnderflow ps pc es ec := rfl
  rw [hκdef, hεdef] at hloc0
  clear hκdef hεdef
  generalize lerpMixedRoundoff p ps pc = κ at *
  generalize lerpMixedUnderflow ps pc es ec = ε at *
  set B : Nat → ℚ := fun k => (1 + κ) ^ k * (M + e0 + k * ε) with hB
  have hBM : ∀ k, M ≤ B k := fun k => by
    have h1 : (1 : ℚ) ≤ (1 + κ) ^ k := one_le_pow₀ (by linarith)
    have h2 : (0 : ℚ) ≤ k * ε := mul_nonneg (Nat.cast_nonneg k) hε0
    show M ≤ (1 + κ) ^ k * (M + e0 + k * ε)
    nlinarith
  have hBstep : ∀ k, (1 + κ) * B k + ε ≤ B (k + 1) := fun k => by
    have h1 : (1 : ℚ) ≤ (1 + κ) ^ (k + 1) := one_le_pow₀ (by linarith)
    show (1 + κ) * ((1 + κ) ^ k * (M + e0 + k * ε)) + ε ≤ (1 + κ) ^ (k + 1) * (M + e0 + (k + 1 : Nat) * ε)
    push_cast
    rw [← mul_assoc, ← pow_succ']
    nlinarith
  obtain ⟨v, h1, _, _, h2⟩ := linearMixed_rel (R := 𝔽) (C := ℭ) (fun k (v : Fl 𝕊) y => Binary.fl ps es v.val = v.val ∧ |y| ≤ M ∧
    |v.val - y| ≤ B k - M) r g xs hne (fun x hxm => by
      obtain ⟨hx1, hx2, hx3, hx4⟩ := hx x hxm
      refine ⟨hx1, hx2, ?_⟩
      rintro k a b a' b' ⟨ha1, ha2, ha3⟩ ⟨hb1, hb2, hb3⟩
      have hbnd := floorIndex_bounds x
      have hflf : Binary.fl p emin (floorIndex x : Int) = (floorIndex x : Int) := by
        by_cases h0 : 0 ≤ x
        · have hf : floorIndex x = ⌊x⌋ := by
            unfold floorIndex
            rw [toIndex_of_nonneg h0, if_neg (by linarith), sub_zero]
          rw [hf]
          exact Binary.fl_floor he h0 hx3
        · refine Binary.fl_intCast he ?_
          rw [abs_lt]
          constructor
          · have h3 : ((1 - 2 ^ p : Int) : ℚ) ≤ floorIndex x := by push_cast; linarith
            have : 1 - 2 ^ p ≤ floorIndex x := by exact_mod_cast h3
            omega
          · have h3 : ((floorIndex x : Int) : ℚ) < ((0 : Int) : ℚ) := by push_cast; linarith
            have : floorIndex x < 0 := by exact_mod_cast h3
            have : (0 : Int) < 2 ^ p := by positivity
            omega
      have hD : |Binary.fl p emin (x - Binary.fl p emin (floorIndex x : Int)) - (x - floorIndex x)| ≤
          1 / 2 ^ p * (x - floorIndex x) := by
        rw [hflf]
        have := Binary.fl_sum p emin hx3 (y := -(floorIndex x : ℚ)) (by rw [Binary.fl_neg, hflf])
        rw [← sub_eq_add_neg, abs_of_nonneg (by linarith : 0 ≤ x - (floorIndex x : ℚ))] at this
        exact this
      have hA : |a.val| ≤ B k := by
        have := abs_add_le (a.val - a') a'
        rw [sub_add_cancel] at this
        linarith
      have hB' : |b.val| ≤ B k := by
        have := abs_add_le (b.val - b') b'
        rw [sub_add_cancel] at this
        linarith
      have hloc := hloc0 (by linarith : 0 ≤ x - (floorIndex x : ℚ)) (by linarith) hD ha1 hb1 hA hB'
      set d := x - (floorIndex x : ℚ) with hd
      have hd0 : 0 ≤ d := by linarith
      have hd1 : d ≤ 1 := by linarith
      refine ⟨Binary.fl_idem hs es _, ?_, ?_⟩
      · unfold linearFormula
        rw [show d * (a' - b') + b' = d * a' + (1 - d) * b' by ring]
        refine (abs_add_le _ _).trans ?_
        rw [abs_mul, abs_mul, abs_of_nonneg hd0, abs_of_nonneg (by linarith : 0 ≤ 1 - d)]
        nlinarith
      · have hconv : |d * (a.val - b.val) + b.val - (d * (a' - b') + b')| ≤ B k - M := by
          rw [show d * (a.val - b.val) + b.val - (d * (a' - b') + b') = d * (a.val - a') + (1 - d) * (b.val - b') by ring]
          refine (abs_add_le _ _).trans ?_
          rw [abs_mul, abs_mul, abs_of_nonneg hd0, abs_of_nonneg (by linarith : 0 ≤ 1 - d)]
          nlinarith
        have hloc' : |(lerpMixed 𝔽 𝕊 ℭ (offsetOf 𝔽 x (floorIndex x)) a b).val - (d * (a.val - b.val) + b.val)| ≤ κ * B k + ε := hloc
        have htri := abs_sub_le (lerpMixed 𝔽 𝕊 ℭ (offsetOf 𝔽 x (floorIndex x)) a b).val (d * (a.val - b.val) + b.val)
          (d * (a' - b') + b')
        have := hBstep k
        unfold linearFormula
        linarith) (fun q hq => by
      obtain ⟨v, h1, h2, h3, h4⟩ := h q hq
      refine ⟨v, h1, h2, h4, h3.trans ?_⟩
      show e0 ≤ (1 + κ) ^ 0 * (M + e0 + (0 : Nat) * ε) - M
      rw [pow_zero, Nat.cast_zero]
      linarith)
  exact ⟨v, h1, h2⟩

end

section

local notation "𝔻" => Binary.rounding 53 (by norm_num) (-1074)

local notation "𝔾" => Binary.rounding 24 (by norm_num) (-149)

local notation "𝕃" => Binary.rounding 64 (by norm_num) (-16445)

/-- **C97** as a property of `float`s: the values are between those of the neighbors at nonnegative positions, as for `double`s
(`C94_nonneg_partial`) and `long double`s (`C97_bounds_wide`). This is false, see `C97_violated`. -/
def C97_Statement : Prop :=
  ∀ (r : Position → Res (Fl 𝔾)) (lo hi : ℚ) (xs : List ℚ), xs ≠ [] →
    (∀ x ∈ xs, Binary.fl 53 (-1074) x = x ∧ 0 ≤ x ∧ x ≤ 2 ^ 51) →
    (∀ q, Within 1 q xs → ∃ v : Fl 𝔾, r q = .ok v ∧ Binary.fl 24 (-149) v.val = v.val ∧ lo ≤ v.val ∧ v.val ≤ hi) →
    ∃ v : Fl 𝔾, linearMixed 𝔻 𝔾 𝔻 r xs = .ok v ∧ lo ≤ v.val ∧ v.val ≤ hi

theorem overshoot_difference : Binary.fl 24 (-149) (3 - -2 ^ 24) = 2 ^ 24 + 4 := by
  rw [Binary.fl_tie (e := 1) (m := 2 ^ 23 + 2) (by norm_num) (by norm_num) (by norm_num) (by norm_num) (by norm_num)]
  norm_num

theorem overshoot_product : Binary.fl 53 (-1074) ((1 - 1 / 2 ^ 30) * (2 ^ 24 + 4)) = (1 - 1 / 2 ^ 30) * (2 ^ 24 + 4) := by
  have := Binary.fl_mul_pow (p := 53) (emin := -1074) (e := -28) (by norm_num) (n := 2 ^ 52 + 2 ^ 30 - 2 ^ 22 - 1) (by norm_num)
  norm_num at this ⊢
  exact this

theorem overshoot_sum : Binary.fl 53 (-1074) ((1 - 1 / 2 ^ 30) * (2 ^ 24 + 4) + -2 ^ 24) = 4 - 1 / 2 ^ 6 - 1 / 2 ^ 28 := by
  have := Binary.fl_mul_pow (p := 53) (emin := -1074) (e := -28) (by norm_num) (n := 2 ^ 30 - 2 ^ 22 - 1) (by norm_num)
  norm_num at this ⊢
  exact this

theorem overshoot_result : Binary.fl 24 (-149) (4 - 1 / 2 ^ 6 - 1 / 2 ^ 28) = 255 / 64 := by
  rw [Binary.fl_eq (e := -22) (m := 255 * 2 ^ 16) (by norm_num) (by norm_num) (by norm_num) (by norm_num)]
  norm_num

theorem overshoot_position : Binary.fl 53 (-1074) (1 - 1 / 2 ^ 30) = 1 - 1 / 2 ^ 30 := by
  have := Binary.fl_mul_pow (p := 53) (emin := -1074) (e := -30) (by norm_num) (n := 2 ^ 30 - 1) (by norm_num)
  norm_num at this ⊢
  exact this

/-- Just below position 1, between 3 and -2^24, the result is almost 4: the difference is rounded to `float` (2^24 + 4), and then
interpolated in `double`. -/
theorem C97_overshoot (r : Position → Res (Fl 𝔾)) {x : ℚ} (hx : x = 1 - 1 / 2 ^ 30) (ha : r [0] = .ok (Fl.of 3))
    (hb : r [1] = .ok (Fl.of (-2 ^ 24))) : linearMixed 𝔻 𝔾 𝔻 r [x] = .ok (Fl.of (255 / 64)) := by
  have hx0 : 0 ≤ x := by rw [hx]; norm_num
  have hx1 : x < 1 := by rw [hx]; norm_num
  have e : floorIndex x = 0 := by
    unfold floorIndex
    rw [toIndex_of_nonneg hx0, if_neg (by linarith), sub_zero, Int.floor_eq_iff]
    push_cast
    exact ⟨hx0, by linarith⟩
  have hf : floorOf x = .ok 0 := by
    rw [floorOf_eq (by linarith) (by linarith), e]
  have hg : Checked.ck (0 + 1) = .ok 1 := rfl
  show linearMixedRev 𝔻 𝔾 𝔻 r [x] [] = _
  simp only [linearMixedRev, hf, hg, ha, hb, bind, Except.bind, pure, Except.pure]
  congr 1
  show Binary.fl 24 (-149) (Binary.fl 53 (-1074) (Binary.fl 53 (-1074) (Binary.fl 53 (-1074) (x - Binary.fl 53 (-1074) (0 : Int)) *
    Binary.fl 24 (-149) (3 - -2 ^ 24)) + -2 ^ 24)) = 255 / 64
  rw [Int.cast_zero, Binary.fl_zero, sub_zero, hx, overshoot_position, overshoot_difference, overshoot_product, overshoot_sum,
    overshoot_result]

theorem C97_violated : ¬ C97_Statement := by
  intro h
  have hlarge : Binary.fl 24 (-149) (-2 ^ 24) = -2 ^ 24 := by
    have := Binary.fl_mul_pow (p := 24) (emin := -149) (e := 24) (by norm_num) (n := -1) (by norm_num)
    norm_num at this ⊢
    exact this
  have h3 := Binary.fl_intCast (p := 24) (emin := -149) (by norm_num) (n := 3) (by norm_num)
  push_cast at h3
  obtain ⟨v, hv, _, hv'⟩ := h (fun q => .ok (if q = [0] then Fl.of 3 else Fl.of (-2 ^ 24))) (-2 ^ 24) 3 [1 - 1 / 2 ^ 30]
    (by simp)
    (by
      intro x hx
      rw [List.mem_singleton.1 hx]
      exact ⟨overshoot_position, by norm_num, by norm_num⟩)
    (by
      intro q _
      refine ⟨_, rfl, ?_⟩
      split_ifs
      · exact ⟨h3, by show (-2 ^ 24 : ℚ) ≤ 3; norm_num, le_rfl⟩
      · exact ⟨hlarge, le_rfl, by show (-2 ^ 24 : ℚ) ≤ 3; norm_num⟩)
  rw [C97_overshoot _ rfl (by rfl) (by rfl)] at hv
  cases hv
  have : (255 / 64 : ℚ) ≤ 3 := hv'
  norm_num at this

/-- Hypotheses of `C97_bounds_partial`: pixels 10 and 250 of a `float` raster, at position 0.25. -/
example (r : Position → Res (Fl 𝔾)) (ha : r [0] = .ok (Fl.of 10)) (hb : r [1] = .ok (Fl.of 250)) :
    ∃ v : Fl 𝔾, linearMixed 𝔻 𝔾 𝔻 r [1 / 4] = .ok v ∧ 10 ≤ v.val ∧ v.val ≤ 250 := by
  have e1 : floorIndex (1 / 4 : ℚ) = 0 := by
    unfold floorIndex
    rw [toIndex_of_nonneg (by norm_num), if_neg (by norm_num)]
    norm_num
  have h1 := double_quarters 1 (by norm_num)
  have n1 := Binary.fl_intCast (p := 24) (emin := -149) (by norm_num) (n := 10) (by norm_num)
  have n2 := Binary.fl_intCast (p := 24) (emin := -149) (by norm_num) (n := 250) (by norm_num)
  have n3 := Binary.fl_intCast (p := 24) (emin := -149) (by norm_num) (n := -240) (by norm_num)
  push_cast at h1 n1 n2 n3
  obtain ⟨v, h2, h3, h4⟩ := C97_bounds_partial (p := 53) (hp := by norm_num) (emin := -1074) (ps := 24) (hs := by norm_num)
    (es := -149) (pc := 53) (hc := by norm_num) (ec := -1074) (by norm_num) (by norm_num) (by norm_num) r (x := 1 / 4)
    (a := Fl.of 10) (b := Fl.of 250) (by norm_num) (by norm_num) h1
    (by rw [e1]; exact Binary.fl_intCast (by norm_num) (by norm_num)) (by rw [e1]; exact ha) (by rw [e1]; exact hb) n1 n2 (by
      show Binary.fl 24 (-149) (10 - 250) = 10 - 250
      norm_num
      exact n3)
  refine ⟨v, h2, ?_, ?_⟩
  · have : min (10 : ℚ) 250 ≤ v.val := h3
    norm_num at this
    exact this
  · have : v.val ≤ max (10 : ℚ) 250 := h4
    norm_num at this
    exact this

/-- Hypotheses of `C97_bounds_wide`: a `long double` raster of bytes, at position (0.25, 3.5). -/
example (b : Position → Fin 256) : ∃ v : Fl 𝕃, linearMixed 𝔻 𝕃 𝕃 (fun q => .ok (Fl.of (b q).val)) [1 / 4, 7 / 2] = .ok v ∧
    0 ≤ v.val ∧ v.val ≤ 255 := by
  have hx : ∀ x ∈ [(1 / 4 : ℚ), 7 / 2], Binary.fl 53 (-1074) x = x ∧ 0 ≤ x ∧ x < 100 := by
    intro x hx
    have h1 := double_quarters 1 (by norm_num)
    have h2 := double_quarters 14 (by norm_num)
    push_cast at h1 h2
    simp only [List.mem_cons, List.not_mem_nil, or_false] at hx
    rcases hx with rfl | rfl
    · exact ⟨h1, by norm_num, by norm_num⟩
    · refine ⟨?_, by norm_num, by norm_num⟩
      norm_num at h2 ⊢
      exact h2
  obtain ⟨v, h1, _, h2⟩ := C97_bounds_wide (p := 53) (hp := by norm_num) (emin := -1074) (ps := 64) (hs := by norm_num)
    (es := -16445) (by norm_num) (by norm_num) (by norm_num) (fun q => .ok (Fl.of (b q).val)) 0 255 [1 / 4, 7 / 2] (by simp)
    (fun x hxm => by
      obtain ⟨h1, h2, h3⟩ := hx x hxm
      refine ⟨by linarith, by linarith, h1, ?_⟩
      rw [offset_nonneg (by norm_num) h1 h2]
      exact Int.fract_lt_one x)
    (fun q _ => by
      refine ⟨_, rfl, ?_, Nat.cast_nonneg _, ?_⟩
      · have := Binary.fl_intCast (p := 64) (emin := -16445) (by norm_num) (n := (b q).val) (by
          rw [abs_of_nonneg (by omega)]
          have := (b q).isLt
          omega)
        exact_mod_cast this
      · have : (b q).val ≤ 255 := by have := (b q).isLt; omega
        show (((b q).val : Nat) : ℚ) ≤ 255
        exact_mod_cast this)
  exact ⟨v, h1, h2⟩

/-- Hypotheses of `C97_accurate`: a `float` raster of bytes at position (0.25, 3.5). -/
example (b : Position → Fin 256) : ∃ v : Fl 𝔾, linearMixed 𝔻 𝔾 𝔻 (fun q => .ok (Fl.of (b q).val)) [1 / 4, 7 / 2] = .ok v ∧
    |v.val - multilinear (fun q => ((b q).val : ℚ)) ([1 / 4, 7 / 2].map fun x : ℚ => 2 * (floorIndex x : ℚ) + 1 - x)| ≤
      (1 + lerpMixedRoundoff 53 24 53) ^ 2 * (255 + 0 + 2 * lerpMixedUnderflow 24 53 (-149) (-1074)) - 255 := by
  have hx : ∀ x ∈ [(1 / 4 : ℚ), 7 / 2], Binary.fl 53 (-1074) x = x ∧ 0 ≤ x ∧ x < 100 := by
    intro x hx
    have h1 := double_quarters 1 (by norm_num)
    have h2 := double_quarters 14 (by norm_num)
    push_cast at h1 h2
    simp only [List.mem_cons, List.not_mem_nil, or_false] at hx
    rcases hx with rfl | rfl
    · exact ⟨h1, by norm_num, by norm_num⟩
    · refine ⟨?_, by norm_num, by norm_num⟩
      norm_num at h2 ⊢
      exact h2
  obtain ⟨v, h1, h2⟩ := C97_accurate (p := 53) (hp := by norm_num) (emin := -1074) (ps := 24) (hs := by norm_num) (es := -149)
    (pc := 53) (hc := by norm_num) (ec := -1074) (by norm_num) (by norm_num) (by norm_num) (fun q => .ok (Fl.of (b q).val))
    (fun q => (b q).val) 255 0 (by norm_num) le_rfl [1 / 4, 7 / 2] (by simp)
    (fun x hxm => by
      obtain ⟨h1, h2, h3⟩ := hx x hxm
      exact ⟨by linarith, by linarith, h1, by linarith⟩)
    (fun q _ => by
      refine ⟨_, rfl, ?_, ?_, ?_⟩
      · have := Binary.fl_intCast (p := 24) (emin := -149) (by norm_num) (n := (b q).val) (by
          rw [abs_of_nonneg (by omega)]
          have := (b q).isLt
          omega)
        exact_mod_cast this
      · show |(((b q).val : Nat) : ℚ) - ((b q).val : Nat)| ≤ 0
        rw [sub_self, abs_zero]
      · have : (b q).val ≤ 255 := by have := (b q).isLt; omega
        rw [abs_of_nonneg (Nat.cast_nonneg _)]
        exact_mod_cast this)
  exact ⟨v, h1, h2⟩

/-- Hypotheses of `C97_near_partial`: a `float` raster of values between 128 and 255, at position (0.25, 3.5). -/
example (b : Position → Fin 128) : ∃ v : Fl 𝔾, linearMixed 𝔻 𝔾 𝔻 (fun q => .ok (Fl.of (128 + (b q).val))) [1 / 4, 7 / 2] = .ok v ∧
    128 ≤ v.val ∧ v.val ≤ 255 := by
  have h1 := double_quarters 1 (by norm_num)
  have h2 := double_quarters 14 (by norm_num)
  push_cast at h1 h2
  norm_num at h1 h2
  obtain ⟨v, h3, _, h4⟩ := C97_near_partial (p := 53) (hp := by norm_num) (emin := -1074) (ps := 24) (hs := by norm_num)
    (es := -149) (pc := 53) (hc := by norm_num) (ec := -1074) (by norm_num) (by norm_num) (by norm_num)
    (fun q => .ok (Fl.of (128 + (b q).val))) 128 255 (by norm_num) [1 / 4, 7 / 2] (by simp)
    (fun x hx => by
      simp only [List.mem_cons, List.not_mem_nil, or_false] at hx
      rcases hx with rfl | rfl
      · exact ⟨by norm_num, by norm_num, by norm_num; exact h1, by norm_num⟩
      · exact ⟨by norm_num, by norm_num, h2, by norm_num⟩)
    (fun q _ => by
      have hb := (b q).isLt
      have h5 : ((b q).val : ℚ) ≤ 127 := by exact_mod_cast (by omega : (b q).val ≤ 127)
      refine ⟨_, rfl, ?_, ?_, ?_⟩
      · have := Binary.fl_intCast (p := 24) (emin := -149) (by norm_num) (n := 128 + (b q).val) (by
          rw [abs_of_nonneg (by omega)]
          omega)
        push_cast at this
        exact this
      · show (128 : ℚ) ≤ 128 + (b q).val
        have : (0 : ℚ) ≤ (b q).val := Nat.cast_nonneg _
        linarith
      · show (128 : ℚ) + (b q).val ≤ 255
        linarith)
  exact ⟨v, h3, h4⟩

/-- Hypotheses of `C94_near_partial`: a `double` raster of values between 128 and 255, at position (-1, -2). -/
example (b : Position → Fin 128) : ∃ v : Fl 𝔻, linearFl (fun q => .ok (Fl.of (128 + (b q).val))) [-1, -2] = .ok v ∧
    128 ≤ v.val ∧ v.val ≤ 255 := by
  have h1 := Binary.fl_intCast (p := 53) (emin := -1074) (by norm_num) (n := -1) (by norm_num)
  have h2 := Binary.fl_intCast (p := 53) (emin := -1074) (by norm_num) (n := -2) (by norm_num)
  push_cast at h1 h2
  obtain ⟨v, h3, _, h4⟩ := C94_near_partial (p := 53) (hp := by norm_num) (emin := -1074) (by norm_num)
    (fun q => .ok (Fl.of (128 + (b q).val))) 128 255 (by norm_num) [-1, -2] (by simp)
    (fun x hx => by
      simp only [List.mem_cons, List.not_mem_nil, or_false] at hx
      rcases hx with rfl | rfl
      · exact ⟨by norm_num, by norm_num, h1, by norm_num⟩
      · exact ⟨by norm_num, by norm_num, h2, by norm_num⟩)
    (fun q _ => by
      have hb := (b q).isLt
      have h5 : ((b q).val : ℚ) ≤ 127 := by exact_mod_cast (by omega : (b q).val ≤ 127)
      refine ⟨_, rfl, ?_, ?_, ?_⟩
      · have := Binary.fl_intCast (p := 53) (emin := -1074) (by norm_num) (n := 128 + (b q).val) (by
          rw [abs_of_nonneg (by omega)]
          omega)
        push_cast at this
        exact this
      · show (128 : ℚ) ≤ 128 + (b q).val
        have : (0 : ℚ) ≤ (b q).val := Nat.cast_nonneg _
        linarith
      · show (128 : ℚ) + (b q).val ≤ 255
        linarith)
  exact ⟨v, h3, h4⟩

/-- Hypotheses of `C94_weight_one`: position -1. -/
example (r : Position → Res (Fl 𝔻)) {a b : Fl 𝔻} (ha : r [-2] = .ok a) (hb : r [-1] = .ok b) :
    ∃ v : Fl 𝔻, linearFl r [-1] = .ok v ∧ v.val = Binary.fl 53 (-1074) (Binary.fl 53 (-1074) (a.val - b.val) + b.val) := by
  have e : floorIndex (-1 : ℚ) = -2 := by
    unfold floorIndex
    rw [toIndex_of_neg (by norm_num), if_pos (by norm_num)]
    norm_num
  have h1 := Binary.fl_intCast (p := 53) (emin := -1074) (by norm_num) (n := 1) (by norm_num)
  have h2 := Binary.fl_intCast (p := 53) (emin := -1074) (by norm_num) (n := -2) (by norm_num)
  push_cast at h1 h2
  refine C94_weight_one (p := 53) (hp := by norm_num) (emin := -1074) r (x := -1) (by norm_num) (by norm_num) ?_
    (by rw [e]; exact ha) (by rw [e]; exact hb)
  rw [e]
  push_cast
  rw [h2, show (-1 : ℚ) - -2 = 1 by norm_num, h1]

/-- The accuracy for `float`: about 3 units in the last place by dimension. -/
example : lerpMixedRoundoff 53 24 53 ≤ 301 / 100 * (1 / 2 ^ 24) := by
  unfold lerpMixedRoundoff
  norm_num

end

end Litl
