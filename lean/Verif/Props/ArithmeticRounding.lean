import Verif.Model.ArithmeticRounding
import Verif.Lemmas.Nearest

/-!
# C106: element-wise operators of containers of floating point values

The arithmetic of the model is the one of IEEE 754 (`C106_rounding`), and `V op U` is correctly rounded (`C106_vector`).
`V op a` is not if `a` is not a value of the container's type (`C106_violated`), because it is rounded first.
-/

namespace Litl.Container

open Spec Binary

/-- The exact result of an operator. -/
def RealOp.exact (op : RealOp) (x y : ℚ) : ℚ :=
  match op with
  | .add => x + y
  | .sub => x - y
  | .mul => x * y
  | .div => x / y

/-- Quotients need a divisor. -/
def RealOp.Defined (op : RealOp) (y : ℚ) : Prop := op = .div → y ≠ 0

/-- C106: the arithmetic of the model (see `Binary.fl`) is rounding to nearest, ties to even. -/
theorem C106_rounding {p : Nat} (hp : 1 ≤ p) (emin : Int) (x y : ℚ) : IsNearest p emin x y ↔ y = Binary.fl p emin x :=
  isNearest_iff hp

example : ∀ y, IsNearest 24 (-149) (1 / 3) y ↔ y = 11184811 / 2 ^ 25 := by
  intro y
  rw [C106_rounding (by norm_num), Binary.fl_eq (e := -25) (m := 11184811) (by norm_num) (by norm_num [zpow_neg])
    (by norm_num [zpow_neg]) (by norm_num [zpow_neg, abs_lt])]
  norm_num [zpow_neg]

theorem RealOp.eval_eq (p : Nat) (emin : Int) (op : RealOp) {y : ℚ} (x : ℚ) (h : op.Defined y) :
    op.eval p emin x y = some (Binary.fl p emin (op.exact x y)) := by
  cases op <;> simp only [RealOp.eval, RealOp.exact]
  exact if_neg (h rfl)

/-- C106: `V op U` gives, element by element, the number which is nearest to the exact result. -/
theorem C106_vector {p : Nat} (hp : 1 ≤ p) (emin : Int) (op : RealOp) (v u : List ℚ) (hl : v.length = u.length)
    (hd : ∀ y ∈ u, op.Defined y) :
    ∃ w, realVectorAssign p emin op v u = .ok w ∧ w.length = v.length ∧
      ∀ (i : Nat) (x y : ℚ), v[i]? = some x → u[i]? = some y → ∃ r, w[i]? = some (some r) ∧ IsNearest p emin (op.exact x y) r := by
  induction v generalizing u with
  | nil => exact ⟨[], rfl, rfl, by simp⟩
  | cons e v ih =>
    cases u with
    | nil => simp at hl
    | cons f u =>
      obtain ⟨w, h1, h2, h3⟩ := ih u (by simpa using hl) fun y hy => hd y (List.mem_cons_of_mem _ hy)
      refine ⟨op.eval p emin e f :: w, ?_, by simp [h2], ?_⟩
      · simp only [realVectorAssign, h1]
        rfl
      · intro i x y hx hy
        cases i with
        | zero =>
          simp only [List.getElem?_cons_zero, Option.some.injEq] at hx hy ⊢
          subst hx hy
          exact ⟨_, RealOp.eval_eq p emin op e (hd f (by simp)), fl_isNearest hp emin _⟩
        | succ i =>
          simp only [List.getElem?_cons_succ] at hx hy ⊢
          exact h3 i x y hx hy

example : ∃ w, realVectorAssign 24 (-149) .div [1, 2, 4] [3, 3, 3] = .ok w ∧ w.length = 3 ∧
    ∃ r, w[1]? = some (some r) ∧ IsNearest 24 (-149) (2 / 3) r := by
  obtain ⟨w, h1, h2, h3⟩ := C106_vector (p := 24) (by norm_num) (-149) .div [1, 2, 4] [3, 3, 3] rfl (by simp [RealOp.Defined])
  exact ⟨w, h1, h2, h3 1 2 3 rfl rfl⟩

/-- C106: a shorter right operand is read out of bounds. -/
theorem C106_short (p : Nat) (emin : Int) (op : RealOp) (v u : List ℚ) (hl : u.length < v.length) :
    realVectorAssign p emin op v u = .error .ub := by
  induction v generalizing u with
  | nil => simp at hl
  | cons e v ih =>
    cases u with
    | nil => rfl
    | cons f u =>
      simp only [realVectorAssign, ih u (by simpa using hl)]
      rfl

example : realVectorAssign 24 (-149) .add [1, 2] [3] = .error .ub := C106_short 24 (-149) .add [1, 2] [3] (by simp)

/-! ## Scalars -/

/-- C106: each element of `V op a` is the number of the container's type which is nearest to `e op a`.
`a` is e.g. a `double`, and the elements are `float`s. -/
def C106_Statement (p : Nat) (emin : Int) (op : RealOp) : Prop :=
  ∀ (v : List ℚ) (a : ℚ), (∀ x ∈ v, IsNumber p emin x) → op.Defined a →
    ∀ (i : Nat) (x : ℚ), v[i]? = some x →
      ∃ r, (realScalarAssign p emin op v a)[i]? = some (some r) ∧ IsNearest p emin (op.exact x a) r

/-- C106: the elements are correctly rounded if the scalar is a value of the container's type.
Missing: other scalars, see `C106_violated` and the error bounds below. -/
theorem C106_scalar_partial {p : Nat} (hp : 1 ≤ p) (emin : Int) (op : RealOp) (v : List ℚ) (a : ℚ) (ha : IsNumber p emin a)
    (hd : op.Defined a) (i : Nat) (x : ℚ) (hx : v[i]? = some x) :
    ∃ r, (realScalarAssign p emin op v a)[i]? = some (some r) ∧ IsNearest p emin (op.exact x a) r := by
  refine ⟨Binary.fl p emin (op.exact x a), ?_, fl_isNearest hp emin _⟩
  simp only [realScalarAssign, List.getElem?_map, hx, Option.map_some, isNumber_iff.1 ha, RealOp.eval_eq p emin op x hd]

example : ∃ r, (realScalarAssign 24 (-149) .mul [1, 1 / 4] 3)[1]? = some (some r) ∧ IsNearest 24 (-149) (1 / 4 * 3) r :=
  C106_scalar_partial (by norm_num) (-149) .mul [1, 1 / 4] 3 ⟨3, 0, by norm_num, by norm_num, by norm_num⟩
    (by simp [RealOp.Defined]) 1 (1 / 4) rfl

/-- C106: what is computed with any scalar. -/
theorem C106_exact (p : Nat) (emin : Int) (op : RealOp) (v : List ℚ) (a : ℚ) (hd : op.Defined (Binary.fl p emin a)) :
    realScalarAssign p emin op v a = v.map fun x => some (Binary.fl p emin (op.exact x (Binary.fl p emin a))) := by
  simp only [realScalarAssign]
  exact List.map_congr_left fun x _ => RealOp.eval_eq p emin op x hd

example : realScalarAssign 24 (-149) .add [1] (1 / 3) = [some (Binary.fl 24 (-149) (1 + Binary.fl 24 (-149) (1 / 3)))] :=
  C106_exact 24 (-149) .add [1] (1 / 3) (by simp [RealOp.Defined])

/-! ### A scalar in the middle of two numbers -/

section Tie

variable {p : Nat} {emin : Int}

theorem one_eq (p : Nat) (hp : 1 ≤ p) : (1 : ℚ) = ((2 ^ (p - 1) : Int) : ℚ) * 2 ^ (1 - p : Int) := by
  push_cast
  rw [← zpow_natCast, ← zpow_add₀ (by norm_num)]
  rw [show ((p - 1 : Nat) : Int) + (1 - p) = 0 by omega, zpow_zero]

theorem pow_half (p : Nat) : (2 : ℚ) ^ (1 - p : Int) = 2 * 2 ^ (-p : Int) := by
  rw [← zpow_one_add₀ (by norm_num)]
  congr 1

/-- `1 + k` last bits plus less than half a bit. -/
theorem fl_near_one (hp : 2 ≤ p) (he : emin ≤ 1 - p) (k : Int) {x : ℚ} (hx1 : 1 ≤ x) (hx2 : x < 2)
    (h : |x - (1 + k * (2 * 2 ^ (-p : Int)))| < 2 ^ (-p : Int)) :
    Binary.fl p emin x = 1 + k * (2 * 2 ^ (-p : Int)) := by
  have e1 := one_eq p (by omega)
  have e2 := pow_half p
  have e3 : ((2 ^ (p - 1) + k : Int) : ℚ) * 2 ^ (1 - p : Int) = 1 + k * (2 * 2 ^ (-p : Int)) := by
    conv_rhs => rw [e1, ← e2]
    push_cast
    ring
  rw [← e3]
  refine Binary.fl_eq he ?_ ?_ ?_
  · rw [show (1 - p : Int) + p - 1 = 0 by ring, zpow_zero]; exact hx1
  · rw [show (1 - p : Int) + p = 1 by ring, zpow_one]; exact hx2
  · rw [e3, e2]
    linarith

theorem roundEven_half {n : Int} (hn : n % 2 = 0) : roundEven (n + 1 / 2) = n := by
  have h1 : ⌊(n : ℚ) + 1 / 2⌋ = n := by
    rw [Int.floor_intCast_add]
    norm_num
  have h2 : Int.fract ((n : ℚ) + 1 / 2) = 1 / 2 := by
    rw [Int.fract, h1]; ring
  unfold roundEven
  rw [h1, h2, if_neg (by norm_num), if_neg (by norm_num), if_pos hn]

/-- One plus half a bit is rounded to one. -/
theorem fl_tie_one (hp : 2 ≤ p) (k : Int) (he : emin ≤ k + 1 - p) :
    Binary.fl p emin ((1 + 2 ^ (-p : Int)) * 2 ^ k) = 2 ^ k := by
  have hk : (0 : ℚ) < 2 ^ k := zpow_pos (by norm_num) _
  have hh : (0 : ℚ) < 2 ^ (-p : Int) := zpow_pos (by norm_num) _
  have hh1 : (2 : ℚ) ^ (-p : Int) < 1 := by
    have := (zpow_lt_zpow_iff_right₀ (a := (2 : ℚ)) (by norm_num)).2 (show (-p : Int) < 0 by omega)
    simpa using this
  have hE : exponent p emin ((1 + 2 ^ (-p : Int)) * 2 ^ k) = k + 1 - p := by
    refine exponent_eq he ?_ ?_
    · rw [show k + 1 - p + p - 1 = k by ring]; nlinarith
    · rw [show k + 1 - p + p = 1 + k by ring, zpow_one_add₀ (by norm_num)]; nlinarith
  have e1 := one_eq p (by omega)
  have e2 := pow_half p
  have h2 : (0 : ℚ) < 2 ^ (1 - p : Int) := zpow_pos (by norm_num) _
  have e3 : (2 : ℚ) ^ (k + 1 - p) = 2 ^ (1 - p : Int) * 2 ^ k := by
    rw [← zpow_add₀ (by norm_num)]; congr 1; ring
  have e4 : (1 + (2 : ℚ) ^ (-p : Int)) * 2 ^ k / 2 ^ (k + 1 - p) = ((2 ^ (p - 1) : Int) : ℚ) + 1 / 2 := by
    rw [e3, div_eq_iff (mul_pos h2 hk).ne', ← mul_assoc, add_mul (_ : ℚ) (1 / 2), ← e1, e2]
    ring
  rw [Binary.fl, hE, e4, roundEven_half, e3, ← mul_assoc, ← e1, one_mul]
  obtain ⟨q, rfl⟩ : ∃ q, p = q + 2 := ⟨p - 2, by omega⟩
  rw [show q + 2 - 1 = q + 1 by omega, pow_succ]
  omega

end Tie

/-- C106 is violated for every operator and every precision: e.g. with `float`s, `V += a` where `a` is a `double` a bit larger
than half the last bit of an element leaves this element unchanged. -/
theorem C106_violated {p : Nat} (hp : 2 ≤ p) {emin : Int} (he : emin ≤ 1 - 2 * p) (op : RealOp) : ¬ C106_Statement p emin op := by
  intro H
  have hh : (0 : ℚ) < 2 ^ (-p : Int) := zpow_pos (by norm_num) _
  have hh1 : (2 : ℚ) ^ (-p : Int) ≤ 1 / 4 := by
    have := (zpow_le_zpow_iff_right₀ (a := (2 : ℚ)) (by norm_num)).2 (show (-p : Int) ≤ -2 by omega)
    norm_num at this ⊢
    exact this
  have t0 := fl_tie_one (p := p) (emin := emin) hp 0 (by omega)
  have t1 := fl_tie_one (p := p) (emin := emin) hp (-p) (by omega)
  rw [zpow_zero, mul_one] at t0
  have n1 : IsNumber p emin 1 := by
    refine ⟨1, 0, ?_, by omega, by norm_num⟩
    have : (1 : Int) < 2 ^ p := one_lt_pow₀ (by norm_num) (by omega)
    simpa using this
  have n2 : IsNumber p emin (1 + 2 * 2 ^ (-p : Int)) := by
    rw [isNumber_iff]
    have := fl_near_one (emin := emin) hp (by omega) 1 (x := 1 + 2 * 2 ^ (-p : Int)) (by linarith) (by linarith) (by simp)
    simpa using this
  have f1 := isNumber_iff.1 n1
  have f2 := isNumber_iff.1 n2
  have up : ∀ x : ℚ, 1 + 2 ^ (-p : Int) < x → x < 1 + 3 * 2 ^ (-p : Int) → Binary.fl p emin x = 1 + 2 * 2 ^ (-p : Int) := by
    intro x h1 h2
    have := fl_near_one (emin := emin) hp (by omega) 1 (x := x) (by linarith) (by linarith) (by
      rw [abs_lt]; constructor <;> push_cast <;> linarith)
    simpa using this
  have up2 : ∀ x : ℚ, 1 + 3 * 2 ^ (-p : Int) < x → x < 2 → x < 1 + 5 * 2 ^ (-p : Int) →
      Binary.fl p emin x = 1 + 4 * 2 ^ (-p : Int) := by
    intro x h1 h0 h2
    have := fl_near_one (emin := emin) hp (by omega) 2 (x := x) (by linarith) h0 (by
      rw [abs_lt]; constructor <;> push_cast <;> linarith)
    rw [this]
    push_cast
    ring
  have down : ∀ x : ℚ, 1 ≤ x → x < 1 + 2 ^ (-p : Int) → Binary.fl p emin x = 1 := by
    intro x h1 h2
    have := fl_near_one (emin := emin) hp (by omega) 0 (x := x) h1 (by linarith) (by
      rw [abs_lt]; constructor <;> push_cast <;> linarith)
    simpa using this
  generalize (2 : ℚ) ^ (-p : Int) = h at *
  have n3 : IsNumber p emin (-1) := by
    rw [isNumber_iff, fl_neg, f1]
  cases op with
  | add =>
    obtain ⟨r, h1, h2⟩ := H [1] ((1 + h) * h) (by simpa using n1) (by simp [RealOp.Defined]) 0 1 rfl
    have h3 := isNearest_unique (by omega) h2
    simp only [realScalarAssign, RealOp.eval, t1, t0, List.map_cons, List.getElem?_cons_zero, Option.some.injEq] at h1
    rw [RealOp.exact, up _ (by nlinarith) (by nlinarith)] at h3
    linarith
  | sub =>
    obtain ⟨r, h1, h2⟩ := H [-1] ((1 + h) * h) (by simpa using n3) (by simp [RealOp.Defined]) 0 (-1) rfl
    have h3 := isNearest_unique (by omega) h2
    have e1 : -1 - h = -(1 + h) := by ring
    have e2 : -1 - (1 + h) * h = -(1 + (1 + h) * h) := by ring
    simp only [realScalarAssign, RealOp.eval, t1, e1, fl_neg, t0, List.map_cons, List.getElem?_cons_zero, Option.some.injEq] at h1
    rw [RealOp.exact, e2, fl_neg, up _ (by nlinarith) (by nlinarith)] at h3
    linarith
  | mul =>
    obtain ⟨r, h1, h2⟩ := H [1 + 2 * h] (1 + h) (by simpa using n2) (by simp [RealOp.Defined]) 0 _ rfl
    have h3 := isNearest_unique (by omega) h2
    simp only [realScalarAssign, RealOp.eval, t0, mul_one, f2, List.map_cons, List.getElem?_cons_zero, Option.some.injEq] at h1
    rw [RealOp.exact, up2 _ (by nlinarith) (by nlinarith) (by nlinarith)] at h3
    linarith
  | div =>
    obtain ⟨r, h1, h2⟩ := H [1 + 2 * h] (1 + h) (by simpa using n2) (by intro; linarith) 0 _ rfl
    have h3 := isNearest_unique (by omega) h2
    simp only [realScalarAssign, RealOp.eval, t0, one_ne_zero, if_false, div_one, f2, List.map_cons, List.getElem?_cons_zero,
      Option.some.injEq] at h1
    have h0 : 0 < 1 + h := by linarith
    rw [RealOp.exact, down _ (by rw [le_div_iff₀ h0]; linarith) (by rw [div_lt_iff₀ h0]; nlinarith)] at h3
    linarith

/-- With `float`s and `double`s: `1 + a` is not correctly rounded. -/
example : ¬ C106_Statement 24 (-149) .add := C106_violated (by norm_num) (by norm_num) .add

/-! ### Errors with any scalar -/

section Error

variable {p : Nat} {emin : Int}

theorem fl_normal {x : ℚ} (h : 2 ^ (emin + p - 1) ≤ |x|) : |Binary.fl p emin x - x| ≤ 1 / 2 ^ p * |x| := by
  have hx : x ≠ 0 := by
    rintro rfl
    have : (0 : ℚ) < 2 ^ (emin + p - 1) := zpow_pos (by norm_num) _
    rw [abs_zero] at h
    linarith
  refine fl_relative hx ?_
  have := (Int.zpow_le_iff_le_log (b := 2) (by norm_num) (abs_pos.2 hx)).1 (by exact_mod_cast h)
  omega

/-- C106: sums are computed with a relative error of twice the unit roundoff, with respect to the
operands, for a scalar which is not tiny.
Missing: correct rounding, see `C106_violated`. -/
theorem C106_sum_error_partial (hp : 1 ≤ p) (x a : ℚ) (hx : IsNumber p emin x) (ha : 2 ^ (emin + p - 1) ≤ |a|) :
    ∃ r, realScalarAssign p emin .add [x] a = [some r] ∧ |r - (x + a)| ≤ 1 / 2 ^ p * (|x + a| + (1 + 1 / 2 ^ p) * |a|) := by
  refine ⟨Binary.fl p emin (x + Binary.fl p emin a), rfl, ?_⟩
  have h1 := fl_normal ha
  have h2 := fl_sum p emin (isNumber_iff.1 hx) (fl_idem hp emin a)
  generalize Binary.fl p emin (x + Binary.fl p emin a) = r at *
  generalize Binary.fl p emin a = s at *
  have hu : (0 : ℚ) ≤ 1 / 2 ^ p := by positivity
  generalize (1 : ℚ) / 2 ^ p = u at *
  have h3 : |x + s| ≤ |x + a| + |s - a| := by
    have := abs_add_le (x + a) (s - a)
    rwa [show x + a + (s - a) = x + s by ring] at this
  have h4 : |r - (x + a)| ≤ |r - (x + s)| + |s - a| := by
    have := abs_add_le (r - (x + s)) (s - a)
    rwa [show r - (x + s) + (s - a) = r - (x + a) by ring] at this
  nlinarith

/-- C106: products are computed with a relative error of twice the unit roundoff, at the first order,
if nothing underflows.
Missing: correct rounding, see `C106_violated`. -/
theorem C106_product_error_partial (x a : ℚ) (ha : 2 ^ (emin + p - 1) ≤ |a|)
    (hr : 2 ^ (emin + p - 1) ≤ |x * Binary.fl p emin a|) :
    ∃ r, realScalarAssign p emin .mul [x] a = [some r] ∧ |r - x * a| ≤ (2 / 2 ^ p + (1 / 2 ^ p) ^ 2) * |x * a| := by
  refine ⟨Binary.fl p emin (x * Binary.fl p emin a), rfl, ?_⟩
  have h1 := fl_normal ha
  have h2 := fl_normal hr
  generalize Binary.fl p emin (x * Binary.fl p emin a) = r at *
  generalize Binary.fl p emin a = s at *
  have hu : (0 : ℚ) ≤ 1 / 2 ^ p := by positivity
  rw [show (2 : ℚ) / 2 ^ p = 2 * (1 / 2 ^ p) by ring]
  generalize (1 : ℚ) / 2 ^ p = u at *
  have h3 : |x * s - x * a| ≤ u * |x * a| := by
    rw [← mul_sub, abs_mul, abs_mul]
    nlinarith [abs_nonneg x]
  have h4 : |x * s| ≤ |x * a| + |x * s - x * a| := by
    have := abs_add_le (x * a) (x * s - x * a)
    rwa [show x * a + (x * s - x * a) = x * s by ring] at this
  have h5 : |r - x * a| ≤ |r - x * s| + |x * s - x * a| := by
    have := abs_add_le (r - x * s) (x * s - x * a)
    rwa [show r - x * s + (x * s - x * a) = r - x * a by ring] at this
  nlinarith

/-- C106: quotients are computed with a relative error of twice the unit roundoff, at the first order,
if nothing underflows.
Missing: correct rounding, see `C106_violated`. -/
theorem C106_quotient_error_partial (hp : 1 ≤ p) (x a : ℚ) (ha : 2 ^ (emin + p - 1) ≤ |a|)
    (hr : 2 ^ (emin + p - 1) ≤ |x / Binary.fl p emin a|) :
    ∃ r, realScalarAssign p emin .div [x] a = [some r] ∧ |r - x / a| ≤ 2 * (1 / 2 ^ p) / (1 - 1 / 2 ^ p) * |x / a| := by
  have h1 := fl_normal ha
  have hu : (0 : ℚ) ≤ 1 / 2 ^ p := by positivity
  have hu1 : (1 : ℚ) / 2 ^ p < 1 := by
    rw [div_lt_one (by positivity)]
    exact one_lt_pow₀ (by norm_num) (by omega)
  have ha0 : 0 < |a| := (zpow_pos (by norm_num) _).trans_le ha
  have hs0 : (1 - 1 / 2 ^ p) * |a| ≤ |Binary.fl p emin a| := by
    have := abs_sub_abs_le_abs_sub a (Binary.fl p emin a)
    rw [abs_sub_comm] at this
    linarith
  have hs1 : 0 < |Binary.fl p emin a| := (mul_pos (by linarith) ha0).trans_le hs0
  have hs : Binary.fl p emin a ≠ 0 := abs_pos.1 hs1
  refine ⟨Binary.fl p emin (x / Binary.fl p emin a), by simp [realScalarAssign, RealOp.eval, hs], ?_⟩
  have h2 := fl_normal hr
  generalize Binary.fl p emin (x / Binary.fl p emin a) = r at *
  generalize Binary.fl p emin a = s at *
  generalize (1 : ℚ) / 2 ^ p = u at *
  have hv : 0 < 1 - u := by linarith
  have h3 : |x / s - x / a| ≤ u / (1 - u) * |x / a| := by
    have e : x / s - x / a = (a - s) / s * (x / a) := by
      have : a ≠ 0 := abs_pos.1 ha0
      field_simp
    rw [e, abs_mul, abs_div, abs_sub_comm]
    refine mul_le_mul_of_nonneg_right ?_ (abs_nonneg _)
    rw [div_le_div_iff₀ hs1 hv]
    nlinarith
  have h4 : |x / s| ≤ |x / a| + |x / s - x / a| := by
    have := abs_add_le (x / a) (x / s - x / a)
    rwa [show x / a + (x / s - x / a) = x / s by ring] at this
  have h5 : |r - x / a| ≤ |r - x / s| + |x / s - x / a| := by
    have := abs_add_le (r - x / s) (x / s - x / a)
    rwa [show r - x / s + (x / s - x / a) = r - x / a by ring] at this
  have e : 2 * u / (1 - u) * |x / a| = u * |x / a| + (1 + u) * (u / (1 - u) * |x / a|) := by
    field_simp
    ring
  rw [e]
  nlinarith

end Error

/-- A `float` multiplied by a tenth. -/
example : ∃ r, realScalarAssign 24 (-149) .mul [3] (1 / 10) = [some r] ∧
    |r - 3 * (1 / 10)| ≤ (2 / 2 ^ 24 + (1 / 2 ^ 24) ^ 2) * |3 * (1 / 10)| := by
  have h : Binary.fl 24 (-149) (1 / 10) = 13421773 * 2 ^ (-27 : Int) :=
    Binary.fl_eq (e := -27) (m := 13421773) (by norm_num) (by norm_num [zpow_neg]) (by norm_num [zpow_neg])
      (by norm_num [zpow_neg, abs_lt])
  refine C106_product_error_partial 3 (1 / 10) ?_ ?_
  · norm_num [abs_of_pos]
  · rw [h]; norm_num [abs_of_pos]

/-! ## Division by small scalars -/

/-- C106: a scalar which is not null, but less than half of the smallest positive value of the container's type, is converted
to zero: no quotient is a finite number. -/
theorem C106_tiny_divisor (p : Nat) (emin : Int) (v : List ℚ) (a : ℚ) (ha : |a| < 2 ^ emin / 2) :
    realScalarAssign p emin .div v a = v.map fun _ => none := by
  have h0 : Binary.fl p emin a = 0 := by
    by_cases h : a = 0
    · rw [h, fl_zero]
    have hE : (0 : ℚ) < 2 ^ emin := zpow_pos (by norm_num) _
    have hlog : Int.log 2 |a| < emin := by
      refine (Int.lt_zpow_iff_log_lt (by norm_num) (abs_pos.2 h)).1 ?_
      push_cast
      linarith
    have e : exponent p emin a = emin := by unfold exponent; omega
    rw [Binary.fl, e, roundEven_eq (m := 0)]
    · simp
    · rw [Int.cast_zero, sub_zero, abs_div, abs_of_pos hE, div_lt_iff₀ hE]; linarith
  simp [realScalarAssign, RealOp.eval, h0]

/-- With the smallest positive `float` and its fourth as a `double`, the quotient is not 4. -/
example : realScalarAssign 24 (-149) .div [2 ^ (-149 : Int)] (2 ^ (-151 : Int)) = [none] :=
  C106_tiny_divisor 24 (-149) _ _ (by norm_num [abs_of_pos, zpow_neg])

/-- C106: as soon as the scalar reaches the smallest positive value, quotients are numbers. -/
theorem C106_divisor {p : Nat} (hp : 1 ≤ p) (emin : Int) (v : List ℚ) (a : ℚ) (ha : 2 ^ emin ≤ |a|) :
    ∀ r ∈ realScalarAssign p emin .div v a, r ≠ none := by
  have hE : (0 : ℚ) < 2 ^ emin := zpow_pos (by norm_num) _
  have hn : Binary.fl p emin (2 ^ emin) = 2 ^ emin := by
    refine isNumber_iff.1 ⟨1, emin, ?_, le_rfl, by norm_num⟩
    rw [abs_one]
    exact one_lt_pow₀ (by norm_num) (by omega)
  have h0 : Binary.fl p emin a ≠ 0 := by
    rcases le_total 0 a with h | h
    · rw [abs_of_nonneg h] at ha
      have := fl_mono hp emin ha
      rw [hn] at this
      linarith
    · rw [abs_of_nonpos h] at ha
      have := fl_mono hp emin ha
      rw [hn, fl_neg] at this
      linarith
  simp [realScalarAssign, RealOp.eval, h0]

example : ∀ r ∈ realScalarAssign 24 (-149) .div [1, 2] (1 / 10 ^ 40), r ≠ none :=
  C106_divisor (by norm_num) (-149) [1, 2] (1 / 10 ^ 40) (by norm_num [abs_of_pos, zpow_neg])

/-! ## Laws -/

/-- C106: addition and multiplication of containers are commutative. -/
theorem C106_commutative (p : Nat) (emin : Int) (op : RealOp) (hop : op = .add ∨ op = .mul) (v u : List ℚ)
    (hl : v.length = u.length) : realVectorAssign p emin op v u = realVectorAssign p emin op u v := by
  induction v generalizing u with
  | nil => cases u with
    | nil => rfl
    | cons f u => simp at hl
  | cons e v ih =>
    cases u with
    | nil => simp at hl
    | cons f u =>
      simp only [realVectorAssign, ih u (by simpa using hl)]
      have : op.eval p emin e f = op.eval p emin f e := by
        rcases hop with rfl | rfl <;> simp only [RealOp.eval, add_comm, mul_comm]
      rw [this]

example : realVectorAssign 24 (-149) .add [1, 2] [3, 4] = realVectorAssign 24 (-149) .add [3, 4] [1, 2] :=
  C106_commutative 24 (-149) .add (.inl rfl) [1, 2] [3, 4] rfl

/-- C106: neutral scalars leave the numbers unchanged. -/
theorem C106_neutral {p : Nat} (hp : 1 ≤ p) {emin : Int} (he : emin ≤ 0) (v : List ℚ) (hv : ∀ x ∈ v, IsNumber p emin x) :
    realScalarAssign p emin .add v 0 = v.map some ∧ realScalarAssign p emin .sub v 0 = v.map some ∧
      realScalarAssign p emin .mul v 1 = v.map some ∧ realScalarAssign p emin .div v 1 = v.map some := by
  have h1 : Binary.fl p emin 1 = 1 := by
    refine isNumber_iff.1 ⟨1, 0, ?_, he, by norm_num⟩
    rw [abs_one]
    exact one_lt_pow₀ (by norm_num) (by omega)
  refine ⟨?_, ?_, ?_, ?_⟩ <;> refine List.map_congr_left fun x hx => ?_ <;>
    simp [RealOp.eval, h1, fl_zero, isNumber_iff.1 (hv x hx)]

example : realScalarAssign 24 (-149) .mul [1 / 2, 3] 1 = [some (1 / 2), some 3] :=
  (C106_neutral (by norm_num) (by norm_num) [1 / 2, 3] (by
    intro x hx
    simp only [List.mem_cons, List.not_mem_nil, or_false] at hx
    rcases hx with rfl | rfl
    · exact ⟨1, -1, by norm_num, by norm_num, by norm_num⟩
    · exact ⟨3, 0, by norm_num, by norm_num, by norm_num⟩)).2.2.1

/-- C106: operators preserve the order of the elements: adding, subtracting, or multiplying or dividing by a positive scalar. -/
theorem C106_order {p : Nat} (hp : 1 ≤ p) (emin : Int) (op : RealOp) (a x y : ℚ)
    (ha : (op = .mul → 0 ≤ a) ∧ (op = .div → 2 ^ emin ≤ a)) (hxy : x ≤ y) :
    ∃ r s, realScalarAssign p emin op [x, y] a = [some r, some s] ∧ r ≤ s := by
  have hE : (0 : ℚ) < 2 ^ emin := zpow_pos (by norm_num) _
  have hn : Binary.fl p emin (2 ^ emin) = 2 ^ emin := by
    refine isNumber_iff.1 ⟨1, emin, ?_, le_rfl, by norm_num⟩
    rw [abs_one]
    exact one_lt_pow₀ (by norm_num) (by omega)
  cases op with
  | add => exact ⟨_, _, rfl, fl_mono hp emin (by linarith)⟩
  | sub => exact ⟨_, _, rfl, fl_mono hp emin (by linarith)⟩
  | mul =>
    refine ⟨_, _, rfl, fl_mono hp emin ?_⟩
    exact mul_le_mul_of_nonneg_right hxy (fl_nonneg (ha.1 rfl))
  | div =>
    have h0 : 0 < Binary.fl p emin a := by
      have := fl_mono hp emin (ha.2 rfl)
      rw [hn] at this
      linarith
    refine ⟨Binary.fl p emin (x / Binary.fl p emin a), Binary.fl p emin (y / Binary.fl p emin a), by
      simp only [realScalarAssign, RealOp.eval, List.map_cons, List.map_nil, h0.ne', if_false], fl_mono hp emin ?_⟩
    exact div_le_div_of_nonneg_right hxy h0.le

example : ∃ r s, realScalarAssign 24 (-149) .div [1, 2] 3 = [some r, some s] ∧ r ≤ s :=
  C106_order (by norm_num) (-149) .div 3 1 2 ⟨by simp, by norm_num [zpow_neg]⟩ (by norm_num)

/-- C106: a difference is null for equal numbers only, thanks to gradual underflow. -/
theorem C106_difference_zero {p : Nat} (hp : 1 ≤ p) (emin : Int) (x y : ℚ) (hx : IsNumber p emin x) (hy : IsNumber p emin y) :
    realVectorAssign p emin .sub [x] [y] = .ok [some 0] ↔ x = y := by
  have e : realVectorAssign p emin .sub [x] [y] = .ok [some (Binary.fl p emin (x - y))] := rfl
  rw [e]
  simp only [Except.ok.injEq, List.cons.injEq, Option.some.injEq, and_true]
  constructor
  · intro h
    obtain ⟨m, hm⟩ := fl_multiple_emin (isNumber_iff.1 hx)
    obtain ⟨n, hn⟩ := fl_multiple_emin (isNumber_iff.1 hy)
    have hd : x - y = ((m - n : Int) : ℚ) * 2 ^ emin := by rw [hm, hn]; push_cast; ring
    have hE : (0 : ℚ) < 2 ^ emin := zpow_pos (by norm_num) _
    have hn1 : Binary.fl p emin (2 ^ emin) = 2 ^ emin := by
      refine isNumber_iff.1 ⟨1, emin, ?_, le_rfl, by norm_num⟩
      rw [abs_one]
      exact one_lt_pow₀ (by norm_num) (by omega)
    by_contra hne
    have hk : m - n ≠ 0 := by
      intro h0
      rw [h0] at hd
      simp only [Int.cast_zero, zero_mul] at hd
      exact hne (by linarith)
    rcases lt_or_gt_of_ne hk with hlt | hlt
    · have h1 : ((m - n : Int) : ℚ) ≤ -1 := by
        have : m - n ≤ -1 := by omega
        exact_mod_cast this
      have h2 : (2 : ℚ) ^ emin ≤ -(x - y) := by rw [hd]; nlinarith
      have h3 := fl_mono hp emin h2
      rw [hn1, fl_neg, h] at h3
      linarith
    · have h1 : (1 : ℚ) ≤ ((m - n : Int) : ℚ) := by
        have : 1 ≤ m - n := by omega
        exact_mod_cast this
      have h2 : (2 : ℚ) ^ emin ≤ x - y := by rw [hd]; nlinarith
      have h3 := fl_mono hp emin h2
      rw [hn1, h] at h3
      linarith
  · rintro rfl
    rw [sub_self, fl_zero]

example : realVectorAssign 24 (-149) .sub [1] [1] = .ok [some 0] :=
  (C106_difference_zero (by norm_num) (-149) 1 1 ⟨1, 0, by norm_num, by norm_num, by norm_num⟩
    ⟨1, 0, by norm_num, by norm_num, by norm_num⟩).2 rfl

/-- C106: differences of close numbers are exact. -/
theorem C106_difference_exact (p : Nat) (emin : Int) (x y : ℚ) (hx : IsNumber p emin x) (hy : IsNumber p emin y)
    (h1 : y / 2 ≤ x) (h2 : x ≤ 2 * y) : realVectorAssign p emin .sub [x] [y] = .ok [some (x - y)] := by
  have hd1 : |x - y| ≤ |x| := by
    rw [abs_of_nonneg (by linarith : 0 ≤ x), abs_le]; constructor <;> linarith
  have hd2 : |x - y| ≤ |y| := by
    rw [abs_of_nonneg (by linarith : 0 ≤ y), abs_le]; constructor <;> linarith
  have key : IsNumber p emin (x - y) := by
    obtain ⟨m, e, hm, he, hxe⟩ := hx
    obtain ⟨n, f, hn, hf, hyf⟩ := hy
    rcases le_total e f with hef | hef
    · obtain ⟨k, hk⟩ := multiple_of_le hef n
      have h2 : (0 : ℚ) < 2 ^ e := zpow_pos (by norm_num) _
      have e1 : x - y = ((m - k : Int) : ℚ) * 2 ^ e := by rw [hxe, hyf, hk]; push_cast; ring
      refine ⟨m - k, e, ?_, he, e1⟩
      rw [e1, hxe, abs_mul, abs_mul] at hd1
      have h3 := le_of_mul_le_mul_right hd1 (abs_pos.2 h2.ne')
      have h4 : |m - k| ≤ |m| := by exact_mod_cast h3
      omega
    · obtain ⟨k, hk⟩ := multiple_of_le hef m
      have h2 : (0 : ℚ) < 2 ^ f := zpow_pos (by norm_num) _
      have e1 : x - y = ((k - n : Int) : ℚ) * 2 ^ f := by rw [hxe, hyf, hk]; push_cast; ring
      refine ⟨k - n, f, ?_, hf, e1⟩
      rw [e1, hyf, abs_mul, abs_mul] at hd2
      have h3 := le_of_mul_le_mul_right hd2 (abs_pos.2 h2.ne')
      have h4 : |k - n| ≤ |n| := by exact_mod_cast h3
      omega
  have e : realVectorAssign p emin .sub [x] [y] = .ok [some (Binary.fl p emin (x - y))] := rfl
  rw [e, isNumber_iff.1 key]

example : realVectorAssign 24 (-149) .sub [1 + 1 / 2 ^ 23] [1] = .ok [some (1 + 1 / 2 ^ 23 - 1)] :=
  C106_difference_exact 24 (-149) _ _ ⟨8388609, -23, by norm_num, by norm_num, by norm_num [zpow_neg]⟩
    ⟨1, 0, by norm_num, by norm_num, by norm_num⟩ (by norm_num) (by norm_num)

/-- C106: multiplying and dividing by the same scalar gives the numbers back. -/
def C106_Inverse_Statement (p : Nat) (emin : Int) : Prop :=
  ∀ x a : ℚ, IsNumber p emin x → IsNumber p emin a → 1 ≤ x → 1 ≤ a →
    ∀ r, realScalarAssign p emin .mul [x] a = [some r] → realScalarAssign p emin .div [r] a = [some x]

/-- C106: no precision allows for dividing back: the largest number below 2, multiplied by the smallest number above 1, is 2. -/
theorem C106_inverse_violated {p : Nat} (hp : 3 ≤ p) {emin : Int} (he : emin ≤ 1 - p) : ¬ C106_Inverse_Statement p emin := by
  intro H
  have hh : (0 : ℚ) < 2 ^ (-p : Int) := zpow_pos (by norm_num) _
  have hh1 : (2 : ℚ) ^ (-p : Int) ≤ 1 / 8 := by
    have := (zpow_le_zpow_iff_right₀ (a := (2 : ℚ)) (by norm_num)).2 (show (-p : Int) ≤ -3 by omega)
    norm_num at this ⊢
    exact this
  have e1 := one_eq p (by omega)
  have e2 := pow_half p
  -- numbers between 1 and 2
  have num : ∀ k : Int, 1 ≤ 1 + (k : ℚ) * (2 * 2 ^ (-p : Int)) → 1 + (k : ℚ) * (2 * 2 ^ (-p : Int)) < 2 →
      IsNumber p emin (1 + k * (2 * 2 ^ (-p : Int))) := by
    intro k h1 h2
    exact isNumber_iff.2 (fl_near_one (by omega) he k h1 h2 (by simp))
  have nx : IsNumber p emin (2 - 2 * 2 ^ (-p : Int)) := by
    have := num (2 ^ (p - 1) - 1) (by
      push_cast; rw [sub_mul, ← e2]; push_cast at e1; rw [← e1, e2]; linarith) (by
      push_cast; rw [sub_mul, ← e2]; push_cast at e1; rw [← e1, e2]; linarith)
    push_cast at this e1
    rw [sub_mul, ← e2, ← e1, e2] at this
    rw [show (2 : ℚ) - 2 * 2 ^ (-p : Int) = 1 + (1 - 1 * (2 * 2 ^ (-p : Int))) by ring]
    exact this
  have na : IsNumber p emin (1 + 2 * 2 ^ (-p : Int)) := by
    have := num 1 (by push_cast; linarith) (by push_cast; linarith)
    simpa using this
  -- the product
  have hprod : Binary.fl p emin ((2 - 2 * 2 ^ (-p : Int)) * (1 + 2 * 2 ^ (-p : Int))) = 2 := by
    have e3 : ((2 ^ (p - 1) : Int) : ℚ) * 2 ^ (2 - p : Int) = 2 := by
      rw [show (2 - p : Int) = 1 + (1 - p) by ring, zpow_one_add₀ (by norm_num), mul_left_comm, ← e1, mul_one]
    have e4 : (2 : ℚ) ^ (2 - p : Int) = 4 * 2 ^ (-p : Int) := by
      rw [show (2 - p : Int) = 1 + (1 - p) by ring, zpow_one_add₀ (by norm_num), e2]; ring
    rw [Binary.fl_eq (e := 2 - p) (m := 2 ^ (p - 1)) (by omega), e3]
    · rw [show (2 - p : Int) + p - 1 = 1 by ring, zpow_one]; nlinarith
    · rw [show (2 - p : Int) + p = 2 by ring]
      have : (2 : ℚ) ^ (2 : Int) = 4 := by norm_num
      rw [this]
      nlinarith
    · rw [e3, e4, abs_lt]; constructor <;> nlinarith
  have hquot : Binary.fl p emin (2 / (1 + 2 * 2 ^ (-p : Int))) = 2 - 4 * 2 ^ (-p : Int) := by
    have h0 : (0 : ℚ) < 1 + 2 * 2 ^ (-p : Int) := by linarith
    have := fl_near_one (p := p) (emin := emin) (by omega) he (2 ^ (p - 1) - 2) (x := 2 / (1 + 2 * 2 ^ (-p : Int)))
      (by rw [le_div_iff₀ h0]; linarith) (by rw [div_lt_iff₀ h0]; linarith) (by
        push_cast; push_cast at e1
        rw [sub_mul, ← e2, ← e1, e2, abs_lt]
        constructor
        · rw [lt_sub_iff_add_lt, lt_div_iff₀ h0]; nlinarith
        · rw [sub_lt_iff_lt_add, div_lt_iff₀ h0]; nlinarith)
    rw [this]
    push_cast; push_cast at e1
    rw [sub_mul, ← e2, ← e1, e2]
    ring
  have := H _ _ nx na (by linarith) (by linarith) 2 (by
    simp only [realScalarAssign, RealOp.eval, isNumber_iff.1 na, List.map_cons, List.map_nil, hprod])
  have h0 : (1 : ℚ) + 2 * 2 ^ (-p : Int) ≠ 0 := by linarith
  simp only [realScalarAssign, RealOp.eval, isNumber_iff.1 na, List.map_cons, List.map_nil, if_neg h0, hquot, List.cons.injEq,
    Option.some.injEq, and_true] at this
  linarith

example : ¬ C106_Inverse_Statement 24 (-149) := C106_inverse_violated (by norm_num) (by norm_num)

/-- C106: multiplying and dividing by a power of two is exact as long as the results do not underflow.
Missing: other scalars, see `C106_inverse_violated`. -/
theorem C106_inverse_partial {p : Nat} (hp : 1 ≤ p) {emin k : Int} (hk : emin ≤ k) (x : ℚ) (hx : IsNumber p emin x)
    (hn : x ≠ 0 → 2 ^ (emin + p - 1) ≤ |x * 2 ^ k|) :
    realScalarAssign p emin .mul [x] (2 ^ k) = [some (x * 2 ^ k)] ∧
      realScalarAssign p emin .div [x * 2 ^ k] (2 ^ k) = [some x] := by
  have h2 : (0 : ℚ) < 2 ^ k := zpow_pos (by norm_num) _
  have na : Binary.fl p emin (2 ^ k) = 2 ^ k := by
    refine isNumber_iff.1 ⟨1, k, ?_, hk, by norm_num⟩
    rw [abs_one]
    exact one_lt_pow₀ (by norm_num) (by omega)
  have nr : Binary.fl p emin (x * 2 ^ k) = x * 2 ^ k := by
    by_cases h0 : x = 0
    · rw [h0, zero_mul, fl_zero]
    obtain ⟨m, e, hm, he, hxe⟩ := hx
    refine isNumber_iff.1 ⟨m, e + k, hm, ?_, by rw [hxe, zpow_add₀ (by norm_num), mul_assoc]⟩
    have h3 := hn h0
    have hE : (0 : ℚ) < 2 ^ (e + k) := zpow_pos (by norm_num) _
    rw [hxe, mul_assoc, ← zpow_add₀ (by norm_num), abs_mul, abs_of_pos hE] at h3
    have h4 : |(m : ℚ)| < 2 ^ (p : Int) := by
      rw [zpow_natCast]
      exact_mod_cast hm
    have h5 : (2 : ℚ) ^ (emin + p - 1) < 2 ^ (p + (e + k)) := by
      rw [zpow_add₀ (by norm_num) (p : Int)]
      exact h3.trans_lt (mul_lt_mul_of_pos_right h4 hE)
    have := (zpow_lt_zpow_iff_right₀ (by norm_num)).1 h5
    omega
  refine ⟨?_, ?_⟩
  · simp only [realScalarAssign, RealOp.eval, na, nr, List.map_cons, List.map_nil]
  · simp only [realScalarAssign, RealOp.eval, na, if_neg h2.ne', mul_div_cancel_right₀ x h2.ne', isNumber_iff.1 hx,
      List.map_cons, List.map_nil]

example : realScalarAssign 24 (-149) .div [3 * 2 ^ (-10 : Int)] (2 ^ (-10 : Int)) = [some 3] :=
  (C106_inverse_partial (by norm_num) (by norm_num) 3 ⟨3, 0, by norm_num, by norm_num, by norm_num⟩ (by
    norm_num [zpow_neg])).2

/-! ## Increments -/

/-- C106: counters of floating point type count up to the precision, -/
theorem C106_increment (p : Nat) {emin : Int} (he : emin ≤ 0) (v : List Nat) (hv : ∀ n ∈ v, n + 1 < 2 ^ p) :
    realIncrement p emin (v.map fun n : Nat => (n : ℚ)) = v.map fun n : Nat => ((n + 1 : Nat) : ℚ) := by
  rw [realIncrement, List.map_map]
  refine List.map_congr_left fun n hn => ?_
  have h := fl_intCast (p := p) he (n := n + 1) (by
    rw [abs_of_nonneg (by omega)]
    exact_mod_cast hv n hn)
  simp only [Function.comp]
  push_cast at h ⊢
  exact h

example : realIncrement 24 (-149) ([0, 16777214].map fun n : Nat => (n : ℚ)) = [0, 16777214].map fun n : Nat => ((n + 1 : Nat) : ℚ) :=
  C106_increment 24 (emin := -149) (by norm_num) [0, 16777214] (by simp)

/-- and never above the next power of two. -/
theorem C106_increment_stuck {p : Nat} (hp : 2 ≤ p) {emin : Int} (he : emin ≤ 0) (v : List ℚ)
    (hv : ∀ x ∈ v, IsNumber p emin x ∧ 2 ^ (p + 1) ≤ x) : realIncrement p emin v = v := by
  conv_rhs => rw [← List.map_id v]
  refine List.map_congr_left fun x hx => ?_
  obtain ⟨h1, h2⟩ := hv x hx
  have hf := isNumber_iff.1 h1
  have hx0 : 0 < x := lt_of_lt_of_le (by positivity) h2
  have hlog : (p : Int) + 1 ≤ Int.log 2 |x| := by
    refine (Int.zpow_le_iff_le_log (by norm_num) (abs_pos.2 hx0.ne')).1 ?_
    rw [abs_of_pos hx0]
    exact_mod_cast h2
  have hn := fl_isNearest (p := p) (by omega) emin (x + 1)
  -- neighbours of `x` are at least at distance 4
  have hEx : exponent p emin x = Int.log 2 |x| - p + 1 := by unfold exponent; omega
  have hx2 := lt_pow_log x
  rw [abs_of_pos hx0] at hx2
  obtain ⟨m, hm⟩ := fl_eq_multiple hf
  rw [hEx] at hm
  rw [abs_of_pos hx0] at hm hlog
  set L := Int.log 2 x with hL
  have hE4 : (4 : ℚ) ≤ 2 ^ (L - p + 1) := by
    have := (zpow_le_zpow_iff_right₀ (a := (2 : ℚ)) (by norm_num)).2 (show (2 : Int) ≤ L - p + 1 by omega)
    norm_num at this ⊢
    exact this
  have h3 : x + 1 < 2 ^ (L + 1) := by
    have e : (2 : ℚ) ^ (L + 1) = ((2 ^ p : Int) : ℚ) * 2 ^ (L - p + 1) := by
      push_cast
      rw [← zpow_natCast, ← zpow_add₀ (by norm_num)]
      congr 1
      ring
    rw [e] at hx2 ⊢
    rw [hm] at hx2 ⊢
    have h4 := lt_of_mul_lt_mul_right hx2 (by linarith)
    have h5 : m < 2 ^ p := by exact_mod_cast h4
    have h6 : ((m + 1 : Int) : ℚ) ≤ ((2 ^ p : Int) : ℚ) := by exact_mod_cast h5
    push_cast at h6 ⊢
    nlinarith
  have hl : (2 : ℚ) ^ L ≤ x := by
    have := pow_log_le hx0.ne'
    rwa [abs_of_pos hx0, ← hL] at this
  have := Binary.fl_eq (p := p) (emin := emin) (e := L - p + 1) (x := x + 1) (m := m) (by omega) (by
    rw [show L - p + 1 + p - 1 = L by ring]; linarith) (by
    rw [show L - p + 1 + p = L + 1 by ring]; exact h3) (by
    rw [← hm]; rw [show x + 1 - x = 1 by ring, abs_one]; linarith)
  rw [this, ← hm, id]

/-- `++V` for `float`s: 33554432 is unchanged. -/
example : realIncrement 24 (-149) [33554432] = [33554432] :=
  C106_increment_stuck (by norm_num) (by norm_num) _ (by
    intro x hx
    rw [List.mem_singleton.1 hx]
    exact ⟨⟨1, 25, by norm_num, by norm_num, by norm_num⟩, by norm_num⟩)

end Litl.Container
