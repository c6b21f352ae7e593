import Verif.Model.Interpolation
import Verif.Spec.Interpolation
import Verif.Spec.Geometry
import Verif.Lemmas.Index
import Mathlib.Algebra.BigOperators.Group.List.Basic
import Mathlib.Algebra.BigOperators.Ring.List
import Mathlib.Algebra.Order.Field.Basic
import Mathlib.Algebra.Order.Ring.Abs
import Mathlib.Tactic.Ring
import Mathlib.Tactic.Linarith
import Mathlib.Tactic.FieldSimp
import Mathlib.Tactic.LinearCombination

/-!
# Lemmas on interpolation
-/

set_option linter.unusedSectionVars false

namespace Litl

open Spec

variable {K : Type _} [Field K] [LinearOrder K] [IsStrictOrderedRing K] [FloorRing K]

/-! ## Conversions -/

theorem toIndex_of_nonneg {x : K} (h : 0 ≤ x) : toIndex x = ⌊x⌋ := if_pos h

theorem toIndex_of_neg {x : K} (h : x < 0) : toIndex x = ⌈x⌉ := if_neg (not_le.2 h)

/-- `floor<Index>` is the floor but for negative integers. -/
theorem floorIndex_eq (x : K) : (floorIndex x = ⌊x⌋ ∧ ¬ (x < 0 ∧ x = ⌊x⌋)) ∨ (x < 0 ∧ x = ⌊x⌋ ∧ floorIndex x = ⌊x⌋ - 1) := by
  unfold floorIndex
  by_cases h : x < 0
  · rw [toIndex_of_neg h, if_pos h]
    by_cases hx : x = ⌊x⌋
    · refine .inr ⟨h, hx, ?_⟩
      have : ⌈x⌉ = ⌊x⌋ := by conv_lhs => rw [hx, Int.ceil_intCast]
      rw [this]
    · refine .inl ⟨?_, fun h' => hx h'.2⟩
      have h1 : ⌊x⌋ < ⌈x⌉ := by
        rw [Int.lt_ceil]
        exact lt_of_le_of_ne (Int.floor_le x) (Ne.symm hx)
      have h2 : ⌈x⌉ ≤ ⌊x⌋ + 1 := Int.ceil_le_floor_add_one x
      omega
  · rw [toIndex_of_nonneg (not_lt.1 h), if_neg h, sub_zero]
    exact .inl ⟨rfl, fun h' => h h'.1⟩

theorem floorIndex_bounds (x : K) : (floorIndex x : K) ≤ x ∧ x ≤ floorIndex x + 1 := by
  have h1 := Int.floor_le x
  have h2 := Int.lt_floor_add_one x
  rcases floorIndex_eq x with ⟨h, _⟩ | ⟨_, hx, h⟩
  · rw [h]; exact ⟨h1, h2.le⟩
  · rw [h]
    push_cast
    constructor <;> linarith

/-! ## Separable interpolation -/

theorem sum_map_comm {ι κ : Type _} (l : List ι) (m : List κ) (f : ι → κ → K) :
    (l.map fun a => (m.map fun b => f a b).sum).sum = (m.map fun b => (l.map fun a => f a b).sum).sum := by
  induction l with
  | nil => simp
  | cons a l ih => simp [ih, List.sum_map_add]

theorem sum_flatMap {ι κ : Type _} (l : List ι) (m : ι → List κ) (f : κ → K) :
    ((l.flatMap m).map f).sum = (l.map fun a => ((m a).map f).sum).sum := by
  induction l with
  | nil => simp
  | cons a l ih => simp [ih]

theorem interpolation_nil (w : K → List (Int × K)) (g : List Int → K) : interpolation w g [] = g [] := by
  simp [interpolation, nodes]

theorem interpolation_cons (w : K → List (Int × K)) (g : List Int → K) (x : K) (xs : List K) :
    interpolation w g (x :: xs) =
      ((w x).map fun kw => kw.2 * interpolation w (fun p => g (kw.1 :: p)) xs).sum := by
  unfold interpolation
  rw [nodes, sum_flatMap]
  congr 1
  apply List.map_congr_left
  intro kw _
  rw [List.map_map, ← List.sum_map_mul_left]
  congr 1
  apply List.map_congr_left
  intro pv _
  simp only [Function.comp]
  ring

theorem interpolation_snoc (w : K → List (Int × K)) (g : List Int → K) (xs : List K) (x : K) :
    interpolation w g (xs ++ [x]) =
      ((w x).map fun kw => kw.2 * interpolation w (fun p => g (p ++ [kw.1])) xs).sum := by
  induction xs generalizing g with
  | nil => simp [interpolation_cons, interpolation_nil]
  | cons y ys ih =>
    rw [List.cons_append, interpolation_cons]
    simp only [ih, interpolation_cons]
    simp only [← List.sum_map_mul_left]
    rw [sum_map_comm]
    congr 1
    apply List.map_congr_left
    intro kw _
    congr 1
    apply List.map_congr_left
    intro kw' _
    simp only [List.cons_append]
    ring

/-- The value only depends on the values at nodes of non-null weights. -/
theorem interpolation_congr (w : K → List (Int × K)) (R : Int → K → Prop)
    (hw : ∀ x, ∀ kw ∈ w x, kw.2 ≠ 0 → R kw.1 x) :
    ∀ (xs : List K) (g g' : List Int → K), (∀ p, List.Forall₂ R p xs → g p = g' p) →
      interpolation w g xs = interpolation w g' xs := by
  intro xs
  induction xs with
  | nil =>
    intro g g' h
    rw [interpolation_nil, interpolation_nil, h [] .nil]
  | cons x xs ih =>
    intro g g' h
    rw [interpolation_cons, interpolation_cons]
    congr 1
    apply List.map_congr_left
    intro kw hkw
    by_cases h0 : kw.2 = 0
    · simp [h0]
    · congr 1
      exact ih _ _ fun p hp => h _ (.cons (hw x kw hkw h0) hp)

/-! ## Linear interpolation -/

/-- Reflection of a position with respect to the center of the pixel which `floor<Index>` tells. -/
def mirror (x : K) : K := 2 * floorIndex x + 1 - x

theorem linear_step (g : Int → K) (x : K) :
    linearFormula (x - floorIndex x) (g (floorIndex x)) (g (floorIndex x + 1)) =
      ((linearNodes (mirror x)).map fun kw => kw.2 * g kw.1).sum := by
  have hb := floorIndex_bounds x
  unfold linearFormula linearNodes mirror
  generalize floorIndex x = f at *
  simp only [List.map_cons, List.map_nil, List.sum_cons, List.sum_nil, add_zero]
  rcases eq_or_lt_of_le hb.1 with h | h
  · have e : (2 * f + 1 - x : K) = ((f + 1 : Int) : K) := by push_cast; linarith
    rw [e, Int.floor_intCast]
    have : x - f = 0 := by linarith
    rw [this]
    ring
  · have e : ⌊(2 * f + 1 - x : K)⌋ = f := by
      rw [Int.floor_eq_iff]
      constructor <;> linarith
    rw [e]
    ring

theorem linearRev_eq (r : Position → Res K) (g : Position → K) : ∀ (xs : List K) (idx : Position), xs ≠ [] →
    (∀ p, Within 1 p xs.reverse → r (p ++ idx) = .ok (g (p ++ idx))) →
    linearRev r xs idx = .ok (multilinear (fun p => g (p ++ idx)) (xs.reverse.map mirror)) := by
  intro xs
  induction xs with
  | nil => intro idx h; exact absurd rfl h
  | cons x t ih =>
    intro idx _ h
    have hb := floorIndex_bounds x
    have w0 : |((floorIndex x : Int) : K) - x| ≤ 1 := by rw [abs_le]; constructor <;> linarith
    have w1 : |((floorIndex x + 1 : Int) : K) - x| ≤ 1 := by
      push_cast; rw [abs_le]; constructor <;> linarith
    cases t with
    | nil =>
      have h0 := h [floorIndex x] (.cons w0 .nil)
      have h1 := h [floorIndex x + 1] (.cons w1 .nil)
      simp only [List.cons_append, List.nil_append] at h0 h1
      simp only [linearRev, h0, h1, bind, Except.bind, pure, Except.pure]
      rw [linear_step (fun k => g (k :: idx))]
      simp [multilinear, interpolation_cons, interpolation_nil]
    | cons y pos =>
      have hrec : ∀ k : Int, |(k : K) - x| ≤ 1 → linearRev r (y :: pos) (k :: idx) =
          .ok (multilinear (fun p => g (p ++ k :: idx)) ((y :: pos).reverse.map mirror)) := by
        intro k hk
        refine ih (k :: idx) (by simp) fun p hp => ?_
        have := h (p ++ [k]) (by
          rw [List.reverse_cons]
          exact List.rel_append hp (.cons hk .nil))
        simpa using this
      simp only [linearRev, hrec _ w0, hrec _ w1, bind, Except.bind, pure, Except.pure]
      rw [linear_step (fun k => multilinear (fun p => g (p ++ k :: idx)) ((y :: pos).reverse.map mirror))]
      rw [List.reverse_cons (a := x), List.map_append, multilinear, List.map_singleton, interpolation_snoc]
      simp [multilinear]

/-! ## Cubic interpolation -/

theorem keys_inner {t : K} (h : |t| ≤ 1) : keys t = 3 / 2 * |t| ^ 3 - 5 / 2 * |t| ^ 2 + 1 := if_pos h

theorem keys_outer {t : K} (h1 : 1 ≤ |t|) (h2 : |t| ≤ 2) :
    keys t = -(1 / 2) * |t| ^ 3 + 5 / 2 * |t| ^ 2 - 4 * |t| + 2 := by
  unfold keys
  rcases eq_or_lt_of_le h1 with h | h
  · rw [if_pos (by rw [← h]), ← h]; ring
  · rw [if_neg (not_le.2 h)]
    rcases eq_or_lt_of_le h2 with h' | h'
    · rw [if_neg (by rw [h']; exact lt_irrefl _), h']; ring
    · rw [if_pos h']

theorem keys_far {t : K} (h : 2 ≤ |t|) : keys t = 0 := by
  unfold keys
  rw [if_neg (by linarith), if_neg (not_lt.2 h)]

/-- The weights as polynomials of the distance to any integer `f` such that `f ≤ x ≤ f + 1`. -/
theorem keys_weights {x : K} {f : Int} (h0 : (f : K) ≤ x) (h1 : x ≤ f + 1) :
    keys (x - ((f + -1 : Int) : K)) = -(1 / 2) * (1 + (x - f)) ^ 3 + 5 / 2 * (1 + (x - f)) ^ 2 - 4 * (1 + (x - f)) + 2 ∧
    keys (x - ((f + 0 : Int) : K)) = 3 / 2 * (x - f) ^ 3 - 5 / 2 * (x - f) ^ 2 + 1 ∧
    keys (x - ((f + 1 : Int) : K)) = 3 / 2 * (1 - (x - f)) ^ 3 - 5 / 2 * (1 - (x - f)) ^ 2 + 1 ∧
    keys (x - ((f + 2 : Int) : K)) =
      -(1 / 2) * (2 - (x - f)) ^ 3 + 5 / 2 * (2 - (x - f)) ^ 2 - 4 * (2 - (x - f)) + 2 := by
  refine ⟨?_, ?_, ?_, ?_⟩
  · have e : |x - ((f + -1 : Int) : K)| = 1 + (x - f) := by
      push_cast; rw [abs_of_nonneg (by linarith)]; ring
    rw [keys_outer (by rw [e]; linarith) (by rw [e]; linarith), e]
  · have e : |x - ((f + 0 : Int) : K)| = x - f := by
      push_cast; rw [abs_of_nonneg (by linarith)]; ring
    rw [keys_inner (by rw [e]; linarith), e]
  · have e : |x - ((f + 1 : Int) : K)| = 1 - (x - f) := by
      push_cast; rw [abs_of_nonpos (by linarith)]; ring
    rw [keys_inner (by rw [e]; linarith), e]
  · have e : |x - ((f + 2 : Int) : K)| = 2 - (x - f) := by
      push_cast; rw [abs_of_nonpos (by linarith)]; ring
    rw [keys_outer (by rw [e]; linarith) (by rw [e]; linarith), e]

theorem cubic_sum (g : Int → K) (x : K) : ((cubicNodes x).map fun kw => kw.2 * g kw.1).sum =
    cubicFormula (x - ⌊x⌋) (g (⌊x⌋ - 1)) (g ⌊x⌋) (g (⌊x⌋ + 1)) (g (⌊x⌋ + 2)) := by
  obtain ⟨h1, h2, h3, h4⟩ := keys_weights (Int.floor_le x) (Int.lt_floor_add_one x).le
  simp only [cubicNodes, List.map_cons, List.map_nil, List.sum_cons, List.sum_nil, h1, h2, h3, h4, cubicFormula]
  rw [show ⌊x⌋ + -1 = ⌊x⌋ - 1 by ring, add_zero (⌊x⌋)]
  ring

theorem cubic_step (g : Int → K) (x : K) :
    cubicFormula (x - floorIndex x) (g (floorIndex x - 1)) (g (floorIndex x)) (g (floorIndex x + 1))
      (g (floorIndex x + 2)) = ((cubicNodes x).map fun kw => kw.2 * g kw.1).sum := by
  rw [cubic_sum]
  rcases floorIndex_eq x with ⟨h, _⟩ | ⟨_, hx, h⟩
  · rw [h]
  · rw [h]
    have e1 : x - ((⌊x⌋ - 1 : Int) : K) = 1 := by push_cast; linarith
    have e2 : x - (⌊x⌋ : K) = 0 := by linarith
    rw [e1, e2, sub_add_cancel]
    unfold cubicFormula
    ring

theorem cubicRev_eq (r : Position → Res K) (g : Position → K) : ∀ (xs : List K) (idx : Position), xs ≠ [] →
    (∀ p, Within 2 p xs.reverse → r (p ++ idx) = .ok (g (p ++ idx))) →
    cubicRev r xs idx = .ok (cubic (fun p => g (p ++ idx)) xs.reverse) := by
  intro xs
  induction xs with
  | nil => intro idx h; exact absurd rfl h
  | cons x t ih =>
    intro idx _ h
    have hb := floorIndex_bounds x
    have wm : |((floorIndex x - 1 : Int) : K) - x| ≤ 2 := by
      push_cast; rw [abs_le]; constructor <;> linarith
    have w0 : |((floorIndex x : Int) : K) - x| ≤ 2 := by rw [abs_le]; constructor <;> linarith
    have w1 : |((floorIndex x + 1 : Int) : K) - x| ≤ 2 := by
      push_cast; rw [abs_le]; constructor <;> linarith
    have w2 : |((floorIndex x + 2 : Int) : K) - x| ≤ 2 := by
      push_cast; rw [abs_le]; constructor <;> linarith
    cases t with
    | nil =>
      have hm := h [floorIndex x - 1] (.cons wm .nil)
      have h0 := h [floorIndex x] (.cons w0 .nil)
      have h1 := h [floorIndex x + 1] (.cons w1 .nil)
      have h2 := h [floorIndex x + 2] (.cons w2 .nil)
      simp only [List.cons_append, List.nil_append] at hm h0 h1 h2
      simp only [cubicRev, hm, h0, h1, h2, bind, Except.bind, pure, Except.pure]
      rw [cubic_step (fun k => g (k :: idx))]
      simp [cubic, interpolation_cons, interpolation_nil]
    | cons y pos =>
      have hrec : ∀ k : Int, |(k : K) - x| ≤ 2 → cubicRev r (y :: pos) (k :: idx) =
          .ok (cubic (fun p => g (p ++ k :: idx)) (y :: pos).reverse) := by
        intro k hk
        refine ih (k :: idx) (by simp) fun p hp => ?_
        have := h (p ++ [k]) (by
          rw [List.reverse_cons]
          exact List.rel_append hp (.cons hk .nil))
        simpa using this
      simp only [cubicRev, hrec _ wm, hrec _ w0, hrec _ w1, hrec _ w2, bind, Except.bind, pure, Except.pure]
      rw [cubic_step (fun k => cubic (fun p => g (p ++ k :: idx)) (y :: pos).reverse)]
      rw [List.reverse_cons (a := x), cubic, interpolation_snoc]
      simp [cubic]

/-- Nodes with non-null weights are at distance less than 2. -/
theorem cubicNodes_near (x : K) : ∀ kw ∈ cubicNodes x, kw.2 ≠ 0 → |(kw.1 : K) - x| < 2 := by
  intro kw hkw h0
  obtain ⟨j, _, rfl⟩ := List.mem_map.1 hkw
  by_contra hge
  rw [abs_sub_comm] at hge
  exact h0 (keys_far (not_lt.1 hge))

/-- Cubic convolution along one axis reproduces polynomials of degree 2. -/
theorem cubicNodes_quadratic (a b c x : K) :
    ((cubicNodes x).map fun kw => kw.2 * (a + b * (kw.1 : K) + c * (kw.1 : K) ^ 2)).sum = a + b * x + c * x ^ 2 := by
  rw [cubic_sum fun k : Int => a + b * (k : K) + c * (k : K) ^ 2]
  unfold cubicFormula
  push_cast
  ring

theorem cubic_quadratic : ∀ (n : Nat) (G : List K → K) (xs : List K), QuadraticInEach n G → xs.length = n →
    cubic (fun p => G (p.map fun k : Int => (k : K))) xs = G xs := by
  intro n
  induction n with
  | zero =>
    intro G xs _ hl
    rw [List.length_eq_zero_iff] at hl
    subst hl
    rw [cubic, interpolation_nil, List.map_nil]
  | succ n ih =>
    intro G xs hG hl
    cases xs with
    | nil => simp at hl
    | cons x xs =>
      have hl' : xs.length = n := by simpa using hl
      rw [cubic, interpolation_cons]
      have hrec : ∀ k : Int, interpolation cubicNodes
          (fun p => G (((k :: p) : List Int).map fun k : Int => (k : K))) xs = G ((k : K) :: xs) := by
        intro k
        refine ih (fun ys => G ((k : K) :: ys)) xs ?_ hl'
        intro ys hys i hi
        obtain ⟨a, b, c, h⟩ := hG ((k : K) :: ys) (by simp [hys]) (i + 1) (by omega)
        exact ⟨a, b, c, fun t => h t⟩
      simp only [hrec]
      obtain ⟨a, b, c, h⟩ := hG (x :: xs) hl 0 (by omega)
      simp only [List.set_cons_zero] at h
      simp only [h]
      exact cubicNodes_quadratic a b c x

end Litl
