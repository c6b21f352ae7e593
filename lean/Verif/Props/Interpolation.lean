import Verif.Lemmas.Interpolation
import Mathlib.Topology.Instances.Real.Lemmas
import Mathlib.Topology.Algebra.Order.Field
import Mathlib.Topology.ContinuousMap.Basic
import Mathlib.Algebra.Order.Archimedean.Real.Basic

/-!
# Extrapolation and interpolation (C41 - C44)
-/

set_option linter.unusedSectionVars false

namespace Litl

open Spec

/-! ## C41: extrapolation -/

section Extrapolation

variable {α : Type _}

theorem get_inShape (r : Raster α) (p : Position) (hr : (r.data.length : Int) = pixelCount r.shape)
    (hp : InShape r.shape p) : ∃ v, r.get p = .ok v ∧ r.data[(index r.shape p).toNat]? = some v := by
  have h := index_bounds hp
  unfold pixelCount at hr
  have hl : (index r.shape p).toNat < r.data.length := by omega
  refine ⟨r.data[(index r.shape p).toNat], ?_, List.getElem?_eq_getElem hl⟩
  simp [Raster.get, readAt, not_lt.2 h.1, List.getElem?_eq_getElem hl]

theorem contains_iff_inShape {s p : Position} (hl : p.length = s.length) :
    Raster.contains s p = true ↔ InShape s p := by
  unfold Raster.contains InShape
  rw [List.all_eq_true, List.forall₂_iff_zip]
  simp only [hl, true_and, Bool.not_eq_true', Bool.or_eq_false_iff, decide_eq_false_iff_not, Prod.forall]
  refine forall₃_congr fun a b _ => ?_
  omega

/-- Constant extrapolation: the value of the raster inside of the domain, the constant outside. -/
theorem C41_constant (c : α) (r : Raster α) (p : Position) (hl : p.length = r.shape.length) :
    (InShape r.shape p → constantAt c r p = r.get p) ∧ (¬ InShape r.shape p → constantAt c r p = .ok c) := by
  unfold constantAt
  constructor
  · intro h
    rw [if_pos ((contains_iff_inShape hl).2 h)]
  · intro h
    rw [if_neg (fun h' => h ((contains_iff_inShape hl).1 h'))]

/-- Constant extrapolation never fails, i.e. only reads pixels. -/
theorem C41_constant_defined (c : α) (r : Raster α) (p : Position)
    (hr : (r.data.length : Int) = pixelCount r.shape) (hl : p.length = r.shape.length) :
    ∃ v, constantAt c r p = .ok v := by
  by_cases h : InShape r.shape p
  · rw [(C41_constant c r p hl).1 h]
    obtain ⟨v, hv, _⟩ := get_inShape r p hr h
    exact ⟨v, hv⟩
  · exact ⟨c, (C41_constant c r p hl).2 h⟩

/-- The clamped position is in the domain, and is the closest one along each axis. -/
theorem clampShape_spec : ∀ {s p : Position}, Pos s → p.length = s.length →
    InShape s (clampShape p s) ∧ (InShape s p → clampShape p s = p) ∧
    ∀ q, InShape s q → ∀ i : Nat, |p.getD i 0 - (clampShape p s).getD i 0| ≤ |p.getD i 0 - q.getD i 0| := by
  intro s
  induction s with
  | nil =>
    intro p _ hl
    have : p = [] := by simpa using hl
    subst this
    refine ⟨.nil, fun _ => rfl, ?_⟩
    intro q hq i
    cases hq
    simp [clampShape]
  | cons n s ih =>
    intro p hs hl
    cases p with
    | nil => simp at hl
    | cons x p =>
      have hn : 0 < n := hs n (by simp)
      obtain ⟨h1, h2, h3⟩ := ih (p := p) (fun m hm => hs m (by simp [hm])) (by simpa using hl)
      have e : clampShape (x :: p) (n :: s) = clamp1 x 0 (n - 1) :: clampShape p s := rfl
      have hc : 0 ≤ clamp1 x 0 (n - 1) ∧ clamp1 x 0 (n - 1) < n := by
        unfold clamp1; split_ifs <;> omega
      refine ⟨?_, ?_, ?_⟩
      · rw [e]; exact .cons hc h1
      · intro h
        cases h with
        | cons hx ht =>
          rw [e, h2 ht]
          congr 1
          unfold clamp1
          split_ifs <;> omega
      · intro q hq i
        cases hq with
        | cons hy hq =>
          rename_i y q
          rw [e]
          cases i with
          | zero =>
            simp only [List.getD_cons_zero]
            unfold clamp1
            split_ifs
            · rw [abs_of_nonpos (by omega), abs_of_nonpos (by omega)]; omega
            · rw [abs_of_nonneg (by omega), abs_of_nonneg (by omega)]; omega
            · simp
          | succ i =>
            simp only [List.getD_cons_succ]
            exact h3 q hq i

/-- Nearest-neighbor extrapolation returns the value of the pixel which is the closest along each axis, which is
unchanged inside of the domain. -/
theorem C41_nearest (r : Raster α) (p : Position) (hr : (r.data.length : Int) = pixelCount r.shape)
    (hs : Pos r.shape) (hl : p.length = r.shape.length) :
    ∃ q v, InShape r.shape q ∧ nearestAt r p = r.get q ∧ r.get q = .ok v ∧ (InShape r.shape p → q = p) ∧
      ∀ q', InShape r.shape q' → ∀ i : Nat, |p.getD i 0 - q.getD i 0| ≤ |p.getD i 0 - q'.getD i 0| := by
  obtain ⟨h1, h2, h3⟩ := clampShape_spec hs hl
  obtain ⟨v, hv, _⟩ := get_inShape r _ hr h1
  exact ⟨clampShape p r.shape, v, h1, rfl, hv, h2, h3⟩

theorem positiveMod_spec {p s : Int} (hs : 0 < s) :
    ∃ q, positiveMod p s = .ok q ∧ 0 ≤ q ∧ q < s ∧ q % s = p % s := by
  unfold positiveMod
  rw [if_neg (by omega)]
  refine ⟨_, rfl, ?_⟩
  have h1 := Int.tmod_add_mul_tdiv p s
  have hlt := Int.tmod_lt_of_pos p hs
  have hgt : -s < p.tmod s := by
    have := Int.lt_tmod_of_pos p hs
    omega
  have hm : p.tmod s % s = p % s := by
    conv_rhs => rw [← h1]
    rw [Int.add_mul_emod_self_left]
  split
  · refine ⟨by omega, by omega, ?_⟩
    rw [Int.add_emod_right, hm]
  · exact ⟨by omega, by omega, hm⟩

/-- Periodic extrapolation returns the value of the pixel which is congruent modulo the shape. -/
theorem C41_periodic (r : Raster α) (p : Position) (hr : (r.data.length : Int) = pixelCount r.shape)
    (hs : Pos r.shape) (hl : p.length = r.shape.length) :
    ∃ q v, InShape r.shape q ∧ periodicAt r p = r.get q ∧ r.get q = .ok v ∧ (InShape r.shape p → q = p) ∧
      ∀ i : Nat, q.getD i 0 ≡ p.getD i 0 [ZMOD r.shape.getD i 0] := by
  have key : ∀ (s p : Position), Pos s → p.length = s.length →
      ∃ q, periodicPosition p s = .ok q ∧ InShape s q ∧ (InShape s p → q = p) ∧
        ∀ i : Nat, q.getD i 0 ≡ p.getD i 0 [ZMOD s.getD i 0] := by
    intro s
    induction s with
    | nil =>
      intro p _ hl
      have : p = [] := by simpa using hl
      subst this
      exact ⟨[], rfl, .nil, fun _ => rfl, fun i => rfl⟩
    | cons n s ih =>
      intro p hs hl
      cases p with
      | nil => simp at hl
      | cons x p =>
        have hn : 0 < n := hs n (by simp)
        obtain ⟨q, h1, h2, h3, h4⟩ := ih p (fun m hm => hs m (by simp [hm])) (by simpa using hl)
        obtain ⟨y, g1, g2, g3, g4⟩ := positiveMod_spec (p := x) hn
        refine ⟨y :: q, by simp [periodicPosition, g1, h1, bind, Except.bind, pure, Except.pure],
          .cons ⟨g2, g3⟩ h2, ?_, ?_⟩
        · intro h
          cases h with
          | cons hx ht =>
            rw [h3 ht]
            congr 1
            rwa [Int.emod_eq_of_lt g2 g3, Int.emod_eq_of_lt hx.1 hx.2] at g4
        · intro i
          cases i with
          | zero => exact g4
          | succ i => exact h4 i
  obtain ⟨q, h1, h2, h3, h4⟩ := key r.shape p hs hl
  obtain ⟨v, hv, _⟩ := get_inShape r q hr h2
  exact ⟨q, v, h2, by simp [periodicAt, h1, bind, Except.bind], hv, h3, h4⟩

/-- The congruent pixel is unique. -/
theorem C41_periodic_unique (s p q q' : Position) (h : InShape s q) (h' : InShape s q')
    (hq : ∀ i : Nat, q.getD i 0 ≡ p.getD i 0 [ZMOD s.getD i 0])
    (hq' : ∀ i : Nat, q'.getD i 0 ≡ p.getD i 0 [ZMOD s.getD i 0]) : q = q' := by
  induction h generalizing q' p with
  | nil => cases h'; rfl
  | cons hx ht ih =>
    cases h' with
    | cons hy ht' =>
      have h0 := (hq 0).trans (hq' 0).symm
      simp only [List.getD_cons_zero] at h0
      unfold Int.ModEq at h0
      rw [Int.emod_eq_of_lt hx.1 hx.2, Int.emod_eq_of_lt hy.1 hy.2] at h0
      rw [h0]
      congr 1
      refine ih p.tail _ ht' (fun i => ?_) fun i => ?_
      · have := hq (i + 1)
        cases p <;> simpa using this
      · have := hq' (i + 1)
        cases p <;> simpa using this

-- A raster of shape (3, 2), at position (-1, 4).
example : let r : Raster Int := ⟨[3, 2], [1, 2, 3, 4, 5, 6]⟩
    constantAt 0 r [-1, 4] = .ok 0 ∧ nearestAt r [-1, 4] = .ok 4 ∧ periodicAt r [-1, 4] = .ok 3 ∧
    constantAt 0 r [1, 1] = .ok 5 ∧ nearestAt r [1, 1] = .ok 5 ∧ periodicAt r [1, 1] = .ok 5 :=
  ⟨by rfl, by rfl, by rfl, by rfl, by rfl, by rfl⟩

end Extrapolation

variable {K : Type _} [Field K] [LinearOrder K] [IsStrictOrderedRing K] [FloorRing K]

/-! ## C42: linear interpolation -/

/-- The full property, for a raster which is extrapolated everywhere, i.e. all neighbors can be read: the value is the
multilinear combination of the neighbors, hence that of the raster at integral positions, and that of the function for
affine data. -/
def C42_Statement : Prop :=
  ∀ (g : Position → ℚ) (xs : List ℚ), xs ≠ [] → linearAt (fun p => .ok (g p)) xs = .ok (multilinear g xs)

/-- The specification is the expected one: reproduction of the raster at integral positions... -/
theorem C42_spec_integral (g : Position → K) (p : Position) :
    multilinear g (p.map fun k : Int => (k : K)) = g p := by
  unfold multilinear
  induction p generalizing g with
  | nil => rw [List.map_nil, interpolation_nil]
  | cons k p ih =>
    rw [List.map_cons, interpolation_cons]
    simp [linearNodes, ih]

/-- ... and of affine functions. -/
theorem C42_spec_affine (a : K) (b xs : List K) (h : b.length = xs.length) :
    multilinear (fun p => a + (List.zipWith (fun b (k : Int) => b * (k : K)) b p).sum) xs =
      a + (List.zipWith (· * ·) b xs).sum := by
  unfold multilinear
  induction xs generalizing a b with
  | nil =>
    have : b = [] := by simpa using h
    subst this
    simp [interpolation_nil]
  | cons x xs ih =>
    cases b with
    | nil => simp at h
    | cons c b =>
      rw [interpolation_cons]
      have e : ∀ k : Int, interpolation linearNodes
          (fun p => a + (List.zipWith (fun b (k : Int) => b * (k : K)) (c :: b) (k :: p)).sum) xs =
          a + c * k + (List.zipWith (· * ·) b xs).sum := by
        intro k
        rw [← ih (a + c * k) b (by simpa using h)]
        congr 1
        funext p
        simp [add_assoc]
      simp only [e]
      simp only [linearNodes, List.map_cons, List.map_nil, List.sum_cons, List.sum_nil, List.zipWith_cons_cons]
      push_cast
      ring

/-- What is computed: the multilinear interpolation at a mirrored position.  Along each axis, the position is
reflected with respect to the center of the pixel, i.e. the weights are swapped. -/
theorem C42_mirrored (r : Position → Res K) (g : Position → K) (xs : List K) (hx : xs ≠ [])
    (h : ∀ p, Within 1 p xs → r p = .ok (g p)) :
    linearAt r xs = .ok (multilinear g (xs.map fun x => 2 * floorIndex x + 1 - x)) := by
  have := linearRev_eq r g xs.reverse [] (by simpa using hx) (by
    rw [List.reverse_reverse]
    simpa using h)
  rw [List.reverse_reverse] at this
  unfold linearAt
  simp only [List.append_nil] at this
  exact this

/-- The value at an integral position is that of the next pixel along each axis where it is not negative, and of the
previous one along others. -/
theorem C42_at_integers (g : Position → K) (p : Position) (hp : p ≠ []) :
    linearAt (fun p => .ok (g p)) (p.map fun k : Int => (k : K)) =
      .ok (g (p.map fun k => if 0 ≤ k then k + 1 else k - 1)) := by
  rw [C42_mirrored _ g _ (by simpa using hp) fun _ _ => rfl, List.map_map]
  have e : (fun x : K => 2 * (floorIndex x : K) + 1 - x) ∘ (fun k : Int => (k : K)) =
      (fun k : Int => (k : K)) ∘ fun k : Int => if 0 ≤ k then k + 1 else k - 1 := by
    funext k
    simp only [Function.comp]
    rcases floorIndex_eq (k : K) with ⟨h, hn⟩ | ⟨h0, _, h⟩
    · rw [Int.floor_intCast] at h hn
      have hk : 0 ≤ k := by
        by_contra hk
        exact hn ⟨by exact_mod_cast not_le.1 hk, rfl⟩
      rw [if_pos hk, h]
      push_cast
      ring
    · rw [Int.floor_intCast] at h
      have hk : ¬ 0 ≤ k := by
        have : k < 0 := by exact_mod_cast h0
        omega
      rw [if_neg hk, h]
      push_cast
      ring
  rw [e, ← List.map_map, C42_spec_integral]

/-- At pixel 0 of a line, the value is that of pixel 1. -/
theorem C42_violated : ¬ C42_Statement := by
  intro h
  have h1 := h (fun p => match p with | [k] => (k : ℚ) | _ => 0) [0] (by simp)
  have h2 := C42_at_integers (K := ℚ) (fun p => match p with | [k] => (k : ℚ) | _ => 0) [0] (by simp)
  have h3 := C42_spec_integral (K := ℚ) (fun p => match p with | [k] => (k : ℚ) | _ => 0) [0]
  simp only [List.map_cons, List.map_nil, Int.cast_zero] at h2 h3
  rw [h2, h3] at h1
  simp at h1

/-- Interpolation is correct at the centers of the pixels only.
Missing: all other positions, where the weights are swapped (`C42_mirrored`). -/
theorem C42_centers_partial (r : Position → Res K) (g : Position → K) (xs : List K) (hx : xs ≠ [])
    (h : ∀ p, Within 1 p xs → r p = .ok (g p)) (hc : ∀ x ∈ xs, x = (⌊x⌋ : K) + 1 / 2) :
    linearAt r xs = .ok (multilinear g xs) := by
  rw [C42_mirrored r g xs hx h]
  congr 2
  conv_rhs => rw [← List.map_id xs]
  apply List.map_congr_left
  intro x hxm
  have hcx := hc x hxm
  rcases floorIndex_eq x with ⟨h, _⟩ | ⟨_, h, _⟩
  · rw [h]
    simp only [id]
    linear_combination (-2) * hcx
  · have : (1 / 2 : K) = 0 := by linear_combination -hcx + h
    norm_num at this

/-- Constant data is reproduced.
Missing: non-constant data. -/
theorem C42_constant_partial (c : K) (xs : List K) (hx : xs ≠ []) : linearAt (fun _ => .ok c) xs = .ok c := by
  rw [C42_mirrored _ (fun _ => c) xs hx fun _ _ => rfl]
  congr 1
  have : ∀ ys : List K, multilinear (fun _ => c) ys = c := by
    intro ys
    unfold multilinear
    induction ys with
    | nil => rw [interpolation_nil]
    | cons y ys ih =>
      rw [interpolation_cons]
      simp only [ih]
      simp [linearNodes]
      ring
  exact this _

/-- Affine data is interpolated as if the position was mirrored: e.g. decreasingly inside of each pixel for increasing
data. -/
theorem C42_affine_exact (a : K) (b xs : List K) (h : b.length = xs.length) (hx : xs ≠ []) :
    linearAt (fun p => .ok (a + (List.zipWith (fun b (k : Int) => b * (k : K)) b p).sum)) xs =
      .ok (a + (List.zipWith (· * ·) b (xs.map fun x : K => 2 * (floorIndex x : K) + 1 - x)).sum) := by
  rw [C42_mirrored _ _ xs hx fun _ _ => rfl, C42_spec_affine a b _ (by simpa using h)]

-- 10 * x + 100 * y at (1/4, 7/2): 715/2, i.e. the value at (3/4, 7/2), instead of 705/2.
example : linearAt (fun p => .ok (10 * (p.getD 0 0 : ℚ) + 100 * (p.getD 1 0 : ℚ))) [1 / 4, 7 / 2] = .ok (715 / 2) := by
  have e1 : ⌊(1 / 4 : ℚ)⌋ = 0 := by norm_num [Int.floor_eq_iff]
  have e2 : ⌊(7 / 2 : ℚ)⌋ = 3 := by norm_num [Int.floor_eq_iff]
  have f1 : floorIndex (1 / 4 : ℚ) = 0 := by
    unfold floorIndex toIndex
    rw [if_pos (by norm_num), if_neg (by norm_num), e1]; rfl
  have f2 : floorIndex (7 / 2 : ℚ) = 3 := by
    unfold floorIndex toIndex
    rw [if_pos (by norm_num), if_neg (by norm_num), e2]; rfl
  simp only [linearAt, List.reverse_cons, List.reverse_nil, List.nil_append, List.cons_append, linearRev, f1, f2,
    bind, Except.bind, pure, Except.pure, linearFormula]
  norm_num

/-! ## C43: nearest-neighbor interpolation -/

/-- The full property: along each axis, the index which is read is one of the closest ones. -/
def C43_Statement : Prop :=
  ∀ (g : Position → ℚ) (xs : List ℚ), ∃ p, nearestInterp (fun p => .ok (g p)) xs = .ok (g p) ∧
    List.Forall₂ (fun (k : Int) (x : ℚ) => |(k : ℚ) - x| ≤ 1 / 2) p xs

/-- Exactly where the index is one of the closest ones: at positions which are at least -1/2, and halfway between
pixels. -/
theorem C43_exact (x : K) :
    |(toIndex (x + 1 / 2) : K) - x| ≤ 1 / 2 ↔ -(1 / 2) ≤ x ∨ ∃ k : Int, x = k + 1 / 2 := by
  by_cases h : -(1 / 2) ≤ x
  · simp only [h, true_or, iff_true]
    rw [toIndex_of_nonneg (by linarith)]
    have h1 := Int.floor_le (x + 1 / 2)
    have h2 := Int.lt_floor_add_one (x + 1 / 2)
    rw [abs_le]
    constructor <;> linarith
  · simp only [h, false_or]
    rw [toIndex_of_neg (by linarith)]
    have h1 := Int.le_ceil (x + 1 / 2)
    have h2 := Int.ceil_lt_add_one (x + 1 / 2)
    constructor
    · intro ha
      rw [abs_le] at ha
      refine ⟨⌈x + 1 / 2⌉ - 1, ?_⟩
      push_cast
      linarith
    · rintro ⟨k, hk⟩
      have e : x + 1 / 2 = ((k + 1 : Int) : K) := by push_cast; linarith
      rw [e, Int.ceil_intCast, hk]
      push_cast
      rw [abs_le]
      constructor <;> linarith

/-- The value is that of the raster at the rounded position, along each axis. -/
theorem C43_value (r : Position → Res K) (xs : List K) :
    nearestInterp r xs = r (xs.map fun x => toIndex (x + 1 / 2)) := rfl

/-- The value at the closest position is returned for positions which are not less than -1/2.
Missing: positions below, see `C43_exact` and `C43_negative`. -/
theorem C43_nonneg_partial (r : Position → Res K) (xs : List K) (h : ∀ x ∈ xs, -(1 / 2) ≤ x) :
    ∃ p, nearestInterp r xs = r p ∧ List.Forall₂ (fun (k : Int) (x : K) => |(k : K) - x| ≤ 1 / 2) p xs := by
  refine ⟨xs.map fun x => toIndex (x + 1 / 2), rfl, ?_⟩
  rw [List.forall₂_map_left_iff, List.forall₂_same]
  exact fun x hx => (C43_exact x).2 (.inl (h x hx))

/-- At negative integral positions, the value of the next pixel is returned instead. -/
theorem C43_negative (r : Position → Res K) (p : Position) (h : ∀ k ∈ p, k < 0) :
    nearestInterp r (p.map fun k : Int => (k : K)) = r (p.map (· + 1)) := by
  rw [C43_value, List.map_map]
  congr 1
  apply List.map_congr_left
  intro k hk
  have hk0 := h k hk
  have hk' : (k : K) + 1 ≤ 0 := by exact_mod_cast hk0
  simp only [Function.comp]
  rw [toIndex_of_neg (by linarith), Int.ceil_eq_iff]
  push_cast
  constructor <;> linarith

/-- At non-negative integral positions, the value of the raster is returned.
Missing: negative positions, see `C43_negative`. -/
theorem C43_integers_partial (r : Position → Res K) (p : Position) (h : ∀ k ∈ p, 0 ≤ k) :
    nearestInterp r (p.map fun k : Int => (k : K)) = r p := by
  rw [C43_value, List.map_map]
  congr 1
  conv_rhs => rw [← List.map_id p]
  apply List.map_congr_left
  intro k hk
  have hk' : (0 : K) ≤ k := by exact_mod_cast h k hk
  simp only [Function.comp, id]
  rw [toIndex_of_nonneg (by linarith), Int.floor_eq_iff]
  constructor <;> linarith

theorem C43_violated : ¬ C43_Statement := by
  intro h
  obtain ⟨p, h1, h2⟩ := h (fun p => match p with | [k] => (k : ℚ) | _ => 0) [((-1 : Int) : ℚ)]
  have h3 := C43_negative (K := ℚ) (fun p => .ok (match p with | [k] => (k : ℚ) | _ => 0)) [-1] (by decide)
  simp only [List.map_cons, List.map_nil] at h3
  rw [h3] at h1
  cases h2 with
  | cons hk ht =>
    rename_i k _
    cases ht
    simp only [neg_add_cancel, Int.cast_zero, Except.ok.injEq] at h1
    rw [← h1] at hk
    norm_num at hk

-- 5/4 is rounded to 1; -5/4 is rounded to 0 instead of -1.
example : toIndex (5 / 4 + 1 / 2 : ℚ) = 1 ∧ toIndex (-(5 / 4) + 1 / 2 : ℚ) = 0 := by
  constructor
  · rw [toIndex_of_nonneg (by norm_num)]; norm_num [Int.floor_eq_iff]
  · rw [toIndex_of_neg (by norm_num)]; norm_num [Int.ceil_eq_iff]

/-! ## C44: cubic interpolation -/

/-- Cubic interpolation is Keys' cubic convolution at all positions, negative ones included, provided that pixels at
distance at most 2 along each axis can be read. -/
theorem C44_keys (r : Position → Res K) (g : Position → K) (xs : List K) (hx : xs ≠ [])
    (h : ∀ p, Within 2 p xs → r p = .ok (g p)) : cubicAt r xs = .ok (cubic g xs) := by
  have := cubicRev_eq r g xs.reverse [] (by simpa using hx) (by
    rw [List.reverse_reverse]
    simpa using h)
  rw [List.reverse_reverse] at this
  unfold cubicAt
  simp only [List.append_nil] at this
  exact this

/-- Quadratic functions are reproduced, in particular affine ones and constants: more generally, any function which is
a polynomial of degree at most 2 of each coordinate. -/
theorem C44_quadratic (r : Position → Res K) (G : List K → K) (xs : List K) (hx : xs ≠ [])
    (hG : QuadraticInEach xs.length G)
    (h : ∀ p, Within 2 p xs → r p = .ok (G (p.map fun k : Int => (k : K)))) : cubicAt r xs = .ok (G xs) := by
  rw [C44_keys r (fun p => G (p.map fun k : Int => (k : K))) xs hx h, cubic_quadratic xs.length G xs hG rfl]

/-- Affine functions are reproduced. -/
theorem C44_affine (r : Position → Res K) (a : K) (b xs : List K) (hx : xs ≠ [])
    (h : ∀ p, Within 2 p xs → r p = .ok (a + (List.zipWith (fun b (k : Int) => b * (k : K)) b p).sum)) :
    cubicAt r xs = .ok (a + (List.zipWith (· * ·) b xs).sum) := by
  refine C44_quadratic r (fun ys => a + (List.zipWith (· * ·) b ys).sum) xs hx ?_ ?_
  · intro ys hys i hi
    clear h hys hi
    induction ys generalizing a b i with
    | nil => exact ⟨a, 0, 0, fun t => by simp⟩
    | cons y ys ih =>
      cases b with
      | nil => exact ⟨a, 0, 0, fun t => by simp⟩
      | cons c b =>
        cases i with
        | zero => exact ⟨a + (List.zipWith (· * ·) b ys).sum, c, 0, fun t => by simp; ring⟩
        | succ i =>
          obtain ⟨a', b', c', h⟩ := ih (a + c * y) b i
          refine ⟨a', b', c', fun t => ?_⟩
          rw [← h t]
          simp [add_assoc]
  · intro p hp
    rw [h p hp]
    congr 3
    rw [List.zipWith_map_right]

/-- The raster is reproduced at all integral positions. -/
theorem C44_integral (r : Position → Res K) (g : Position → K) (p : Position) (hp : p ≠ [])
    (h : ∀ q, Within 2 q (p.map fun k : Int => (k : K)) → r q = .ok (g q)) :
    cubicAt r (p.map fun k : Int => (k : K)) = .ok (g p) := by
  rw [C44_keys r g _ (by simpa using hp) h]
  congr 1
  clear h hp
  unfold cubic
  induction p generalizing g with
  | nil => rw [List.map_nil, interpolation_nil]
  | cons k p ih =>
    rw [List.map_cons, interpolation_cons,
      cubic_sum (fun j => interpolation cubicNodes (fun p => g (j :: p)) (p.map fun k : Int => (k : K))),
      Int.floor_intCast, sub_self]
    unfold cubicFormula
    simp only [zero_mul, add_zero, mul_zero]
    exact ih fun p => g (k :: p)

/-- The value only depends on the pixels at distance less than 2 along each axis, i.e. on 4 pixels per axis. -/
theorem C44_local (g g' : Position → K) (xs : List K) (hx : xs ≠ [])
    (h : ∀ p, StrictlyWithin 2 p xs → g p = g' p) :
    cubicAt (fun p => .ok (g p)) xs = cubicAt (fun p => .ok (g' p)) xs := by
  rw [C44_keys _ g xs hx fun _ _ => rfl, C44_keys _ g' xs hx fun _ _ => rfl]
  congr 1
  exact interpolation_congr cubicNodes (fun k x => |(k : K) - x| < 2) cubicNodes_near xs g g' h

-- x^2 * y is reproduced at (-5/2, 1/3).
example : cubicAt (fun p => .ok ((p.getD 0 0 : ℚ) ^ 2 * (p.getD 1 0 : ℚ))) [-(5 / 2), 1 / 3] = .ok (25 / 12) := by
  have := C44_quadratic (K := ℚ) (fun p => .ok ((p.getD 0 0 : ℚ) ^ 2 * (p.getD 1 0 : ℚ)))
    (fun ys => ys.getD 0 0 ^ 2 * ys.getD 1 0) [-(5 / 2), 1 / 3] (by simp) ?_ ?_
  · rw [this]; norm_num
  · intro ys hys i hi
    obtain ⟨y0, y1, rfl⟩ := List.length_eq_two.1 hys
    have : i = 0 ∨ i = 1 := by simp at hi; omega
    rcases this with rfl | rfl
    · exact ⟨0, 0, y1, fun t => by simp; ring⟩
    · exact ⟨0, y0 ^ 2, 0, fun t => by simp⟩
  · intro p hp
    have hl := hp.length_eq
    obtain ⟨k0, k1, rfl⟩ := List.length_eq_two.1 hl
    simp

/-! ### Continuity -/

theorem keys_eq (t : K) : keys t =
    (3 / 2 * (min |t| 1) ^ 3 - 5 / 2 * (min |t| 1) ^ 2 + 1) +
    (-(1 / 2) * (min (max |t| 1) 2) ^ 3 + 5 / 2 * (min (max |t| 1) 2) ^ 2 - 4 * (min (max |t| 1) 2) + 2) := by
  rcases le_total |t| 1 with h | h
  · rw [keys_inner h, min_eq_left h, max_eq_right h, min_eq_left (by norm_num)]
    ring
  · rw [min_eq_right h, max_eq_left h]
    rcases le_total |t| 2 with h2 | h2
    · rw [keys_outer h h2, min_eq_left h2]
      ring
    · rw [keys_far h2, min_eq_right h2]
      ring

theorem keys_continuous : Continuous (keys : ℝ → ℝ) := by
  rw [show (keys : ℝ → ℝ) = _ from funext keys_eq]
  fun_prop

/-- The sum over the nodes is that over any larger set of integers. -/
theorem cubicNodes_sum (x : K) (F : Int → K) (S : Finset Int) (hS : Finset.Icc (⌊x⌋ - 1) (⌊x⌋ + 2) ⊆ S) :
    ((cubicNodes x).map fun kw => kw.2 * F kw.1).sum = ∑ k ∈ S, keys (x - (k : K)) * F k := by
  have e : ((cubicNodes x).map fun kw => kw.2 * F kw.1).sum =
      ∑ k ∈ Finset.Icc (⌊x⌋ - 1) (⌊x⌋ + 2), keys (x - (k : K)) * F k := by
    have hI : Finset.Icc (⌊x⌋ - 1) (⌊x⌋ + 2) = {⌊x⌋ + -1, ⌊x⌋ + 0, ⌊x⌋ + 1, ⌊x⌋ + 2} := by
      ext k
      simp only [Finset.mem_Icc, Finset.mem_insert, Finset.mem_singleton]
      omega
    rw [hI, Finset.sum_insert (by simp), Finset.sum_insert (by simp), Finset.sum_insert (by simp),
      Finset.sum_singleton]
    simp only [cubicNodes, List.map_cons, List.map_nil, List.sum_cons, List.sum_nil, add_zero]
  rw [e]
  refine Finset.sum_subset hS fun k _ hk => ?_
  rw [keys_far, zero_mul]
  have h1 := Int.floor_le x
  have h2 := Int.lt_floor_add_one x
  rw [Finset.mem_Icc, not_and_or, not_le, not_le] at hk
  rcases hk with hk | hk
  · have : (k : K) + 2 ≤ ⌊x⌋ := by exact_mod_cast (by omega : k + 2 ≤ ⌊x⌋)
    rw [abs_of_nonneg (by linarith)]
    linarith
  · have : (⌊x⌋ : K) + 3 ≤ k := by exact_mod_cast (by omega : ⌊x⌋ + 3 ≤ k)
    rw [abs_of_nonpos (by linarith)]
    linarith

theorem cubic_continuous {X : Type _} [TopologicalSpace X] : ∀ (fs : List (X → ℝ)) (g : Position → ℝ),
    (∀ f ∈ fs, Continuous f) → Continuous fun x => cubic g (fs.map fun f => f x) := by
  intro fs
  induction fs with
  | nil => intro g _; exact continuous_const
  | cons f fs ih =>
    intro g hf
    have hc : Continuous f := hf f (by simp)
    have hk : ∀ k : Int, Continuous fun x => cubic (fun p => g (k :: p)) (fs.map fun f => f x) := fun k =>
      ih _ fun f' hf' => hf f' (by simp [hf'])
    rw [continuous_iff_continuousAt]
    intro x₀
    have hnear : ∀ᶠ x in nhds x₀, |f x - f x₀| < 1 :=
      (hc.sub continuous_const).abs.continuousAt.eventually_lt continuousAt_const (by simp)
    have hev : (fun x => cubic g ((f :: fs).map fun f => f x)) =ᶠ[nhds x₀]
        fun x => ∑ k ∈ Finset.Icc (⌊f x₀⌋ - 3) (⌊f x₀⌋ + 4),
          keys (f x - (k : ℝ)) * cubic (fun p => g (k :: p)) (fs.map fun f => f x) := by
      filter_upwards [hnear] with x hx
      unfold cubic
      rw [List.map_cons, interpolation_cons]
      refine cubicNodes_sum (f x) (fun k => interpolation cubicNodes (fun p => g (k :: p)) (fs.map fun f => f x)) _ ?_
      rw [abs_lt] at hx
      have a1 := Int.floor_le (f x)
      have a2 := Int.lt_floor_add_one (f x)
      have b1 := Int.floor_le (f x₀)
      have b2 := Int.lt_floor_add_one (f x₀)
      have c1 : ⌊f x⌋ < ⌊f x₀⌋ + 2 := by
        have : (⌊f x⌋ : ℝ) < ⌊f x₀⌋ + 2 := by linarith
        exact_mod_cast this
      have c2 : ⌊f x₀⌋ < ⌊f x⌋ + 2 := by
        have : (⌊f x₀⌋ : ℝ) < ⌊f x⌋ + 2 := by linarith
        exact_mod_cast this
      exact Finset.Icc_subset_Icc (by omega) (by omega)
    refine ContinuousAt.congr ?_ hev.symm
    refine Continuous.continuousAt (continuous_finsetSum _ fun k _ => ?_)
    exact (keys_continuous.comp (hc.sub continuous_const)).mul (hk k)

/-- The interpolated function is continuous, for any number of axes. -/
theorem C44_continuous (g : Position → ℝ) (n : Nat) (hn : n ≠ 0) :
    ∃ f : (Fin n → ℝ) → ℝ, Continuous f ∧ ∀ x, cubicAt (fun p => .ok (g p)) (List.ofFn x) = .ok (f x) := by
  refine ⟨fun x => cubic g (List.ofFn x), ?_, fun x => C44_keys _ g _ (by simpa using hn) fun _ _ => rfl⟩
  have h := cubic_continuous (List.ofFn fun (i : Fin n) (x : Fin n → ℝ) => x i) g (by
    intro f hf
    obtain ⟨i, rfl⟩ := List.mem_ofFn.1 hf
    exact continuous_apply i)
  simp only [List.map_ofFn] at h
  exact h

-- A unit impulse in 2D.
example : ∃ f : (Fin 2 → ℝ) → ℝ, Continuous f ∧
    ∀ x, cubicAt (fun p => .ok (if p = [0, 0] then 1 else 0)) (List.ofFn x) = .ok (f x) :=
  C44_continuous (fun p => if p = [0, 0] then 1 else 0) 2 (by decide)

end Litl
