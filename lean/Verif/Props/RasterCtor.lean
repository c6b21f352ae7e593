import Verif.Model.RasterCtor
import Verif.Lemmas.Index
import Verif.Lemmas.Core
import Mathlib.Algebra.Order.BigOperators.Ring.List

/-!
# C21, C22, C23: raster construction, equality, unlimited box
-/

namespace Litl

open Spec

variable {α : Type _}

/-- **C21** (full statement, violated by the code): whatever the template parameter, constructing a raster from
a list of values succeeds with these values iff there are as many of them as pixels, otherwise raises a size
error. -/
def C21_Statement : Prop :=
  ∀ (N : Int) (s : Position) (values : List Nat), (N = -1 ∨ N = s.length) → s ≠ [] → NonNeg s →
    pixelCount s < 2 ^ 64 → values.length < 2 ^ 64 →
    Raster.ofList N s values =
      if (values.length : Int) = pixelCount s then .ok ⟨s, values⟩ else .error .sizeError

theorem pixelCount_nonneg {s : List Int} (hs : NonNeg s) : 0 ≤ pixelCount s := by
  induction s with
  | nil => simp [pixelCount]
  | cons x s ih =>
    have h1 := ih fun y hy => hs y (by simp [hy])
    have h2 := hs x (by simp)
    simp only [pixelCount, List.prod_cons] at h1 ⊢
    exact mul_nonneg h2 h1

theorem SizeError.mayThrow_eq (n : Nat) (m : Int) (hn : n < 2 ^ 64) (h0 : 0 ≤ m) (h1 : m < 2 ^ 64) :
    SizeError.mayThrow n m = if (n : Int) = m then .ok () else .error .sizeError := by
  have e1 : u64 n = n := Int.emod_eq_of_lt (by omega) (by exact_mod_cast hn)
  have e2 : u64 m = m := Int.emod_eq_of_lt h0 h1
  rw [SizeError.mayThrow, e1, e2]
  by_cases h : (n : Int) = m <;> simp [h]

/-- **C21**, what remains true: list construction is right for each fixed dimension.
Missing: variable dimension, see `C21_variable_dimension`. -/
theorem C21_fixed_dimension_partial (s : Position) (values : List α) (h : s ≠ []) (hs : NonNeg s)
    (h1 : pixelCount s < 2 ^ 64) (h2 : values.length < 2 ^ 64) :
    Raster.ofList s.length s values =
      if (values.length : Int) = pixelCount s then .ok ⟨s, values⟩ else .error .sizeError := by
  have hm : Raster.movedFrom s.length s = s := by
    rw [Raster.movedFrom, if_neg]; omega
  have hp : shapeSize s = pixelCount s := shapeSize_eq h
  rw [Raster.ofList, hm, hp]
  rw [SizeError.mayThrow_eq _ _ h2 (pixelCount_nonneg hs) h1]
  by_cases hc : (values.length : Int) = pixelCount s <;> simp [hc]

/-- **C21**: construction by moving a vector is right in any dimension, fixed or variable. -/
theorem C21_move_construction (s : Position) (values : List α) (h : s ≠ []) (hs : NonNeg s)
    (h1 : pixelCount s < 2 ^ 64) (h2 : values.length < 2 ^ 64) :
    Raster.ofContainer s values =
      if (values.length : Int) = pixelCount s then .ok ⟨s, values⟩ else .error .sizeError := by
  have hp : shapeSize s = pixelCount s := shapeSize_eq h
  rw [Raster.ofContainer, hp, SizeError.mayThrow_eq _ _ h2 (pixelCount_nonneg hs) h1]
  by_cases hc : (values.length : Int) = pixelCount s <;> simp [hc]

/-- **C21**: a raster constructed from a shape or from a pointer holds exactly as many elements as the shape
has pixels, namely zeros, or the first elements of the pointed buffer. -/
theorem C21_shape_construction (s : Position) (zero : α) (h : s ≠ []) (hs : NonNeg s)
    (h1 : pixelCount s < 2 ^ 63) :
    ∃ r, Raster.ofShape zero s = .ok r ∧ r.shape = s ∧ (r.data.length : Int) = pixelCount s ∧
      ∀ x ∈ r.data, x = zero := by
  have h0 := pixelCount_nonneg hs
  have e2 : u64 (shapeSize s) = pixelCount s := by
    rw [shapeSize_eq h]; exact Int.emod_eq_of_lt h0 (by change s.prod < _ at h1; omega)
  refine ⟨⟨s, List.replicate (pixelCount s).toNat zero⟩, ?_, rfl, by simp [h0], by simp⟩
  simp only [Raster.ofShape, e2]
  rw [if_neg (by omega)]

/-- **C21**: construction from a pointer. -/
theorem C21_pointer_construction (s : Position) (buffer : List α) (h : s ≠ []) (hs : NonNeg s)
    (h1 : pixelCount s < 2 ^ 63) (h2 : pixelCount s ≤ buffer.length) :
    ∃ r, Raster.ofPointer s buffer = .ok r ∧ r.shape = s ∧ (r.data.length : Int) = pixelCount s ∧
      r.data <+: buffer := by
  have h0 := pixelCount_nonneg hs
  have e2 : u64 (shapeSize s) = pixelCount s := by
    rw [shapeSize_eq h]; exact Int.emod_eq_of_lt h0 (by change s.prod < _ at h1; omega)
  refine ⟨⟨s, buffer.take (pixelCount s).toNat⟩, ?_, rfl, by simp; omega, List.take_prefix _ _⟩
  simp only [Raster.ofPointer, e2]
  rw [if_neg (by omega), if_pos (by omega)]

/-- **C21**: the rasters which are too large for `std::vector` are not constructed, neither from a shape nor from a pointer; and
the pointed buffer must not be shorter than the raster. -/
theorem C21_too_large (s : Position) (zero : α) (buffer : List α) (h : s ≠ []) (hs : NonNeg s) (h1 : pixelCount s < 2 ^ 64) :
    (2 ^ 63 ≤ pixelCount s → Raster.ofShape zero s = .error .stdError ∧ Raster.ofPointer s buffer = .error .stdError) ∧
      (pixelCount s < 2 ^ 63 → (buffer.length : Int) < pixelCount s → Raster.ofPointer s buffer = .error .ub) := by
  have h0 := pixelCount_nonneg hs
  have e2 : u64 (shapeSize s) = pixelCount s := by
    rw [shapeSize_eq h]; exact Int.emod_eq_of_lt h0 h1
  simp only [Raster.ofShape, Raster.ofPointer, e2]
  refine ⟨fun h2 => ⟨if_pos h2, if_pos h2⟩, fun h2 h3 => ?_⟩
  rw [if_neg (by omega), if_neg (by omega)]

/-- Non-vacuity: a raster which is just too large, and one which is larger than the buffer. -/
example : ([2 ^ 32, 2 ^ 31] : Position) ≠ [] ∧ NonNeg [2 ^ 32, 2 ^ 31] ∧ pixelCount [2 ^ 32, 2 ^ 31] = 2 ^ 63 ∧
    pixelCount [3, 2] = 6 ∧ Raster.ofPointer [3, 2] [1, 2, 3, 4, 5] = .error .ub :=
  ⟨by decide, by simp [NonNeg], by simp [pixelCount], by simp [pixelCount], rfl⟩

/-- **C21**: for a variable dimension, list construction succeeds iff the list is *empty*, whatever the shape. -/
theorem C21_variable_dimension (s : Position) (values : List α) (h2 : values.length < 2 ^ 64) :
    Raster.ofList (-1) s values = if values = [] then .ok ⟨s, []⟩ else .error .sizeError := by
  rw [Raster.ofList]
  simp only [Raster.movedFrom, if_true, shapeSize, List.length_nil]
  rw [SizeError.mayThrow_eq _ _ h2 le_rfl (by norm_num)]
  cases values with
  | nil => rfl
  | cons x l => simp; rfl

/-- **C21** is violated: a variable-dimension raster cannot be constructed from the right number of values. -/
theorem C21_violated : ¬ C21_Statement := by
  intro h
  have h1 := h (-1) [2] [7, 8] (Or.inl rfl) (by decide) (by simp [NonNeg]) (by simp [pixelCount]) (by simp)
  rw [C21_variable_dimension _ _ (by simp)] at h1
  simp [pixelCount] at h1

/-- Non-vacuity of C21: a 3 x 2 raster. -/
example : ([3, 2] : Position) ≠ [] ∧ NonNeg [3, 2] ∧ pixelCount [3, 2] < 2 ^ 63 ∧
    Raster.ofList 2 [3, 2] [1, 2, 3, 4, 5, 6] = .ok ⟨[3, 2], [1, 2, 3, 4, 5, 6]⟩ ∧
    Raster.ofList 2 [3, 2] [1, 2, 3, 4, 5] = .error .sizeError ∧
    Raster.ofPointer [3, 2] [1, 2, 3, 4, 5, 6, 7] = .ok ⟨[3, 2], [1, 2, 3, 4, 5, 6]⟩ :=
  ⟨by decide, by simp [NonNeg], by simp [pixelCount], rfl, rfl, rfl⟩

theorem Raster.stdEqual_iff {α β : Type _} (eq : α → β → Bool) (l : List α) (m : List β) :
    Raster.stdEqual eq l m = true ↔ List.Forall₂ (fun a b => eq a b = true) l m := by
  induction l generalizing m with
  | nil => cases m <;> simp [Raster.stdEqual]
  | cons a l ih => cases m <;> simp [Raster.stdEqual, ih]

theorem Raster.eq_iff {α β : Type _} (eq : α → β → Bool) (a : Raster α) (b : Raster β) :
    Raster.eq eq a b = true ↔ a.shape = b.shape ∧ List.Forall₂ (fun x y => eq x y = true) a.data b.data := by
  have h : ∀ s t : Position, Raster.stdEqual (· == ·) s t = true ↔ s = t := by
    intro s t
    rw [Raster.stdEqual_iff]
    simp only [beq_iff_eq]
    exact List.forall₂_eq_eq_eq ▸ Iff.rfl
  rw [Raster.eq]
  split
  · rename_i hc
    simp only [Bool.not_eq_true', Bool.and_eq_false_iff] at hc
    constructor
    · intro h; cases h
    · rintro ⟨h1, -⟩
      rcases hc with hc | hc
      · simp [h1] at hc
      · rw [(h _ _).2 h1] at hc; cases hc
  · rename_i hc
    simp only [Bool.not_eq_true', Bool.not_eq_false, Bool.and_eq_true, h] at hc
    rw [Raster.stdEqual_iff]
    simp [hc.2]

/-- **C22**: two rasters, which hold as many elements as pixels, compare equal iff they have the same shape and
equal values at each pixel position. The pixel types, and the comparison of pixels, are arbitrary. -/
theorem C22_eq_iff_same_pixels {α β : Type _} (eq : α → β → Bool) (a : Raster α) (b : Raster β)
    (hna : NonNeg a.shape) (hva : (a.data.length : Int) = pixelCount a.shape)
    (hvb : (b.data.length : Int) = pixelCount b.shape) :
    Raster.eq eq a b = true ↔ a.shape = b.shape ∧
      ∀ p, InShape a.shape p → ∃ x y, a.get p = .ok x ∧ b.get p = .ok y ∧ eq x y = true := by
  rw [Raster.eq_iff]
  refine and_congr_right fun hs => ?_
  have hl : a.data.length = b.data.length := by rw [← hs] at hvb; omega
  rw [List.forall₂_iff_get]
  constructor
  · rintro ⟨-, h⟩ p hp
    have hb := index_bounds hp
    change _ ∧ _ < pixelCount a.shape at hb
    refine ⟨_, _, readAt_ok hb.1 (by omega), ?_, h (index a.shape p).toNat (by omega) (by omega)⟩
    have : b.get p = readAt b.data (index a.shape p) := by rw [hs]; rfl
    rw [this]
    exact readAt_ok hb.1 (by omega)
  · intro h
    refine ⟨hl, ?_⟩
    intro i h1 h2
    obtain ⟨hp, hi⟩ := unravel_spec (k := i) hna (by omega) (by change _ < pixelCount a.shape; omega)
    obtain ⟨x, y, hx, hy, hxy⟩ := h _ hp
    have hx' : a.get (unravel a.shape i) = .ok (a.data.get ⟨i, h1⟩) := by
      rw [Raster.get, hi, readAt_ok (by omega) (by omega)]; simp
    have hy' : b.get (unravel a.shape i) = .ok (b.data.get ⟨i, h2⟩) := by
      rw [Raster.get, ← hs, hi, readAt_ok (by omega) (by omega)]; simp
    rw [hx'] at hx
    rw [hy'] at hy
    cases hx
    cases hy
    exact hxy

/-- **C22**: `!=` is the negation of `==`. -/
theorem C22_ne {α β : Type _} (eq : α → β → Bool) (a : Raster α) (b : Raster β) :
    Raster.ne eq a b = true ↔ ¬ Raster.eq eq a b = true := by simp [Raster.ne]

/-- **C22**: equality of rasters is an equivalence relation whenever that of pixel values is. -/
theorem C22_equivalence (eq : α → α → Bool) (h : Equivalence fun x y => eq x y = true) :
    Equivalence fun a b : Raster α => Raster.eq eq a b = true := by
  refine ⟨?_, ?_, ?_⟩
  · intro a
    rw [Raster.eq_iff]
    exact ⟨rfl, List.forall₂_same.2 fun x _ => h.refl x⟩
  · intro a b hab
    rw [Raster.eq_iff] at hab ⊢
    exact ⟨hab.1.symm, (hab.2.imp fun _ _ => h.symm).flip⟩
  · intro a b c hab hbc
    rw [Raster.eq_iff] at hab hbc ⊢
    refine ⟨hab.1.trans hbc.1, ?_⟩
    have h1 := hab.2
    have h2 := hbc.2
    rw [List.forall₂_iff_get] at h1 h2 ⊢
    exact ⟨h1.1.trans h2.1, fun i hi hk => h.trans (h1.2 i hi (h1.1 ▸ hi)) (h2.2 i (h1.1 ▸ hi) hk)⟩

/-- **C22**: rasters of different shapes differ, even with the same data. -/
theorem C22_shape_matters (eq : α → α → Bool) (s t : Position) (data : List α) (h : s ≠ t) :
    Raster.eq eq ⟨s, data⟩ ⟨t, data⟩ = false := by
  rw [Bool.eq_false_iff, Ne, Raster.eq_iff]
  rintro ⟨h', -⟩
  exact h h'

/-- Non-vacuity of C22: a raster is not equal to its transpose, nor to a raster with another value. -/
example : Raster.eq (· == ·) (⟨[2, 3], [1, 2, 3, 4, 5, 6]⟩ : Raster Nat) ⟨[3, 2], [1, 2, 3, 4, 5, 6]⟩ = false ∧
    Raster.eq (· == ·) (⟨[2], [1, 2]⟩ : Raster Nat) ⟨[2], [1, 3]⟩ = false ∧
    Raster.eq (· == ·) (⟨[2], [1, 2]⟩ : Raster Nat) ⟨[2], [1, 2]⟩ = true ∧
    (([1, 2] : List Nat).length : Int) = pixelCount [2] := by
  refine ⟨by decide, by decide, by decide, by simp [pixelCount]⟩

/-- **C23** (full statement, violated by the code): `inf()` is infinite, and `whole()` contains all the positions
with non-negative coordinates. -/
def C23_Statement : Prop :=
  (∀ N : Int, (Position.inf N).isInf = true) ∧
  ∀ (N : Nat) (p : Position), p.length = N → (∀ x ∈ p, 0 ≤ x ∧ x ≤ 2 ^ 63 - 1) →
    InBox (Box.whole N).front (Box.whole N).back p

/-- **C23**: `inf()` is never recognised as infinite, but in dimension 0. -/
theorem C23_inf_not_inf (N : Int) (h : N ≠ 0) : (Position.inf N).isInf = false := by
  obtain ⟨n, hn⟩ : ∃ n, N.natAbs = n + 1 := ⟨N.natAbs - 1, by omega⟩
  simp [Position.inf, Position.isInf, hn, Position.indexInf]

/-- **C23**: the "unlimited" box has no position at all, but in dimension 0. -/
theorem C23_whole_empty (N : Int) (h : N ≠ 0) : ¬ ∃ p, InBox (Box.whole N).front (Box.whole N).back p := by
  obtain ⟨n, hn⟩ : ∃ n, N.natAbs = n + 1 := ⟨N.natAbs - 1, by omega⟩
  simp only [Box.whole, Position.zero, Position.inf, hn, List.replicate_succ]
  rintro ⟨p, h1, h2⟩
  cases h1 with
  | cons h3 _ => cases h2 with
    | cons h4 _ =>
      simp only [Position.indexInf] at h4
      omega

/-- **C23** is violated. -/
theorem C23_violated : ¬ C23_Statement := by
  intro h
  have := h.1 2
  rw [C23_inf_not_inf 2 (by decide)] at this
  cases this

/-- **C23**, what remains true: `isInf`, `isZero` and `isOne` recognise the vectors filled with the maximum index,
0 and 1, and hence `zero()` and `one()`. Missing: `inf()` and `whole()`. -/
theorem C23_recognition_partial (p : Position) (N : Int) :
    (p.isInf = true ↔ ∀ x ∈ p, x = 2 ^ 63 - 1) ∧ (p.isZero = true ↔ ∀ x ∈ p, x = 0) ∧
    (p.isOne = true ↔ ∀ x ∈ p, x = 1) ∧ (Position.zero N).isZero = true ∧ (Position.one N).isOne = true := by
  refine ⟨by simp [Position.isInf, Position.indexInf], by simp [Position.isZero], by simp [Position.isOne], ?_, ?_⟩
  · simp [Position.isZero, Position.zero]
  · simp [Position.isOne, Position.one]

/-- Non-vacuity of C23. -/
example : Position.isInf [2 ^ 63 - 1, 2 ^ 63 - 1] = true ∧ Position.isInf [2 ^ 63 - 1, 0] = false ∧
    (Box.whole 2) = ⟨[0, 0], [-(2 ^ 63 - 1), -(2 ^ 63 - 1)]⟩ := by decide

end Litl
