import Verif.Lemmas.Layout

/-!
# C01, C02: raster indices
-/

namespace Litl

open Spec

/-- **C01**: the raw index is a bijection from the positions of a raster of shape `s`
(any dimension, lengths possibly null) onto `{0, ..., pixelCount s - 1}`. -/
theorem C01_index_bijective (s : Position) (hs : NonNeg s) :
    (∀ p, InShape s p → 0 ≤ index s p ∧ index s p < pixelCount s) ∧
    (∀ p q, InShape s p → InShape s q → index s p = index s q → p = q) ∧
    (∀ k, 0 ≤ k → k < pixelCount s → ∃ p, InShape s p ∧ index s p = k) :=
  ⟨fun _ h => index_bounds h, fun _ _ h h' e => index_inj h h' e,
    fun k h0 h1 => ⟨unravel s k, unravel_spec hs h0 h1⟩⟩

/-- **C01**: `shapeSize`, the allocated number of elements, is the number of pixels. -/
theorem C01_allocated_size (s : Position) (h : s ≠ []) : shapeSize s = pixelCount s :=
  shapeSize_eq h

/-- **C01**: every element of the data of a raster is the pixel of exactly one position. -/
theorem C01_unique_position (s : Position) (hs : NonNeg s) (h : s ≠ []) (k : Int)
    (h0 : 0 ≤ k) (h1 : k < shapeSize s) : ∃! p, InShape s p ∧ index s p = k := by
  rw [shapeSize_eq h] at h1
  exact ⟨unravel s k, unravel_spec hs h0 h1,
    fun q hq => index_inj hq.1 (unravel_spec hs h0 h1).1 (by rw [hq.2, (unravel_spec hs h0 h1).2])⟩

/-- Non-vacuity: the 3 × 2 × 4 raster; index 17 is position (2, 1, 2). -/
example : NonNeg [3, 2, 4] ∧ ([3, 2, 4] : Position) ≠ [] ∧ InShape [3, 2, 4] [2, 1, 2] ∧
    index [3, 2, 4] [2, 1, 2] = 17 ∧ shapeSize [3, 2, 4] = 24 := by
  refine ⟨by unfold NonNeg; decide, by decide, ?_, by decide, by decide⟩
  simp [InShape]

/-- **C02**: the raw index is the sum of coordinate times stride, inside the domain or not. -/
theorem C02_index_eq_offset (s p : Position) (h : p.length = s.length) : index s p = offset s p :=
  index_eq_offset h

/-- **C02**: `shapeStride` is the product of the lengths of the lower axes. -/
theorem C02_shapeStride (s : Position) (i : Nat) (hi : i < s.length) :
    (strides s)[i]? = some (shapeStride s i) := by
  simp [strides, shapeStride_eq, hi]

/-- **C02**: moving by one along axis `i` moves by `shapeStride(shape, i)` in memory,
whatever the position. -/
theorem C02_step_along_axis (s p : Position) (i : Nat) (h : p.length = s.length) (hi : i < p.length) :
    index s (p.set i (p[i] + 1)) = index s p + shapeStride s i := by
  rw [shapeStride_eq]; exact index_set_add_one h hi

/-- **C02**: a variable-dimension raster computes the same index as the fixed-dimension one,
and raises a size error exactly when the number of coordinates is wrong. -/
theorem C02_variable_dimension (s p : Position) :
    (p.length = s.length → indexVariable s p = .ok (index s p)) ∧
    (indexVariable s p = .error .sizeError ↔ p.length ≠ s.length) := by
  constructor
  · intro h; simp [indexVariable, h, foldl_index h]
  · by_cases h : p.length = s.length
    · simp [indexVariable, h]
    · simp [indexVariable, h]

/-- Non-vacuity: an out-of-domain position of a 3 × 2 × 4 raster, moved along axis 1; and both
outcomes of the variable-dimension index. -/
example : index [3, 2, 4] [-1, 5, 2] = 26 ∧ offset [3, 2, 4] [-1, 5, 2] = 26 ∧
    index [3, 2, 4] [-1, 6, 2] = 26 + shapeStride [3, 2, 4] 1 ∧
    indexVariable [3, 2, 4] [2, 1, 2] = .ok 17 ∧ indexVariable [3, 2, 4] [2, 1] = .error .sizeError := by
  refine ⟨by decide, by decide, by decide, by rfl, by rfl⟩

end Litl
