import Verif.Lemmas.BoxSize
import Mathlib.Algebra.BigOperators.Ring.List

/-!
# C03, C04, C05, C08, C09, C11: box and domain iteration
-/

namespace Litl

open Spec BoxIterator

/-- **C03**: looping over the domain of a fixed-dimension raster with at least one pixel terminates,
and the k-th visited position is a pixel position of raw index k, for each `0 ≤ k < size()`. -/
theorem C03_domain_storage_order (s : Position) (h : s ≠ []) (hs : Pos s) :
    ∃ l, Visits (Raster.domainOf s.length s) l ∧ (l.length : Int) = shapeSize s ∧
      ∀ k (hk : k < l.length), InShape s l[k] ∧ index s l[k] = k := by
  have hn : List.replicate s.length (0 : Int) ≠ [] := by simpa using h
  have hv := visits_enum (b := Raster.domainOf s.length s)
    (by rw [domainOf_fixed]; exact hn) (by rw [domainOf_fixed]; exact domain_le hs)
  have he := domain_enum hs
  refine ⟨_, hv, ?_, ?_⟩
  · have h2 := congrArg List.length he
    simp only [List.length_map, List.length_range] at h2
    rw [domainOf_fixed, h2, shapeSize_eq h]
    have : 0 ≤ s.prod := by
      have : InShape s (List.replicate s.length 0) := inBox_domain.1 ⟨le_refl_forall₂ _, domain_le hs⟩
      have := index_bounds this
      omega
    omega
  · intro k hk
    refine ⟨?_, ?_⟩
    · have h3 : ∀ p ∈ enum (Raster.domainOf s.length s).front (Raster.domainOf s.length s).back, InShape s p := by
        rw [domainOf_fixed]
        intro p hp
        exact inBox_domain.1 ((mem_enum (by simp)).1 hp)
      exact h3 _ (List.getElem_mem hk)
    · simp only [domainOf_fixed] at hk ⊢
      have h2 : ((enum (List.replicate s.length 0) (s.map (· - 1))).map (index s))[k]'(by simpa using hk) =
          ((List.range s.prod.toNat).map (fun k : Nat => (k : Int)))[k]'(by rw [← he]; simpa using hk) := by
        simp only [he]
      simpa using h2

/-- Non-vacuity of C03: the 2 × 2 raster. -/
example : ([2, 2] : Position) ≠ [] ∧ Pos [2, 2] ∧
    Visits (Raster.domainOf 2 [2, 2]) [[0, 0], [1, 0], [0, 1], [1, 1]] := by
  refine ⟨by decide, by unfold Pos; decide, ?_⟩
  exact visits_enum (b := Raster.domainOf 2 [2, 2]) (by decide) (by
    simp [Raster.domainOf, Box.fromShape, Position.zero, Position.add, Position.subScalar])

/-- **C04**: looping over a non-empty box terminates and visits exactly the positions of the box,
each once, in increasing storage order; there are `size()` of them. -/
theorem C04_box_iteration (b : Box) (hf : b.front ≠ [])
    (h : ∃ p, InBox b.front b.back p) :
    ∃ l, Visits b l ∧ (∀ p, p ∈ l ↔ InBox b.front b.back p) ∧ l.Nodup ∧ l.Pairwise StorageLt ∧
      (l.length : Int) = b.size := by
  obtain ⟨p, hp⟩ := h
  have hle : List.Forall₂ (· ≤ ·) b.front b.back := by
    obtain ⟨h1, h2⟩ := hp
    exact forall₂_le_trans h1 h2
  refine ⟨_, visits_enum hf hle, fun p => mem_enum hle.length_eq, nodup_enum, pairwise_enum, ?_⟩
  rw [length_enum hle, Box.size, shapeSize_eq (Box.shape_ne_nil hle.length_eq hf), Box.shape]

/-- **C04**: the loop is deterministic, hence the previous statement describes the only execution. -/
theorem C04_box_iteration_unique (b : Box) (l l' : List Position) (h : Visits b l) (h' : Visits b l') : l = l' :=
  h.unique h'

/-- **C04**: storage order is the order of raw indices in any raster which contains the box. -/
theorem C04_storage_order (s p q : Position) (hp : InShape s p) (hq : InShape s q) :
    StorageLt p q → index s p < index s q :=
  index_lt_of_storageLt hp hq

/-- Non-vacuity of C04: a box with negative bounds. -/
example : (⟨[-1, 2], [0, 3]⟩ : Box).front ≠ [] ∧ InBox [-1, 2] [0, 3] [0, 2] ∧
    Visits ⟨[-1, 2], [0, 3]⟩ [[-1, 2], [0, 2], [-1, 3], [0, 3]] := by
  refine ⟨by decide, by simp [InBox], ?_⟩
  exact visits_enum (b := ⟨[-1, 2], [0, 3]⟩) (by decide) (by simp)

/-- **C05** (full statement, violated by the code): looping over an empty box visits nothing. -/
def C05_Statement : Prop :=
  ∀ b : Box, b.front ≠ [] → b.front.length = b.back.length → (¬ ∃ p, InBox b.front b.back p) → Visits b []

/-- **C05**: the loop over an empty box does not terminate, whatever the box. -/
theorem C05_empty_box_diverges (b : Box) (hf : b.front ≠ []) (h : ¬ ∃ p, InBox b.front b.back p) :
    ¬ ∃ l, Visits b l := by
  rintro ⟨l, hl⟩
  refine no_trace_of_empty hf ?_ (le_refl_forall₂ _) hl
  intro hle
  exact h ⟨b.front, le_refl_forall₂ _, hle⟩

/-- **C05** is violated, e.g. by the domain of a 0 × 3 raster. -/
theorem C05_violated : ¬ C05_Statement := by
  intro h
  have hb : (⟨[0, 0], [-1, 2]⟩ : Box).front ≠ [] := by decide
  have he : ¬ ∃ p, InBox [0, 0] [-1, 2] p := by
    rintro ⟨p, h1, h2⟩
    cases h1 with
    | cons h3 _ => cases h2 with
      | cons h4 _ => omega
  exact C05_empty_box_diverges _ hb he ⟨_, h ⟨[0, 0], [-1, 2]⟩ hb rfl he⟩

/-- **C05**, what remains true: a loop over a box terminates iff the box has a position. Missing:
termination for empty boxes. -/
theorem C05_terminates_iff_nonempty_partial (b : Box) (hf : b.front ≠ []) :
    (∃ l, Visits b l) ↔ ∃ p, InBox b.front b.back p := by
  constructor
  · intro h
    by_contra hc
    exact C05_empty_box_diverges b hf hc h
  · intro h
    obtain ⟨l, hl, _⟩ := C04_box_iteration b hf h
    exact ⟨l, hl⟩

/-- The domain of a 0 × 3 raster is the box of `C05_violated`. -/
example : Raster.domainOf 2 [0, 3] = ⟨[0, 0], [-1, 2]⟩ := by decide

/-- **C08**: `contains` characterises the pixel positions, for any shape. -/
theorem C08_contains_iff (s p : Position) (hl : p.length = s.length) :
    Raster.contains s p = true ↔ InShape s p := by
  induction s generalizing p with
  | nil => cases p with
    | nil => simp [Raster.contains, InShape]
    | cons => simp at hl
  | cons x s ih =>
    cases p with
    | nil => simp at hl
    | cons y p =>
      have := ih p (by simpa using hl)
      simp only [Raster.contains, List.zip_cons_cons, List.all_cons, Bool.and_eq_true] at this ⊢
      rw [this, inShape_cons]
      refine and_congr_left fun _ => ?_
      simp

/-- **C08**: for a raster with pixels, `contains(p)` holds iff `p` is visited by the loop over the
domain. -/
theorem C08_contains_iff_visited (s p : Position) (h : s ≠ []) (hs : Pos s) (hl : p.length = s.length) :
    Raster.contains s p = true ↔ ∃ l, Visits (Raster.domainOf s.length s) l ∧ p ∈ l := by
  rw [C08_contains_iff s p hl, ← inBox_domain]
  have hne : (Raster.domainOf s.length s).front ≠ [] := by rw [domainOf_fixed]; simpa using h
  obtain ⟨l, hv, hm, -⟩ := C04_box_iteration (Raster.domainOf s.length s) hne
    ⟨List.replicate s.length 0, by rw [domainOf_fixed]; exact ⟨le_refl_forall₂ _, domain_le hs⟩⟩
  rw [domainOf_fixed] at hm
  constructor
  · intro hp; exact ⟨l, hv, (hm p).2 hp⟩
  · rintro ⟨l', hv', hp⟩
    rw [hv'.unique hv] at hp
    exact (hm p).1 hp

/-- **C08**: subscripting at a contained position stays inside the data, for any raster which holds
as many elements as its shape. -/
theorem C08_contains_safe {α : Type _} (r : Raster α) (p : Position) (h : r.shape ≠ [])
    (hr : (r.data.length : Int) = shapeSize r.shape) (hl : p.length = r.shape.length)
    (hp : Raster.contains r.shape p = true) : ∃ v, r.get p = .ok v := by
  have h1 := index_bounds ((C08_contains_iff _ _ hl).1 hp)
  rw [shapeSize_eq h] at hr
  have h2 : (index r.shape p).toNat < r.data.length := by omega
  refine ⟨r.data[(index r.shape p).toNat], ?_⟩
  simp [Raster.get, readAt, not_lt.2 h1.1, List.getElem?_eq_getElem h2]

/-- Non-vacuity of C08. -/
example : Raster.contains [3, 2] [2, 1] = true ∧ Raster.contains [3, 2] [0, 2] = false ∧
    Raster.contains [3, 2] [-1, 0] = false ∧ Raster.contains [0, 2] [0, 0] = false ∧
    (⟨[3, 2], [1, 2, 3, 4, 5, 6]⟩ : Raster Nat).get [2, 1] = .ok 6 := by
  refine ⟨by decide, by decide, by decide, by decide, by rfl⟩

/-- **C09** (full statement, violated by the code): the domain of a variable-dimension raster is the
box from 0 to shape - 1, of the dimension of the raster. -/
def C09_Statement : Prop :=
  ∀ s : Position, s ≠ [] → ∀ p, InBox (Raster.domainOf (-1) s).front (Raster.domainOf (-1) s).back p ↔ InShape s p

/-- **C09**, what remains true: the domain of a variable-dimension raster is right for 1D rasters.
Missing: all other dimensions, see `C09_wrong_dimension`. -/
theorem C09_domain_1d_partial (x : Int) (p : Position) :
    InBox (Raster.domainOf (-1) [x]).front (Raster.domainOf (-1) [x]).back p ↔ InShape [x] p := by
  have := inBox_domain (s := [x]) (p := p)
  simpa [Raster.domainOf, Box.fromShape, Position.zero, Position.add, Position.subScalar] using this

/-- **C09**: the domain of a variable-dimension raster has dimension 1 whatever the raster. -/
theorem C09_wrong_dimension (x : Int) (s : Position) :
    Raster.domainOf (-1) (x :: s) = ⟨[0], [x - 1]⟩ := by
  simp [Raster.domainOf, Box.fromShape, Position.zero, Position.add, Position.subScalar]

/-- **C09** is violated. -/
theorem C09_violated : ¬ C09_Statement := by
  intro h
  have := (h [3, 2] (by decide) [1, 1]).2 (by simp [InShape])
  rw [C09_wrong_dimension] at this
  simp [InBox] at this

/-- **C11** (full statement, violated by the code): `size()` is the number of positions of the box. -/
def C11_Statement : Prop :=
  ∀ (b : Box) (l : List Position), b.front ≠ [] → b.front.length = b.back.length → l.Nodup →
    (∀ p, p ∈ l ↔ InBox b.front b.back p) → b.size = l.length

/-- **C11**, what remains true: `size()` is the number of positions (of any duplicate-free
enumeration) if no length is negative. Missing: boxes with `back < front - 1` along some axis. -/
theorem C11_size_count_partial (b : Box) (l : List Position) (hf : b.front ≠ [])
    (hl : b.front.length = b.back.length) (hlen : NonNeg b.shape) (hn : l.Nodup)
    (hm : ∀ p, p ∈ l ↔ InBox b.front b.back p) : b.size = l.length := by
  rw [length_eq_of_nodup hn nodup_enum (fun p => (hm p).trans (mem_enum hl).symm),
    length_enum_of_nonneg hl hlen, Box.size, shapeSize_eq (Box.shape_ne_nil hl hf), Box.shape]

/-- **C11**: exact characterisation of the boxes with a right size: no length is negative, or some
length is null. -/
theorem C11_size_right_iff (b : Box) (l : List Position) (hf : b.front ≠ [])
    (hl : b.front.length = b.back.length) (hn : l.Nodup) (hm : ∀ p, p ∈ l ↔ InBox b.front b.back p) :
    b.size = l.length ↔ (NonNeg b.shape ∨ 0 ∈ b.shape) := by
  by_cases h0 : (0 : Int) ∈ b.shape
  · have hnil : l = [] := by
      have : l.length = 0 := by
        rw [length_eq_of_nodup hn nodup_enum (fun p => (hm p).trans (mem_enum hl).symm),
          enum_eq_nil hl ⟨0, h0, le_rfl⟩]
        rfl
      simpa using this
    have : b.shape.prod = 0 := List.prod_eq_zero h0
    simp [h0, hnil, Box.size, shapeSize_eq (Box.shape_ne_nil hl hf), this]
  · constructor
    · intro hs
      by_cases hnn : NonNeg b.shape
      · exact Or.inl hnn
      · exfalso
        simp only [NonNeg, not_forall] at hnn
        obtain ⟨s, hs1, hs2⟩ := hnn
        have : l.length = 0 := by
          rw [length_eq_of_nodup hn nodup_enum (fun p => (hm p).trans (mem_enum hl).symm),
            enum_eq_nil hl ⟨s, hs1, by omega⟩]
          rfl
        rw [this, Box.size, shapeSize_eq (Box.shape_ne_nil hl hf)] at hs
        exact h0 (List.prod_eq_zero_iff.1 (by simpa using hs))
    · rintro (h | h)
      · exact C11_size_count_partial b l hf hl h hn hm
      · exact absurd h h0

/-- **C11** is violated: the box from (0, 0) to (-2, -2) has no position and size 1. -/
theorem C11_violated : ¬ C11_Statement := by
  intro h
  have := h ⟨[0, 0], [-2, -2]⟩ [] (by decide) rfl (by simp) (by
    intro p
    simp only [List.not_mem_nil, false_iff]
    rintro ⟨h1, h2⟩
    cases h1 with
    | cons h3 _ => cases h2 with
      | cons h4 _ => omega)
  simp [Box.size, Box.shape, Position.sub, Position.addScalar, shapeSize, shapeStride] at this

/-- Non-vacuity of C11: a box of 4 positions, and an empty box of null size. -/
example : NonNeg (⟨[-1, 2], [0, 3]⟩ : Box).shape ∧ (⟨[-1, 2], [0, 3]⟩ : Box).size = 4 ∧
    NonNeg (⟨[0, 0], [-1, 2]⟩ : Box).shape ∧ (⟨[0, 0], [-1, 2]⟩ : Box).size = 0 := by
  unfold NonNeg; decide

end Litl
