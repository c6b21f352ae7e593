import Verif.Lemmas.Subraster
import Verif.Props.BoxAlgebra

/-!
# C16: subrasters
-/

namespace Litl

open Spec

/-- **C16**: iterating over the subraster of a non-empty region inside a raster terminates and yields,
in order, the values of the raster at the positions of the region in box-iteration order; only pixels
of the raster are accessed. -/
theorem C16_iteration {α : Type _} (r : Raster α) (region : Box) (hs : r.shape ≠ [])
    (hr : (r.data.length : Int) = pixelCount r.shape)
    (hf : InShape r.shape region.front) (hb : InShape r.shape region.back)
    (hle : List.Forall₂ (· ≤ ·) region.front region.back) :
    ∃ l lb, Subraster.Visits (View.ofRaster r) region l ∧ BoxIterator.Visits region lb ∧
      l.map (fun it => readAt r.data it.current) = lb.map r.get ∧
      ∀ it ∈ l, 0 ≤ it.current ∧ it.current < r.data.length := by
  obtain ⟨l, h1, h2⟩ := Subraster.visits (v := View.ofRaster r) hs hf hb hle
  have hne : region.front ≠ [] := by
    intro h
    have := hf.length_eq
    rw [h] at this
    exact hs (List.length_eq_zero_iff.1 this.symm)
  have hptr : ∀ p, (View.ofRaster r).ptr p = index r.shape p := by
    intro p; simp [View.ptr, View.ofRaster]
  refine ⟨l, _, h1, BoxIterator.visits_enum hne hle, ?_, ?_⟩
  · have : l.map (fun it => readAt r.data it.current) = (l.map Subraster.Iter.current).map (readAt r.data) := by
      rw [List.map_map]; rfl
    rw [this, h2, List.map_map]
    refine List.map_congr_left ?_
    intro p _
    simp only [Function.comp, hptr, Raster.get]
  · intro it hit
    have hm : it.current ∈ (enum region.front region.back).map (View.ofRaster r).ptr := by
      rw [← h2]; exact List.mem_map_of_mem hit
    obtain ⟨p, hp, he⟩ := List.mem_map.1 hm
    have hp' := (mem_enum hle.length_eq).1 hp
    have hin : InShape r.shape p := by
      rw [inBox_iff] at hp'
      rw [InShape, forall₂_iff_getD] at hf hb ⊢
      refine ⟨by omega, fun i hi => ?_⟩
      have a1 := hf.2 i (by omega)
      have a2 := hb.2 i (by omega)
      have a3 := hp'.2 i hi
      omega
    have := index_bounds hin
    rw [← he, hptr]
    unfold pixelCount at hr
    omega

/-- **C16**: the loop over a subraster has only one execution. -/
theorem C16_iteration_unique (v : View) (region : Box) (l l' : List Subraster.Iter)
    (h : Subraster.Visits v region l) (h' : Subraster.Visits v region l') : l = l' :=
  LoopUntil.unique h h'

/-- **C16**: the subraster's pixel at `q` is the raster pixel at `q + front`, which is in the region for
all positions `q` of the shape of the region. -/
theorem C16_access (v : View) (region : Box) (q : Position) (hl : region.front.length = region.back.length)
    (hq : q.length = region.front.length) :
    Subraster.ptr v region q = v.ptr (q.add region.front) ∧
    (InShape region.shape q ↔ InBox region.front region.back (q.add region.front)) := by
  refine ⟨rfl, ?_⟩
  have hsl : region.shape.length = region.front.length := by
    simp only [Box.shape, Position.addScalar, List.length_map]
    rw [length_sub (by omega), hl]
  have hsg : ∀ i, i < region.front.length →
      region.shape.getD i 0 = region.back.getD i 0 - region.front.getD i 0 + 1 := by
    intro i hi
    rw [Box.shape, getD_addScalar (by rw [length_sub (by omega)]; omega), getD_sub (by omega)]
  rw [InShape, forall₂_iff_getD, inBox_iff, length_add hq]
  constructor
  · rintro ⟨_, h⟩
    refine ⟨⟨by omega, by omega⟩, fun i hi => ?_⟩
    have := h i hi
    rw [hsg i (by omega)] at this
    rw [getD_add hq]
    omega
  · rintro ⟨_, h⟩
    refine ⟨by omega, fun i hi => ?_⟩
    have := h i hi
    rw [getD_add hq] at this
    rw [hsg i (by omega)]
    omega

/-- Non-vacuity of C16: a 2 × 2 region of a 3 × 3 raster. -/
example : let r : Raster Nat := ⟨[3, 3], [1, 2, 3, 4, 5, 6, 7, 8, 9]⟩
    let region : Box := ⟨[1, 0], [2, 1]⟩
    InShape r.shape region.front ∧ InShape r.shape region.back ∧ (r.data.length : Int) = pixelCount r.shape ∧
    ∃ l, Subraster.Visits (View.ofRaster r) region l ∧ l.map (fun it => readAt r.data it.current) =
      [.ok 2, .ok 3, .ok 5, .ok 6] := by
  intro r region
  have h1 : InShape r.shape region.front := by simp [InShape, r, region]
  have h2 : InShape r.shape region.back := by simp [InShape, r, region]
  obtain ⟨l, lb, a, b, c, _⟩ := C16_iteration r region (by simp [r]) (by decide) h1 h2 (by simp [region])
  refine ⟨h1, h2, by decide, l, a, ?_⟩
  rw [c, b.unique (BoxIterator.visits_enum (by simp [region]) (by simp [region]))]
  rfl

end Litl
