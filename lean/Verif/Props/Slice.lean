import Verif.Lemmas.Contiguous

/-!
# C14, C15: slices and sections
-/

namespace Litl

open Spec

/-- **C14**: `slice<M>()` raises an exception exactly when `isContiguous<M>()` rejects the region. -/
theorem C14_slice_throws_iff (v : View) (M : Nat) (region : Box) :
    (v.slice M region = .error .exception ↔ View.isContiguous v.shape M region = false) ∧
    ((∃ w, v.slice M region = .ok w) ↔ View.isContiguous v.shape M region = true) := by
  unfold View.slice
  cases View.isContiguous v.shape M region <;> simp

/-- **C14**: the contiguity test is the documented one: full axes below `M - 1`, flat axes from `M`. -/
theorem C14_isContiguous_iff (s : Position) (M : Nat) (region : Box)
    (hf : region.front.length = s.length) (hb : region.back.length = s.length) (hM : M ≤ s.length) :
    View.isContiguous s M region = true ↔
      (region.front.take (M - 1) = List.replicate (M - 1) 0 ∧
        region.back.take (M - 1) = (s.take (M - 1)).map (· - 1)) ∧
      region.front.drop M = region.back.drop M := by
  rw [isContiguous_iff]
  have e1 : region.front.take (M - 1) = List.replicate (M - 1) 0 ↔ ∀ i, i < M - 1 → region.front.getD i 0 = 0 := by
    constructor
    · intro h i hi
      have := congrArg (fun l : List Int => l.getD i 0) h
      simp only [getD_take, if_pos hi] at this
      simpa [List.getD_eq_getElem?_getD, List.getElem?_replicate, hi] using this
    · intro h
      refine ext_getD (by simp; omega) ?_
      intro i hi
      have hi' : i < M - 1 := by simp at hi; omega
      rw [getD_take, if_pos hi', h i hi']
      simp [List.getD_eq_getElem?_getD, hi']
  have e2 : region.back.take (M - 1) = (s.take (M - 1)).map (· - 1) ↔
      ∀ i, i < M - 1 → region.back.getD i 0 = s.getD i 0 - 1 := by
    have key : ∀ i, i < M - 1 → ((s.take (M - 1)).map (· - 1)).getD i 0 = s.getD i 0 - 1 := by
      intro i hi
      have : i < s.length := by omega
      simp [List.getD_eq_getElem?_getD, hi, List.getElem?_eq_getElem this]
    constructor
    · intro h i hi
      have := congrArg (fun l : List Int => l.getD i 0) h
      simp only [getD_take, if_pos hi, key i hi] at this
      exact this
    · intro h
      refine ext_getD (by simp; omega) ?_
      intro i hi
      have hi' : i < M - 1 := by simp at hi; omega
      rw [getD_take, if_pos hi', h i hi', key i hi']
  have e3 : region.front.drop M = region.back.drop M ↔
      ∀ i, M ≤ i → i < s.length → region.back.getD i 0 = region.front.getD i 0 := by
    have key : ∀ (l : List Int) i, (l.drop M).getD i 0 = l.getD (M + i) 0 := by
      intro l i; simp [List.getD_eq_getElem?_getD, List.getElem?_drop]
    constructor
    · intro h i h1 h2
      have := congrArg (fun l : List Int => l.getD (i - M) 0) h
      simp only [key] at this
      rw [show M + (i - M) = i by omega] at this
      exact this.symm
    · intro h
      refine ext_getD (by simp; omega) ?_
      intro i hi
      rw [key, key]
      simp only [List.length_drop] at hi
      exact (h (M + i) (by omega) (by omega)).symm
  rw [e1, e2, e3]
  exact and_congr_left fun _ => ⟨fun h => ⟨fun i hi => (h i hi).1, fun i hi => (h i hi).2⟩,
    fun h i hi => ⟨h.1 i hi, h.2 i hi⟩⟩

/-- **C14**: the slice has the first `M` lengths of the region as shape, and its element at `q` is
the raster pixel at `front + q`, whatever the position `q` of dimension `M`. -/
theorem C14_slice_exact (v w : View) (M : Nat) (region : Box) (hM : 1 ≤ M) (hMs : M ≤ v.shape.length)
    (hf : region.front.length = v.shape.length) (hb : region.back.length = v.shape.length)
    (hw : v.slice M region = .ok w) :
    w.shape = region.shape.take M ∧
    (∀ q : Position, q.length = M →
      w.ptr q = v.ptr (region.front.add (q ++ List.replicate (v.shape.length - M) 0))) := by
  have hc := (C14_slice_throws_iff v M region).2.1 ⟨w, hw⟩
  unfold View.slice at hw
  rw [if_pos hc] at hw
  obtain rfl := Except.ok.inj hw
  constructor
  · have hl : region.shape.length = v.shape.length := by
      simp only [Box.shape, Position.addScalar, List.length_map]
      rw [length_sub (by omega)]; exact hb
    refine map_range_getD (by omega) _ ?_
    intro i hi
    have h1 : i < (region.back.sub region.front).length := by rw [length_sub (by omega)]; omega
    have : region.shape.getD i 0 = (region.back.sub region.front).getD i 0 + 1 := by
      simp [Box.shape, Position.addScalar, List.getD_eq_getElem?_getD, List.getElem?_eq_getElem h1]
    rw [this, getD_sub (by omega)]
  · intro q hq
    simp only [View.ptr]
    rw [← slice_index hM hMs hf hc hq]
    ring

/-- **C14**: for a non-empty region inside the raster, the positions of the slice are in one-to-one
correspondence with those of the region, which occupy consecutive raw indices, in order. -/
theorem C14_slice_contiguous (v w : View) (M : Nat) (region : Box) (hM : 1 ≤ M) (hMs : M ≤ v.shape.length)
    (hf : InShape v.shape region.front) (hb : InShape v.shape region.back)
    (hle : List.Forall₂ (· ≤ ·) region.front region.back)
    (hw : v.slice M region = .ok w) (p : Position) :
    InBox region.front region.back p ↔
      ∃ q, InShape w.shape q ∧ p = region.front.add (q ++ List.replicate (v.shape.length - M) 0) ∧
        v.ptr p = v.ptr region.front + index w.shape q := by
  have hc := (C14_slice_throws_iff v M region).2.1 ⟨w, hw⟩
  have hexact := (C14_slice_exact v w M region hM hMs hf.length_eq hb.length_eq hw).2
  have hwe : w = ⟨reducedShape region M, v.ptr region.front⟩ := by
    unfold View.slice at hw
    rw [if_pos hc] at hw
    exact (Except.ok.inj hw).symm
  have hws : w.shape = reducedShape region M := by rw [hwe]
  constructor
  · intro hp
    obtain ⟨h1, h2⟩ := inBox_slice hMs hf.length_eq hc hp
    refine ⟨_, hws ▸ h1, h2, ?_⟩
    have := hexact _ (h1.length_eq.trans (length_reducedShape _ _))
    rw [← h2] at this
    rw [← this, hwe, View.ptr]
  · rintro ⟨q, hq, rfl, _⟩
    exact slice_inBox hMs hf.length_eq hb.length_eq hle (hws ▸ hq)

/-- **C14**, completeness: a non-empty region occupies all the raw indices between those of its front and
back if and only if the contiguity test accepts it for some dimension `M`. -/
theorem C14_contiguous_complete (s : Position) (region : Box) (hs : s ≠ [])
    (hf : InShape s region.front) (hb : InShape s region.back)
    (hle : List.Forall₂ (· ≤ ·) region.front region.back) :
    (∀ k, index s region.front ≤ k → k ≤ index s region.back →
      ∃ p, InBox region.front region.back p ∧ index s p = k) ↔
    ∃ M, 1 ≤ M ∧ M ≤ s.length ∧ View.isContiguous s M region = true := by
  constructor
  · intro h
    obtain ⟨_, h2, h3⟩ := size_le_span hf hb hle
    have hcount : (ints (index s region.front) (index s region.back)).length ≤
        ((enum region.front region.back).map (index s)).length := by
      refine List.Subperm.length_le (List.subperm_of_subset (nodup_ints _ _) ?_)
      intro k hk
      rw [mem_ints] at hk
      obtain ⟨p, hp, he⟩ := h k hk.1 hk.2
      exact List.mem_map.2 ⟨p, (mem_enum hle.length_eq).2 hp, he⟩
    rw [length_ints, List.length_map] at hcount
    have h4 := length_enum hle
    have h5 : ((region.back.sub region.front).addScalar 1).prod =
        index s region.back - index s region.front + 1 := by omega
    have hpos : 1 ≤ s.length := by
      have := List.length_pos_iff.2 hs
      omega
    rcases h3 h5 with hfb | ⟨M, hM1, hM2, hM3⟩
    · refine ⟨1, le_rfl, hpos, ?_⟩
      rw [isContiguous_iff]
      refine ⟨by simp, ?_⟩
      intro i _ _
      rw [hfb]
    · exact ⟨M, hM1, hM2, (contig_iff hf.length_eq hb.length_eq hM2).2 hM3⟩
  · rintro ⟨M, hM1, hM2, hc⟩ k h1 h2
    have hw : (View.mk s 0).slice M region = .ok ⟨reducedShape region M, (View.mk s 0).ptr region.front⟩ := by
      unfold View.slice; rw [if_pos hc]; rfl
    have hbox := C14_slice_contiguous ⟨s, 0⟩ _ M region hM1 hM2 hf hb hle hw
    obtain ⟨qb, hq1, _, hq3⟩ := (hbox region.back).1 ⟨hle, BoxIterator.le_refl_forall₂ _⟩
    simp only [View.ptr, Int.zero_add] at hq1 hq3
    have hq4 := index_bounds hq1
    have hnn : NonNeg (reducedShape region M) := by
      intro x hx
      obtain ⟨i, hi, rfl⟩ := List.mem_map.1 hx
      have hi' : i < M := by simpa using hi
      have hl : region.front.length = s.length := hf.length_eq
      have := (forall₂_iff_getD.1 hle).2 i (by omega)
      omega
    obtain ⟨hu1, hu2⟩ := unravel_spec (k := k - index s region.front) hnn (by omega) (by omega)
    have hlen := hu1.length_eq.trans (length_reducedShape _ _)
    refine ⟨_, slice_inBox hM2 hf.length_eq hb.length_eq hle hu1, ?_⟩
    rw [← slice_index hM1 hM2 hf.length_eq hc hlen]
    change index s region.front + index (reducedShape region M) _ = k
    omega

/-- Non-vacuity of C14: rows 1 to 2 of plane 1 of a 4 × 3 × 2 raster; a region which is not contiguous. -/
example : (View.mk [4, 3, 2] 0).slice 2 ⟨[0, 1, 1], [3, 2, 1]⟩ = .ok ⟨[4, 2], 16⟩ ∧
    InShape [4, 3, 2] [0, 1, 1] ∧ InShape [4, 3, 2] [3, 2, 1] ∧
    View.isContiguous [4, 3, 2] 2 ⟨[0, 1, 1], [2, 2, 1]⟩ = false := by
  refine ⟨by rfl, by simp [InShape], by simp [InShape], by decide⟩

end Litl
