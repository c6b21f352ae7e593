import Verif.Props.Slice

/-!
# C15: sections
-/

namespace Litl

open Spec

theorem set_last (t : List Int) (n x : Int) : (t ++ [n]).set ((t ++ [n]).length - 1) x = t ++ [x] := by
  have : (t ++ [n]).length - 1 = t.length := by simp
  rw [this, List.set_append_right _ _ le_rfl]
  simp

theorem section_front (t : List Int) (n x : Int) :
    (Position.zero ((t ++ [n]).length : Nat)).set ((t ++ [n]).length - 1) x = List.replicate t.length 0 ++ [x] := by
  have e : Position.zero ((t ++ [n]).length : Nat) = List.replicate t.length 0 ++ [0] := by
    simp [Position.zero, List.replicate_succ', show ((t.length : Int) + 1).natAbs = t.length + 1 by omega]
  rw [e]
  have h2 : (t ++ [n]).length = (List.replicate t.length (0:Int) ++ [0]).length := by simp
  rw [h2, set_last]

theorem section_back (t : List Int) (n x : Int) :
    (Position.subScalar (t ++ [n]) 1).set ((t ++ [n]).length - 1) x = t.map (· - 1) ++ [x] := by
  have e : Position.subScalar (t ++ [n]) 1 = t.map (· - 1) ++ [n - 1] := by simp [Position.subScalar]
  have h2 : (t ++ [n]).length = (t.map (· - 1) ++ [n - 1]).length := by simp
  rw [e, h2, set_last]

theorem section_contiguous (t : List Int) (n x y : Int) (M : Nat) (hM : M ≤ t.length + 1)
    (h : t.length + 1 ≤ M ∨ (t.length ≤ M ∧ x = y)) :
    View.isContiguous (t ++ [n]) M ⟨List.replicate t.length 0 ++ [x], t.map (· - 1) ++ [y]⟩ = true := by
  rw [isContiguous_iff]
  constructor
  · intro i hi
    have hi' : i < t.length := by omega
    simp [List.getD_eq_getElem?_getD, List.getElem?_append_left, hi']
  · intro i h1 h2
    simp only [List.length_append, List.length_singleton] at h2
    have : i = t.length := by omega
    subst this
    rcases h with h | h
    · omega
    · simp [List.getD_eq_getElem?_getD, h.2]

/-- **C15**: `section(front, back)` of a raster of shape `t ++ [n]` never fails, has shape
`t ++ [back - front + 1]`, and its pixel at `q` is the raster pixel at `q + (0, ..., 0, front)`. -/
theorem C15_section2 (v : View) (t : Position) (n front back : Int) (hs : v.shape = t ++ [n]) :
    ∃ w, v.section2 front back = .ok w ∧ w.shape = t ++ [back - front + 1] ∧
      ∀ q : Position, q.length = v.shape.length →
        w.ptr q = v.ptr (q.add (List.replicate t.length 0 ++ [front])) := by
  have hl : v.shape.length = t.length + 1 := by simp [hs]
  have hc := section_contiguous t n front back (t.length + 1) le_rfl (Or.inl le_rfl)
  have hw : v.section2 front back = v.slice (t.length + 1)
      ⟨List.replicate t.length 0 ++ [front], t.map (· - 1) ++ [back]⟩ := by
    unfold View.section2
    simp only [hs, section_front, section_back]
    simp
  rw [← hs] at hc
  obtain ⟨w, hw'⟩ := (C14_slice_throws_iff v _ _).2.2 hc
  obtain ⟨h1, h2⟩ := C14_slice_exact v w _ _ (by omega) (by omega) (by simp [hl]) (by simp [hl]) hw'
  refine ⟨w, hw.trans hw', ?_, ?_⟩
  · rw [h1]
    have : ∀ t : List Int, List.map (fun x => x + 1) (List.zipWith (fun a b => a - b) (t.map (· - 1) ++ [back])
        (List.replicate t.length 0 ++ [front])) = t ++ [back - front + 1] := by
      intro t
      induction t with
      | nil => simp
      | cons x t ih =>
        simp only [List.map_cons, List.length_cons, List.replicate_succ, List.cons_append,
          List.zipWith_cons_cons] at ih ⊢
        rw [ih]; congr 1; omega
    simp only [Box.shape, Position.addScalar, Position.sub]
    rw [this t]
    exact List.take_of_length_le (by simp)
  · intro q hq
    rw [h2 q (by omega), hl]
    simp only [Nat.sub_self, List.replicate_zero, List.append_nil, View.ptr]
    rw [index_add (by simp [hl]) (by omega), index_add (by omega) (by simp [hl])]
    ring

/-- **C15**: `section(i)` of a raster of shape `t ++ [n]` and dimension at least 2 never fails, has
shape `t`, and its pixel at `q` is the raster pixel at `(q, i)`. -/
theorem C15_section1 (v : View) (t : Position) (n i : Int) (hs : v.shape = t ++ [n]) (ht : t ≠ []) :
    ∃ w, v.section1 i = .ok w ∧ w.shape = t ∧
      ∀ q : Position, q.length = t.length → w.ptr q = v.ptr (q ++ [i]) := by
  have hl : v.shape.length = t.length + 1 := by simp [hs]
  have htl : 1 ≤ t.length := List.length_pos_iff.2 ht
  have hc := section_contiguous t n i i t.length (by omega) (Or.inr ⟨le_rfl, rfl⟩)
  have hw : v.section1 i = v.slice t.length ⟨List.replicate t.length 0 ++ [i], t.map (· - 1) ++ [i]⟩ := by
    unfold View.section1
    simp only [hs, section_front, section_back]
    simp
  rw [← hs] at hc
  obtain ⟨w, hw'⟩ := (C14_slice_throws_iff v _ _).2.2 hc
  obtain ⟨h1, h2⟩ := C14_slice_exact v w _ _ htl (by omega) (by simp [hl]) (by simp [hl]) hw'
  refine ⟨w, hw.trans hw', ?_, ?_⟩
  · rw [h1]
    have : ∀ t : List Int, List.map (fun x => x + 1) (List.zipWith (fun a b => a - b) (t.map (· - 1) ++ [i])
        (List.replicate t.length 0 ++ [i])) = t ++ [1] := by
      intro t
      induction t with
      | nil => simp
      | cons x t ih =>
        simp only [List.map_cons, List.length_cons, List.replicate_succ, List.cons_append,
          List.zipWith_cons_cons] at ih ⊢
        rw [ih]; congr 1; omega
    simp only [Box.shape, Position.addScalar, Position.sub]
    rw [this t]
    simp
  · intro q hq
    rw [h2 q hq, hl]
    congr 1
    have : ∀ (q : List Int) (n : Nat), q.length = n →
        List.zipWith (· + ·) (List.replicate n 0 ++ [i]) (q ++ [0]) = q ++ [i] := by
      intro q
      induction q with
      | nil => intro n h; subst h; simp
      | cons x q ih => intro n h; subst h; simp [List.replicate_succ, ih]
    have h3 : t.length + 1 - t.length = 1 := by omega
    rw [h3]
    exact this q _ hq

/-- **C15**: sections can be nested: `section(i).section(j)` is the view of pixels `(q, j, i)`. -/
theorem C15_nested (v : View) (t : Position) (m n i j : Int) (hs : v.shape = t ++ [m, n]) (ht : t ≠ []) :
    ∃ w w', v.section1 i = .ok w ∧ w.section1 j = .ok w' ∧ w'.shape = t ∧
      ∀ q : Position, q.length = t.length → w'.ptr q = v.ptr (q ++ [j, i]) := by
  obtain ⟨w, h1, h2, h3⟩ := C15_section1 v (t ++ [m]) n i (by simp [hs]) (by simp)
  obtain ⟨w', h4, h5, h6⟩ := C15_section1 w t m j h2 ht
  refine ⟨w, w', h1, h4, h5, ?_⟩
  intro q hq
  rw [h6 q hq, h3 (q ++ [j]) (by simp [hq])]
  simp

/-- **C15**: writing to a pixel of a section modifies exactly the corresponding pixel of the raster. -/
theorem C15_write {α : Type _} (r : Raster α) (t q : Position) (n i : Int) (x : α) (w : View)
    (hs : r.shape = t ++ [n]) (ht : t ≠ []) (hr : (r.data.length : Int) = pixelCount r.shape)
    (hw : (View.ofRaster r).section1 i = .ok w) (hi : 0 ≤ i ∧ i < n) (hq : InShape t q) :
    ∃ d, w.set r.data q x = .ok d ∧ d.length = r.data.length ∧
      (⟨r.shape, d⟩ : Raster α).get (q ++ [i]) = .ok x ∧
      ∀ p, InShape r.shape p → p ≠ q ++ [i] → (⟨r.shape, d⟩ : Raster α).get p = r.get p := by
  obtain ⟨w', h1, h2, h3⟩ := C15_section1 (View.ofRaster r) t n i hs ht
  rw [hw] at h1
  obtain rfl := Except.ok.inj h1
  have hin : InShape r.shape (q ++ [i]) := by
    rw [hs]
    exact List.rel_append hq (List.Forall₂.cons hi .nil)
  have hb := index_bounds hin
  have hptr : w.ptr q = index r.shape (q ++ [i]) := by
    rw [h3 q hq.length_eq, View.ptr, View.ofRaster]; simp
  unfold pixelCount at hr
  refine ⟨_, by rw [View.set, hptr, writeAt_ok hb.1 (by omega)], by simp, ?_, ?_⟩
  · rw [Raster.get, readAt_ok hb.1 (by simp; omega)]
    simp
  · intro p hp hne
    have hpb := index_bounds hp
    have hd : index r.shape p ≠ index r.shape (q ++ [i]) := fun e => hne (index_inj hp hin e)
    rw [Raster.get, Raster.get, readAt_ok hpb.1 (by simp; omega), readAt_ok hpb.1 (by omega)]
    rw [List.getElem_set_of_ne (by omega)]

/-- Non-vacuity of C15. -/
example : let r : Raster Nat := ⟨[2, 2, 2], [1, 2, 3, 4, 5, 6, 7, 8]⟩
    (View.ofRaster r).section1 1 = .ok ⟨[2, 2], 4⟩ ∧ (View.mk [2, 2] 4).section1 1 = .ok ⟨[2], 6⟩ ∧
    (View.mk [2] 6).get r.data [1] = .ok 8 ∧ (View.ofRaster r).section2 1 1 = .ok ⟨[2, 2, 1], 4⟩ ∧
    (View.mk [2, 2] 4).set r.data [0, 1] 0 = .ok [1, 2, 3, 4, 5, 6, 0, 8] := by
  refine ⟨by rfl, by rfl, by rfl, by rfl, by rfl⟩

end Litl
