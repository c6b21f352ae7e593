import Verif.Lemmas.Surround
import Mathlib.Algebra.Order.Group.Unbundled.Int

/-!
# C10, C12, C13: box algebra, surrounding boxes, projection and clamping
-/

namespace Litl

open Spec

/-- **C10**: shifting a box shifts its set of positions. -/
theorem C10_shift_positions (b : Box) (v p : Position) (hl : b.front.length = b.back.length)
    (hv : v.length = b.front.length) :
    InBox (b.shift v).front (b.shift v).back p ↔ ∃ q : Position, InBox b.front b.back q ∧ p = q.add v := by
  simp only [inBox_iff, Box.shift, length_add hv.symm, length_add (hv.trans hl).symm]
  constructor
  · rintro ⟨⟨h1, h2⟩, h3⟩
    refine ⟨p.sub v, ⟨⟨by rw [length_sub (by omega)]; omega, by rw [length_sub (by omega)]; omega⟩, ?_⟩, ?_⟩
    · intro i hi
      rw [length_sub (by omega)] at hi
      have := h3 i hi
      rw [getD_add (by omega), getD_add (by omega)] at this
      rw [getD_sub (by omega)]
      omega
    · refine ext_getD (by rw [length_add (by rw [length_sub (by omega)]; omega), length_sub (by omega)]) ?_
      intro i hi
      rw [getD_add (by rw [length_sub (by omega)]; omega), getD_sub (by omega)]
      omega
  · rintro ⟨q, ⟨⟨h1, h2⟩, h3⟩, rfl⟩
    rw [length_add (by omega)]
    refine ⟨⟨h1, h2⟩, ?_⟩
    intro i hi
    have := h3 i hi
    rw [getD_add (by omega), getD_add (by omega), getD_add (by omega)]
    omega

/-- **C10**: shifting a box preserves its shape. -/
theorem C10_shift_shape (b : Box) (v : Position) (hl : b.front.length = b.back.length)
    (hv : v.length = b.front.length) : (b.shift v).shape = b.shape := by
  simp only [Box.shape, Box.shift, Position.addScalar]
  congr 1
  refine ext_getD ?_ ?_
  · have h1 : (b.front.add v).length = b.front.length := length_add hv.symm
    have h2 : (b.back.add v).length = b.back.length := length_add (by omega)
    rw [length_sub (by omega), length_sub (by omega), h2]
  · intro i hi
    rw [getD_sub (by rw [length_add (by omega), length_add (by omega)]; omega), getD_sub (by omega),
      getD_add (by omega), getD_add (by omega)]
    omega

theorem sub_add_cancel' {u v : Position} (h : u.length = v.length) : (u.add v).sub v = u := by
  refine ext_getD (by rw [length_sub (by rw [length_add h]; exact h), length_add h]) ?_
  intro i _
  rw [getD_sub (by rw [length_add h]; exact h), getD_add h]; omega

theorem add_sub_cancel'' {u v : Position} (h : u.length = v.length) : (u.sub v).add v = u := by
  refine ext_getD (by rw [length_add (by rw [length_sub h]; exact h), length_sub h]) ?_
  intro i _
  rw [getD_add (by rw [length_sub h]; exact h), getD_sub h]; omega

/-- **C10**: growing then shrinking by the same margin, shrinking then growing, shifting back and forth
are the identity. -/
theorem C10_grow_shrink (b m : Box) (v : Position) (hl : b.front.length = b.back.length)
    (hf : m.front.length = b.front.length) (hb : m.back.length = b.front.length)
    (hv : v.length = b.front.length) :
    (b.grow m).shrink m = b ∧ (b.shrink m).grow m = b ∧ (b.shift v).unshift v = b ∧ (b.unshift v).shift v = b := by
  simp only [Box.grow, Box.shrink, Box.shift, Box.unshift]
  refine ⟨?_, ?_, ?_, ?_⟩
  · rw [sub_add_cancel' hf.symm, sub_add_cancel' (by omega)]
  · rw [add_sub_cancel'' hf.symm, add_sub_cancel'' (by omega)]
  · rw [sub_add_cancel' hv.symm, sub_add_cancel' (by omega)]
  · rw [add_sub_cancel'' hv.symm, add_sub_cancel'' (by omega)]

theorem getD_neg (u : Position) (i : Nat) : u.neg.getD i 0 = -u.getD i 0 := by
  simp only [Position.neg, List.getD_eq_getElem?_getD, List.getElem?_map]
  cases u[i]? <;> simp

theorem length_neg (u : Position) : u.neg.length = u.length := by simp [Position.neg]

/-- **C10**: growing by `m` is shrinking by `-m`. -/
theorem C10_grow_neg (b m : Box) (hl : b.front.length = b.back.length)
    (hf : m.front.length = b.front.length) (hb : m.back.length = b.front.length) :
    b.grow m = b.shrink m.neg := by
  have key : ∀ u v : Position, u.length = v.length → u.add v = u.sub v.neg := by
    intro u v h
    have h' : u.length = v.neg.length := by rw [length_neg]; exact h
    refine ext_getD (by rw [length_add h, length_sub h']) ?_
    intro i _
    rw [getD_add h, getD_sub h', getD_neg]; omega
  simp only [Box.grow, Box.shrink, Box.neg]
  rw [key _ _ hf.symm, key _ _ (by omega)]

theorem getD_addScalar {u : Position} {a : Int} {i : Nat} (hi : i < u.length) :
    (u.addScalar a).getD i 0 = u.getD i 0 + a := by
  simp [Position.addScalar, List.getD_eq_getElem?_getD, List.getElem?_eq_getElem hi]

theorem getD_subScalar {u : Position} {a : Int} {i : Nat} (hi : i < u.length) :
    (u.subScalar a).getD i 0 = u.getD i 0 - a := by
  simp [Position.subScalar, List.getD_eq_getElem?_getD, List.getElem?_eq_getElem hi]

theorem length_addScalar (u : Position) (a : Int) : (u.addScalar a).length = u.length := by
  simp [Position.addScalar]

theorem length_subScalar (u : Position) (a : Int) : (u.subScalar a).length = u.length := by
  simp [Position.subScalar]

/-- **C10**: a box built from a front and a shape has this front and shape, and is the set of
positions at an offset from the front which is a position of the shape. -/
theorem C10_fromShape (f s : Position) (hl : f.length = s.length) :
    (Box.fromShape f s).front = f ∧ (Box.fromShape f s).shape = s ∧
    ∀ q, q.length = f.length →
      (InBox (Box.fromShape f s).front (Box.fromShape f s).back (f.add q) ↔ InShape s q) := by
  refine ⟨rfl, ?_, ?_⟩
  · have h1 : ((f.add s).subScalar 1).length = f.length := by rw [length_subScalar, length_add hl]
    have h2 : (((f.add s).subScalar 1).sub f).length = f.length := by rw [length_sub h1, h1]
    simp only [Box.fromShape, Box.shape]
    refine ext_getD ?_ ?_
    · rw [length_addScalar, h2, hl]
    · intro i hi
      rw [length_addScalar, h2] at hi
      rw [getD_addScalar (by omega), getD_sub h1, getD_subScalar (by rw [length_add hl]; exact hi), getD_add hl]
      omega
  · intro q hq
    simp only [Box.fromShape, inBox_iff, InShape, forall₂_iff_getD, length_subScalar, length_add hl,
      length_add hq.symm, true_and, and_true]
    refine ⟨fun h => ⟨by omega, fun i hi => ?_⟩, fun h i hi => ?_⟩
    · have := h i (by omega)
      rw [getD_add hq.symm, getD_subScalar (by rw [length_add hl]; omega), getD_add hl] at this
      omega
    · have := h.2 i (by omega)
      rw [getD_add hq.symm, getD_subScalar (by rw [length_add hl]; omega), getD_add hl]
      omega

/-- **C10**: a box built from a center and a radius `r` is the L-infinity ball. -/
theorem C10_fromCenter (r : Int) (c p : Position) :
    InBox (Box.fromCenter r c).front (Box.fromCenter r c).back p ↔ List.Forall₂ (fun x y => |x - y| ≤ r) p c := by
  simp only [Box.fromCenter, inBox_iff, forall₂_iff_getD, length_subScalar, length_addScalar, abs_le]
  constructor
  · rintro ⟨⟨h1, h2⟩, h3⟩
    refine ⟨h2, fun i hi => ?_⟩
    have := h3 i hi
    rw [getD_subScalar (by omega), getD_addScalar (by omega)] at this
    omega
  · rintro ⟨h1, h3⟩
    refine ⟨⟨h1.symm, h1⟩, fun i hi => ?_⟩
    have := h3 i hi
    rw [getD_subScalar (by omega), getD_addScalar (by omega)]
    omega

/-- **C10**: two boxes are equal iff they have the same bounds, and `!=` is the negation of `==`. -/
theorem C10_eq (a b : Box) :
    (a.eq b = true ↔ a.front = b.front ∧ a.back = b.back) ∧ (a.ne b = !a.eq b) := by
  constructor
  · simp [Box.eq]
  · simp only [Box.ne, Box.eq]
    cases h1 : a.front == b.front <;> cases h2 : a.back == b.back <;> simp [bne, h1, h2]

/-- **C10**: adding or subtracting a scalar is shifting by a constant vector. -/
theorem C10_scalar_shift (b : Box) (a : Int) (hl : b.front.length = b.back.length) :
    b.addScalar a = b.shift (List.replicate b.front.length a) ∧
    b.subScalar a = b.unshift (List.replicate b.front.length a) := by
  have key : ∀ (u : Position) (f : Int → Int → Int) (n : Nat), u.length = n →
      u.map (fun x => f x a) = List.zipWith f u (List.replicate n a) := by
    intro u f n h
    subst h
    induction u with
    | nil => rfl
    | cons x u ih => simp [List.replicate_succ, ih]
  simp only [Box.addScalar, Box.shift, Box.subScalar, Box.unshift, Position.addScalar, Position.subScalar,
    Position.add, Position.sub]
  exact ⟨by rw [key b.front (· + ·) _ rfl, key b.back (· + ·) _ hl.symm],
    by rw [key b.front (· - ·) _ rfl, key b.back (· - ·) _ hl.symm]⟩

/-- Non-vacuity of C10. -/
example : let b : Box := ⟨[-1, 2], [0, 3]⟩
    b.front.length = b.back.length ∧ b.shift [1, 1] = ⟨[0, 3], [1, 4]⟩ ∧
    b.grow ⟨[-1, -1], [2, 2]⟩ = ⟨[-2, 1], [2, 5]⟩ ∧ (Box.fromShape [1, 1] [3, 2]).shape = [3, 2] ∧
    Box.fromCenter 2 [0, 1] = ⟨[-2, -1], [2, 3]⟩ := by decide

/-- **C12**: for a non-empty box and a margin with non-positive front and non-negative back, the
surrounding boxes are non-empty, pairwise disjoint and disjoint from the box, at most two per axis, and
their union with the box is the box grown by the margin. -/
theorem C12_surround_partition (b m : Box) (hl : b.front.length = b.back.length)
    (hf : m.front.length = b.front.length) (hbk : m.back.length = b.front.length)
    (hne : ∃ p, InBox b.front b.back p) (hmf : ∀ x ∈ m.front, x ≤ 0) (hmb : ∀ x ∈ m.back, 0 ≤ x) :
    (∀ p, InBox (b.grow m).front (b.grow m).back p ↔
      InBox b.front b.back p ∨ ∃ c ∈ b.surround m, InBox c.front c.back p) ∧
    (b :: b.surround m).Pairwise (fun c d => ∀ p, InBox c.front c.back p → ¬ InBox d.front d.back p) ∧
    (∀ c ∈ b.surround m, ∃ p, InBox c.front c.back p) ∧
    (b.surround m).length ≤ 2 * b.dimension := by
  obtain ⟨hp, hc⟩ := surround_part (d := 0) (by omega) b m hl hf hbk (by
    intro j hj
    have := (exists_inBox_iff hl).1 hne j hj
    omega) hmf hmb
  refine ⟨hp.cover, hp.disj, fun c hc => ?_, hc⟩
  obtain ⟨h1, h2, h3⟩ := hp.fits c hc
  refine (exists_inBox_iff (by omega)).2 fun i hi => ?_
  have := h3 i (by omega)
  omega

/-- Non-vacuity of C12: a 2D margin with a null side. -/
example : (Box.mk [2, 3] [4, 5]).surround ⟨[-1, 0], [2, 1]⟩ =
    [⟨[1, 3], [1, 5]⟩, ⟨[5, 3], [6, 5]⟩, ⟨[1, 6], [6, 6]⟩] ∧
    (∃ p, InBox [2, 3] [4, 5] p) ∧ (∀ x ∈ ([-1, 0] : Position), x ≤ 0) ∧ (∀ x ∈ ([2, 1] : Position), 0 ≤ x) := by
  exact ⟨by decide, ⟨[2, 3], by simp [InBox]⟩, by decide, by decide⟩

/-- **C13**: projecting a non-empty box keeps exactly its front hyperplane along the axis. -/
theorem C13_project (b : Box) (axis : Nat) (p : Position) (hl : b.front.length = b.back.length)
    (ha : axis < b.front.length) (hne : ∃ p, InBox b.front b.back p) :
    InBox (b.project axis).front (b.project axis).back p ↔
      InBox b.front b.back p ∧ p[axis]? = b.front[axis]? := by
  have h0 := (exists_inBox_iff hl).1 hne axis ha
  simp only [inBox_iff, Box.project, List.length_set]
  constructor
  · rintro ⟨⟨h1, h2⟩, h3⟩
    have h4 := h3 axis (by omega)
    rw [getD_set (by omega), if_pos rfl] at h4
    refine ⟨⟨⟨h1, h2⟩, fun i hi => ?_⟩, ?_⟩
    · have := h3 i hi
      rw [getD_set (by omega)] at this
      split at this
      · subst_vars; omega
      · exact this
    · have h5 : p.getD axis 0 = b.front.getD axis 0 := by omega
      have h6 : axis < p.length := by omega
      simpa [List.getD_eq_getElem?_getD, List.getElem?_eq_getElem ha, List.getElem?_eq_getElem h6] using h5
  · rintro ⟨⟨⟨h1, h2⟩, h3⟩, h4⟩
    refine ⟨⟨h1, h2⟩, fun i hi => ?_⟩
    have := h3 i hi
    rw [getD_set (by omega)]
    split
    · subst_vars
      simp only [List.getD_eq_getElem?_getD, h4]
      omega
    · exact this

/-- **C13**: clamping yields the componentwise closest position of the domain. -/
theorem C13_clamp_closest (p s : Position) (hl : p.length = s.length) (hs : Pos s) :
    InShape s (clampShape p s) ∧
    ∀ q, InShape s q → ∀ i (hi : i < p.length), ∃ c y, (clampShape p s)[i]? = some c ∧ q[i]? = some y ∧
      |p[i] - c| ≤ |p[i] - y| := by
  have hlen : (clampShape p s).length = p.length := by simp only [clampShape, List.length_zipWith]; omega
  have key : ∀ x n : Int, 0 < n → (0 ≤ clamp1 x 0 (n - 1) ∧ clamp1 x 0 (n - 1) < n) := by
    intro x n hn
    unfold clamp1
    split
    · omega
    · split <;> omega
  constructor
  · rw [InShape, List.forall₂_iff_get]
    refine ⟨by omega, ?_⟩
    intro i h1 h2
    simp only [List.get_eq_getElem, clampShape, List.getElem_zipWith]
    exact key _ _ (hs _ (List.getElem_mem h2))
  · intro q hq i hi
    have hq' := hq
    rw [InShape, List.forall₂_iff_get] at hq'
    have h1 : i < q.length := by omega
    have h2 : i < s.length := by omega
    have h3 : i < (clampShape p s).length := by omega
    refine ⟨_, _, List.getElem?_eq_getElem h3, List.getElem?_eq_getElem h1, ?_⟩
    have h4 := hq'.2 i h1 h2
    simp only [List.get_eq_getElem] at h4
    simp only [clampShape, List.getElem_zipWith]
    generalize p[i] = x at *
    generalize q[i] = y at *
    generalize s[i] = n at *
    unfold clamp1
    split
    · rw [abs_of_nonpos (by omega), abs_of_nonpos (by omega)]; omega
    · split
      · rw [abs_of_nonneg (by omega), abs_of_nonneg (by omega)]; omega
      · simp

/-- **C13**: clamping leaves positions of the domain unchanged. -/
theorem C13_clamp_inside (p s : Position) (h : InShape s p) : clampShape p s = p := by
  induction h with
  | nil => rfl
  | @cons x n p s h _ ih =>
    simp only [clampShape, List.zipWith_cons_cons] at ih ⊢
    rw [ih]
    congr 1
    unfold clamp1
    rw [if_neg (by omega), if_neg (by omega)]

/-- Non-vacuity of C13. -/
example : clampShape [-3, 1, 9] [4, 3, 2] = [0, 1, 1] ∧ Pos [4, 3, 2] ∧
    (Box.mk [2, 3] [4, 5]).project 1 = ⟨[2, 3], [4, 3]⟩ := by
  unfold Pos; decide

end Litl
