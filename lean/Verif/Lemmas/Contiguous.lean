import Verif.Lemmas.View

/-!
# Lemmas about contiguity
-/

namespace Litl

open Spec

theorem isContiguous_iff {s : Position} {M : Nat} {r : Box} : View.isContiguous s M r = true ↔
    (∀ i, i < M - 1 → r.front.getD i 0 = 0 ∧ r.back.getD i 0 = s.getD i 0 - 1) ∧
    (∀ i, M ≤ i → i < s.length → r.back.getD i 0 = r.front.getD i 0) := by
  simp only [View.isContiguous, Bool.and_eq_true, List.all_eq_true, List.mem_range, List.mem_range'_1,
    Bool.not_eq_true', Bool.or_eq_false_iff, bne_eq_false_iff_eq]
  refine and_congr Iff.rfl ⟨fun h i h1 h2 => h i ⟨h1, by omega⟩, fun h i hi => h i hi.1 (by omega)⟩

theorem map_range_getD {s : List Int} {M : Nat} (h : M ≤ s.length) (f : Nat → Int)
    (hf : ∀ i, i < M → f i = s.getD i 0) : (List.range M).map f = s.take M := by
  refine List.ext_getElem (by simp [h]) ?_
  intro i h1 h2
  have hi : i < M := by simpa using h1
  have hi' : i < s.length := by omega
  simp only [List.getElem_map, List.getElem_range, List.getElem_take]
  rw [hf i hi, List.getD_eq_getElem?_getD, List.getElem?_eq_getElem hi']
  rfl

/-- The offset of an element of a slice. -/
theorem slice_index {s : Position} {M : Nat} {r : Box} {q : Position} (hM : 1 ≤ M) (hMs : M ≤ s.length)
    (hf : r.front.length = s.length) (hc : View.isContiguous s M r = true) (hq : q.length = M) :
    index s r.front + index ((List.range M).map fun i => r.back.getD i 0 - r.front.getD i 0 + 1) q =
      index s (r.front.add (q ++ List.replicate (s.length - M) 0)) := by
  rw [index_add hf (by simp [hq]; omega)]
  congr 1
  obtain ⟨h1, _⟩ := isContiguous_iff.1 hc
  obtain ⟨m, rfl⟩ : ∃ m, M = m + 1 := ⟨M - 1, by omega⟩
  have e1 : ((List.range (m + 1)).map fun i => r.back.getD i 0 - r.front.getD i 0 + 1) =
      s.take m ++ [r.back.getD m 0 - r.front.getD m 0 + 1] := by
    rw [List.range_succ, List.map_append, List.map_singleton, map_range_getD (s := s) (by omega)]
    intro i hi
    have := h1 i (by omega)
    omega
  have hm : m < s.length := by omega
  have e2 : s = (s.take m ++ [s[m]]) ++ s.drop (m + 1) := by
    rw [← List.take_succ_eq_append_getElem hm, List.take_append_drop]
  rw [e1]
  conv_rhs => rw [e2]
  have e3 : List.replicate (((List.take m s ++ [s[m]]) ++ List.drop (m + 1) s).length - (m + 1)) (0 : Int) =
      List.replicate (s.drop (m + 1)).length 0 := by
    congr 1; simp
  rw [e3, index_append_zeros _ (by simp [hq]; omega) rfl]
  exact index_last _ _ (by simp [hq]; omega)

/-- List form of the contiguity test. -/
def Contig : Nat → List Int → List Int → List Int → Prop
  | 0, _, f, b => b = f
  | 1, _ :: _, _ :: fs, _ :: bs => bs = fs
  | M + 2, s :: ss, f :: fs, b :: bs => (f = 0 ∧ b = s - 1) ∧ Contig (M + 1) ss fs bs
  | _, _, _, _ => True

theorem contig_iff : ∀ {s : Position} {M : Nat} {f b : Position}, f.length = s.length → b.length = s.length →
    M ≤ s.length → (View.isContiguous s M ⟨f, b⟩ = true ↔ Contig M s f b) := by
  intro s
  induction s with
  | nil =>
    intro M f b hf hb hM
    have : M = 0 := by simpa using hM
    subst this
    simp only [List.length_nil, List.length_eq_zero_iff] at hf hb
    subst hf hb
    simp [isContiguous_iff, Contig]
  | cons s ss ih =>
    intro M f b hf hb hM
    cases f with
    | nil => simp at hf
    | cons f fs =>
      cases b with
      | nil => simp at hb
      | cons b bs =>
        simp only [List.length_cons, Nat.add_right_cancel_iff] at hf hb
        match M with
        | 0 =>
          rw [isContiguous_iff, Contig]
          constructor
          · intro h
            refine ext_getD (by simp [hf, hb]) ?_
            intro i hi
            exact h.2 i (by omega) (by simp at hi ⊢; omega)
          · intro h
            rw [h]; simp
        | 1 =>
          rw [isContiguous_iff, Contig]
          constructor
          · intro h
            refine ext_getD (by simp [hf, hb]) ?_
            intro i hi
            simpa using h.2 (i + 1) (by omega) (by simp; omega)
          · intro h
            subst h
            refine ⟨by simp, ?_⟩
            intro i h1 h2
            obtain ⟨j, rfl⟩ : ∃ j, i = j + 1 := ⟨i - 1, by omega⟩
            simp
        | M + 2 =>
          rw [Contig, ← ih hf hb (by simpa using hM), isContiguous_iff, isContiguous_iff]
          constructor
          · intro h
            refine ⟨by simpa using h.1 0 (by omega), ?_, ?_⟩
            · intro i hi
              simpa using h.1 (i + 1) (by omega)
            · intro i h1 h2
              simpa using h.2 (i + 1) (by omega) (by simpa using h2)
          · rintro ⟨h1, h2, h3⟩
            refine ⟨?_, ?_⟩
            · intro i hi
              cases i with
              | zero => simpa using h1
              | succ i => simpa using h2 i (by omega)
            · intro i h4 h5
              obtain ⟨j, rfl⟩ : ∃ j, i = j + 1 := ⟨i - 1, by omega⟩
              simpa using h3 j (by omega) (by simpa using h5)

/-- Number of positions versus span of indices: equality iff some contiguity test accepts. -/
theorem size_le_span : ∀ {s f b : Position}, InShape s f → InShape s b → List.Forall₂ (· ≤ ·) f b →
    1 ≤ ((b.sub f).addScalar 1).prod ∧
    ((b.sub f).addScalar 1).prod ≤ index s b - index s f + 1 ∧
    (((b.sub f).addScalar 1).prod = index s b - index s f + 1 → f = b ∨
      ∃ M, 1 ≤ M ∧ M ≤ s.length ∧ Contig M s f b) := by
  intro s
  induction s with
  | nil =>
    intro f b hf hb _
    cases hf; cases hb
    simp [Position.sub, Position.addScalar]
  | cons s ss ih =>
    intro f b hf hb h
    cases h with
    | nil => cases hf
    | @cons f b fs bs h1 h2 =>
      obtain ⟨hf1, hf2⟩ := inShape_cons.1 hf
      obtain ⟨hb1, hb2⟩ := inShape_cons.1 hb
      obtain ⟨i1, i2, i3⟩ := ih hf2 hb2 h2
      have e : Position.addScalar (Position.sub (b :: bs) (f :: fs)) 1 =
          (b - f + 1) :: Position.addScalar (Position.sub bs fs) 1 := rfl
      rw [e, List.prod_cons, index_cons hf2.length_eq, index_cons hb2.length_eq]
      generalize hP : (Position.addScalar (Position.sub bs fs) 1).prod = P at *
      generalize hD : index ss bs = B at *
      generalize hE : index ss fs = A at *
      have k1 : (b - f + 1) * P = (b - f + 1) + (b - f + 1) * (P - 1) := by ring
      have k2 : (b - f + 1) * (P - 1) ≤ s * (P - 1) := mul_le_mul_of_nonneg_right (by omega) (by omega)
      have k3 : s * (P - 1) ≤ s * (B - A) := mul_le_mul_of_nonneg_left (by omega) (by omega)
      have k4 : s * (B - A) = s * B - s * A := by ring
      refine ⟨?_, by linarith, ?_⟩
      · have : 1 * 1 ≤ (b - f + 1) * P := mul_le_mul (by omega) i1 (by omega) (by omega)
        omega
      · intro heq
        have k5 : (b - f + 1) * (P - 1) = s * (P - 1) := by linarith
        have k6 : s * (P - 1) = s * (B - A) := by linarith
        have k7 : P - 1 = B - A := mul_left_cancel₀ (by omega) k6
        rcases i3 (by omega) with hfb | ⟨M, hM1, hM2, hM3⟩
        · right
          refine ⟨1, le_rfl, by simp, ?_⟩
          exact hfb.symm
        · by_cases hP1 : P = 1
          · -- the tail is a single position
            right
            have hA : A = B := by omega
            have : fs = bs := index_inj hf2 hb2 (by rw [hE, hD, hA])
            exact ⟨1, le_rfl, by simp, this.symm⟩
          · right
            have k8 : b - f + 1 = s := mul_right_cancel₀ (by omega : P - 1 ≠ 0) k5
            obtain ⟨m, rfl⟩ : ∃ m, M = m + 1 := ⟨M - 1, by omega⟩
            exact ⟨m + 2, by omega, by simpa using hM2, ⟨by omega, by omega⟩, hM3⟩

end Litl

namespace Litl

open Spec

/-- The shape of a slice. -/
def reducedShape (r : Box) (M : Nat) : Position :=
  (List.range M).map fun i => r.back.getD i 0 - r.front.getD i 0 + 1

theorem getD_reducedShape {r : Box} {M i : Nat} (h : i < M) :
    (reducedShape r M).getD i 0 = r.back.getD i 0 - r.front.getD i 0 + 1 := by
  simp [reducedShape, List.getD_eq_getElem?_getD, h]

theorem length_reducedShape (r : Box) (M : Nat) : (reducedShape r M).length = M := by simp [reducedShape]

theorem getD_append_zeros (q : List Int) (n i : Nat) :
    (q ++ List.replicate n 0).getD i 0 = if i < q.length then q.getD i 0 else 0 := by
  simp only [List.getD_eq_getElem?_getD]
  split
  · rename_i h
    rw [List.getElem?_append_left h]
  · rename_i h
    rw [List.getElem?_append_right (by omega), List.getElem?_replicate]
    split <;> rfl

theorem getD_take (q : List Int) (n i : Nat) : (q.take n).getD i 0 = if i < n then q.getD i 0 else 0 := by
  simp only [List.getD_eq_getElem?_getD, List.getElem?_take]
  split <;> rfl

/-- Positions of a slice are positions of the region. -/
theorem slice_inBox {s : Position} {M : Nat} {r : Box} {q : Position} (hMs : M ≤ s.length)
    (hf : r.front.length = s.length) (hb : r.back.length = s.length)
    (hle : List.Forall₂ (· ≤ ·) r.front r.back) (hq : InShape (reducedShape r M) q) :
    InBox r.front r.back (r.front.add (q ++ List.replicate (s.length - M) 0)) := by
  have hql : q.length = M := hq.length_eq.trans (length_reducedShape r M)
  have hl2 : (q ++ List.replicate (s.length - M) (0 : Int)).length = s.length := by simp [hql]; omega
  rw [InShape, forall₂_iff_getD] at hq
  rw [inBox_iff, length_add (by omega)]
  refine ⟨⟨rfl, by omega⟩, ?_⟩
  intro i hi
  rw [getD_add (by omega), getD_append_zeros]
  have h0 := (forall₂_iff_getD.1 hle).2 i hi
  split
  · rename_i h
    have := hq.2 i h
    rw [getD_reducedShape (by omega)] at this
    omega
  · omega

/-- Positions of the region are positions of the slice. -/
theorem inBox_slice {s : Position} {M : Nat} {r : Box} {p : Position} (hMs : M ≤ s.length)
    (hf : r.front.length = s.length)
    (hc : View.isContiguous s M r = true) (hp : InBox r.front r.back p) :
    InShape (reducedShape r M) ((p.sub r.front).take M) ∧
    p = r.front.add ((p.sub r.front).take M ++ List.replicate (s.length - M) 0) := by
  obtain ⟨_, h2⟩ := isContiguous_iff.1 hc
  rw [inBox_iff] at hp
  obtain ⟨⟨l1, l2⟩, hp⟩ := hp
  have lt : ((p.sub r.front).take M).length = M := by rw [List.length_take, length_sub (by omega)]; omega
  have ll : ((p.sub r.front).take M ++ List.replicate (s.length - M) (0 : Int)).length = s.length := by
    rw [List.length_append, lt, List.length_replicate]; omega
  constructor
  · rw [InShape, forall₂_iff_getD, lt, length_reducedShape]
    refine ⟨rfl, ?_⟩
    intro i hi
    rw [getD_reducedShape hi, getD_take, if_pos hi, getD_sub (by omega)]
    have := hp i (by omega)
    omega
  · refine ext_getD (by rw [length_add (by omega)]; omega) ?_
    intro i hi
    rw [getD_add (by omega), getD_append_zeros, lt, getD_take]
    by_cases h : i < M
    · rw [if_pos h, if_pos h, getD_sub (by omega)]; omega
    · rw [if_neg h]
      have h3 := h2 i (by omega) (by omega)
      have := hp i hi
      omega

end Litl
