import Verif.Lemmas.BoxSize

/-!
# Lemmas about box algebra
-/

namespace Litl

open Spec

/-- Coordinate-wise form of `Forall₂`. -/
theorem forall₂_iff_getD {R : Int → Int → Prop} : ∀ {a b : List Int},
    List.Forall₂ R a b ↔ a.length = b.length ∧ ∀ i, i < a.length → R (a.getD i 0) (b.getD i 0) := by
  intro a
  induction a with
  | nil => intro b; cases b <;> simp
  | cons x a ih =>
    intro b
    cases b with
    | nil => simp
    | cons y b =>
      rw [List.forall₂_cons, ih]
      constructor
      · rintro ⟨h1, h2, h3⟩
        refine ⟨by simp [h2], ?_⟩
        intro i hi
        cases i with
        | zero => simpa using h1
        | succ i => simpa using h3 i (by simpa using hi)
      · rintro ⟨h1, h2⟩
        refine ⟨by simpa using h2 0 (by simp), by simpa using h1, ?_⟩
        intro i hi
        simpa using h2 (i + 1) (by simpa using hi)

/-- Coordinate-wise form of `InBox`. -/
theorem inBox_iff {f b p : List Int} : InBox f b p ↔ (f.length = p.length ∧ p.length = b.length) ∧
    ∀ i, i < p.length → f.getD i 0 ≤ p.getD i 0 ∧ p.getD i 0 ≤ b.getD i 0 := by
  rw [InBox, forall₂_iff_getD, forall₂_iff_getD]
  constructor
  · rintro ⟨⟨h1, h2⟩, h3, h4⟩
    exact ⟨⟨h1, h3⟩, fun i hi => ⟨h2 i (h1 ▸ hi), h4 i hi⟩⟩
  · rintro ⟨⟨h1, h3⟩, h2⟩
    exact ⟨⟨h1, fun i hi => (h2 i (h1 ▸ hi)).1⟩, h3, fun i hi => (h2 i hi).2⟩

theorem getD_set {l : List Int} {i j : Nat} {x : Int} (hi : i < l.length) :
    (l.set i x).getD j 0 = if i = j then x else l.getD j 0 := by
  simp only [List.getD_eq_getElem?_getD, List.getElem?_set]
  split
  · simp_all
  · rfl

theorem getD_add {u v : Position} {i : Nat} (h : u.length = v.length) :
    (u.add v).getD i 0 = u.getD i 0 + v.getD i 0 := by
  simp only [Position.add, List.getD_eq_getElem?_getD, List.getElem?_zipWith]
  by_cases hi : i < u.length
  · simp [List.getElem?_eq_getElem hi, List.getElem?_eq_getElem (h ▸ hi : i < v.length)]
  · simp [List.getElem?_eq_none (not_lt.1 hi), List.getElem?_eq_none (h ▸ not_lt.1 hi : v.length ≤ i)]

theorem getD_sub {u v : Position} {i : Nat} (h : u.length = v.length) :
    (u.sub v).getD i 0 = u.getD i 0 - v.getD i 0 := by
  simp only [Position.sub, List.getD_eq_getElem?_getD, List.getElem?_zipWith]
  by_cases hi : i < u.length
  · simp [List.getElem?_eq_getElem hi, List.getElem?_eq_getElem (h ▸ hi : i < v.length)]
  · simp [List.getElem?_eq_none (not_lt.1 hi), List.getElem?_eq_none (h ▸ not_lt.1 hi : v.length ≤ i)]

theorem length_add {u v : Position} (h : u.length = v.length) : (u.add v).length = u.length := by
  simp only [Position.add, List.length_zipWith]; omega

theorem length_sub {u v : Position} (h : u.length = v.length) : (u.sub v).length = u.length := by
  simp only [Position.sub, List.length_zipWith]; omega

theorem ext_getD {a b : List Int} (hl : a.length = b.length)
    (h : ∀ i, i < a.length → a.getD i 0 = b.getD i 0) : a = b := by
  refine List.ext_getElem hl ?_
  intro i h1 h2
  have := h i h1
  simpa [List.getD_eq_getElem?_getD, List.getElem?_eq_getElem h1, List.getElem?_eq_getElem h2] using this

/-- A box is split in two along axis `i`: below `x` and from `x`. -/
theorem inBox_split {f b p : List Int} {i : Nat} {x : Int} (hi : i < f.length) (hl : f.length = b.length)
    (h1 : f.getD i 0 ≤ x) (h2 : x - 1 ≤ b.getD i 0) :
    InBox f b p ↔ (InBox f (b.set i (x - 1)) p ∨ InBox (f.set i x) b p) := by
  simp only [inBox_iff, List.length_set]
  constructor
  · rintro ⟨⟨h3, h4⟩, h5⟩
    have h6 := h5 i (by omega)
    by_cases hx : p.getD i 0 ≤ x - 1
    · refine Or.inl ⟨⟨h3, h4⟩, ?_⟩
      intro j hj
      rw [getD_set (by omega)]
      have := h5 j hj
      split
      · subst_vars; omega
      · exact this
    · refine Or.inr ⟨⟨h3, h4⟩, ?_⟩
      intro j hj
      rw [getD_set (by omega)]
      have := h5 j hj
      split
      · subst_vars; omega
      · exact this
  · rintro (⟨h3, h5⟩ | ⟨h3, h5⟩)
    · refine ⟨h3, ?_⟩
      intro j hj
      have := h5 j hj
      rw [getD_set (by omega)] at this
      split at this
      · subst_vars; omega
      · exact this
    · refine ⟨h3, ?_⟩
      intro j hj
      have := h5 j hj
      rw [getD_set (by omega)] at this
      split at this
      · subst_vars; omega
      · exact this

/-- The two parts are disjoint. -/
theorem inBox_split_disjoint {f b p : List Int} {i : Nat} {x : Int} (hi : i < f.length) (hl : f.length = b.length)
    (h1 : InBox f (b.set i (x - 1)) p) (h2 : InBox (f.set i x) b p) : False := by
  rw [inBox_iff] at h1 h2
  simp only [List.length_set] at h1 h2
  have h3 := h1.2 i (by omega)
  have h4 := h2.2 i (by omega)
  rw [getD_set (by omega), if_pos rfl] at h3 h4
  omega

/-- Coordinate-wise form of non-emptiness. -/
theorem exists_inBox_iff {f b : List Int} (hl : f.length = b.length) :
    (∃ p, InBox f b p) ↔ ∀ i, i < f.length → f.getD i 0 ≤ b.getD i 0 := by
  constructor
  · rintro ⟨p, hp⟩ i hi
    rw [inBox_iff] at hp
    have := hp.2 i (by omega)
    omega
  · intro h
    exact ⟨f, inBox_iff.2 ⟨⟨rfl, hl⟩, fun i hi => ⟨le_rfl, h i hi⟩⟩⟩

end Litl
