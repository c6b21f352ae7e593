import Verif.Model.Raster
import Verif.Spec.Geometry
import Mathlib.Algebra.BigOperators.Group.List.Basic
import Mathlib.Tactic.Linarith
import Mathlib.Tactic.Ring

/-!
# Lemmas about raster indices
-/

namespace Litl

open Spec

theorem index_cons {s p : Int} {ss ps : Position} (h : ps.length = ss.length) :
    index (s :: ss) (p :: ps) = p + s * index ss ps := by
  cases ss with
  | nil =>
    cases ps with
    | nil => simp [index]
    | cons => simp at h
  | cons s' ss =>
    cases ps with
    | nil => simp at h
    | cons => simp [index]

theorem index_nil : index [] [] = 0 := by simp [index]


theorem inShape_cons {s x : Int} {ss p : List Int} :
    InShape (s :: ss) (x :: p) ↔ (0 ≤ x ∧ x < s) ∧ InShape ss p := by
  simp [InShape]

theorem inShape_nil : InShape [] [] := List.Forall₂.nil

/-- Bounds of the index of a pixel position. -/
theorem index_bounds : ∀ {s p : List Int}, InShape s p → 0 ≤ index s p ∧ index s p < s.prod := by
  intro s
  induction s with
  | nil => intro p h; cases h; simp [index]
  | cons s ss ih =>
    intro p h
    cases p with
    | nil => cases h
    | cons x p =>
      obtain ⟨hx, hp⟩ := inShape_cons.1 h
      rw [index_cons hp.length_eq]
      obtain ⟨h0, h1⟩ := ih hp
      refine ⟨by have := mul_nonneg (by linarith : (0:Int) ≤ s) h0; linarith, ?_⟩
      rw [List.prod_cons]
      have : s * (index ss p + 1) ≤ s * ss.prod := mul_le_mul_of_nonneg_left (by linarith) (by linarith)
      linarith [this, mul_add s (index ss p) 1]

theorem index_inj : ∀ {s p q : List Int}, InShape s p → InShape s q → index s p = index s q → p = q := by
  intro s
  induction s with
  | nil => intro p q h h' _; cases h; cases h'; rfl
  | cons s ss ih =>
    intro p q h h' e
    cases p with
    | nil => cases h
    | cons x p =>
      cases q with
      | nil => cases h'
      | cons y q =>
        obtain ⟨hx, hp⟩ := inShape_cons.1 h
        obtain ⟨hy, hq⟩ := inShape_cons.1 h'
        rw [index_cons hp.length_eq, index_cons hq.length_eq] at e
        have hs : 0 < s := by omega
        have e1 : x = y := by
          have h1 : (x + s * index ss p) % s = (y + s * index ss q) % s := by rw [e]
          simpa [Int.add_mul_emod_self_left, Int.emod_eq_of_lt hx.1 hx.2, Int.emod_eq_of_lt hy.1 hy.2] using h1
        subst e1
        have e2 : index ss p = index ss q := by
          have : s * index ss p = s * index ss q := by linarith
          exact mul_left_cancel₀ hs.ne' this
        rw [ih hp hq e2]

/-- The position of raw index `k` (specification-level inverse of `index`). -/
def unravel : List Int → Int → List Int
  | [], _ => []
  | s :: ss, k => k % s :: unravel ss (k / s)

theorem unravel_spec : ∀ {s : List Int} {k : Int}, NonNeg s → 0 ≤ k → k < s.prod →
    InShape s (unravel s k) ∧ index s (unravel s k) = k := by
  intro s
  induction s with
  | nil =>
    intro k _ h0 h1
    have : k = 0 := by simp at h1; omega
    subst this
    exact ⟨inShape_nil, by simp [index]⟩
  | cons s ss ih =>
    intro k hs h0 h1
    rw [List.prod_cons] at h1
    have hs0 : 0 ≤ s := hs s (by simp)
    have hpos : 0 < s := by
      rcases hs0.lt_or_eq with h | h
      · exact h
      · rw [← h] at h1; simp at h1; omega
    have hk : 0 ≤ k / s := Int.ediv_nonneg h0 hs0
    have hk1 : k / s < ss.prod := Int.ediv_lt_of_lt_mul hpos (by rwa [mul_comm] at h1)
    obtain ⟨hi, he⟩ := ih (k := k / s) (fun x hx => hs x (by simp [hx])) hk hk1
    refine ⟨inShape_cons.2 ⟨⟨Int.emod_nonneg _ hpos.ne', Int.emod_lt_of_pos _ hpos⟩, hi⟩, ?_⟩
    rw [unravel, index_cons hi.length_eq, he]
    exact Int.emod_add_mul_ediv k s

theorem foldl_mul_eq_prod (l : List Int) (a : Int) : l.foldl (· * ·) a = a * l.prod := by
  induction l generalizing a with
  | nil => simp
  | cons x l ih => simp [ih, mul_assoc]

theorem shapeStride_eq (s : Position) (i : Nat) : shapeStride s i = (s.take i).prod := by
  simp [shapeStride, foldl_mul_eq_prod]

theorem shapeSize_eq {s : Position} (h : s ≠ []) : shapeSize s = s.prod := by
  have : s.length ≠ 0 := by simpa using h
  simp [shapeSize, this, shapeStride_eq]

end Litl
