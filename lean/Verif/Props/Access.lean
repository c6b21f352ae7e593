import Verif.Lemmas.Index
import Verif.Model.Container
import Verif.Lemmas.Core

/-!
# C06, C07: checked access with backward indexing
-/

namespace Litl

open Spec

/-- What a user means by backward indexing: coordinate `-1` is the last one. -/
def Spec.wrap (s p : List Int) : List Int := List.zipWith (fun x n => if x < 0 then n + x else x) p s

/-- The positions supported by `at()`. -/
def Spec.InBackwardBounds (s p : List Int) : Prop := List.Forall₂ (fun x n => -n ≤ x ∧ x ≤ n - 1) p s

theorem boundedPos_spec (s p : Position) (hl : p.length = s.length) :
    (InBackwardBounds s p ∧ Raster.boundedPos s p = .ok (wrap s p) ∧ InShape s (wrap s p)) ∨
    (¬ InBackwardBounds s p ∧ Raster.boundedPos s p = .error .outOfBounds) := by
  induction s generalizing p with
  | nil => cases p with
    | nil => left; simp [InBackwardBounds, Raster.boundedPos, wrap, InShape]
    | cons => simp at hl
  | cons n s ih =>
    cases p with
    | nil => simp at hl
    | cons x p =>
      by_cases hx : x < -n ∨ x > n - 1
      · right
        refine ⟨?_, by simp only [Raster.boundedPos, if_pos hx]⟩
        intro h
        cases h with
        | cons h1 _ => omega
      · have hx' : -n ≤ x ∧ x ≤ n - 1 := by omega
        rcases ih p (by simpa using hl) with ⟨h1, h2, h3⟩ | ⟨h1, h2⟩
        · left
          refine ⟨List.Forall₂.cons hx' h1, ?_, ?_⟩
          · rw [Raster.boundedPos, if_neg hx, h2]
            simp only [wrap, List.zipWith_cons_cons, add_comm n x]
            rfl
          · refine inShape_cons.2 ⟨?_, h3⟩
            show 0 ≤ (if x < 0 then n + x else x) ∧ (if x < 0 then n + x else x) < n
            split <;> omega
        · right
          refine ⟨fun h => ?_, ?_⟩
          · cases h with
            | cons _ h' => exact h1 h'
          · rw [Raster.boundedPos, if_neg hx, h2]
            rfl

/-- **C06**: `at(position)` raises an out-of-bounds error iff some coordinate is outside
`[-length, length - 1]`, for any raster which holds as many elements as its shape. -/
theorem C06_at_throws_iff {α : Type _} (r : Raster α) (p : Position)
    (hr : (r.data.length : Int) = pixelCount r.shape) (hl : p.length = r.shape.length) :
    r.at p = .error .outOfBounds ↔ ∃ xn ∈ List.zip p r.shape, xn.1 < -xn.2 ∨ xn.1 > xn.2 - 1 := by
  have key : InBackwardBounds r.shape p ↔ ¬ ∃ xn ∈ List.zip p r.shape, xn.1 < -xn.2 ∨ xn.1 > xn.2 - 1 := by
    rw [InBackwardBounds, List.forall₂_iff_zip]
    simp only [hl, true_and, not_exists, not_and, Prod.forall]
    refine forall₃_congr fun a b _ => ?_
    omega
  rw [← not_iff_not, ← key]
  rcases boundedPos_spec r.shape p hl with ⟨h1, h2, h3⟩ | ⟨h1, h2⟩
  · simp only [h1, iff_true]
    have h4 := index_bounds h3
    have h5 : (index r.shape (wrap r.shape p)).toNat < r.data.length := by unfold pixelCount at hr; omega
    simp [Raster.at, h2, bind, Except.bind, Raster.get, readAt, not_lt.2 h4.1, List.getElem?_eq_getElem h5]
  · simp [h1, Raster.at, h2, bind, Except.bind]

/-- **C06**: otherwise, it designates the pixel obtained by adding the length to negative coordinates,
which is a pixel of the raster. -/
theorem C06_at_value {α : Type _} (r : Raster α) (p : Position)
    (hr : (r.data.length : Int) = pixelCount r.shape) (hp : InBackwardBounds r.shape p) :
    InShape r.shape (wrap r.shape p) ∧ r.at p = r.get (wrap r.shape p) ∧ ∃ v, r.at p = .ok v := by
  rcases boundedPos_spec r.shape p hp.length_eq with ⟨h1, h2, h3⟩ | ⟨h1, h2⟩
  · have h4 := index_bounds h3
    have h5 : (index r.shape (wrap r.shape p)).toNat < r.data.length := by unfold pixelCount at hr; omega
    refine ⟨h3, by simp [Raster.at, h2, bind, Except.bind], ?_⟩
    exact ⟨r.data[(index r.shape (wrap r.shape p)).toNat], by
      simp [Raster.at, h2, bind, Except.bind, Raster.get, readAt, not_lt.2 h4.1, List.getElem?_eq_getElem h5]⟩
  · exact absurd hp h1

/-- Non-vacuity of C06. -/
example : let r : Raster Nat := ⟨[3, 2], [1, 2, 3, 4, 5, 6]⟩
 (r.data.length : Int) = pixelCount r.shape ∧ InBackwardBounds r.shape [-1, -2] ∧
    r.at [-1, -2] = .ok 3 ∧ r.at [1, 1] = .ok 5 ∧ r.at [-4, 0] = .error .outOfBounds ∧
    r.at [0, 2] = .error .outOfBounds := by
  refine ⟨by decide, by simp [InBackwardBounds], by rfl, by rfl, by rfl, by rfl⟩

theorem at_first {n : Int} (h0 : 0 ≤ n) (h1 : n < 2 ^ 63) : i64 (u64 (-u64 n)) = -n := by
  unfold i64 u64; split <;> omega

theorem at_second {n : Int} (h0 : 0 ≤ n) (h1 : n < 2 ^ 63) : i64 (u64 (u64 n - 1)) = n - 1 := by
  unfold i64 u64; split <;> omega

theorem at_eq {α : Type _} (data : List α) (i : Int) (hn : (data.length : Int) < 2 ^ 63) :
    Container.at data i = if i < -data.length ∨ i > data.length - 1 then .error .outOfBounds
      else Container.get data (if i ≥ 0 then u64 i else u64 (u64 i + u64 data.length)) := by
  simp only [Container.at, at_first (Int.natCast_nonneg _) hn, at_second (Int.natCast_nonneg _) hn]

/-- **C07**: on 64-bit machine integers, `at(i)` raises an out-of-bounds error iff `i < -n` or
`i ≥ n`; the size of the container is less than 2^63 (a requirement of the C++ standard library). -/
theorem C07_at_throws_iff {α : Type _} (data : List α) (i : Int) (hn : (data.length : Int) < 2 ^ 63) :
    Container.at data i = .error .outOfBounds ↔ (i < -data.length ∨ (data.length : Int) ≤ i) := by
  rw [at_eq data i hn]
  split
  · simp only [true_iff]; omega
  · have hb : ¬ (i < -(data.length : Int) ∨ (data.length : Int) ≤ i) := by omega
    simp only [hb, iff_false, Container.get]
    exact readAt_ne (by decide)

/-- **C07**: otherwise `at(i)` designates element `i` (`i ≥ 0`) or `n + i` (`i < 0`). -/
theorem C07_at_value {α : Type _} (data : List α) (i : Int) (hn : (data.length : Int) < 2 ^ 63) :
    (∀ h : 0 ≤ i ∧ i < data.length, Container.at data i = .ok (data[i.toNat]'(by omega))) ∧
    (∀ h : -data.length ≤ i ∧ i < 0, Container.at data i = .ok (data[(data.length + i).toNat]'(by omega))) := by
  have key : ∀ k : Int, ∀ hk : 0 ≤ k ∧ k < data.length, Container.get data k = .ok (data[k.toNat]'(by omega)) := by
    intro k hk
    have : k.toNat < data.length := by omega
    simp [Container.get, readAt, not_lt.2 hk.1, List.getElem?_eq_getElem this]
  constructor
  · intro h
    rw [← key i h, at_eq data i hn, if_neg (by omega), if_pos (by omega)]
    congr 1; unfold u64; omega
  · intro h
    rw [← key _ (by omega), at_eq data i hn, if_neg (by omega), if_neg (by omega)]
    congr 1; unfold u64; omega

/-- Non-vacuity of C07, including an empty container. -/
example : Container.at [7, 8, 9] 2 = .ok 9 ∧ Container.at [7, 8, 9] (-3) = .ok 7 ∧
    Container.at [7, 8, 9] 3 = .error .outOfBounds ∧ Container.at [7, 8, 9] (-4) = .error .outOfBounds ∧
    Container.at ([] : List Nat) 0 = .error .outOfBounds := by
  refine ⟨by rfl, by rfl, by rfl, by rfl, by rfl⟩

end Litl
