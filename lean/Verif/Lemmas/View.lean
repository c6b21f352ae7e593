import Verif.Model.View
import Verif.Lemmas.BoxAlgebra
import Verif.Lemmas.Core

/-!
# Lemmas about views
-/

namespace Litl

open Spec

theorem index_mono : ∀ {s p q : List Int}, NonNeg s → List.Forall₂ (· ≤ ·) p q → p.length = s.length →
    index s p ≤ index s q := by
  intro s
  induction s with
  | nil => intro p q _ h hl; cases h with
    | nil => exact le_rfl
    | cons => simp at hl
  | cons s ss ih =>
    intro p q hs h hl
    cases h with
    | nil => simp at hl
    | @cons x y p q h1 h2 =>
      have hl' : p.length = ss.length := by simpa using hl
      rw [index_cons hl', index_cons (h2.length_eq ▸ hl')]
      have h3 := ih (fun z hz => hs z (by simp [hz])) h2 hl'
      have := mul_le_mul_of_nonneg_left h3 (hs s (by simp))
      linarith

/-- The index is linear. -/
theorem index_add : ∀ {s p q : Position}, p.length = s.length → q.length = s.length →
    index s (p.add q) = index s p + index s q := by
  intro s
  induction s with
  | nil => intro p q hp hq; simp at hp hq; subst hp hq; simp [index]
  | cons s ss ih =>
    intro p q hp hq
    cases p with
    | nil => simp at hp
    | cons x p =>
      cases q with
      | nil => simp at hq
      | cons y q =>
        have hp' : p.length = ss.length := by simpa using hp
        have hq' : q.length = ss.length := by simpa using hq
        have h1 : Position.add (x :: p) (y :: q) = (x + y) :: Position.add p q := rfl
        rw [h1, index_cons (by rw [length_add (by omega)]; exact hp'), index_cons hp', index_cons hq', ih hp' hq']
        ring

theorem index_zeros (s : List Int) : ∀ n, n = s.length → index s (List.replicate n 0) = 0 := by
  induction s with
  | nil => intro n h; subst h; simp [index]
  | cons s ss ih =>
    intro n h
    subst h
    rw [List.length_cons, List.replicate_succ, index_cons (by simp), ih _ rfl]; simp

/-- Only the first lengths matter for positions which are null along the last axes. -/
theorem index_append_zeros : ∀ {s t q : List Int} (u : List Int), q.length = s.length → t.length = u.length →
    index (s ++ u) (q ++ List.replicate t.length 0) = index s q := by
  intro s
  induction s with
  | nil =>
    intro t q u hq ht
    simp at hq; subst hq
    simp only [List.nil_append, index_nil]
    exact index_zeros u _ ht
  | cons s ss ih =>
    intro t q u hq ht
    cases q with
    | nil => simp at hq
    | cons x q =>
      have hq' : q.length = ss.length := by simpa using hq
      rw [List.cons_append, List.cons_append, index_cons (by simp [hq', ht]), index_cons hq', ih u hq' ht]

/-- The index ignores the last length. -/
theorem index_last : ∀ {s q : List Int} (a b : Int), q.length = s.length + 1 →
    index (s ++ [a]) q = index (s ++ [b]) q := by
  intro s
  induction s with
  | nil =>
    intro q a b hq
    match q, hq with
    | [x], _ => simp [index]
  | cons s ss ih =>
    intro q a b hq
    cases q with
    | nil => simp at hq
    | cons x q =>
      have hq' : q.length = ss.length + 1 := by simpa using hq
      rw [List.cons_append, List.cons_append, index_cons (by simp [hq']), index_cons (by simp [hq']), ih a b hq']

end Litl
