import Verif.Lemmas.Index
import Verif.Spec.Layout

/-!
# Lemmas about the memory layout
-/

namespace Litl

open Spec

theorem strides_cons (s : Int) (ss : List Int) :
    strides (s :: ss) = 1 :: (strides ss).map (s * ·) := by
  simp [strides, List.range_succ_eq_map, Function.comp_def]

theorem length_strides (s : List Int) : (strides s).length = s.length := by simp [strides]

theorem sum_zipWith_map_mul (s : Int) : ∀ p q : List Int,
    (List.zipWith (· * ·) p (q.map (s * ·))).sum = s * (List.zipWith (· * ·) p q).sum := by
  intro p
  induction p with
  | nil => intro q; simp
  | cons x p ih =>
    intro q
    cases q with
    | nil => simp
    | cons y q => simp [ih, mul_add]; ring

theorem index_eq_offset : ∀ {s p : List Int}, p.length = s.length → index s p = offset s p := by
  intro s
  induction s with
  | nil => intro p h; cases p with
    | nil => simp [index, offset]
    | cons => simp at h
  | cons s ss ih =>
    intro p h
    cases p with
    | nil => simp at h
    | cons x p =>
      have h' : p.length = ss.length := by simpa using h
      rw [index_cons h', ih h']
      unfold offset
      rw [strides_cons]
      simp [sum_zipWith_map_mul]

/-- The backward loop of the variable-dimension index computes the Horner scheme. -/
theorem foldl_index : ∀ {s p : List Int}, p.length = s.length →
    (List.zip p.reverse s.reverse).foldl (fun res ps => ps.1 + ps.2 * res) 0 = index s p := by
  intro s
  induction s with
  | nil => intro p h; cases p with
    | nil => simp [index]
    | cons => simp at h
  | cons s ss ih =>
    intro p h
    cases p with
    | nil => simp at h
    | cons x p =>
      have h' : p.length = ss.length := by simpa using h
      rw [index_cons h', ← ih h', List.reverse_cons, List.reverse_cons,
        List.zip_append (by simpa using h'), List.foldl_append]
      simp

theorem index_set_add_one : ∀ {s p : List Int} {i : Nat} (_ : p.length = s.length) (hi : i < p.length),
    index s (p.set i (p[i] + 1)) = index s p + (s.take i).prod := by
  intro s
  induction s with
  | nil => intro p i h hi; simp at h; subst h; simp at hi
  | cons s ss ih =>
    intro p i h hi
    cases p with
    | nil => simp at hi
    | cons x p =>
      have h' : p.length = ss.length := by simpa using h
      cases i with
      | zero => simp [index_cons h']; ring
      | succ i =>
        have hi' : i < p.length := by simpa using hi
        simp only [List.set_cons_succ, List.getElem_cons_succ, List.take_succ_cons, List.prod_cons]
        rw [index_cons (by simpa using h'), index_cons h', ih h' hi']
        ring

end Litl
