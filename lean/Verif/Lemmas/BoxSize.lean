import Verif.Lemmas.Domain

/-!
# Lemmas about box sizes
-/

namespace Litl

open Spec

theorem length_enum_of_nonneg : ∀ {f b : Position}, f.length = b.length →
    NonNeg ((b.sub f).addScalar 1) → ((enum f b).length : Int) = ((b.sub f).addScalar 1).prod := by
  intro f
  induction f with
  | nil =>
    intro b h _
    cases b with
    | nil => simp [enum, Position.sub, Position.addScalar]
    | cons => simp at h
  | cons f fs ih =>
    intro b h hn
    cases b with
    | nil => simp at h
    | cons b bs =>
      simp only [NonNeg, Position.sub, Position.addScalar, List.zipWith_cons_cons, List.map_cons,
        List.forall_mem_cons] at hn
      have := ih (by simpa using h) hn.2
      simp only [Position.sub, Position.addScalar] at this
      simp only [enum, List.length_flatMap, List.length_map, length_ints, List.map_const',
        List.sum_replicate, Position.sub, Position.addScalar, List.zipWith_cons_cons, List.map_cons,
        List.prod_cons, nsmul_eq_mul, Nat.cast_id, Nat.cast_mul, this]
      rw [mul_comm]; congr 1; omega

/-- A box with a length which is not positive has no position. -/
theorem enum_eq_nil : ∀ {f b : Position}, f.length = b.length → (∃ s ∈ (b.sub f).addScalar 1, s ≤ 0) →
    enum f b = [] := by
  intro f
  induction f with
  | nil => intro b _ h; simp [Position.sub, Position.addScalar] at h
  | cons f fs ih =>
    intro b hl h
    cases b with
    | nil => simp at hl
    | cons b bs =>
      simp only [Position.sub, Position.addScalar, List.zipWith_cons_cons, List.map_cons,
        List.exists_mem_cons_iff] at h
      rcases h with h | h
      · simp [enum, ints_nil (show b < f by omega)]
      · simp [enum, ih (by simpa using hl) h]

theorem forall₂_le_iff : ∀ {f b : Position}, f.length = b.length →
    (List.Forall₂ (· ≤ ·) f b ↔ Pos ((b.sub f).addScalar 1)) := by
  intro f
  induction f with
  | nil =>
    intro b h
    cases b with
    | nil => simp [Pos, Position.sub, Position.addScalar]
    | cons => simp at h
  | cons f fs ih =>
    intro b h
    cases b with
    | nil => simp at h
    | cons b bs =>
      have := ih (b := bs) (by simpa using h)
      simp only [Pos, Position.sub, Position.addScalar] at this
      simp only [Pos, Position.sub, Position.addScalar, List.zipWith_cons_cons, List.map_cons,
        List.forall_mem_cons, List.forall₂_cons, this]
      exact and_congr_left fun _ => by omega

theorem forall₂_le_trans {a b c : List Int} (h : List.Forall₂ (· ≤ ·) a b) (h' : List.Forall₂ (· ≤ ·) b c) :
    List.Forall₂ (· ≤ ·) a c := by
  induction h generalizing c with
  | nil => cases h'; exact .nil
  | cons h1 _ ih => cases h' with
    | cons h3 h4 => exact .cons (h1.trans h3) (ih h4)

theorem Box.shape_ne_nil {b : Box} (hl : b.front.length = b.back.length) (hf : b.front ≠ []) : b.shape ≠ [] := by
  have := List.length_pos_iff.2 hf
  intro h
  have h2 := congrArg List.length h
  simp only [Box.shape, Position.sub, Position.addScalar, List.length_map, List.length_zipWith, List.length_nil] at h2
  omega

/-- Two duplicate-free lists with the same elements have the same length. -/
theorem length_eq_of_nodup {α : Type _} {l l' : List α} (h : l.Nodup) (h' : l'.Nodup)
    (hm : ∀ p, p ∈ l ↔ p ∈ l') : l.length = l'.length :=
  le_antisymm (List.Subperm.length_le (List.subperm_of_subset h fun p hp => (hm p).1 hp))
    (List.Subperm.length_le (List.subperm_of_subset h' fun p hp => (hm p).2 hp))

end Litl
