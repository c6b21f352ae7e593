import Verif.Model.Ball
import Verif.Spec.Ball
import Verif.Lemmas.BoxAlgebra
import Mathlib.Algebra.Order.BigOperators.Group.List
import Mathlib.Tactic.Positivity

/-!
# Lemmas about balls
-/

namespace Litl

open Spec

theorem truncRat_of_nonneg {r : ℚ} (h : 0 ≤ r) : truncRat r = ⌊r⌋ := by simp [truncRat, not_lt.2 h]

namespace BallIterator

theorem distance_foldl (P : Nat) (l : List (Int × Int)) (a : ℚ) :
    l.foldl (fun acc ab => acc + |(ab.2 : ℚ) - (ab.1 : ℚ)| ^ P) a =
      a + (l.map fun ab => |(ab.1 : ℚ) - (ab.2 : ℚ)| ^ P).sum := by
  induction l generalizing a with
  | nil => simp
  | cons x l ih => simp only [List.foldl_cons, List.map_cons, List.sum_cons, ih]; rw [abs_sub_comm, add_assoc]

theorem distanceToCenter_eq (P : Nat) (c p : Position) : distanceToCenter P c p = distancePow P p c := by
  rw [distanceToCenter, distance_foldl, zero_add, distancePow, List.zip, List.map_zipWith]

theorem loopTrace_filter {P : Nat} {b : Ball} {c : Position} {l : List Position}
    (h : LoopTrace (BoxIterator.next b.box) (BoxIterator.endPosition b.box) c l) :
    ∃ d, Settle P b c d ∧ Loop P b d (l.filter fun p => ¬ Skipped P b p) := by
  induction h with
  | done => exact ⟨_, Settle.done (Or.inl rfl), by simpa using Loop.done⟩
  | @next c l hne _ ih =>
    obtain ⟨d, h1, h2⟩ := ih
    by_cases hs : Skipped P b c
    · exact ⟨d, Settle.next hne hs h1, by simpa [hs] using h2⟩
    · refine ⟨c, Settle.done (Or.inr hs), ?_⟩
      simp only [hs, not_false_eq_true, decide_true, List.filter_cons_of_pos]
      exact Loop.next hne h1 h2

theorem Settle.unique {P : Nat} {b : Ball} {c d d' : Position} (h : Settle P b c d) (h' : Settle P b c d') :
    d = d' := by
  induction h with
  | done hs =>
    cases h' with
    | done => rfl
    | next h1 h2 _ => exact absurd hs (by simp [h1, h2])
  | next h1 h2 _ ih =>
    cases h' with
    | done hs => exact absurd hs (by simp [h1, h2])
    | next _ _ h3 => exact ih h3

theorem Loop.unique {P : Nat} {b : Ball} {c : Position} {l l' : List Position} (h : Loop P b c l)
    (h' : Loop P b c l') : l = l' := by
  induction h generalizing l' with
  | done =>
    cases h' with
    | done => rfl
    | next h1 _ _ => exact absurd rfl h1
  | next h1 h2 _ ih =>
    cases h' with
    | done => exact absurd rfl h1
    | next _ h3 h4 =>
      rw [← h2.unique h3] at h4
      rw [ih h4]

/-- A settled loop comes from a loop over the box. -/
theorem Settle.loopTrace {P : Nat} {b : Ball} {c d : Position} (h : Settle P b c d) {l : List Position}
    (hl : LoopTrace (BoxIterator.next b.box) (BoxIterator.endPosition b.box) d l) :
    ∃ l', LoopTrace (BoxIterator.next b.box) (BoxIterator.endPosition b.box) c l' := by
  induction h with
  | done => exact ⟨l, hl⟩
  | next h1 _ _ ih =>
    obtain ⟨l', h⟩ := ih hl
    exact ⟨_, LoopTrace.next h1 h⟩

theorem Loop.loopTrace {P : Nat} {b : Ball} {c : Position} {l : List Position} (h : Loop P b c l) :
    ∃ l', LoopTrace (BoxIterator.next b.box) (BoxIterator.endPosition b.box) c l' := by
  induction h with
  | done => exact ⟨[], LoopTrace.done⟩
  | next h1 h2 _ ih =>
    obtain ⟨l', h⟩ := ih
    obtain ⟨l'', h⟩ := h2.loopTrace h
    exact ⟨_, LoopTrace.next h1 h⟩

end BallIterator

theorem distancePow_cons (P : Nat) (x y : Int) (p q : List Int) :
    distancePow P (x :: p) (y :: q) = |(x : ℚ) - y| ^ P + distancePow P p q := by
  simp [distancePow]

theorem distancePow_nonneg (P : Nat) (p q : List Int) : 0 ≤ distancePow P p q := by
  induction p generalizing q with
  | nil => simp [distancePow]
  | cons x p ih =>
    cases q with
    | nil => simp [distancePow]
    | cons y q => rw [distancePow_cons]; have := ih q; positivity

/-- A ball is inside its bounding box. -/
theorem inBox_of_inBall {P : Nat} (hP : P ≠ 0) {r : ℚ} (hr : 0 ≤ r) : ∀ {c p : Position}, InBall P r c p →
    InBox (c.subScalar ⌊r⌋) (c.addScalar ⌊r⌋) p := by
  intro c
  induction c with
  | nil =>
    intro p h
    have := h.1
    cases p with
    | nil => simp [InBox, Position.subScalar, Position.addScalar]
    | cons => simp at this
  | cons x c ih =>
    intro p h
    cases p with
    | nil => have := h.1; simp at this
    | cons y p =>
      obtain ⟨h1, h2⟩ := h
      rw [distancePow_cons] at h2
      have h3 : InBall P r c p := ⟨by simpa using h1, by
        have : 0 ≤ |(y : ℚ) - x| ^ P := by positivity
        linarith⟩
      have h4 := ih h3
      have h5 : |(y : ℚ) - x| ^ P ≤ r ^ P := by linarith [distancePow_nonneg P p c]
      have h6 : |(y : ℚ) - x| ≤ r := le_of_pow_le_pow_left₀ hP hr h5
      have h7 : |y - x| ≤ ⌊r⌋ := by
        rw [Int.le_floor]; push_cast; exact h6
      rw [abs_le] at h7
      simp only [InBox, Position.subScalar, Position.addScalar, List.map_cons, List.forall₂_cons] at h4 ⊢
      exact ⟨⟨by omega, h4.1⟩, by omega, h4.2⟩

theorem box_front_le_back {r : Int} (hr : 0 ≤ r) (c : Position) :
    List.Forall₂ (· ≤ ·) (c.subScalar r) (c.addScalar r) := by
  induction c with
  | nil => exact .nil
  | cons x c ih =>
    simp only [Position.subScalar, Position.addScalar, List.map_cons] at ih ⊢
    exact .cons (by omega) ih

end Litl
