import Verif.Lemmas.BoxIter

/-!
# Lemmas about domains and empty boxes
-/

namespace Litl

open Spec

/-- A strictly increasing list of `n` integers of `[a, a + n)` is `a, a + 1, ...`. -/
theorem eq_range_of_pairwise_lt : ∀ {l : List Int} {a : Int}, l.Pairwise (· < ·) →
    (∀ x ∈ l, a ≤ x ∧ x < a + l.length) → l = (List.range l.length).map (fun k : Nat => a + (k : Int)) := by
  intro l
  induction l with
  | nil => intros; rfl
  | cons x l ih =>
    intro a hp hb
    obtain ⟨h1, h2⟩ := List.pairwise_cons.1 hp
    have hx := hb x (by simp)
    have hl : l = (List.range l.length).map (fun k : Nat => (a + 1) + (k : Int)) := by
      refine ih h2 ?_
      intro y hy
      have := h1 y hy
      have h3 := hb y (by simp [hy])
      simp only [List.length_cons] at h3
      push_cast at h3
      exact ⟨by omega, by omega⟩
    have hxa : x = a := by
      cases hl' : l.length with
      | zero => rw [List.length_cons, hl'] at hx; omega
      | succ n =>
        have : a + 1 ∈ l := by rw [hl, hl']; simp
        have := h1 _ this
        omega
    rw [List.length_cons, List.range_succ_eq_map, List.map_cons, List.map_map]
    refine congrArg₂ _ (by simp [hxa]) ?_
    conv_lhs => rw [hl]
    refine List.map_congr_left ?_
    intro k _; simp; omega

theorem domainOf_fixed (s : Position) :
    Raster.domainOf s.length s = ⟨List.replicate s.length 0, s.map (· - 1)⟩ := by
  simp only [Raster.domainOf, Box.fromShape, Position.zero, Position.add, Position.subScalar, Int.natAbs_natCast]
  congr 1
  induction s with
  | nil => rfl
  | cons x s ih =>
    simp only [List.length_cons, List.replicate_succ, List.zipWith_cons_cons, List.map_cons, zero_add]
    rw [ih]

theorem inBox_domain {s p : Position} :
    InBox (List.replicate s.length 0) (s.map (· - 1)) p ↔ InShape s p := by
  induction s generalizing p with
  | nil => cases p <;> simp [InBox, InShape]
  | cons x s ih =>
    cases p with
    | nil => simp [InBox, InShape]
    | cons y p =>
      have := ih (p := p)
      simp only [InBox] at this
      simp only [InBox, InShape, List.length_cons, List.replicate_succ, List.forall₂_cons, List.map_cons]
      simp only [InShape] at this
      rw [← this]
      constructor
      · rintro ⟨⟨h1, h2⟩, h3, h4⟩; exact ⟨⟨h1, by omega⟩, h2, h4⟩
      · rintro ⟨⟨h1, h2⟩, h3, h4⟩; exact ⟨⟨h1, h3⟩, by omega, h4⟩

theorem domain_le {s : Position} (hs : Pos s) :
    List.Forall₂ (· ≤ ·) (List.replicate s.length (0 : Int)) (s.map (· - 1)) := by
  induction s with
  | nil => simp
  | cons x s ih =>
    simp only [List.length_cons, List.replicate_succ, List.map_cons, List.forall₂_cons]
    have hx : 0 < x := hs x (by simp)
    exact ⟨by omega, ih fun y hy => hs y (by simp [hy])⟩

theorem domain_shape (s : Position) : (Raster.domainOf s.length s).shape = s := by
  rw [domainOf_fixed]
  simp only [Box.shape, Position.sub, Position.addScalar]
  induction s with
  | nil => rfl
  | cons x s ih =>
    simp only [List.length_cons, List.replicate_succ, List.map_cons, List.zipWith_cons_cons]
    rw [ih]; congr 1; omega

/-- The loop over the domain visits positions of index 0, 1, 2... -/
theorem domain_enum {s : Position} (hs : Pos s) :
    (enum (List.replicate s.length 0) (s.map (· - 1))).map (index s) =
      (List.range s.prod.toNat).map (fun k : Nat => (k : Int)) := by
  have hle := domain_le hs
  have hlen := length_enum hle
  have hsh := domain_shape s
  rw [domainOf_fixed] at hsh
  simp only [Box.shape] at hsh
  rw [hsh] at hlen
  have hin : ∀ p ∈ enum (List.replicate s.length 0) (s.map (· - 1)), InShape s p := fun p hp =>
    inBox_domain.1 ((mem_enum hle.length_eq).1 hp)
  have hpw : ((enum (List.replicate s.length 0) (s.map (· - 1))).map (index s)).Pairwise (· < ·) := by
    rw [List.pairwise_map]
    refine List.Pairwise.imp_of_mem ?_ pairwise_enum
    intro p q hp hq h
    exact index_lt_of_storageLt (hin p hp) (hin q hq) h
  have h := eq_range_of_pairwise_lt (a := 0) hpw (by
    intro x hx
    obtain ⟨p, hp, rfl⟩ := List.mem_map.1 hx
    have := index_bounds (hin p hp)
    rw [List.length_map, hlen]
    omega)
  rw [h, List.length_map]
  have : (enum (List.replicate s.length 0) (s.map (· - 1))).length = s.prod.toNat := by omega
  rw [this]; simp

namespace BoxIterator

theorem carry_ge : ∀ {f b c : Position}, List.Forall₂ (· ≤ ·) f c → List.Forall₂ (· ≤ ·) f (carry f b c) := by
  intro f
  induction f with
  | nil => intro b c h; cases h; simp [carry]
  | cons f fs ih =>
    intro b c h
    cases h with
    | @cons _ c _ cs h1 h2 =>
      cases b with
      | nil => simpa [carry] using ⟨h1, h2⟩
      | cons b bs =>
        cases h2 with
        | nil => simpa [carry] using h1
        | @cons f' c' fs' cs' h3 h4 =>
          simp only [carry]
          split
          · exact .cons le_rfl (ih (.cons (by omega) h4))
          · exact .cons h1 (ih (.cons h3 h4))

theorem incHead_ge {f c : Position} (h : List.Forall₂ (· ≤ ·) f c) : List.Forall₂ (· ≤ ·) f (incHead c) := by
  cases h with
  | nil => exact .nil
  | cons h1 h2 => exact .cons (by omega) h2

/-- The iterator of an empty box never reaches the end. -/
theorem no_trace_of_empty {b : Box} (hf : b.front ≠ []) (h : ¬ List.Forall₂ (· ≤ ·) b.front b.back) :
    ∀ {c : Position} {l : List Position}, List.Forall₂ (· ≤ ·) b.front c →
      ¬ LoopTrace (next b) (endPosition b) c l := by
  intro c l hc ht
  generalize hs : endPosition b = stop at ht
  induction ht with
  | done => exact decHead_ne hf hc hs.symm
  | next hne _ ih =>
    refine ih ?_
    have : ¬ (_ = b.back) := fun e => h (e ▸ hc)
    rw [next, if_neg this]
    exact carry_ge (incHead_ge hc)

end BoxIterator

end Litl
