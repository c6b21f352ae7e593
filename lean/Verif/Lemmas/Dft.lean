import Verif.Spec.Dft
import Verif.Lemmas.Layout
import Mathlib.Algebra.Field.GeomSum
import Mathlib.Algebra.BigOperators.Ring.List
import Mathlib.Data.List.Perm.Basic
import Mathlib.Tactic.FieldSimp
import Mathlib.Tactic.LinearCombination

/-!
# Lemmas on the discrete Fourier transform
-/

namespace Litl

open Spec

/-- The positions of a raster. -/
def grid : List Int → List (List Int)
  | [] => [[]]
  | n :: ns => (List.range n.toNat).flatMap fun i : Nat => (grid ns).map fun p => (i : Int) :: p

theorem mem_grid : ∀ {n p : List Int}, p ∈ grid n ↔ InShape n p := by
  intro n
  induction n with
  | nil => intro p; cases p <;> simp [grid, InShape]
  | cons a n ih =>
    intro p
    cases p with
    | nil => simp [grid, InShape]
    | cons x p =>
      have ih' : ∀ {p}, p ∈ grid n ↔ List.Forall₂ (fun x s => 0 ≤ x ∧ x < s) p n := ih
      simp only [grid, List.mem_flatMap, List.mem_range, List.mem_map, InShape, List.forall₂_cons]
      constructor
      · rintro ⟨i, hi, q, hq, he⟩
        obtain ⟨rfl, rfl⟩ := List.cons.inj he
        exact ⟨⟨by omega, by omega⟩, ih'.1 hq⟩
      · rintro ⟨⟨h0, h1⟩, h2⟩
        exact ⟨x.toNat, by omega, p, ih'.2 h2, by simp [h0]⟩

theorem nodup_grid : ∀ n : List Int, (grid n).Nodup := by
  intro n
  induction n with
  | nil => simp [grid]
  | cons a n ih =>
    rw [grid, List.nodup_flatMap]
    refine ⟨fun i _ => ih.map (fun p q h => (List.cons.inj h).2), ?_⟩
    refine (List.nodup_range (n := a.toNat)).imp ?_
    intro i j hij p hp hq
    obtain ⟨q, _, rfl⟩ := List.mem_map.1 hp
    obtain ⟨r, _, h⟩ := List.mem_map.1 hq
    have := (List.cons.inj h).1
    omega

theorem perm_grid {n : List Int} {l : List (List Int)} (hl : l.Nodup) (h : ∀ p, p ∈ l ↔ InShape n p) :
    l.Perm (grid n) :=
  (List.perm_ext_iff_of_nodup hl (nodup_grid n)).2 fun p => by rw [h, mem_grid]

/-- A wave. -/
noncomputable def wave (s : ℝ) (n j k : List Int) : ℂ :=
  Complex.exp (2 * Real.pi * Complex.I * (s * phase n j k : ℝ))

theorem isDft_iff {s : ℝ} {n : List Int} {f : List Int → ℂ} {k : List Int} {y : ℂ} :
    IsDft s n f k y ↔ y = ((grid n).map fun j => f j * wave s n j k).sum := by
  constructor
  · intro h; exact h _ (nodup_grid n) fun p => mem_grid
  · rintro rfl l hl h
    exact ((perm_grid hl h).map _).sum_eq.symm

theorem phase_comm : ∀ n j k : List Int, phase n j k = phase n k j := by
  intro n
  induction n with
  | nil => intros; simp [phase]
  | cons a n ih =>
    intro j k
    cases j <;> cases k <;> simp [phase]
    rw [ih, mul_comm]

theorem wave_comm (s : ℝ) (n j k : List Int) : wave s n j k = wave s n k j := by
  simp only [wave]; rw [phase_comm]

theorem wave_cons (s : ℝ) (a : Int) (n : List Int) (x y : Int) (j k : List Int) :
    wave s (a :: n) (x :: j) (y :: k) =
      Complex.exp (2 * Real.pi * Complex.I * (s * ((x * y : ℝ) / a) : ℝ)) * wave s n j k := by
  simp only [wave, ← Complex.exp_add, phase]
  congr 1
  push_cast
  ring

/-- All frequencies are multiples of the lengths. -/
def Trivial : List Int → List Int → Prop := List.Forall₂ (fun n k => n ∣ k)

theorem exp_int (m : Int) : Complex.exp (2 * Real.pi * Complex.I * (m : ℝ)) = 1 := by
  rw [Complex.exp_eq_one_iff]
  exact ⟨m, by push_cast; ring⟩

theorem exp_ratio_eq_one {a k : Int} (ha : 0 < a) :
    Complex.exp (2 * Real.pi * Complex.I * ((k : ℝ) / a : ℝ)) = 1 ↔ a ∣ k := by
  have ha' : (a : ℂ) ≠ 0 := by exact_mod_cast ha.ne'
  have hp : (2 * Real.pi * Complex.I : ℂ) ≠ 0 := Complex.two_pi_I_ne_zero
  rw [Complex.exp_eq_one_iff]
  constructor
  · rintro ⟨m, hm⟩
    refine ⟨m, ?_⟩
    have h : ((k : ℂ) / a) = m := by
      push_cast at hm
      have : (2 * Real.pi * Complex.I : ℂ) * ((k : ℂ) / a) = (2 * Real.pi * Complex.I) * m := by
        rw [hm]; ring
      exact mul_left_cancel₀ hp this
    rw [div_eq_iff ha'] at h
    have : (k : ℂ) = ((a * m : Int) : ℂ) := by push_cast; rw [h]; ring
    exact_mod_cast this
  · rintro ⟨m, rfl⟩
    refine ⟨m, ?_⟩
    push_cast
    field_simp

/-- Orthogonality of waves along one axis. -/
theorem sum_exp {a : Int} (ha : 0 < a) (k : Int) :
    ((List.range a.toNat).map fun i : Nat =>
      Complex.exp (2 * Real.pi * Complex.I * ((i * k : ℝ) / a : ℝ))).sum = if a ∣ k then (a : ℂ) else 0 := by
  set r := Complex.exp (2 * Real.pi * Complex.I * ((k : ℝ) / a : ℝ)) with hr
  have hpow : ∀ i : Nat, Complex.exp (2 * Real.pi * Complex.I * ((i * k : ℝ) / a : ℝ)) = r ^ i := by
    intro i
    rw [hr, ← Complex.exp_nat_mul]
    congr 1
    push_cast
    ring
  have hs : ((List.range a.toNat).map fun i : Nat =>
      Complex.exp (2 * Real.pi * Complex.I * ((i * k : ℝ) / a : ℝ))).sum = ∑ i ∈ Finset.range a.toNat, r ^ i := by
    simp only [hpow]
    simp [Finset.sum, Finset.range, Multiset.range]
  rw [hs]
  by_cases h : a ∣ k
  · rw [if_pos h, (exp_ratio_eq_one ha).2 h] at *
    simp [hr]
    have : ((a.toNat : Int) : ℂ) = (a : ℂ) := by rw [Int.toNat_of_nonneg ha.le]
    exact_mod_cast this
  · rw [if_neg h]
    have h1 : r ≠ 1 := fun e => h ((exp_ratio_eq_one ha).1 e)
    rw [geom_sum_eq h1]
    have : r ^ a.toNat = 1 := by
      rw [← hpow]
      have : (((a.toNat : Nat) : ℝ)) = (a : ℝ) := by
        have := Int.toNat_of_nonneg ha.le
        exact_mod_cast this
      rw [this]
      have ha' : (a : ℝ) ≠ 0 := by exact_mod_cast ha.ne'
      have : ((a * k : ℝ) / a) = (k : ℝ) := by field_simp
      rw [this]
      exact exp_int k
    rw [this]; simp

theorem sum_flatMap_list {α : Type} (l : List α) (f : α → List ℂ) :
    (l.flatMap f).sum = (l.map fun a => (f a).sum).sum := by
  induction l with
  | nil => simp
  | cons a l ih => simp [ih]

/-- Orthogonality of waves. -/
theorem sum_wave : ∀ {n : List Int}, Pos n → ∀ {k : List Int}, k.length = n.length →
    ((Trivial n k → ((grid n).map fun j => wave 1 n j k).sum = (n.prod : Int)) ∧
      (¬ Trivial n k → ((grid n).map fun j => wave 1 n j k).sum = 0)) := by
  intro n
  induction n with
  | nil =>
    intro _ k hk
    have : k = [] := List.eq_nil_of_length_eq_zero (by simpa using hk)
    subst this
    simp [grid, Trivial, wave, phase]
  | cons a n ih =>
    intro hn k hk
    cases k with
    | nil => simp at hk
    | cons x k =>
      have ha : 0 < a := hn a (by simp)
      have ih' := ih (fun s hs => hn s (by simp [hs])) (k := k) (by simpa using hk)
      have hsum : ((grid (a :: n)).map fun j => wave 1 (a :: n) j (x :: k)).sum =
          (if a ∣ x then (a : ℂ) else 0) * ((grid n).map fun j => wave 1 n j k).sum := by
        rw [← sum_exp ha x, grid, List.map_flatMap, sum_flatMap_list, ← List.sum_map_mul_right]
        congr 1
        refine List.map_congr_left fun i _ => ?_
        rw [List.map_map, ← List.sum_map_mul_left]
        congr 1
        refine List.map_congr_left fun p _ => ?_
        simp only [Function.comp]
        rw [wave_cons]
        simp
      rw [hsum]
      constructor
      · intro h
        rw [Trivial, List.forall₂_cons] at h
        rw [if_pos h.1, ih'.1 h.2]
        simp
      · intro h
        by_cases hx : a ∣ x
        · have : ¬ Trivial n k := fun hk => h (List.forall₂_cons.2 ⟨hx, hk⟩)
          rw [ih'.2 this, mul_zero]
        · rw [if_neg hx, zero_mul]

theorem phase_sub : ∀ {n j k l : List Int}, k.length = l.length →
    phase n j (List.zipWith (· - ·) k l) = phase n j k - phase n j l := by
  intro n
  induction n with
  | nil => intros; simp [phase]
  | cons a n ih =>
    intro j k l h
    cases j with
    | nil => simp [phase]
    | cons x j =>
      cases k with
      | nil => cases l <;> simp_all [phase]
      | cons y k =>
        cases l with
        | nil => simp at h
        | cons z l =>
          simp only [List.zipWith_cons_cons, phase]
          rw [ih (by simpa using h)]
          push_cast
          ring

theorem wave_sub {n j k l : List Int} (h : k.length = l.length) :
    wave 1 n j k * wave (-1) n j l = wave 1 n j (List.zipWith (· - ·) k l) := by
  simp only [wave, ← Complex.exp_add, phase_sub h]
  congr 1
  push_cast
  ring

theorem trivial_sub : ∀ {n j k : List Int}, InShape n j → InShape n k →
    (Trivial n (List.zipWith (· - ·) j k) ↔ j = k) := by
  intro n
  induction n with
  | nil => intro j k hj hk; cases hj; cases hk; simp [Trivial]
  | cons a n ih =>
    intro j k hj hk
    cases hj with
    | cons hx hj =>
      cases hk with
      | cons hy hk =>
        rename_i x j y k
        have := ih hj hk
        simp only [Trivial, List.zipWith_cons_cons, List.forall₂_cons] at this ⊢
        rw [this]
        simp only [List.cons.injEq]
        refine and_congr_left fun _ => ?_
        constructor
        · rintro ⟨m, hm⟩
          have h1 : a * m < a := by omega
          have h2 : -a < a * m := by omega
          have : m = 0 := by
            by_contra hne
            rcases lt_or_gt_of_ne hne with h | h
            · nlinarith
            · nlinarith
          subst this; omega
        · rintro rfl; simp

theorem inShape_length {n p : List Int} (h : InShape n p) : p.length = n.length := List.Forall₂.length_eq h

theorem sum_comm_list {α β : Type} (l : List α) (l' : List β) (f : α → β → ℂ) :
    (l.map fun a => (l'.map fun b => f a b).sum).sum = (l'.map fun b => (l.map fun a => f a b).sum).sum := by
  induction l with
  | nil => simp
  | cons a l ih => simp only [List.map_cons, List.sum_cons, ih, List.sum_map_add]

theorem sum_single {α : Type} [DecidableEq α] {l : List α} (hl : l.Nodup) {a : α} (ha : a ∈ l) (f : α → ℂ) :
    (l.map fun b => if b = a then f b else 0).sum = f a := by
  induction l with
  | nil => simp at ha
  | cons b l ih =>
    rw [List.nodup_cons] at hl
    rw [List.map_cons, List.sum_cons]
    by_cases h : b = a
    · subst h
      have : (l.map fun c => if c = b then f c else 0) = l.map fun _ => (0 : ℂ) := by
        refine List.map_congr_left fun c hc => ?_
        rw [if_neg]; rintro rfl; exact hl.1 hc
      rw [this]; simp
    · rw [if_neg h, zero_add]
      exact ih hl.2 (by simpa [Ne.symm h] using ha)

/-- The inverse transform of the transform is the signal, multiplied by the number of positions. -/
theorem dft_inversion {n : List Int} (hn : Pos n) {f F : List Int → ℂ}
    (hF : ∀ k, InShape n k → IsDft (-1) n f k (F k)) {j : List Int} (hj : InShape n j) {y : ℂ}
    (hy : IsDft 1 n F j y) : y = (n.prod : Int) * f j := by
  rw [isDft_iff] at hy
  have h1 : ((grid n).map fun k => F k * wave 1 n k j) =
      (grid n).map fun k => ((grid n).map fun i => f i * wave 1 n k (List.zipWith (· - ·) j i)).sum := by
    refine List.map_congr_left fun k hk => ?_
    rw [isDft_iff.1 (hF k (mem_grid.1 hk)), ← List.sum_map_mul_right]
    congr 1
    refine List.map_congr_left fun i hi => ?_
    rw [← wave_sub (by rw [inShape_length hj, inShape_length (mem_grid.1 hi)]), wave_comm (-1) n i k]
    ring
  rw [hy, h1, sum_comm_list]
  have h2 : ((grid n).map fun i => ((grid n).map fun k => f i * wave 1 n k (List.zipWith (· - ·) j i)).sum) =
      (grid n).map fun i => if i = j then ((n.prod : Int) : ℂ) * f i else 0 := by
    refine List.map_congr_left fun i hi => ?_
    have hi := mem_grid.1 hi
    rw [List.sum_map_mul_left]
    have hl : (List.zipWith (· - ·) j i).length = n.length := by
      simp [inShape_length hj, inShape_length hi]
    have ho := sum_wave hn hl
    rw [trivial_sub hj hi] at ho
    by_cases h : i = j
    · rw [if_pos h, ho.1 h.symm, mul_comm]
    · rw [if_neg h, ho.2 (Ne.symm h), mul_zero]
  rw [h2, sum_single (nodup_grid n) (mem_grid.2 hj)]

/-- The opposite of a wave. -/
theorem wave_opposite (s : ℝ) (hs : s = 1 ∨ s = -1) : ∀ {n : List Int}, Pos n → ∀ {j k : List Int},
    wave s n j (oppositeFrequency n k) = wave (-s) n j k := by
  intro n
  induction n with
  | nil => intros; simp [wave, phase]
  | cons a n ih =>
    intro hn j k
    cases j with
    | nil => simp [wave, phase]
    | cons x j =>
      cases k with
      | nil => simp [wave, phase, oppositeFrequency]
      | cons y k =>
        have ih' := ih (fun s hs => hn s (by simp [hs])) (j := j) (k := k)
        have ha : (a : ℂ) ≠ 0 := by exact_mod_cast (hn a (by simp)).ne'
        simp only [oppositeFrequency, List.zipWith_cons_cons] at ih' ⊢
        rw [wave_cons, wave_cons, ih']
        congr 1
        have hm : ((-y) % a : Int) = -y - a * ((-y) / a) := by
          have := Int.emod_add_mul_ediv (-y) a; omega
        have hint : ∃ m : Int, (s * ((x * ((-y) % a : Int) : ℝ) / a) : ℝ) = (-s * ((x * y : ℝ) / a)) + (m : ℝ) := by
          have ha' : (a : ℝ) ≠ 0 := by exact_mod_cast (hn a (by simp)).ne'
          rcases hs with rfl | rfl
          · refine ⟨-(x * ((-y) / a)), ?_⟩
            rw [hm]; push_cast; field_simp; ring
          · refine ⟨x * ((-y) / a), ?_⟩
            rw [hm]; push_cast; field_simp; ring
        obtain ⟨m, hm⟩ := hint
        rw [hm, Complex.ofReal_add, mul_add, Complex.exp_add, exp_int, mul_one]

theorem conj_wave (s : ℝ) (n j k : List Int) : (starRingEnd ℂ) (wave s n j k) = wave (-s) n j k := by
  simp only [wave]
  rw [← Complex.exp_conj]
  congr 1
  simp only [map_mul, Complex.conj_I, Complex.conj_ofReal]
  rw [show (starRingEnd ℂ) (2 : ℂ) = 2 from Complex.conj_ofNat 2]
  push_cast
  ring

theorem conj_sum {α : Type} (l : List α) (f : α → ℂ) :
    (starRingEnd ℂ) (l.map f).sum = (l.map fun a => (starRingEnd ℂ) (f a)).sum := by
  induction l with
  | nil => simp
  | cons a l ih => simp [ih]

/-- The spectrum of a real signal has Hermitian symmetry. -/
theorem isHermitian_of_real {n : List Int} (hn : Pos n) (f : List Int → ℝ) {X : List Int → ℂ}
    (hX : ∀ k, X k = ((grid n).map fun j => (f j : ℂ) * wave (-1) n j k).sum) : IsHermitian n X := by
  intro k _
  rw [hX, hX, conj_sum]
  congr 1
  refine List.map_congr_left fun j _ => ?_
  rw [wave_opposite _ (Or.inr rfl) hn, map_mul, conj_wave, Complex.conj_ofReal]

theorem opposite_inShape : ∀ {n k : List Int}, InShape n k → InShape n (oppositeFrequency n k) := by
  intro n
  induction n with
  | nil => intro k h; cases h; exact List.Forall₂.nil
  | cons a n ih =>
    intro k h
    cases h with
    | cons hx h =>
      exact List.Forall₂.cons ⟨Int.emod_nonneg _ (by omega), Int.emod_lt_of_pos _ (by omega)⟩ (ih h)

theorem opposite_opposite : ∀ {n k : List Int}, InShape n k → oppositeFrequency n (oppositeFrequency n k) = k := by
  intro n
  induction n with
  | nil => intro k h; cases h; rfl
  | cons a n ih =>
    intro k h
    cases h with
    | cons hx h =>
      rename_i x k
      have := ih h
      simp only [oppositeFrequency, List.zipWith_cons_cons] at this ⊢
      rw [this]
      congr 1
      have h1 := Int.emod_add_mul_ediv (-x) a
      rw [show -((-x) % a) = x + a * ((-x) / a) by omega, Int.add_mul_emod_self_left]
      exact Int.emod_eq_of_lt hx.1 hx.2

/-- The inverse transform of a Hermitian spectrum is real. -/
theorem real_of_isHermitian {n : List Int} (hn : Pos n) {X : List Int → ℂ} (h : IsHermitian n X) (j : List Int) :
    (((grid n).map fun k => X k * wave 1 n k j).sum).im = 0 := by
  rw [← Complex.conj_eq_iff_im, conj_sum]
  have hp : ((grid n).map (oppositeFrequency n)).Perm (grid n) := by
    refine (List.perm_ext_iff_of_nodup ((nodup_grid n).map_on ?_) (nodup_grid n)).2 fun p => ?_
    · intro p hp q hq e
      rw [← opposite_opposite (mem_grid.1 hp), e, opposite_opposite (mem_grid.1 hq)]
    · rw [List.mem_map]
      constructor
      · rintro ⟨q, hq, rfl⟩; exact mem_grid.2 (opposite_inShape (mem_grid.1 hq))
      · intro hp
        exact ⟨_, mem_grid.2 (opposite_inShape (mem_grid.1 hp)), opposite_opposite (mem_grid.1 hp)⟩
  rw [← (hp.map fun k => X k * wave 1 n k j).sum_eq, List.map_map]
  congr 1
  refine List.map_congr_left fun k hk => ?_
  simp only [Function.comp]
  rw [h k (mem_grid.1 hk), map_mul, conj_wave, wave_comm 1 n (oppositeFrequency n k), wave_opposite _ (Or.inl rfl) hn,
    wave_comm _ n j]

end Litl
