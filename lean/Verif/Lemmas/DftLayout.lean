import Verif.Model.Dft
import Verif.Lemmas.Dft
import Verif.Lemmas.Index

/-!
# Lemmas on the layout of Fourier transforms
-/

namespace Litl

open Spec

theorem rowMajor_eq {n p : List Int} (h : p.length = n.length) : rowMajor n p = index n.reverse p.reverse := by
  rw [← foldl_index (by simp [h]), List.reverse_reverse, List.reverse_reverse, rowMajor]
  generalize (0 : Int) = z
  induction n generalizing p z with
  | nil => simp
  | cons a n ih =>
    cases p with
    | nil => simp
    | cons x p =>
      simp only [List.zip_cons_cons, List.foldl_cons]
      rw [ih (by simpa using h), mul_comm z a, add_comm (a * z) x]

theorem inShape_reverse {n p : List Int} : InShape n.reverse p.reverse ↔ InShape n p :=
  List.forall₂_reverse_iff

theorem prod_reverse_int (n : List Int) : n.reverse.prod = n.prod := List.prod_reverse n

theorem rowMajor_bounds {n p : List Int} (h : InShape n p) : 0 ≤ rowMajor n p ∧ rowMajor n p < n.prod := by
  rw [rowMajor_eq (inShape_length h), ← prod_reverse_int]
  exact index_bounds (inShape_reverse.2 h)

theorem rowMajor_surj {n : List Int} (hn : Pos n) {i : Nat} (hi : (i : Int) < n.prod) :
    ∃ j, InShape n j ∧ rowMajor n j = i := by
  have h := unravel_spec (s := n.reverse) (k := i) (fun s hs => (hn s (by simpa using hs)).le) (by omega)
    (by rw [prod_reverse_int]; exact hi)
  refine ⟨(unravel n.reverse i).reverse, ?_, ?_⟩
  · rw [← inShape_reverse]; simpa using h.1
  · have hl := inShape_length h.1
    rw [rowMajor_eq (by simpa using hl)]
    simpa using h.2

theorem prod_pos_int {n : List Int} (hn : Pos n) : 0 < n.prod := by
  induction n with
  | nil => simp
  | cons a n ih =>
    rw [List.prod_cons]
    exact mul_pos (hn a (by simp)) (ih fun s hs => hn s (by simp [hs]))

theorem at'_eq {n j : List Int} (hj : InShape n j) {x : List ℂ} (hx : n.prod ≤ x.length) :
    x[(rowMajor n j).toNat]? = some (Fftw.at' n x j) := by
  have hb := rowMajor_bounds hj
  have : (rowMajor n j).toNat < x.length := by omega
  simp [Fftw.at', List.getD_eq_getElem?_getD, this]

theorem list_ext_at' {n : List Int} (hn : Pos n) {x y : List ℂ} (hx : (x.length : Int) = n.prod)
    (hy : (y.length : Int) = n.prod) (h : ∀ j, InShape n j → Fftw.at' n x j = Fftw.at' n y j) : x = y := by
  apply List.ext_getElem?
  intro i
  by_cases hi : (i : Int) < n.prod
  · obtain ⟨j, hj, e⟩ := rowMajor_surj hn hi
    have h1 := at'_eq hj hx.ge
    have h2 := at'_eq hj hy.ge
    rw [e, Int.toNat_natCast] at h1 h2
    rw [h1, h2, h j hj]
  · rw [List.getElem?_eq_none (by omega), List.getElem?_eq_none (by omega)]

theorem exists_list {n : List Int} (hn : Pos n) (f : List Int → ℂ) (L : Nat) (hL : n.prod ≤ L) :
    ∃ y : List ℂ, y.length = L ∧ ∀ j, InShape n j → Fftw.at' n y j = f j := by
  refine ⟨(List.range L).map fun i : Nat => f (unravel n.reverse i).reverse, by simp, ?_⟩
  intro j hj
  have hb := rowMajor_bounds hj
  have hlt : (rowMajor n j).toNat < L := by omega
  have hu : unravel n.reverse (rowMajor n j) = j.reverse := by
    have h := unravel_spec (s := n.reverse) (k := rowMajor n j) (fun s hs => (hn s (by simpa using hs)).le) hb.1
      (by rw [prod_reverse_int]; exact hb.2)
    refine index_inj h.1 (inShape_reverse.2 hj) ?_
    rw [h.2, rowMajor_eq (inShape_length hj)]
  simp [Fftw.at', List.getD_eq_getElem?_getD, hlt, hb.1, hu]

theorem half_append (n : List Int) (a : Int) : Fftw.half (n ++ [a]) = n ++ [a / 2 + 1] := by
  induction n with
  | nil => simp [Fftw.half]
  | cons b n ih =>
    cases n with
    | nil => simp [Fftw.half]
    | cons c n => simp only [List.cons_append, Fftw.half] at ih ⊢; rw [ih]

theorem half_reverse {s : List Int} (hs : NonNeg s) : Fftw.half s.reverse = (Transform.halfShape s).reverse := by
  cases s with
  | nil => rfl
  | cons a s =>
    rw [List.reverse_cons, half_append, Transform.halfShape, List.reverse_cons,
      Int.tdiv_eq_ediv_of_nonneg (hs a (by simp))]

theorem half_pos : ∀ {n : List Int}, Pos n → Pos (Fftw.half n) := by
  intro n h
  rcases List.eq_nil_or_concat n with rfl | ⟨l, a, rfl⟩
  · exact h
  · rw [List.concat_eq_append] at h ⊢
    rw [half_append]
    intro s hs
    rcases List.mem_append.1 hs with hs | hs
    · exact h s (by simp [hs])
    · have := h a (by simp)
      simp at hs; omega

theorem opposite_append {n k : List Int} (a x : Int) (h : k.length = n.length) :
    oppositeFrequency (n ++ [a]) (k ++ [x]) = oppositeFrequency n k ++ [(-x) % a] := by
  simp [oppositeFrequency, List.zipWith_append, h]

theorem inShape_append {n k : List Int} {a x : Int} :
    InShape (n ++ [a]) (k ++ [x]) ↔ InShape n k ∧ 0 ≤ x ∧ x < a := by
  rw [← inShape_reverse, List.reverse_append, List.reverse_append]
  simp only [List.reverse_cons, List.reverse_nil, List.nil_append, List.singleton_append]
  rw [InShape, List.forall₂_cons]
  constructor
  · rintro ⟨h1, h2⟩; exact ⟨inShape_reverse.1 h2, h1⟩
  · rintro ⟨h1, h2⟩; exact ⟨h2, inShape_reverse.2 h1⟩

theorem inShape_concat {n k : List Int} {a : Int} (h : InShape (n ++ [a]) k) :
    ∃ l x, k = l ++ [x] ∧ InShape n l ∧ 0 ≤ x ∧ x < a := by
  rcases List.eq_nil_or_concat k with rfl | ⟨l, x, rfl⟩
  · have := inShape_length h; simp at this
  · rw [List.concat_eq_append] at h
    exact ⟨l, x, by simp, inShape_append.1 h⟩

/-- The positions of the half spectrum are frequencies. -/
theorem inShape_of_half {n k : List Int} (h2 : Pos n) (h : InShape (Fftw.half n) k) : InShape n k := by
  rcases List.eq_nil_or_concat n with rfl | ⟨l, a, rfl⟩
  · exact h
  · rw [List.concat_eq_append] at h h2 ⊢
    rw [half_append] at h
    obtain ⟨l', x, rfl, h1, h3, h4⟩ := inShape_concat h
    have : 0 < a := h2 a (by simp)
    -- `a / 2 + 1 ≤ a` for positive lengths
    exact inShape_append.2 ⟨h1, h3, by omega⟩

/-- Any frequency or its opposite is in the half spectrum. -/
theorem half_covers {n k : List Int} (h : InShape n k) :
    InShape (Fftw.half n) k ∨ InShape (Fftw.half n) (oppositeFrequency n k) := by
  rcases List.eq_nil_or_concat n with rfl | ⟨l, a, rfl⟩
  · left; exact h
  · rw [List.concat_eq_append] at h ⊢
    rw [half_append]
    obtain ⟨l', x, rfl, h1, h3, h4⟩ := inShape_concat h
    by_cases hx : x ≤ a / 2
    · left; exact inShape_append.2 ⟨h1, h3, by omega⟩
    · right
      rw [opposite_append _ _ (inShape_length h1), inShape_append]
      have : (-x) % a = a - x := by
        rw [← Int.add_emod_right, Int.emod_eq_of_lt] <;> omega
      exact ⟨opposite_inShape h1, by omega, by omega⟩

/-- Two spectra with Hermitian symmetry and same half are the same. -/
theorem hermitian_unique {n : List Int} {X Y : List Int → ℂ} (hX : IsHermitian n X) (hY : IsHermitian n Y)
    (h : ∀ k, InShape (Fftw.half n) k → X k = Y k) {k : List Int} (hk : InShape n k) : X k = Y k := by
  rcases half_covers hk with h1 | h1
  · exact h k h1
  · have e := h _ h1
    rw [hX k hk, hY k hk] at e
    exact (starRingEnd ℂ).injective e

theorem at'_map_ofReal (n : List Int) (x : List ℝ) (j : List Int) :
    Fftw.at' n (x.map Complex.ofReal) j = ((x.getD (rowMajor n j).toNat 0 : ℝ) : ℂ) := by
  simp only [Fftw.at', List.getD_eq_getElem?_getD, List.getElem?_map]
  cases x[(rowMajor n j).toNat]? <;> simp

/-! ### Existence of transforms -/

theorem exists_c2c {n : List Int} (hn : Pos n) (s : ℝ) (x : List ℂ) (L : Nat) (hL : n.prod ≤ L) :
    ∃ y : List ℂ, y.length = L ∧ Fftw.C2C s n x y := by
  obtain ⟨y, hl, hy⟩ := exists_list hn (fun k => ((grid n).map fun j => Fftw.at' n x j * wave s n j k).sum) L hL
  exact ⟨y, hl, fun k hk => by rw [hy k hk, isDft_iff]⟩

theorem exists_r2c {n : List Int} (hn : Pos n) (x : List ℝ) (L : Nat) (hL : (Fftw.half n).prod ≤ L) :
    ∃ y : List ℂ, y.length = L ∧ Fftw.R2C n x y := by
  obtain ⟨y, hl, hy⟩ := exists_list (half_pos hn)
    (fun k => ((grid n).map fun j => Fftw.at' n (x.map Complex.ofReal) j * wave (-1) n j k).sum) L hL
  exact ⟨y, hl, fun k hk => by rw [hy k hk, isDft_iff]⟩

theorem exists_c2r {n : List Int} (hn : Pos n) (x : List ℂ) (L : Nat) (hL : n.prod ≤ L) :
    ∃ y : List ℝ, y.length = L ∧ Fftw.C2R n x y := by
  by_cases h : ∃ X : List Int → ℂ, IsHermitian n X ∧ ∀ k, InShape (Fftw.half n) k → Fftw.at' (Fftw.half n) x k = X k
  · obtain ⟨X, hX, hx⟩ := h
    obtain ⟨y, hl, hy⟩ := exists_list hn (fun j => ((grid n).map fun k => X k * wave 1 n k j).sum) L hL
    refine ⟨y.map Complex.re, by simpa using hl, ?_⟩
    intro Y hY hxY j hj
    have hXY : ∀ k, InShape n k → X k = Y k := fun k hk =>
      hermitian_unique hX hY (fun k hk => by rw [← hx k hk, hxY k hk]) hk
    rw [isDft_iff]
    have e : Fftw.at' n ((y.map Complex.re).map Complex.ofReal) j = Fftw.at' n y j := by
      have h1 := at'_eq hj (x := y) (by omega)
      have h2 := at'_eq hj (x := (y.map Complex.re).map Complex.ofReal) (by simp; omega)
      rw [List.getElem?_map, List.getElem?_map, h1] at h2
      simp only [Option.map_some, Option.some.injEq] at h2
      rw [← h2, hy j hj]
      have him := real_of_isHermitian hn hX j
      apply Complex.ext
      · simp
      · rw [him]; simp
    rw [e, hy j hj]
    congr 1
    exact List.map_congr_left fun k hk => by rw [hXY k (mem_grid.1 hk)]
  · refine ⟨List.replicate L 0, by simp, ?_⟩
    intro X hX hx
    exact absurd ⟨X, hX, hx⟩ h

/-! ### Round trips -/

theorem c2c_round_trip {n : List Int} (hn : Pos n) {x y z : List ℂ} (hx : (x.length : Int) = n.prod)
    (hz : (z.length : Int) = n.prod) (h1 : Fftw.C2C (-1) n x y) (h2 : Fftw.C2C 1 n y z) :
    z = x.map fun v => ((n.prod : Int) : ℂ) * v := by
  refine list_ext_at' hn hz (by simpa using hx) fun j hj => ?_
  rw [dft_inversion hn h1 hj (h2 j hj)]
  have e1 := at'_eq hj hx.ge
  have e2 := at'_eq hj (x := x.map fun v => ((n.prod : Int) : ℂ) * v) (by simpa using hx.ge)
  rw [List.getElem?_map, e1] at e2
  simpa using e2

theorem r2c_round_trip {n : List Int} (hn : Pos n) {x z : List ℝ} {y : List ℂ} (hx : (x.length : Int) = n.prod)
    (hz : (z.length : Int) = n.prod) (h1 : Fftw.R2C n x y) (h2 : Fftw.C2R n y z) :
    z = x.map fun v => ((n.prod : Int) : ℝ) * v := by
  let X : List Int → ℂ := fun k =>
    ((grid n).map fun j => Fftw.at' n (x.map Complex.ofReal) j * wave (-1) n j k).sum
  have hX : IsHermitian n X := by
    refine isHermitian_of_real hn (fun j => x.getD (rowMajor n j).toNat 0) fun k => ?_
    simp only [X, at'_map_ofReal]
  have h3 := h2 X hX fun k hk => isDft_iff.1 (h1 k hk)
  have key : (z.map Complex.ofReal) = (x.map fun v => ((n.prod : Int) : ℝ) * v).map Complex.ofReal := by
    refine list_ext_at' hn (by simpa using hz) (by simpa using hx) fun j hj => ?_
    rw [dft_inversion hn (F := X) (fun k _ => isDft_iff.2 rfl) hj (h3 j hj)]
    have e1 := at'_eq hj (x := x.map Complex.ofReal) (by simpa using hx.ge)
    have e2 := at'_eq hj (x := (x.map fun v => ((n.prod : Int) : ℝ) * v).map Complex.ofReal)
      (by simpa using hx.ge)
    rw [List.map_map, List.getElem?_map] at e2
    rw [List.getElem?_map] at e1
    cases hg : x[(rowMajor n j).toNat]? with
    | none => rw [hg] at e1; simp at e1
    | some v =>
      rw [hg] at e1 e2
      simp only [Option.map_some, Option.some.injEq, Function.comp] at e1 e2
      rw [List.map_map]
      rw [← e1]
      rw [← e2, Complex.ofReal_mul, Complex.ofReal_intCast]
  exact List.map_injective_iff.2 Complex.ofReal_injective key

end Litl
