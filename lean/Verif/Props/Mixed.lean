import Verif.Model.Mixed
import Verif.Props.KernelOrder
import Verif.Props.SeparableRounding

/-!
# Correlation of real rasters with integer kernels (C91)
-/

namespace Litl

open Spec

/-! ## Truncation -/

theorem truncate_spec (x : ℚ) : (∃ z : Int, truncate x = z) ∧ |truncate x - x| < 1 ∧ |truncate x| ≤ |x| ∧ 0 ≤ truncate x * x := by
  unfold truncate
  split
  · rename_i h
    have h1 := Int.floor_le x
    have h2 := Int.lt_floor_add_one x
    have h3 : (0 : ℚ) ≤ ⌊x⌋ := by exact_mod_cast Int.floor_nonneg.2 h
    refine ⟨⟨_, rfl⟩, abs_lt.2 ⟨by linarith, by linarith⟩, ?_, mul_nonneg h3 h⟩
    rw [abs_of_nonneg h3, abs_of_nonneg h]
    exact h1
  · rename_i h
    have h1 := Int.le_ceil x
    have h2 := Int.ceil_lt_add_one x
    have h4 : x ≤ 0 := by linarith
    have h3 : (⌈x⌉ : ℚ) ≤ 0 := by exact_mod_cast Int.ceil_le.2 (by simpa using h4)
    refine ⟨⟨_, rfl⟩, abs_lt.2 ⟨by linarith, by linarith⟩, ?_, mul_nonneg_of_nonpos_of_nonpos h3 h4⟩
    rw [abs_of_nonpos h3, abs_of_nonpos h4]
    linarith

/-- Truncation is determined by the above: the integer of same sign, whose magnitude is not greater, and at a distance which is
less than 1. -/
theorem truncate_unique {x : ℚ} {z : Int} (h1 : |(z : ℚ) - x| < 1) (h2 : |(z : ℚ)| ≤ |x|) : truncate x = z := by
  obtain ⟨⟨w, hw⟩, g1, g2, g3⟩ := truncate_spec x
  rw [hw] at g1 g2 g3 ⊢
  have hz : z - w < 2 ∧ w - z < 2 := by
    rw [abs_lt] at h1 g1
    constructor
    · have : ((z - w : Int) : ℚ) < (2 : Int) := by push_cast; linarith
      exact_mod_cast this
    · have : ((w - z : Int) : ℚ) < (2 : Int) := by push_cast; linarith
      exact_mod_cast this
  have : z = w ∨ z = w + 1 ∨ w = z + 1 := by omega
  rcases le_total 0 x with hx | hx
  · rw [abs_of_nonneg hx] at h2 g2
    have a1 := (abs_le.1 h2).2
    have a2 := (abs_le.1 g2).2
    rw [abs_lt] at h1 g1
    rcases this with rfl | rfl | rfl
    · rfl
    · push_cast at *; linarith
    · push_cast at *; linarith
  · rw [abs_of_nonpos hx] at h2 g2
    have a1 := (abs_le.1 h2).1
    have a2 := (abs_le.1 g2).1
    rw [abs_lt] at h1 g1
    rcases this with rfl | rfl | rfl
    · rfl
    · push_cast at *; linarith
    · push_cast at *; linarith

theorem truncate_int (z : Int) : truncate (z : ℚ) = z := truncate_unique (by simp) le_rfl

/-- The sum of `g i`, truncated after each term. -/
def truncFold {ι : Type} (l : List ι) (g : ι → ℚ) (s : ℚ) : ℚ := l.foldl (fun s i => truncate (s + g i)) s

theorem truncFold_bound {ι : Type} (l : List ι) (g : ι → ℚ) (s : ℚ) :
    |truncFold l g s - (s + (l.map g).sum)| ≤ l.length ∧ (l ≠ [] → |truncFold l g s - (s + (l.map g).sum)| < l.length) := by
  induction l generalizing s with
  | nil => simp [truncFold]
  | cons i l ih =>
    have h1 := (ih (truncate (s + g i))).1
    have h2 := (truncate_spec (s + g i)).2.1
    have h3 : |truncFold (i :: l) g s - (s + ((i :: l).map g).sum)| < (i :: l).length := by
      rw [show truncFold (i :: l) g s = truncFold l g (truncate (s + g i)) from rfl]
      rw [abs_le] at h1
      rw [abs_lt] at h2 ⊢
      simp only [List.map_cons, List.sum_cons, List.length_cons, Nat.cast_add, Nat.cast_one]
      constructor <;> linarith [h1.1, h1.2, h2.1, h2.2]
    exact ⟨h3.le, fun _ => h3⟩

theorem truncFold_int {ι : Type} (l : List ι) (g : ι → ℚ) (s : Int) (hg : ∀ i ∈ l, ∃ z : Int, g i = z) :
    truncFold l g s = s + (l.map g).sum := by
  induction l generalizing s with
  | nil => simp [truncFold]
  | cons i l ih =>
    obtain ⟨z, hz⟩ := hg i (by simp)
    rw [show truncFold (i :: l) g s = truncFold l g (truncate (s + g i)) from rfl]
    rw [hz, show (s : ℚ) + (z : ℚ) = ((s + z : Int) : ℚ) by push_cast; rfl, truncate_int,
      ih _ fun j hj => hg j (by simp [hj])]
    rw [List.map_cons, List.sum_cons, hz]
    push_cast
    ring

theorem truncFold_isInt {ι : Type} (l : List ι) (g : ι → ℚ) (s : ℚ) (h : ∃ z : Int, s = z) : ∃ z : Int, truncFold l g s = z := by
  induction l generalizing s with
  | nil => exact h
  | cons i l ih => exact ih _ (truncate_spec _).1

/-- Terms which are less than 1 in magnitude are lost, whatever their number. -/
theorem truncFold_small {ι : Type} (l : List ι) (g : ι → ℚ) (hg : ∀ i ∈ l, |g i| < 1) : truncFold l g 0 = 0 := by
  induction l with
  | nil => rfl
  | cons i l ih =>
    rw [show truncFold (i :: l) g 0 = truncFold l g (truncate (0 + g i)) from rfl]
    have : truncate (0 + g i) = 0 := by
      rw [zero_add]
      have := truncate_unique (x := g i) (z := 0) (by simpa using hg i (by simp)) (by simp)
      simpa using this
    rw [this]
    exact ih fun j hj => hg j (by simp [hj])

theorem Mixed.fold_eq {ι : Type} (l : List ι) (a b : ι → Mixed) (s : Mixed) :
    (l.foldl (fun s i => s + a i * b i) s).val = truncFold l (fun i => (a i).val * (b i).val) s.val := by
  induction l generalizing s with
  | nil => rfl
  | cons i l ih => rw [List.foldl_cons, ih]; rfl

namespace Kernel

/-- The values of the kernel as real numbers. -/
def rationals (k : Kernel Int) : Kernel ℚ := ⟨k.values.map fun v : Int => (v : ℚ), k.window⟩

theorem kernelValue_mixed (values : List Int) (front back j : List Int) :
    (kernelValue (values.map Mixed.ofInt) front back j).val = ((kernelValue values front back j : Int) : ℚ) ∧
      kernelValue (values.map fun v : Int => (v : ℚ)) front back j = ((kernelValue values front back j : Int) : ℚ) := by
  unfold kernelValue
  generalize (offset _ _).toNat = i
  rw [List.getD_eq_getElem?_getD, List.getD_eq_getElem?_getD, List.getD_eq_getElem?_getD, List.getElem?_map, List.getElem?_map]
  cases values[i]?
  · exact ⟨by simp; rfl, by simp⟩
  · exact ⟨rfl, rfl⟩

theorem prepared_mixed {k : Kernel Int} {input : Raster ℚ} {extrapolator : Position → Res ℚ} {F : Position → ℚ}
    {out : List ℚ} (h : Suitable k.rationals input extrapolator F out) :
    Prepared k.mixed input.mixed (fun q => (extrapolator q).map fun x => ⟨truncate x⟩) (fun q => ⟨truncate (F q)⟩)
        (out.map Mixed.mk) ∧
      ∀ q, InShape input.shape q → input.mixed.get q = .ok ⟨F q⟩ := by
  refine ⟨⟨h.dim, h.pos, h.front_length, h.back_length, h.nonempty, ?_, ?_, ?_, ?_⟩, ?_⟩
  · have := h.values
    simpa [mixed, rationals] using this
  · have := h.data
    simpa [Raster.mixed] using this
  · have := h.out
    simpa [Raster.mixed] using this
  · intro q hq
    simp only [h.extrapolated q hq]
    rfl
  · intro q hq
    have := h.inside q hq
    unfold Raster.get at this ⊢
    rw [readAt_eq_ok] at this ⊢
    refine ⟨this.1, ?_⟩
    simp only [Raster.mixed, List.getElem?_map, this.2]
    rfl

/-- `o` is the result of the correlation. -/
def ReturnsMixed (k : Kernel Int) (input : Raster ℚ) (extrapolator : Position → Res ℚ) (out : List ℚ) (o : List Mixed) : Prop :=
  ∀ res, k.CorrelatesMixed input extrapolator out res ↔ res = .ok o

/-- The pixel at `p` is `x`. -/
def MixedPixel (shape : Position) (o : List Mixed) (p : Position) (x : ℚ) : Prop := o[(offset shape p).toNat]? = some ⟨x⟩

/-- **C91**, in full: the correlation of a raster of real numbers by a kernel of integers is the correlation, converted to an
integer. -/
def C91_Statement : Prop :=
  ∀ (k : Kernel Int) (input : Raster ℚ) (extrapolator : Position → Res ℚ) (F : Position → ℚ) (out : List ℚ) (o : List Mixed),
    Suitable k.rationals input extrapolator F out → OriginInside k → WindowFits k input.shape →
    ReturnsMixed k input extrapolator out o → ∀ p x, Covered k input.shape p →
      IsCorrelation k.rationals.values k.window.front k.window.back F p x → MixedPixel input.shape o p (truncate x)

/-- **C91**, exactly: where the window is inside the domain, the terms are added one by one in storage order and the fractional
part is discarded each time; where it is not, pixels are truncated before they are multiplied. -/
theorem C91_exact {k : Kernel Int} {input : Raster ℚ} {extrapolator : Position → Res ℚ} {F : Position → ℚ} {out : List ℚ}
    (h : Suitable k.rationals input extrapolator F out) (ho : OriginInside k) (hw : WindowFits k input.shape) :
    ∃ o, ReturnsMixed k input extrapolator out o ∧ ∀ p, Covered k input.shape p →
      ∀ l : List Position, l.Pairwise StorageLt → (∀ j, j ∈ l ↔ InBox k.window.front k.window.back j) →
        (Inside k input.shape p → MixedPixel input.shape o p (l.foldl (fun s j =>
          truncate (s + ((kernelValue k.values k.window.front k.window.back j : Int) : ℚ) * F (List.zipWith (· + ·) p j))) 0)) ∧
        (¬ Inside k input.shape p → MixedPixel input.shape o p (l.map fun j =>
          ((kernelValue k.values k.window.front k.window.back j : Int) : ℚ) * truncate (F (List.zipWith (· + ·) p j))).sum) := by
  obtain ⟨h1, h2⟩ := prepared_mixed h
  obtain ⟨o, h3, _, h4⟩ := order_prepared h1 h2 ho hw
  refine ⟨o, h3, fun p hp l hl hm => ?_⟩
  have huniq : ∀ l' : List Position, l'.Pairwise StorageLt →
      (∀ j, j ∈ l' ↔ InBox k.window.front k.window.back j) → l' = l :=
    fun l' h3 h4 => eq_of_storage_order h3 hl fun j => by rw [h4, hm]
  obtain ⟨h5, h6⟩ := h4 p hp
  constructor
  · intro hin
    obtain ⟨y, e1, l', h7, h8, rfl⟩ := h5 hin
    obtain rfl := huniq l' h7 h8
    unfold MixedPixel
    refine e1.trans (congrArg some (Mixed.ext ?_))
    rw [Mixed.fold_eq]
    simp only [mixed, (kernelValue_mixed _ _ _ _).1]
    rfl
  · intro hin
    obtain ⟨y, e1, l', h7, h8, rfl⟩ := h6 hin
    obtain rfl := huniq l' h7 h8
    unfold MixedPixel
    refine e1.trans (congrArg some (Mixed.ext ?_))
    rw [Mixed.fold_eq]
    simp only [mixed, (kernelValue_mixed _ _ _ _).1]
    have := truncFold_int l' (fun j => ((kernelValue k.values k.window.front k.window.back j : Int) : ℚ) *
      truncate (F (List.zipWith (· + ·) p j))) 0 (fun j _ => by
        obtain ⟨z, hz⟩ := (truncate_spec (F (List.zipWith (· + ·) p j))).1
        exact ⟨kernelValue k.values k.window.front k.window.back j * z, by rw [hz]; push_cast; rfl⟩)
    rw [Int.cast_zero, zero_add] at this
    exact this

/-- The sum of the magnitudes of the kernel values. -/
def weight (k : Kernel Int) : ℚ := ((enum k.window.front k.window.back).map fun j =>
  |((kernelValue k.values k.window.front k.window.back j : Int) : ℚ)|).sum

/-- **C91**, what holds: where the window is inside the domain, the error is less than the number of kernel values; elsewhere,
it is not greater than the sum of their magnitudes; and nowhere is there any error if pixels are integers.
Missing: the error is not less than 1. -/
theorem C91_error_partial {k : Kernel Int} {input : Raster ℚ} {extrapolator : Position → Res ℚ} {F : Position → ℚ} {out : List ℚ}
    (h : Suitable k.rationals input extrapolator F out) (ho : OriginInside k) (hw : WindowFits k input.shape) :
    ∃ o, ReturnsMixed k input extrapolator out o ∧ ∀ p x, Covered k input.shape p →
      IsCorrelation k.rationals.values k.window.front k.window.back F p x → ∃ y, MixedPixel input.shape o p y ∧
        (∃ z : Int, y = z) ∧
        (Inside k input.shape p → |y - x| < k.values.length) ∧
        (¬ Inside k input.shape p → |y - x| ≤ k.weight) ∧
        ((∀ j, InBox k.window.front k.window.back j → ∃ z : Int, F (List.zipWith (· + ·) p j) = z) → y = x) := by
  obtain ⟨o, h1, h2⟩ := C91_exact h ho hw
  refine ⟨o, h1, fun p x hp hx => ?_⟩
  have hlen : k.window.front.length = k.window.back.length := h.nonempty.length_eq
  obtain ⟨h3, h4⟩ := h2 p hp (enum k.window.front k.window.back) pairwise_enum fun _ => mem_enum hlen
  have hx' := hx (enum k.window.front k.window.back) nodup_enum fun _ => mem_enum hlen
  simp only [rationals, (kernelValue_mixed _ _ _ _).2] at hx'
  by_cases hin : Inside k input.shape p
  · refine ⟨_, h3 hin, truncFold_isInt _ _ _ ⟨0, by simp⟩, fun _ => ?_, fun h => absurd hin h, fun hint => ?_⟩
    · have hne : enum k.window.front k.window.back ≠ [] := by
        intro e
        have h5 : k.window.front ∈ enum k.window.front k.window.back :=
          (mem_enum hlen).2 ⟨BoxIterator.le_refl_forall₂ _, h.nonempty⟩
        rw [e] at h5
        cases h5
      have h6 := (truncFold_bound (enum k.window.front k.window.back) (fun j =>
        ((kernelValue k.values k.window.front k.window.back j : Int) : ℚ) * F (List.zipWith (· + ·) p j)) 0).2 hne
      rw [zero_add] at h6
      rw [hx']
      have h7 : k.values.length = (enum k.window.front k.window.back).length := by
        have := h.values
        have h8 := length_enum h.nonempty
        simp only [rationals, List.length_map] at this
        exact_mod_cast this.trans h8.symm
      rw [h7]
      exact h6
    · have := truncFold_int (enum k.window.front k.window.back) (fun j =>
        ((kernelValue k.values k.window.front k.window.back j : Int) : ℚ) * F (List.zipWith (· + ·) p j)) 0 (fun j hj => by
          obtain ⟨z, hz⟩ := hint j ((mem_enum hlen).1 hj)
          exact ⟨kernelValue k.values k.window.front k.window.back j * z, by rw [hz]; push_cast; rfl⟩)
      rw [Int.cast_zero, zero_add] at this
      rw [hx']
      exact this
  · refine ⟨_, h4 hin, ?_, fun h => absurd h hin, fun _ => ?_, fun hint => ?_⟩
    · generalize enum k.window.front k.window.back = l
      induction l with
      | nil => exact ⟨0, by simp⟩
      | cons j l ih =>
        obtain ⟨z, hz⟩ := ih
        obtain ⟨w, hw⟩ := (truncate_spec (F (List.zipWith (· + ·) p j))).1
        refine ⟨kernelValue k.values k.window.front k.window.back j * w + z, ?_⟩
        rw [List.map_cons, List.sum_cons, hz, hw]
        push_cast
        rfl
    · rw [hx']
      unfold weight
      generalize enum k.window.front k.window.back = l
      induction l with
      | nil => simp
      | cons j l ih =>
        simp only [List.map_cons, List.sum_cons]
        have h5 := (truncate_spec (F (List.zipWith (· + ·) p j))).2.1
        have h6 : |((kernelValue k.values k.window.front k.window.back j : Int) : ℚ) * truncate (F (List.zipWith (· + ·) p j)) -
            ((kernelValue k.values k.window.front k.window.back j : Int) : ℚ) * F (List.zipWith (· + ·) p j)| ≤
            |((kernelValue k.values k.window.front k.window.back j : Int) : ℚ)| := by
          rw [← mul_sub, abs_mul]
          exact mul_le_of_le_one_right (abs_nonneg _) h5.le
        refine le_trans ?_ (add_le_add h6 ih)
        refine le_trans (le_of_eq ?_) (abs_add_le _ _)
        congr 1
        ring
    · rw [hx']
      refine congrArg List.sum (List.map_congr_left fun j hj => ?_)
      obtain ⟨z, hz⟩ := hint j ((mem_enum hlen).1 hj)
      rw [hz, truncate_int]

/-- **C91**, how it fails: if all the products are less than 1 in magnitude, then the pixel is null, however many there are: for
example, the box filter of any raster of values in [0, 1) is null. -/
theorem C91_null {k : Kernel Int} {input : Raster ℚ} {extrapolator : Position → Res ℚ} {F : Position → ℚ} {out : List ℚ}
    {o : List Mixed} (h : Suitable k.rationals input extrapolator F out) (ho : OriginInside k) (hw : WindowFits k input.shape)
    (hr : ReturnsMixed k input extrapolator out o) {p : Position} (hp : Covered k input.shape p) (hin : Inside k input.shape p)
    (hs : ∀ j, InBox k.window.front k.window.back j →
      |((kernelValue k.values k.window.front k.window.back j : Int) : ℚ) * F (List.zipWith (· + ·) p j)| < 1) :
    MixedPixel input.shape o p 0 := by
  obtain ⟨o', h1, h2⟩ := C91_exact h ho hw
  obtain rfl : o = o' := by simpa using (h1 _).1 ((hr _).2 rfl)
  have hlen : k.window.front.length = k.window.back.length := h.nonempty.length_eq
  have h3 := (h2 p hp (enum k.window.front k.window.back) pairwise_enum fun _ => mem_enum hlen).1 hin
  have h4 := truncFold_small (enum k.window.front k.window.back) (fun j =>
    ((kernelValue k.values k.window.front k.window.back j : Int) : ℚ) * F (List.zipWith (· + ·) p j))
    fun j hj => hs j ((mem_enum hlen).1 hj)
  unfold truncFold at h4
  rwa [h4] at h3

theorem constant_suitable (c : ℚ) (k : Kernel Int) (hw : k.window = ⟨[-1], [0]⟩) (hl : k.values.length = 2) :
    Suitable k.rationals ⟨[3], [c, c, c]⟩ (fun _ => .ok c) (fun _ => c) [0, 0, 0] ∧ OriginInside k ∧ WindowFits k [3] := by
  refine ⟨⟨by simp, by simp [Pos], by simp [rationals, hw], by simp [rationals, hw], by simp [rationals, hw], ?_, rfl, rfl, ?_,
    fun q _ => rfl⟩, by simp [OriginInside, hw], ?_⟩
  · simp only [rationals, List.length_map, hl, hw]
    rfl
  · intro q hq
    match q, hq with
    | [x], .cons h .nil =>
      have : x = 0 ∨ x = 1 ∨ x = 2 := by omega
      rcases this with rfl | rfl | rfl <;> rfl
  · intro i hi
    have : i = 0 := by simpa using hi
    subst this
    rw [hw]
    show (0 : Int) - -1 ≤ 3
    decide

theorem constant_correlation (c : ℚ) (a b : Int) (p : Int) :
    IsCorrelation (⟨[a, b], ⟨[-1], [0]⟩⟩ : Kernel Int).rationals.values [-1] [0] (fun _ => c) [p] (a * c + b * c) := by
  refine isCorrelation_enum (by rfl) ?_
  have e : enum [-1] [0] = [[-1], [0]] := by decide
  rw [e]
  simp [kernelValue, rationals, offset, strides]

/-- The constant raster of halves with the kernel {2, 2}: pixels should be 2, that at the border is 0. -/
theorem constant_pixels : ∃ o, ReturnsMixed ⟨[2, 2], ⟨[-1], [0]⟩⟩ ⟨[3], [1 / 2, 1 / 2, 1 / 2]⟩ (fun _ => .ok (1 / 2)) [0, 0, 0] o ∧
    MixedPixel [3] o [0] 0 ∧ MixedPixel [3] o [1] 2 ∧ MixedPixel [3] o [2] 2 := by
  obtain ⟨h1, h2, h3⟩ := constant_suitable (1 / 2) ⟨[2, 2], ⟨[-1], [0]⟩⟩ rfl rfl
  obtain ⟨o, h4, h5⟩ := C91_exact h1 h2 h3
  have e : enum [-1] [0] = [[-1], [0]] := by decide
  have hcov : ∀ x : Int, 0 ≤ x → x < 3 → Covered (⟨[2, 2], ⟨[-1], [0]⟩⟩ : Kernel Int) [3] [x] :=
    fun x g1 g2 => covered_1d rfl rfl rfl (.cons ⟨g1, g2⟩ .nil)
  have t0 : truncate (1 / 2) = 0 := by
    have := truncate_unique (x := 1 / 2) (z := 0) (by norm_num [abs_of_neg]) (by norm_num)
    simpa using this
  have t1 : truncate 1 = 1 := by simpa using truncate_int 1
  have t2 : truncate 2 = 2 := by simpa using truncate_int 2
  have hin : ∀ x : Int, 1 ≤ x → x < 3 → Inside (⟨[2, 2], ⟨[-1], [0]⟩⟩ : Kernel Int) [3] [x] := by
    intro x g1 g2 j hj
    match j, hj with
    | [y], ⟨.cons g3 .nil, .cons g4 .nil⟩ =>
      exact .cons ⟨show 0 ≤ x + y by omega, show x + y < 3 by omega⟩ .nil
  have hval : ∀ x : Int, 1 ≤ x → x < 3 → MixedPixel [3] o [x] 2 := by
    intro x g1 g2
    have := (h5 [x] (hcov x (by omega) g2) (enum [-1] [0]) pairwise_enum fun _ => mem_enum rfl).1 (hin x g1 g2)
    rw [e] at this
    simp only [List.foldl_cons, List.foldl_nil, kernelValue, offset, strides] at this
    norm_num [t1, t2] at this
    exact this
  refine ⟨o, h4, ?_, hval 1 (by decide) (by decide), hval 2 (by decide) (by decide)⟩
  have := (h5 [0] (hcov 0 (by decide) (by decide)) (enum [-1] [0]) pairwise_enum fun _ => mem_enum rfl).2 (fun hi => by
    have := hi [-1] ⟨.cons (by decide) .nil, .cons (by decide) .nil⟩
    cases this with
    | cons h _ => exact absurd h.1 (by decide))
  rw [e, t0] at this
  simpa using this

/-- **C91** is refuted: the fractional parts of pixels are lost at borders only, such that the result of a constant raster is not
constant. -/
theorem C91_violated : ¬ C91_Statement := by
  intro h
  obtain ⟨h1, h2, h3⟩ := constant_suitable (1 / 2) ⟨[2, 2], ⟨[-1], [0]⟩⟩ rfl rfl
  obtain ⟨o, h4, h5, _⟩ := constant_pixels
  have := h _ _ _ _ _ o h1 h2 h3 h4 [0] _ (covered_1d rfl rfl rfl (.cons ⟨by decide, by decide⟩ .nil))
    (constant_correlation (1 / 2) 2 2 0)
  unfold MixedPixel at this h5
  rw [h5] at this
  norm_num at this
  have t2 : truncate 2 = 2 := by simpa using truncate_int 2
  rw [t2] at this
  norm_num at this

/-- Non-vacuity of `C91_null`: the kernel {1, 1}. -/
example : ∃ o, ReturnsMixed ⟨[1, 1], ⟨[-1], [0]⟩⟩ ⟨[3], [1 / 2, 1 / 2, 1 / 2]⟩ (fun _ => .ok (1 / 2)) [0, 0, 0] o ∧
    MixedPixel [3] o [1] 0 := by
  obtain ⟨h1, h2, h3⟩ := constant_suitable (1 / 2) ⟨[1, 1], ⟨[-1], [0]⟩⟩ rfl rfl
  obtain ⟨o, h4, _⟩ := C91_exact h1 h2 h3
  refine ⟨o, h4, C91_null h1 h2 h3 h4 (covered_1d rfl rfl rfl (.cons ⟨by decide, by decide⟩ .nil)) ?_ ?_⟩
  · intro j hj
    match j, hj with
    | [y], ⟨.cons g3 .nil, .cons g4 .nil⟩ => exact .cons ⟨show 0 ≤ 1 + y by omega, show 1 + y < 3 by omega⟩ .nil
  · intro j hj
    match j, hj with
    | [y], ⟨.cons g3 .nil, .cons g4 .nil⟩ =>
      have : y = -1 ∨ y = 0 := by omega
      rcases this with rfl | rfl <;> norm_num [kernelValue, offset, strides, abs_of_pos]

end Kernel

namespace LineKernel

theorem getD_ofInt (values : List Int) (j : Nat) :
    ((values.map Mixed.ofInt).getD j 0).val = ((values.getD j 0 : Int) : ℚ) ∧
      (values.map fun v : Int => (v : ℚ)).getD j 0 = ((values.getD j 0 : Int) : ℚ) := by
  rw [List.getD_eq_getElem?_getD, List.getD_eq_getElem?_getD, List.getD_eq_getElem?_getD, List.getElem?_map, List.getElem?_map]
  cases values[j]?
  · exact ⟨by simp; rfl, by simp⟩
  · exact ⟨rfl, rfl⟩

/-- One output value: its error is at most the number of values of the kernel, and it is an integer; there is no error if the
input values are integers. -/
theorem lineFold_mixed (values : List Int) (origin : Int) (n : Nat) (x : Int → Mixed) (i : Int) :
    (∃ z : Int, (lineFold (values.map Mixed.ofInt) origin n x i).val = z) ∧
    |(lineFold (values.map Mixed.ofInt) origin n x i).val -
      lineFold (values.map fun v : Int => (v : ℚ)) origin n (fun i => (x i).val) i| ≤ values.length ∧
    ((∀ i : Int, 0 ≤ i → i < n → ∃ z : Int, (x i).val = z) → (lineFold (values.map Mixed.ofInt) origin n x i).val =
      lineFold (values.map fun v : Int => (v : ℚ)) origin n (fun i => (x i).val) i) := by
  unfold lineFold
  rw [Mixed.fold_eq, Kernel.foldl_add_eq, zero_add]
  simp only [List.length_map, (getD_ofInt _ _).1, (getD_ofInt _ _).2]
  refine ⟨truncFold_isInt _ _ _ ⟨0, by rw [Int.cast_zero]; rfl⟩, ?_, fun h => ?_⟩
  · have h1 := (truncFold_bound ((List.range values.length).filter fun j : Nat =>
      decide (0 ≤ i + j - origin ∧ i + j - origin < n)) (fun j : Nat =>
        ((values.getD j 0 : Int) : ℚ) * (x (i + j - origin)).val) 0).1
    rw [zero_add] at h1
    refine le_trans h1 ?_
    have := List.length_filter_le (fun j : Nat => decide (0 ≤ i + j - origin ∧ i + j - origin < n)) (List.range values.length)
    rw [List.length_range] at this
    exact_mod_cast this
  · have h1 := truncFold_int ((List.range values.length).filter fun j : Nat =>
      decide (0 ≤ i + j - origin ∧ i + j - origin < n)) (fun j : Nat =>
        ((values.getD j 0 : Int) : ℚ) * (x (i + j - origin)).val) 0 (fun j hj => by
          have := (List.mem_filter.1 hj).2
          rw [decide_eq_true_eq] at this
          obtain ⟨z, hz⟩ := h _ this.1 this.2
          exact ⟨values.getD j 0 * z, by rw [hz]; push_cast; rfl⟩)
    rw [Int.cast_zero, zero_add] at h1
    exact h1

/-- **C91** for line kernels of integers and lines of real numbers: the error is at most the number of values of the kernel, and
there is no error if the input values are integers.
Missing: the error is not less than 1. -/
theorem C91_line_partial {k : LineKernel Int} {read : Int → Res Mixed} {n : Nat} {a s b u : Int} {x : Int → Mixed}
    {data : List Mixed} (ho : 0 ≤ k.origin ∧ k.origin < k.values.length) (hK : k.values.length ≤ n) (hn : n < 2 ^ 63)
    (hline : Line read a s n x) (hu : u ≠ 0) (hfit : Fits (full a n s) (full b n u) data) :
    ∃ res, (∀ r, Correlates k.mixed read (full a n s) (full b n u) data r ↔ r = .ok res) ∧ ∀ i : Nat, i < n →
      ∃ y, res[(b + i * u).toNat]? = some ⟨y⟩ ∧ (∃ z : Int, y = z) ∧
        |y - lineCorrelation (k.values.map fun v : Int => (v : ℚ)) k.origin n (fun i => (x i).val) i| ≤ k.values.length ∧
        ((∀ i : Int, 0 ≤ i → i < n → ∃ z : Int, (x i).val = z) →
          y = lineCorrelation (k.values.map fun v : Int => (v : ℚ)) k.origin n (fun i => (x i).val) i) := by
  have ho' : 0 ≤ k.mixed.origin ∧ k.mixed.origin < k.mixed.values.length := by simpa [mixed] using ho
  have hK' : k.mixed.values.length ≤ n := by simpa [mixed] using hK
  obtain ⟨res, h1, h2⟩ := C83_line ho' hK' hn hline hu hfit
  refine ⟨res, h2, fun i hi => ?_⟩
  obtain ⟨h3, h4, h5⟩ := lineFold_mixed k.values k.origin n x i
  refine ⟨_, line_value ho' hK' hn hline hu hfit ((h2 _).2 rfl) hi, h3, ?_, fun h => ?_⟩
  · rw [← lineFold_eq]
    exact h4
  · rw [← lineFold_eq]
    exact h5 h

/-- The sums of two neighbors of 1/2, 1/2, 3/2 are 0, 1, 1 instead of 1, 2, 3/2. -/
example : ∃ res, (∀ r, Correlates (⟨[1, 1], 0⟩ : LineKernel Int).mixed (readAt [⟨1 / 2⟩, ⟨1 / 2⟩, ⟨3 / 2⟩]) (full 0 3 1)
    (full 0 3 1) (List.replicate 3 0) r ↔ r = .ok res) ∧ res[0]? = some ⟨0⟩ ∧ res[1]? = some ⟨1⟩ ∧ res[2]? = some ⟨1⟩ := by
  have hline : Line (readAt ([⟨1 / 2⟩, ⟨1 / 2⟩, ⟨3 / 2⟩] : List Mixed)) 0 1 3 fun i => if i = 2 then ⟨3 / 2⟩ else ⟨1 / 2⟩ := by
    intro i h0 h1
    have : i = 0 ∨ i = 1 ∨ i = 2 := by omega
    rcases this with rfl | rfl | rfl <;> rfl
  have hfit : Fits (full 0 3 1) (full 0 3 1) (List.replicate 3 (0 : Mixed)) := by
    rw [full_eq (by norm_num) (by norm_num)]
    intro m hm
    simp only [List.length_replicate] at hm ⊢
    omega
  obtain ⟨res, h1, _⟩ := C91_line_partial (k := ⟨[1, 1], 0⟩) (n := 3) (u := 1) (by decide) (by decide) (by decide) hline
    (by decide) hfit
  have t0 : truncate (1 / 2) = 0 := by
    have := truncate_unique (x := 1 / 2) (z := 0) (by norm_num [abs_of_neg]) (by norm_num)
    simpa using this
  have t1 : truncate (3 / 2) = 1 := by
    have := truncate_unique (x := 3 / 2) (z := 1) (by norm_num [abs_of_neg]) (by norm_num)
    simpa using this
  have hv : ∀ i : Nat, i < 3 → res[(0 + i * 1 : Int).toNat]? = some (lineFold [Mixed.ofInt 1, Mixed.ofInt 1] 0 3
      (fun i => if i = 2 then ⟨3 / 2⟩ else ⟨1 / 2⟩) i) := fun i hi =>
    line_value (k := (⟨[1, 1], 0⟩ : LineKernel Int).mixed) (by decide) (by decide) (by decide) hline (by decide) hfit
      ((h1 _).2 rfl) hi
  refine ⟨res, h1, ?_, ?_, ?_⟩
  · refine (hv 0 (by decide)).trans (congrArg some (Mixed.ext ?_))
    unfold lineFold
    rw [Mixed.fold_eq]
    norm_num [truncFold, List.range_succ, Mixed.ofInt, show (0 : Mixed).val = 0 from rfl, t0]
  · refine (hv 1 (by decide)).trans (congrArg some (Mixed.ext ?_))
    unfold lineFold
    rw [Mixed.fold_eq]
    norm_num [truncFold, List.range_succ, Mixed.ofInt, show (0 : Mixed).val = 0 from rfl, t0, t1]
  · refine (hv 2 (by decide)).trans (congrArg some (Mixed.ext ?_))
    unfold lineFold
    rw [Mixed.fold_eq]
    norm_num [truncFold, List.range_succ, Mixed.ofInt, show (0 : Mixed).val = 0 from rfl, t1]

end LineKernel

namespace SeparableKernel

theorem linePass_mixed (shape : Position) (κ : Nat × List Int × Int) (f : List Int → Mixed) (p : Position) :
    (∃ z : Int, (linePass shape (κ.1, κ.2.1.map Mixed.ofInt, κ.2.2) f p).val = z) ∧
    |(linePass shape (κ.1, κ.2.1.map Mixed.ofInt, κ.2.2) f p).val -
      linePass shape (κ.1, κ.2.1.map fun v : Int => (v : ℚ), κ.2.2) (fun p => (f p).val) p| ≤ κ.2.1.length ∧
    ((∀ p, ∃ z : Int, (f p).val = z) → (linePass shape (κ.1, κ.2.1.map Mixed.ofInt, κ.2.2) f p).val =
      linePass shape (κ.1, κ.2.1.map fun v : Int => (v : ℚ), κ.2.2) (fun p => (f p).val) p) := by
  obtain ⟨h1, h2, h3⟩ := LineKernel.lineFold_mixed κ.2.1 κ.2.2 (shape.getD κ.1 0).toNat (fun i => f (p.set κ.1 i)) (p.getD κ.1 0)
  exact ⟨h1, h2, fun h => h3 fun i _ _ => h _⟩

/-- From integers, passes are exact. -/
theorem linePasses_mixed (shape : Position) (ks : List (Nat × List Int × Int)) (f : List Int → Mixed)
    (hf : ∀ p, ∃ z : Int, (f p).val = z) (p : Position) :
    (linePasses shape (ks.map fun κ => (κ.1, κ.2.1.map Mixed.ofInt, κ.2.2)) f p).val =
      linePasses shape (ks.map fun κ => (κ.1, κ.2.1.map fun v : Int => (v : ℚ), κ.2.2)) (fun p => (f p).val) p := by
  induction ks generalizing f with
  | nil => rfl
  | cons κ ks ih =>
    unfold linePasses at ih ⊢
    rw [List.map_cons, List.map_cons, List.foldl_cons, List.foldl_cons, ih _ fun p => (linePass_mixed shape κ f p).1]
    have e : (fun p => (linePass shape (κ.1, κ.2.1.map Mixed.ofInt, κ.2.2) f p).val) =
        linePass shape (κ.1, κ.2.1.map fun v : Int => (v : ℚ), κ.2.2) fun p => (f p).val :=
      funext fun p => (linePass_mixed shape κ f p).2.2 hf
    rw [e]

/-- The sum of the magnitudes of the values of a line kernel. -/
def lineWeight (values : List Int) : ℚ := ((List.range values.length).map fun j => |((values.getD j 0 : Int) : ℚ)|).sum

theorem lineWeight_nonneg (values : List Int) : 0 ≤ lineWeight values :=
  List.sum_nonneg fun t ht => by
    obtain ⟨i, _, rfl⟩ := List.mem_map.1 ht
    exact abs_nonneg _

theorem linePass_close (shape : Position) (κ : Nat × List Int × Int) {f g : List Int → ℚ} {ε : ℚ} (h : ∀ p, |f p - g p| ≤ ε)
    (p : Position) :
    |linePass shape (κ.1, κ.2.1.map fun v : Int => (v : ℚ), κ.2.2) f p -
      linePass shape (κ.1, κ.2.1.map fun v : Int => (v : ℚ), κ.2.2) g p| ≤ ε * lineWeight κ.2.1 := by
  have h0 : 0 ≤ ε := le_trans (abs_nonneg _) (h [])
  unfold linePass
  rw [lineFold_eq, lineFold_eq]
  unfold lineCorrelation lineWeight
  simp only [List.length_map, (LineKernel.getD_ofInt _ _).2]
  generalize List.range κ.2.1.length = l
  induction l with
  | nil => simp
  | cons j l ih =>
    simp only [List.map_cons, List.sum_cons, mul_add]
    rw [add_sub_add_comm]
    refine le_trans (abs_add_le _ _) (add_le_add ?_ ih)
    split
    · rw [← mul_sub, abs_mul, mul_comm ε]
      exact mul_le_mul_of_nonneg_left (h _) (abs_nonneg _)
    · simpa using mul_nonneg h0 (abs_nonneg _)

theorem linePasses_close (shape : Position) (ks : List (Nat × List Int × Int)) {f g : List Int → ℚ} {ε : ℚ}
    (h : ∀ p, |f p - g p| ≤ ε) (p : Position) :
    |linePasses shape (ks.map fun κ => (κ.1, κ.2.1.map fun v : Int => (v : ℚ), κ.2.2)) f p -
      linePasses shape (ks.map fun κ => (κ.1, κ.2.1.map fun v : Int => (v : ℚ), κ.2.2)) g p| ≤
      ε * (ks.map fun κ => lineWeight κ.2.1).prod := by
  induction ks generalizing f g ε with
  | nil => simpa [linePasses] using h p
  | cons κ ks ih =>
    unfold linePasses at ih ⊢
    rw [List.map_cons, List.foldl_cons, List.foldl_cons, List.map_cons, List.prod_cons, ← mul_assoc]
    exact ih (linePass_close shape κ h)

/-- **C91** for separable kernels of integers and rasters of real numbers: the raster is truncated by the first pass only, and the
error is at most the length of the first kernel times the weights of the other ones; there is no error if the pixels are integers.
Missing: the error is not less than 1. -/
theorem C91_separable_partial {k : SeparableKernel Int} {input : Raster ℚ} {f : List Int → ℚ} (hwf : WellFormed k)
    (hnd : k.axes.Nodup) (hpos : Pos input.shape) (hsize : input.shape.prod < 2 ^ 63) (hl : LargeEnough k input.shape)
    (hd : (input.data.length : Int) = input.shape.prod) (hf : ZeroExtends input f) {κ : Nat × List Int × Int}
    {ks : List (Nat × List Int × Int)} (hk : passes k = κ :: ks) :
    ∃ out : Raster Mixed, out.shape = input.shape ∧ (∀ r, k.mixed.Correlates input.mixed r ↔ r = .ok out) ∧
      ∀ p, InShape input.shape p → ∃ x y, out.get p = .ok ⟨y⟩ ∧ (∃ z : Int, y = z) ∧
        IsOuterCorrelation (axisKernels input.shape.length (kernelAt (mapValues (fun v : Int => (v : ℚ)) k))) f p x ∧
        |y - x| ≤ κ.2.1.length * (ks.map fun κ => lineWeight κ.2.1).prod ∧ ((∀ p, ∃ z : Int, f p = z) → y = x) := by
  have hget : ∀ p, InShape input.mixed.shape p → input.mixed.get p = .ok ⟨f p⟩ := by
    intro p hp
    have := hf.inside p hp
    unfold Raster.get at this ⊢
    rw [readAt_eq_ok] at this ⊢
    refine ⟨this.1, ?_⟩
    simp only [Raster.mixed, List.getElem?_map, this.2]
    rfl
  have ek : k.mixed = mapValues Mixed.ofInt k := rfl
  obtain ⟨out, h1, h2, h3⟩ := C83_separable (wellFormed_mapValues Mixed.ofInt hwf) (input := input.mixed) hpos hsize
    (largeEnough_mapValues Mixed.ofInt hl) (by simpa [Raster.mixed] using hd) hget
  refine ⟨out, h1, h2, fun p hp => ?_⟩
  have h4 := linePasses_outer (wellFormed_mapValues (fun v : Int => (v : ℚ)) hwf) hnd hpos hsize
    (largeEnough_mapValues (fun v : Int => (v : ℚ)) hl) hf.outside hp
  refine ⟨_, _, h3 p hp, ?_, h4, ?_, fun hint => ?_⟩
  · rw [passes_mapValues, hk]
    have h5 : ∀ (ks : List (Nat × List Int × Int)) (g : List Int → Mixed), (∀ p, ∃ z : Int, (g p).val = z) →
        ∃ z : Int, (linePasses input.shape (ks.map fun κ => (κ.1, κ.2.1.map Mixed.ofInt, κ.2.2)) g p).val = z := by
      intro ks
      induction ks with
      | nil => exact fun g h => h p
      | cons κ ks ih => exact fun g h => ih _ fun q => (linePass_mixed input.shape κ g q).1
    exact h5 ks _ fun q => (linePass_mixed input.shape κ _ q).1
  · rw [passes_mapValues, passes_mapValues, hk]
    have h5 := linePasses_mixed input.shape ks _ (fun q => (linePass_mixed input.shape κ (fun p => ⟨f p⟩) q).1) p
    have h6 := linePasses_close input.shape ks (fun q => (linePass_mixed input.shape κ (fun p => ⟨f p⟩) q).2.1) p
    unfold linePasses at h5 h6 ⊢
    rw [List.map_cons, List.map_cons, List.foldl_cons, List.foldl_cons]
    rw [← h5] at h6
    exact h6
  · rw [passes_mapValues, passes_mapValues]
    exact linePasses_mixed input.shape (passes k) (fun p => ⟨f p⟩) hint p

/-- The sum of the 2 x 2 neighbors minus that of the next column. -/
def exampleMixed : SeparableKernel Int := (along ⟨[1, 1], 0⟩ [1]).combine (along ⟨[1, -1], 0⟩ [0])

/-- Non-vacuity: with a raster of halves and integers, the error is at most 4. -/
example : ∃ (f : List Int → ℚ) (out : Raster Mixed),
    (∀ r, exampleMixed.mixed.Correlates (⟨[2, 2], [1 / 2, 1, 1 / 2, 3]⟩ : Raster ℚ).mixed r ↔ r = .ok out) ∧
    ∀ p, InShape [2, 2] p → ∃ x y, out.get p = .ok ⟨y⟩ ∧
      IsOuterCorrelation (axisKernels 2 (kernelAt (mapValues (fun v : Int => (v : ℚ)) exampleMixed))) f p x ∧ |y - x| ≤ 4 := by
  classical
  have e : exampleMixed.kernels = [(0, ⟨[1, -1], 0⟩), (1, ⟨[1, 1], 0⟩)] := by decide
  have hl : LargeEnough exampleMixed [2, 2] := by
    intro i κ h
    rw [e] at h
    match i, h with
    | 0, h => simp at h; subst h; decide
    | 1, h => simp [List.lookup_cons] at h; subst h; decide
    | n + 2, h => simp [List.lookup_cons] at h
  have hk : passes exampleMixed = [(1, [1, 1], 0), (0, [1, -1], 0)] := by decide
  obtain ⟨out, _, h6, h7⟩ := C91_separable_partial (input := ⟨[2, 2], [1 / 2, 1, 1 / 2, 3]⟩)
    (f := fun p => if InShape [2, 2] p then value [2, 2] [1 / 2, 1, 1 / 2, 3] p else 0)
    (C49_combine (C49_along _ _).1 (C49_along _ _).1).1 (by decide) (by simp [Pos]) (by decide) hl (by decide)
    ⟨fun p hp => by rw [if_pos hp]; exact get_value (r := ⟨[2, 2], [1 / 2, 1, 1 / 2, 3]⟩) (by decide) hp,
      fun p hp => if_neg hp⟩ hk
  refine ⟨fun p => if InShape [2, 2] p then value [2, 2] [1 / 2, 1, 1 / 2, 3] p else 0, out, h6, fun p hp => ?_⟩
  obtain ⟨x, y, g1, _, g2, g3, _⟩ := h7 p hp
  refine ⟨x, y, g1, g2, le_trans g3 (le_of_eq ?_)⟩
  norm_num [lineWeight, List.range_succ]

end SeparableKernel

end Litl
