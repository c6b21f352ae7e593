import Verif.Model.Convolution
import Verif.Lemmas.SeparableKernel
import Verif.Props.RasterCtor

/-!
# C72: 2D correlation by `Kernel1d`
-/

namespace Litl

open Spec LineKernel Convolution

variable {α : Type} [CommSemiring α]

namespace Spec

/-- The correlation of an unlimited image by a line kernel along both axes, at given coordinates. -/
def correlation2d (kernel : List α) (origin : Int) (f : Int → Int → α) (x y : Int) : α :=
  ((List.range kernel.length).map fun b : Nat => ((List.range kernel.length).map fun a : Nat =>
    kernel.getD b 0 * kernel.getD a 0 * f (x + a - origin) (y + b - origin)).sum).sum

/-- The image of given width and height, which is null outside of its domain. -/
def image (width height : Int) (data : List α) (x y : Int) : α :=
  if 0 ≤ x ∧ x < width ∧ 0 ≤ y ∧ y < height then data.getD (x + y * width).toNat 0 else 0

/-- The conditions under which the correlation of samples of a line of `n` values is right (see C48), where `after` is the
number of elements of the kernel after the origin. -/
structure GoodSampling (origin after : Int) (n : Int) (s : Sampling) : Prop where
  front : 0 ≤ s.front
  order : s.front ≤ s.back
  back : s.back < n
  step : 1 ≤ s.step
  backward : ∀ m : Nat, s.front + s.step * m < origin →
    s.front + s.step * m + after < n ∧ s.front + s.step * m ≤ s.back
  wrap : after + s.step ≤ n
  central : ∀ m : Nat, origin ≤ s.front + s.step * m → s.front + s.step * m ≤ n - after - s.step →
    s.front + s.step * m ≤ s.back
  forward : ∀ m : Nat, origin ≤ s.front + s.step * m → n - after - s.step < s.front + s.step * m →
    s.front + s.step * m ≤ s.back → n - after - 1 ≤ s.front + s.step * m

end Spec

omit [CommSemiring α] in
theorem shift_shift (d : DataSamples) (a b : Int) : (d.shift a).shift b = d.shift (a + b) := by
  simp [DataSamples.shift, add_assoc]

omit [CommSemiring α] in
theorem shift_zero (d : DataSamples) : d.shift 0 = d := by
  simp [DataSamples.shift]

/-- The loop over lines, each of which is correctly correlated, and written at its own place. -/
theorem pass_spec {k : LineKernel α} {read : Int → Res α} {last step inOffset outOffset : Int} (L : Nat) : ∀ (cnt : Nat) (v : Int) (inn out : DataSamples) (data : List α) (x : Nat → Int → α),
    (∀ t : Nat, t < cnt ↔ v + step * t ≤ last) → data.length = L →
    (∀ t : Nat, t < cnt → ∀ d : List α, d.length = L →
      Correct k read (inn.shift (inOffset * t)) (out.shift (outOffset * t)) (x t) d) →
    (∀ (t t' m m' : Nat), t < t' → t' < cnt → inn.sampling.front + inn.sampling.step * m ≤ inn.sampling.back →
      inn.sampling.front + inn.sampling.step * m' ≤ inn.sampling.back →
      out.data + outOffset * t + (out.sampling.front + out.sampling.step * m) * out.stride ≠
        out.data + outOffset * t' + (out.sampling.front + out.sampling.step * m') * out.stride) →
    (∀ (t m : Nat), t < cnt → inn.sampling.front + inn.sampling.step * m ≤ inn.sampling.back →
      0 ≤ out.data + outOffset * t + (out.sampling.front + out.sampling.step * m) * out.stride) →
    ∃ res, (∀ r, Pass k read last step inOffset outOffset v inn out data r ↔ r = .ok res) ∧ res.length = L ∧
      (∀ (t m : Nat), t < cnt → inn.sampling.front + inn.sampling.step * m ≤ inn.sampling.back →
        res[(out.data + outOffset * t + (out.sampling.front + out.sampling.step * m) * out.stride).toNat]? =
          some (lineCorrelation k.values k.origin inn.size (x t) (inn.sampling.front + inn.sampling.step * m))) ∧
      (∀ p : Nat, (∀ t m : Nat, t < cnt → inn.sampling.front + inn.sampling.step * m ≤ inn.sampling.back →
        (p : Int) ≠ out.data + outOffset * t + (out.sampling.front + out.sampling.step * m) * out.stride) →
        res[p]? = data[p]?) := by
  intro cnt
  induction cnt with
  | zero =>
    intro v inn out data x hc hL _ _ _
    have hv : ¬ v ≤ last := by
      have := hc 0
      simp at this
      omega
    refine ⟨data, fun r => ⟨fun h => ?_, fun h => h ▸ .done hv⟩, hL, fun t m ht => by omega, fun p _ => rfl⟩
    cases h with
    | done => rfl
    | fail h => exact absurd h hv
    | next h => exact absurd h hv
  | succ cnt ih =>
    intro v inn out data x hc hL hcor hinj hpos
    have hv : v ≤ last := by simpa using (hc 0).1 (by omega)
    obtain ⟨d, ⟨hd1, hd2, hd3⟩, hd4⟩ := hcor 0 (by omega) data hL
    simp only [Nat.cast_zero, mul_zero, shift_zero] at hd1 hd2 hd3 hd4
    have hc' : ∀ t : Nat, t < cnt ↔ (v + step) + step * t ≤ last := by
      intro t
      have := hc (t + 1)
      push_cast at this
      rw [show v + step * ((t : Int) + 1) = v + step + step * t by ring] at this
      omega
    have e1 : ∀ (z : Int) (t : Nat), z + z * (t : Int) = z * ((t + 1 : Nat) : Int) := by
      intro z t; push_cast; ring
    obtain ⟨res, h1, h2, h3, h4⟩ := ih (v + step) (inn.shift inOffset) (out.shift outOffset) d (fun t => x (t + 1)) hc'
      (by omega) (by
        intro t ht e he
        have := hcor (t + 1) (by omega) e he
        rw [shift_shift, shift_shift, e1, e1]
        exact this) (by
        intro t t' m m' h h' hm hm'
        have := hinj (t + 1) (t' + 1) m m' (by omega) (by omega) hm hm'
        rw [← e1, ← e1] at this
        simp only [DataSamples.shift]
        intro he
        apply this
        linarith) (by
        intro t m h hm
        have := hpos (t + 1) m (by omega) hm
        rw [← e1] at this
        simp only [DataSamples.shift]
        linarith)
    simp only [DataSamples.shift] at h3 h4
    refine ⟨res, fun r => ⟨fun h => ?_, fun h => ?_⟩, h2, ?_, ?_⟩
    · cases h with
      | done h => exact absurd hv h
      | fail _ h => exact absurd ((hd4 _).1 h) (by simp)
      | next _ h h' =>
        have := (hd4 _).1 h
        simp only [Except.ok.injEq] at this
        subst this
        exact (h1 r).1 h'
    · exact .next hv ((hd4 _).2 rfl) ((h1 r).2 h)
    · intro t m ht hm
      cases t with
      | zero =>
        have hp0 := hpos 0 m (by omega) hm
        simp only [Nat.cast_zero, mul_zero, add_zero] at hp0 ⊢
        rw [h4 _ ?_, hd2 m hm]
        intro t' m' ht' hm' he
        refine hinj 0 (t' + 1) m m' (by omega) (by omega) hm hm' ?_
        rw [← e1]
        simp only [Nat.cast_zero, mul_zero, add_zero]
        rw [Int.toNat_of_nonneg hp0] at he
        linarith
      | succ t =>
        have := h3 t m (by omega) hm
        rw [← e1]
        rw [← add_assoc]
        exact this
    · intro p hp
      rw [h4 p ?_, hd3 p ?_]
      · intro m hm he
        refine hp 0 m (by omega) hm ?_
        simp only [Nat.cast_zero, mul_zero, add_zero]
        exact he
      · intro t m ht hm he
        refine hp (t + 1) m (by omega) hm ?_
        rw [← e1, ← add_assoc]
        exact he

/-- The correlation of a line whose sampling is good. -/
theorem correct_good {k : LineKernel α} {read : Int → Res α} {inn out : DataSamples} {x : Int → α} {data : List α}
    (ho : 0 ≤ k.origin ∧ k.origin < k.values.length) (hk : k.values.length < 2 ^ 63) (hn : inn.size < 2 ^ 63)
    (hg : GoodSampling k.origin (k.values.length - 1 - k.origin) inn.size inn.sampling)
    (hline : Line read inn.data inn.stride inn.size x) (hfit : LineKernel.Fits inn out data)
    (hne : out.sampling.step * out.stride ≠ 0) : Correct k read inn out x data := by
  have h1 := hg.wrap
  have h2 := hg.order
  have h3 := hg.back
  exact correct_of_safe ⟨ho, hk, hn, hg.front, ⟨hg.step, by omega⟩, hg.back, by omega, hline⟩
    ⟨hg.backward, hg.wrap, hg.central, hg.forward⟩ hfit hne


/-- The number of samples. -/
theorem count_eq {f b s : Int} (hs : 1 ≤ s) (hfb : f ≤ b) {c : Nat} (hc : ∀ m : Nat, m < c ↔ f + s * m ≤ b) :
    (b - f + s).tdiv s = c ∧ 1 ≤ c := by
  have h1 : 1 ≤ c := by
    by_contra h
    have := (hc 0).2 (by simpa using hfb)
    omega
  refine ⟨?_, h1⟩
  rw [Int.tdiv_eq_ediv_of_nonneg (by omega)]
  have h2 := (hc (c - 1)).1 (by omega)
  have h3 : ¬ f + s * (c : Int) ≤ b := fun h => by have := (hc c).2 h; omega
  rw [Nat.cast_sub h1] at h2
  have e : s * ((c : Int) - (1 : Nat)) = s * c - s := by push_cast; ring
  rw [e] at h2
  refine ((Int.ediv_emod_unique (r := b - f + s - s * c) (by omega)).2 ⟨by ring, by omega, by omega⟩).1

omit [CommSemiring α] in
theorem forward_id {k : LineKernel α} (ho : 0 ≤ k.origin ∧ k.origin < k.values.length) (hk : k.values.length < 2 ^ 63) :
    i64 k.forward = k.values.length - 1 - k.origin := by
  unfold forward
  rw [u64_id (x := k.origin) (by omega) (by omega), u64_id (x := _ - k.origin) (by omega) (by omega),
    u64_id (by omega) (by omega), i64_id (by omega) (by omega)]
  ring

/-- The correlation of a line of an image, in terms of the image. -/
theorem row_eq {kernel : List α} {origin : Int} {w h : Nat} {input : List α} {x r : Int} (h0 : 0 ≤ r) (h1 : r < h) :
    lineCorrelation kernel origin w (fun i => input.getD (i + r * w).toNat 0) x =
      ((List.range kernel.length).map fun a : Nat => kernel.getD a 0 * image w h input (x + a - origin) r).sum := by
  unfold lineCorrelation
  congr 1
  refine List.map_congr_left fun a _ => ?_
  unfold image
  by_cases hc : 0 ≤ x + a - origin ∧ x + a - origin < w
  · rw [if_pos hc, if_pos ⟨hc.1, hc.2, h0, h1⟩]
  · rw [if_neg hc, if_neg (by tauto), mul_zero]

theorem distinct_lines {c t t' m m' : Int} (h : t < t') (h0 : 0 ≤ m) (h1 : m < c) (h0' : 0 ≤ m') : c * t + m ≠ c * t' + m' := by
  have : c * (t + 1) ≤ c * t' := mul_le_mul_of_nonneg_left (by omega) (by omega)
  rw [mul_add, mul_one] at this
  omega

/-- **C72** for samples, partial: if both samplings are good and if the offsets are not modified by conversion to the value
type, the output has at each position the correlation of the zero-padded input at the corresponding sample; memory is not
accessed elsewhere.
Missing: the other samplings (see C48) and the value types which are too small (`C72_offset`). -/
theorem C72_samples_partial {convIn convOut : Int → Int} {k : LineKernel α} {w h : Nat} {input out : List α}
    {x y : Sampling} {cx cy : Nat} (ho : 0 ≤ k.origin ∧ k.origin < k.values.length) (hk : k.values.length < 2 ^ 63)
    (hw : w < 2 ^ 63) (hh : h < 2 ^ 63) (hin : input.length = w * h)
    (hx : GoodSampling k.origin (k.values.length - 1 - k.origin) w x) (hy0 : 0 ≤ y.front) (hy1 : y.front ≤ y.back)
    (hy2 : y.back < h)
    (hy : GoodSampling k.origin (k.values.length - 1 - k.origin) (yTo k h y - yFrom k y + 1)
      ⟨y.front - yFrom k y, y.back - yFrom k y, y.step⟩)
    (hcx : ∀ m : Nat, m < cx ↔ x.front + x.step * m ≤ x.back) (hcy : ∀ m : Nat, m < cy ↔ y.front + y.step * m ≤ y.back)
    (hout : out.length = cx * cy) (halloc : (cx : Int) * (yTo k h y - yFrom k y + 1) < 2 ^ 63)
    (h1 : convIn w = w) (h2 : convOut cx = cx) (h3 : convOut 1 = 1) :
    ∃ res, (∀ r, SparseCorrelates2d convIn convOut k w h input x y cx cy out r ↔ r = .ok res) ∧
      res.length = out.length ∧ ∀ i j : Nat, i < cx → j < cy → res[i + cx * j]? =
        some (correlation2d k.values k.origin (image w h input) (x.front + x.step * i) (y.front + y.step * j)) := by
  obtain ⟨hxw, hcx1⟩ := count_eq hx.step hx.order hcx
  have hys : 1 ≤ y.step := hy.step
  obtain ⟨hyw, hcy1⟩ := count_eq hys hy1 hcy
  have hf := forward_id ho hk
  have hxs : x.step ≠ 0 := by have := hx.step; omega
  have hyF : 0 ≤ yFrom k y := by unfold yFrom; omega
  have hyT : yTo k h y < h := by unfold yTo; omega
  have hFT : yFrom k y ≤ y.front ∧ y.back ≤ yTo k h y := by unfold yFrom yTo; omega
  obtain ⟨n, hn⟩ : ∃ n : Nat, yTo k h y - yFrom k y + 1 = n := ⟨(yTo k h y - yFrom k y + 1).toNat, by omega⟩
  have hn1 : 1 ≤ n := by omega
  have hnh : n ≤ h := by omega
  rw [hn] at halloc hy
  -- The intermediate raster
  have hshape : shapeSize [(cx : Int), (n : Int)] = cx * n := by
    simp [shapeSize_eq]
  have hnn : (0 : Int) ≤ (cx : Int) * n := by positivity
  have hoff : Raster.ofShape (0 : α) [(cx : Int), (n : Int)] =
      .ok ⟨[(cx : Int), (n : Int)], List.replicate (cx * n) 0⟩ := by
    unfold Raster.ofShape
    rw [hshape, u64_id hnn (by omega)]
    rw [if_neg (by omega)]
    congr 3
  have hinf : Position.indexInf = 2 ^ 63 - 1 := rfl
  have hcxb : (cx : Int) < 2 ^ 63 := by
    have : (cx : Int) * 1 ≤ (cx : Int) * n := mul_le_mul_of_nonneg_left (by omega) (by omega)
    omega
  have hcyn : cy ≤ n := by
    have a1 := (hcy (cy - 1)).1 (by omega)
    rw [Nat.cast_sub hcy1] at a1
    have a2 : 1 * ((cy : Int) - (1 : Nat)) ≤ y.step * ((cy : Int) - (1 : Nat)) :=
      mul_le_mul_of_nonneg_right hys (by omega)
    omega
  have hcyb : (cy : Int) < 2 ^ 63 := by omega
  have hidx : index [(w : Int), (h : Int)] [0, yFrom k y] = w * yFrom k y := by simp [index]
  have hS : DataSamples.mk' (index [(w : Int), (h : Int)] [0, yFrom k y]) w x 1 = ⟨w * yFrom k y, w, x, 1⟩ := by
    unfold DataSamples.mk'
    rw [if_neg (by have := hx.back; omega), hidx]
  have hfull : ∀ (c : Nat) (s : Int), 1 ≤ c → (c : Int) < 2 ^ 63 →
      DataSamples.mk' 0 c ⟨0, Position.indexInf, 1⟩ s = ⟨0, c, ⟨0, c - 1, 1⟩, s⟩ :=
    fun c s hc hc' => full_eq hc (by omega)
  have hY : DataSamples.mk' 0 n ⟨y.front - yFrom k y, y.back - yFrom k y, y.step⟩ (cx : Int) =
      ⟨0, n, ⟨y.front - yFrom k y, y.back - yFrom k y, y.step⟩, cx⟩ := by
    unfold DataSamples.mk'
    rw [if_neg (by dsimp only; omega)]
  -- First pass
  obtain ⟨d, p1, p2, p3, -⟩ := pass_spec (k := k) (read := readAt input) (last := yTo k h y) (step := 1)
    (inOffset := w) (outOffset := cx) (cx * n) n (yFrom k y) ⟨w * yFrom k y, w, x, 1⟩ ⟨0, cx, ⟨0, cx - 1, 1⟩, 1⟩
    (List.replicate (cx * n) 0) (fun t i => input.getD (i + (yFrom k y + t) * w).toNat 0) (by intro t; omega) (by simp) (by
      intro t ht e he
      refine correct_good ho hk hw hx ?_ ?_ (by simp [DataSamples.shift])
      · intro i h0 h1
        simp only [DataSamples.shift] at h0 h1 ⊢
        have a1 : 0 ≤ (yFrom k y + t) * (w : Int) := by positivity
        have a2 : (yFrom k y + t + 1) * (w : Int) ≤ h * w := mul_le_mul_of_nonneg_right (by omega) (by omega)
        have a3 : (input.length : Int) = h * w := by rw [hin]; push_cast; ring
        rw [add_mul, one_mul] at a2
        rw [show (w : Int) * yFrom k y + w * t + i * 1 = i + (yFrom k y + t) * w by ring]
        exact readAt_getD (by omega) (by omega)
      · intro m hm
        have hm' := (hcx m).2 hm
        have a1 : (cx : Int) * (t + 1) ≤ cx * n := mul_le_mul_of_nonneg_left (by omega) (by omega)
        have a2 : 0 ≤ (cx : Int) * t := by positivity
        rw [mul_add, mul_one] at a1
        simp only [DataSamples.shift, he, Nat.cast_mul]
        constructor <;> omega) (by
      intro t t' m m' ht ht' hm hm'
      have b1 := (hcx m).2 hm
      have b2 := (hcx m').2 hm'
      have := distinct_lines (c := cx) (t := t) (t' := t') (m := m) (m' := m') (by omega) (by omega) (by omega) (by omega)
      simpa using this) (by
      intro t m ht hm
      have a2 : 0 ≤ (cx : Int) * t := by positivity
      dsimp only
      omega)
  have hmid : ∀ t m : Nat, t < n → m < cx → d[m + t * cx]? =
      some ((List.range k.values.length).map fun a : Nat => k.values.getD a 0 *
        image w h input (x.front + x.step * m + a - k.origin) (yFrom k y + t)).sum := by
    intro t m ht hm
    have := p3 t m ht ((hcx m).1 hm)
    rw [row_eq (h := h) (by omega) (by omega)] at this
    rw [← this]
    congr 1
    dsimp only
    rw [show (0 : Int) + cx * t + (0 + 1 * m) * 1 = ((m + t * cx : Nat) : Int) by push_cast; ring, Int.toNat_natCast]
  -- Second pass
  obtain ⟨res, q1, q2, q3, -⟩ := pass_spec (k := k) (read := readAt d) (last := x.back) (step := x.step)
    (inOffset := 1) (outOffset := 1) (cx * cy) cx x.front
    ⟨0, n, ⟨y.front - yFrom k y, y.back - yFrom k y, y.step⟩, cx⟩ ⟨0, cy, ⟨0, cy - 1, 1⟩, cx⟩
    out (fun t i => d.getD (t + i * cx).toNat 0) hcx hout (by
      intro t ht e he
      refine correct_good ho hk (by dsimp only [DataSamples.shift]; omega) hy ?_ ?_ (by
        simp only [DataSamples.shift]; omega)
      · intro i h0 h1
        simp only [DataSamples.shift] at h0 h1 ⊢
        have a1 : 0 ≤ i * (cx : Int) := by positivity
        have a2 : (i + 1) * (cx : Int) ≤ n * cx := mul_le_mul_of_nonneg_right (by omega) (by omega)
        have a3 : (d.length : Int) = n * cx := by rw [p2]; push_cast; ring
        rw [add_mul, one_mul] at a2
        rw [show (0 : Int) + 1 * t + i * cx = t + i * cx by ring]
        exact readAt_getD (by omega) (by omega)
      · intro m hm
        have hm' := (hcy m).2 (by dsimp only [DataSamples.shift] at hm; omega)
        have a1 : ((m : Int) + 1) * cx ≤ cy * cx := mul_le_mul_of_nonneg_right (by omega) (by omega)
        have a2 : 0 ≤ (m : Int) * cx := by positivity
        rw [add_mul, one_mul] at a1
        have a3 : (e.length : Int) = cy * cx := by rw [he]; push_cast; ring
        simp only [DataSamples.shift]
        rw [show (0 : Int) + 1 * t + (0 + 1 * m) * cx = t + m * cx by ring]
        constructor <;> omega) (by
      intro t t' m m' ht ht' hm hm' he
      dsimp only at he hm hm'
      have e1 : (cx : Int) * m + t = cx * m' + t' := by linarith
      rcases lt_trichotomy m m' with hmm | rfl | hmm
      · exact distinct_lines (by omega) (by omega) (by omega) (by omega) e1
      · omega
      · exact distinct_lines (by omega) (by omega) (by omega) (by omega) e1.symm) (by
      intro t m ht hm
      have a2 : 0 ≤ (m : Int) * cx := by positivity
      dsimp only
      rw [show (0 : Int) + 1 * t + (0 + 1 * m) * cx = t + m * cx by ring]
      omega)
  refine ⟨res, fun r => ?_, by rw [q2, hout], fun i j hi hj => ?_⟩
  · unfold SparseCorrelates2d
    rw [if_neg hxs]
    dsimp only
    rw [hxw, hn, hoff]
    dsimp only
    simp only [Int.toNat_natCast, h1, h2, h3]
    rw [hS, hfull cx 1 hcx1 hcxb, hY, hfull cy cx hcy1 hcyb]
    constructor
    · rintro ⟨r1, g1, g2⟩
      have := (p1 r1).1 g1
      subst this
      exact (q1 r).1 g2
    · intro hr
      exact ⟨.ok d, (p1 _).2 rfl, (q1 r).2 hr⟩
  · have hjb := (hcy j).1 hj
    have := q3 i j hi (by dsimp only; omega)
    dsimp only at this
    rw [show (0 : Int) + 1 * i + (0 + 1 * j) * cx = ((i + cx * j : Nat) : Int) by push_cast; ring, Int.toNat_natCast] at this
    rw [this]
    congr 1
    unfold lineCorrelation correlation2d
    congr 1
    refine List.map_congr_left fun b hb => ?_
    have hb' : b < k.values.length := by simpa using hb
    have hyf : yFrom k y = max 0 (y.front - k.origin) := rfl
    have hyt : yTo k h y = min ((h : Int) - 1) (y.back + (k.values.length - 1 - k.origin)) := by unfold yTo; rw [hf]
    have hyj : y.front ≤ y.front + y.step * j := by
      have : 0 ≤ y.step * (j : Int) := by positivity
      omega
    by_cases hc : 0 ≤ y.front - yFrom k y + y.step * j + b - k.origin ∧
        y.front - yFrom k y + y.step * j + b - k.origin < n
    · rw [if_pos hc]
      obtain ⟨t, ht⟩ : ∃ t : Nat, y.front - yFrom k y + y.step * j + b - k.origin = t :=
        ⟨_, (Int.toNat_of_nonneg hc.1).symm⟩
      rw [ht] at hc ⊢
      have ht' : t < n := by omega
      have e2 : ((i : Int) + (t : Int) * cx).toNat = i + t * cx := by
        rw [show (i : Int) + (t : Int) * cx = ((i + t * cx : Nat) : Int) by push_cast; ring, Int.toNat_natCast]
      dsimp only
      rw [e2, List.getD_eq_getElem?_getD (l := d), hmid t i ht' hi, Option.getD_some, ← List.sum_map_mul_left]
      congr 1
      refine List.map_congr_left fun a _ => ?_
      rw [← mul_assoc]
      congr 2
      omega
    · rw [if_neg hc]
      symm
      refine List.sum_eq_zero fun v hv => ?_
      obtain ⟨a, _, rfl⟩ := List.mem_map.1 hv
      have : image w h input (x.front + x.step * i + a - k.origin) (y.front + y.step * j + b - k.origin) = 0 := by
        unfold image
        rw [if_neg]
        rintro ⟨_, _, g1, g2⟩
        apply hc
        omega
      rw [this, mul_zero]


/-- **C72**, in full: for all value types with `bits` bits (all conversions of offsets to signed integers modulo a power of
two), the correlation of an image by a kernel which is not longer than its sides is that of the zero-padded image. -/
def C72_Statement : Prop :=
  ∀ (bits : Nat) (k : LineKernel Int) (w h : Nat) (input out : List Int), 8 ≤ bits →
    0 ≤ k.origin → k.origin < k.values.length → k.values.length ≤ w → k.values.length ≤ h → w * h < 2 ^ 62 →
    input.length = w * h → out.length = w * h →
    ∃ res, (∀ r, Correlates2d (fun n => n.bmod (2 ^ bits)) (fun n => n.bmod (2 ^ bits)) k w h input w h out r ↔
        r = .ok res) ∧
      ∀ i j : Nat, i < w → j < h →
        res[i + w * j]? = some (correlation2d k.values k.origin (image w h input) i j)

/-- **C72**, partial: the correlation of an image by a kernel which is not longer than its sides, at each of its positions.
Missing: the value types of which the width of the image is not a value (`C72_offset`). -/
theorem C72_partial {convIn convOut : Int → Int} {k : LineKernel α} {w h : Nat} {input out : List α}
    (ho : 0 ≤ k.origin ∧ k.origin < k.values.length) (hkw : k.values.length ≤ w) (hkh : k.values.length ≤ h)
    (hsize : w * h < 2 ^ 63) (hin : input.length = w * h) (hout : out.length = w * h) (h1 : convIn w = w)
    (h2 : convOut w = w) (h3 : convOut 1 = 1) :
    ∃ res, (∀ r, Correlates2d convIn convOut k w h input w h out r ↔ r = .ok res) ∧ res.length = out.length ∧
      ∀ i j : Nat, i < w → j < h →
        res[i + w * j]? = some (correlation2d k.values k.origin (image w h input) i j) := by
  have hw : w < 2 ^ 63 := lt_of_le_of_lt (Nat.le_mul_of_pos_right w (by omega)) hsize
  have hh : h < 2 ^ 63 := lt_of_le_of_lt (Nat.le_mul_of_pos_left h (by omega)) hsize
  have hF : yFrom k ⟨0, (h : Int) - 1, 1⟩ = 0 := by unfold yFrom; dsimp only; omega
  have hf := forward_id ho (by omega)
  have hT : yTo k h ⟨0, (h : Int) - 1, 1⟩ = h - 1 := by unfold yTo; rw [hf]; dsimp only; omega
  have good : ∀ n : Nat, k.values.length ≤ n →
      GoodSampling k.origin (k.values.length - 1 - k.origin) n ⟨0, (n : Int) - 1, 1⟩ := by
    intro n hn
    constructor <;> dsimp only <;> omega
  obtain ⟨res, r1, r2, r3⟩ := C72_samples_partial (convIn := convIn) (convOut := convOut) (k := k) (w := w) (h := h)
    (input := input) (out := out) (x := ⟨0, (w : Int) - 1, 1⟩) (y := ⟨0, (h : Int) - 1, 1⟩) (cx := w) (cy := h) ho (by omega)
    hw hh hin (good w hkw) (by simp) (by dsimp only; omega) (by dsimp only; omega)
    (by
      rw [hF, hT]
      simpa using good h hkh) (by intro m; dsimp only; omega) (by intro m; dsimp only; omega) hout
    (by rw [hF, hT]; have : (w : Int) * h < 2 ^ 63 := by exact_mod_cast hsize
        simpa using this) h1 h2 h3
  refine ⟨res, r1, r2, fun i j hi hj => ?_⟩
  have := r3 i j hi hj
  simpa using this

/-- Correlating a line which starts before the memory, by the identity. -/
theorem correlates_before {n : Nat} {input : List α} {a : Int} {out : DataSamples} {data : List α} (_h0 : 1 ≤ n)
    (_hn : n < 2 ^ 63) (ha : a < 0) (r : Res (List α)) :
    LineKernel.Correlates ⟨[(1 : α)], 0⟩ (readAt input) ⟨a, n, ⟨0, n - 1, 1⟩, 1⟩ out data r ↔ r = .error .ub := by
  have hst : start (⟨[(1 : α)], 0⟩ : LineKernel α) ⟨a, n, ⟨0, n - 1, 1⟩, 1⟩ out data = ⟨0, a, out.iter 0, data⟩ := by
    simp [start, DataSamples.mk', DataSamples.advance, DataSamples.iter]
  have w1 : While (fun s => s.i < (⟨[(1 : α)], 0⟩ : LineKernel α).origin)
      (backwardBody (⟨[(1 : α)], 0⟩ : LineKernel α) (readAt input) ⟨a, n, ⟨0, n - 1, 1⟩, 1⟩ out)
      (start (⟨[(1 : α)], 0⟩ : LineKernel α) ⟨a, n, ⟨0, n - 1, 1⟩, 1⟩ out data) (.ok ⟨0, a, out.iter 0, data⟩) := by
    rw [hst]
    exact .done (by simp)
  have hf : (⟨[(1 : α)], 0⟩ : LineKernel α).forward = 0 := by
    simp [forward, u64]
  have w2 : While (CentralCond (⟨[(1 : α)], 0⟩ : LineKernel α) ⟨a, n, ⟨0, n - 1, 1⟩, 1⟩)
      (centralBody (⟨[(1 : α)], 0⟩ : LineKernel α) (readAt input) ⟨a, n, ⟨0, n - 1, 1⟩, 1⟩ out)
      ⟨0, a, out.iter 0, data⟩ (.error .ub) := by
    refine .fail ?_ ?_
    · unfold CentralCond
      rw [hf]
      dsimp only
      unfold u64
      omega
    · have : innerProduct [(1 : α)] 0 1 (readAt input) 1 a = .error .ub := by
        have e : readAt input a = .error .ub := by unfold readAt; rw [if_pos ha]
        have e' : readAt [(1 : α)] 0 = .ok 1 := rfl
        simp [innerProduct, List.range_one, e, e', bind, Except.bind]
      unfold centralBody
      simp only [List.length_singleton, Nat.cast_one]
      rw [this]
      rfl
  constructor
  · rintro ⟨r1, g1, g2⟩
    have := g1.unique w1
    subst this
    obtain ⟨r2, g3, g4⟩ := g2
    have := g3.unique w2
    subst this
    exact g4
  · rintro rfl
    exact ⟨_, w1, _, w2, rfl⟩

/-- **C72**, negative result: if the width of the image is negative once converted to its value type, e.g. 200 pixels of
8-bit signed integers, even the correlation by the identity has undefined behaviour from the second line on: pointers are
moved backward. -/
theorem C72_offset {convIn convOut : Int → Int} {w h : Nat} {input out : List α} (hw : 1 ≤ w) (hh : 2 ≤ h)
    (hsize : w * h < 2 ^ 63) (hin : input.length = w * h) (h1 : convIn w < 0) (r : Res (List α)) :
    Correlates2d convIn convOut ⟨[1], 0⟩ w h input w h out r ↔ r = .error .ub := by
  have hwb : w < 2 ^ 63 := lt_of_le_of_lt (Nat.le_mul_of_pos_right w (by omega)) hsize
  have hhb : h < 2 ^ 63 := lt_of_le_of_lt (Nat.le_mul_of_pos_left h (by omega)) hsize
  have hF : yFrom (⟨[(1 : α)], 0⟩ : LineKernel α) ⟨0, (h : Int) - 1, 1⟩ = 0 := by unfold yFrom; simp
  have hf : i64 (⟨[(1 : α)], 0⟩ : LineKernel α).forward = 0 := by simp [forward, u64, i64]
  have hT : yTo (⟨[(1 : α)], 0⟩ : LineKernel α) h ⟨0, (h : Int) - 1, 1⟩ = h - 1 := by unfold yTo; rw [hf]; simp
  have hwh : (0 : Int) ≤ (w : Int) * h := by positivity
  have hwh' : (w : Int) * h < 2 ^ 63 := by exact_mod_cast hsize
  have hoff : Raster.ofShape (0 : α) [(w : Int), (h : Int)] =
      .ok ⟨[(w : Int), (h : Int)], List.replicate (w * h) 0⟩ := by
    unfold Raster.ofShape
    rw [show shapeSize [(w : Int), (h : Int)] = w * h by simp [shapeSize_eq], u64_id hwh (by omega), if_neg (by omega)]
    congr 3
  have hS : DataSamples.mk' 0 w ⟨0, (w : Int) - 1, 1⟩ 1 = ⟨0, w, ⟨0, (w : Int) - 1, 1⟩, 1⟩ := by
    unfold DataSamples.mk'
    rw [if_neg (by dsimp only; have : Position.indexInf = 2 ^ 63 - 1 := rfl; omega)]
  have hS' : DataSamples.mk' 0 w ⟨0, Position.indexInf, 1⟩ 1 = ⟨0, w, ⟨0, (w : Int) - 1, 1⟩, 1⟩ := full_eq hw hwb
  obtain ⟨d, -, c2⟩ := correct_full (k := (⟨[(1 : α)], 0⟩ : LineKernel α)) (read := readAt input) (n := w) (a := 0) (s := 1)
    (b := 0) (t := 1) (x := fun i => input.getD i.toNat 0) (data := List.replicate (w * h) (0 : α)) (by simp) (by simp)
    (by simp; omega) hwb (by
      intro i g0 g1
      have : (w : Int) * 1 ≤ w * h := mul_le_mul_of_nonneg_left (by omega) (by omega)
      rw [mul_one, zero_add]
      exact readAt_getD g0 (by rw [hin]; push_cast; omega)) (by simp) (by
      rw [full_eq hw hwb]
      intro m hm
      have : (w : Int) * 1 ≤ w * h := mul_le_mul_of_nonneg_left (by omega) (by omega)
      simp only [List.length_replicate, Nat.cast_mul] at hm ⊢
      omega)
  rw [full_eq hw hwb] at c2
  have hpass : ∀ r, Pass (⟨[(1 : α)], 0⟩ : LineKernel α) (readAt input) (h - 1) 1 (convIn w) (convOut w) 0
      ⟨0, w, ⟨0, (w : Int) - 1, 1⟩, 1⟩ ⟨0, w, ⟨0, (w : Int) - 1, 1⟩, 1⟩ (List.replicate (w * h) 0) r ↔
      r = .error .ub := by
    intro r
    have hb := fun d => correlates_before (α := α) (n := w) (input := input) (a := 0 + convIn w)
      (out := DataSamples.shift ⟨0, w, ⟨0, (w : Int) - 1, 1⟩, 1⟩ (convOut w)) (data := d) hw hwb (by omega)
    constructor
    · intro g
      cases g with
      | done g => omega
      | fail _ g => exact absurd ((c2 _).1 g) (by simp)
      | next _ _ g =>
        cases g with
        | done g => omega
        | fail _ g => exact (hb _ _).1 g
        | next _ g => exact absurd ((hb _ _).1 g) (by simp)
    · rintro rfl
      exact .next (by omega) ((c2 _).2 rfl) (.fail (by omega) ((hb _ _).2 rfl))
  unfold Correlates2d SparseCorrelates2d
  rw [if_neg (by simp)]
  dsimp only
  rw [hF, hT, show ((w : Int) - 1 - 0 + 1).tdiv 1 = w by simp, show (h : Int) - 1 - 0 + 1 = h by ring, hoff]
  dsimp only
  simp only [Int.toNat_natCast]
  rw [show index [(w : Int), (h : Int)] [0, 0] = 0 by simp [index], hS, hS']
  constructor
  · rintro ⟨r1, g1, g2⟩
    have := (hpass r1).1 g1
    subst this
    exact g2
  · rintro rfl
    exact ⟨_, (hpass _).2 rfl, rfl⟩

/-- **C72** is refuted: an image of 200 × 2 pixels of type `std::int8_t`. -/
theorem C72_violated : ¬ C72_Statement := by
  intro h
  obtain ⟨res, h1, -⟩ := h 8 ⟨[1], 0⟩ 200 2 (List.replicate 400 0) (List.replicate 400 0) le_rfl (by simp) (by simp)
    (by simp) (by simp) (by norm_num) List.length_replicate List.length_replicate
  have := (C72_offset (w := 200) (h := 2) (input := List.replicate 400 (0 : Int)) (out := List.replicate 400 0)
    (convIn := fun n => n.bmod (2 ^ 8)) (convOut := fun n => n.bmod (2 ^ 8)) (by norm_num) (by norm_num) (by norm_num)
    List.length_replicate (by decide) _).2 rfl
  have := (h1 _).1 this
  cases this

/-- **C72**, negative result: the number of samples is the result of a division by the step along axis 0. -/
theorem C72_null_step {convIn convOut : Int → Int} {k : LineKernel α} {w h cx cy : Int} {input out : List α} {x y : Sampling}
    (hx : x.step = 0) (r : Res (List α)) :
    SparseCorrelates2d convIn convOut k w h input x y cx cy out r ↔ r = .error .ub := by
  unfold SparseCorrelates2d
  rw [if_pos hx]

/-- **C72**: if the intermediate image is too large, an exception is thrown by its constructor, and `out` is not written. -/
theorem C72_too_large {convIn convOut : Int → Int} {k : LineKernel α} {w h cx cy : Int} {input out : List α} {x y : Sampling}
    (hx : x.step ≠ 0)
    (hs : 2 ^ 63 ≤ u64 ((x.back - x.front + x.step).tdiv x.step * (yTo k h y - yFrom k y + 1))) (r : Res (List α)) :
    SparseCorrelates2d convIn convOut k w h input x y cx cy out r ↔ r = .error .stdError := by
  have e : Raster.ofShape (0 : α) [(x.back - x.front + x.step).tdiv x.step, yTo k h y - yFrom k y + 1] = .error .stdError := by
    simp only [Raster.ofShape]
    rw [if_pos]
    rw [shapeSize_eq (by simp)]
    simpa using hs
  unfold SparseCorrelates2d
  rw [if_neg hx]
  dsimp only
  rw [e]

example (r : Res (List Int)) : SparseCorrelates2d id id ⟨[1], 0⟩ 3 2 [1, 2, 3, 4, 5, 6] ⟨0, 2, 0⟩ ⟨0, 1, 1⟩ 3 2 (List.replicate 6 0) r ↔
    r = .error .ub := C72_null_step rfl r

example (r : Res (List Int)) : SparseCorrelates2d id id ⟨[1], 0⟩ (2 ^ 32) (2 ^ 31) [] ⟨0, 2 ^ 32 - 1, 1⟩ ⟨0, 2 ^ 31 - 1, 1⟩
    (2 ^ 32) (2 ^ 31) [] r ↔ r = .error .stdError := C72_too_large (by decide) (by decide) r

/-- Non-vacuity of C72: an image of 3 × 2 pixels of type `std::int8_t`. -/
example : ∃ res, (∀ r, Correlates2d (fun n => n.bmod (2 ^ 8)) (fun n => n.bmod (2 ^ 8)) ⟨[1, 2], 1⟩ (3 : Nat) (2 : Nat)
    ([1, 2, 3, 4, 5, 6] : List Int) (3 : Nat) (2 : Nat) (List.replicate 6 0) r ↔ r = .ok res) ∧ res[5]? = some (42 : Int) := by
  obtain ⟨res, h1, -, h2⟩ := C72_partial (convIn := fun n => n.bmod (2 ^ 8)) (convOut := fun n => n.bmod (2 ^ 8))
    (k := ⟨[(1 : Int), 2], 1⟩) (w := 3) (h := 2) (input := [1, 2, 3, 4, 5, 6]) (out := List.replicate 6 0)
    (by decide) (by decide) (by decide) (by norm_num) (by decide) (by decide) (by decide) (by decide) (by decide)
  refine ⟨res, h1, ?_⟩
  have := h2 2 1 (by decide) (by decide)
  rw [this]
  decide

/-- Non-vacuity of C72 for samples: every second pixel of an image of 5 × 5 pixels, but for the first line. -/
example : GoodSampling 1 1 5 ⟨0, 4, 2⟩ ∧
    GoodSampling 1 1 (yTo ⟨[(1 : Int), 2, 3], 1⟩ 5 ⟨1, 4, 2⟩ - yFrom ⟨[(1 : Int), 2, 3], 1⟩ ⟨1, 4, 2⟩ + 1)
      ⟨1 - yFrom ⟨[(1 : Int), 2, 3], 1⟩ ⟨1, 4, 2⟩, 4 - yFrom ⟨[(1 : Int), 2, 3], 1⟩ ⟨1, 4, 2⟩, 2⟩ := by
  have e1 : yFrom (⟨[(1 : Int), 2, 3], 1⟩ : LineKernel Int) ⟨1, 4, 2⟩ = 0 := by decide
  have e2 : yTo (⟨[(1 : Int), 2, 3], 1⟩ : LineKernel Int) 5 ⟨1, 4, 2⟩ = 4 := by decide
  rw [e1, e2]
  refine ⟨?_, ?_⟩ <;> constructor <;> dsimp only <;> omega

end Litl
