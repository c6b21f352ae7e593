import Verif.Lemmas.Parametric
import Verif.Lemmas.Rounding
import Verif.Lemmas.InterpolationRounding
import Verif.Props.Kernel
import Verif.Props.SeparableKernel
import Verif.Props.LineKernel
import Verif.Props.MedianFilter
import Mathlib.Algebra.Order.Ring.Defs
import Mathlib.Data.Complex.Basic

/-!
# Filters are linear, monotonic and natural (C102)

These are properties of several executions on different values.
-/

namespace Litl

open Spec

variable {α β : Type}

/-! ## Relations -/

theorem respects_signal [CommSemiring α] (a b : α) :
    Respects (fun w (p : α × α) => w = p.1 ∧ w = p.2) (fun z (p : α × α) => z = a * p.1 + b * p.2)
      (fun z (p : α × α) => z = a * p.1 + b * p.2) where
  zero := by simp
  padding := by simp
  step := by
    rintro _ ⟨s, t⟩ w ⟨w1, w2⟩ _ ⟨x, y⟩ rfl ⟨rfl, h⟩ rfl
    dsimp only at h ⊢
    subst h
    simp only [Prod.fst_add, Prod.fst_mul, Prod.snd_add, Prod.snd_mul]
    ring

theorem respects_weights [CommSemiring α] (a b : α) :
    Respects (fun z (p : α × α) => z = a * p.1 + b * p.2) (fun w (p : α × α) => w = p.1 ∧ w = p.2)
      (fun z (p : α × α) => z = a * p.1 + b * p.2) where
  zero := by simp
  padding := by simp
  step := by
    rintro _ ⟨s, t⟩ _ ⟨w1, w2⟩ x ⟨x1, x2⟩ rfl rfl ⟨rfl, h⟩
    dsimp only at h ⊢
    subst h
    simp only [Prod.fst_add, Prod.fst_mul, Prod.snd_add, Prod.snd_mul]
    ring

theorem triple_combination [Add α] [Mul α] {a b : α} {x y z : List α} :
    Triple (fun z (p : α × α) => z = a * p.1 + b * p.2) x y z ↔ IsCombination a b x y z := by
  refine and_congr_right fun h => ?_
  unfold combination
  constructor
  · intro ht
    induction x generalizing y z with
    | nil => cases ht; rfl
    | cons u x ih =>
      cases y with
      | nil => simp at h
      | cons v y =>
        cases ht with
        | cons h0 ht => rw [List.zipWith_cons_cons, ← ih (by simpa using h) ht, h0]
  · rintro rfl
    induction x generalizing y with
    | nil => exact .nil
    | cons u x ih =>
      cases y with
      | nil => simp at h
      | cons v y => exact .cons rfl (ih (by simpa using h))

theorem triple_same (x : List α) : Triple (fun w (p : α × α) => w = p.1 ∧ w = p.2) x x x := by
  refine ⟨rfl, ?_⟩
  induction x with
  | nil => exact .nil
  | cons u x ih => exact .cons ⟨rfl, rfl⟩ ih

theorem triple_eq [Add α] [Mul α] {a b : α} :
    (Triple fun z (p : α × α) => z = a * p.1 + b * p.2) = IsCombination a b := by
  funext x y z
  exact propext triple_combination

/-! ## Kernels -/

namespace Kernel

/-- Executions on related kernels and rasters have related outcomes, for all relations which sums and products preserve: one
terminates if and only if the other one does, they fail for the same reason, or succeed with related results.
This holds even where the result is not the correlation (C45). -/
theorem C102_kernel_related [Zero α] [Add α] [Mul α] [Zero β] [Add β] [Mul β] {W I S : α → β → Prop} (hr : Respects W I S)
    {k : Kernel α} {k' : Kernel β} (hv : List.Forall₂ W k.values k'.values) (hw : k.window = k'.window) {x : Raster α}
    {x' : Raster β} (hs : x.shape = x'.shape) (hx : List.Forall₂ I x.data x'.data) {e : Position → Res α} {e' : Position → Res β}
    (he : ∀ p, Alike I (e p) (e' p)) {out : List α} {out' : List β} (ho : List.Forall₂ S out out') :
    ((∃ r, k.Correlates x e out r) ↔ ∃ r', k'.Correlates x' e' out' r') ∧
    ∀ r r', k.Correlates x e out r → k'.Correlates x' e' out' r' → Alike (List.Forall₂ S) r r' := by
  have key : ∀ r, k.Correlates x e out r → ∃ r', k'.Correlates x' e' out' r' ∧ RelRes (List.Forall₂ S) r r' :=
    fun r h => correlates_rel hr hv hw hs hx (fun p => .of_alike (he p)) ho h
  have hr' : Respects (fun b a => W a b) (fun b a => I a b) (fun b a => S a b) :=
    ⟨hr.zero, hr.padding, fun h1 h2 h3 => hr.step h1 h2 h3⟩
  refine ⟨⟨fun ⟨r, h⟩ => ?_, fun ⟨r, h⟩ => ?_⟩, fun r r' h h' => ?_⟩
  · obtain ⟨r', h', _⟩ := key r h
    exact ⟨r', h'⟩
  · obtain ⟨r', h', _⟩ := correlates_rel hr' hv.flip hw.symm hs.symm hx.flip (e' := e) (fun p => by
      rcases he p with ⟨f, h1, h2⟩ | ⟨a, b, h1, h2, h3⟩
      · rw [h1, h2]; exact .error
      · rw [h1, h2]; exact .ok h3) ho.flip h
    exact ⟨r', h'⟩
  · obtain ⟨r'', h1, h2⟩ := key r h
    cases h1.unique h'
    exact h2.alike

/-- **C102**, ND kernels: the correlation of a linear combination of rasters is the combination of the correlations. -/
theorem C102_kernel_signal [CommSemiring α] {a b : α} {k : Kernel α} {x y z : Raster α} (hx : x.shape = z.shape)
    (hy : y.shape = z.shape) (hd : IsCombination a b x.data y.data z.data) {ex ey ez : Position → Res α}
    (he : ∀ p, Together (fun u v w => w = a * u + b * v) (ex p) (ey p) (ez p)) {ox oy oz : List α}
    (ho : IsCombination a b ox oy oz) {rx ry rz : Res (List α)} (h1 : k.Correlates x ex ox rx) (h2 : k.Correlates y ey oy ry)
    (h3 : k.Correlates z ez oz rz) : Together (IsCombination a b) rx ry rz := by
  obtain ⟨rx', ry', h4, h5, h6⟩ := Kernel.triple (respects_signal a b) (triple_same k.values) rfl rfl (triple_combination.2 hd)
    hx.symm hy.symm he (triple_combination.2 ho) h3
  cases h1.unique h4
  cases h2.unique h5
  rw [triple_eq] at h6
  exact h6

/-- **C102**: the same for linear combinations of kernels. -/
theorem C102_kernel_weights [CommSemiring α] {a b : α} {k k' k'' : Kernel α} (hw : k.window = k''.window)
    (hw' : k'.window = k''.window) (hk : IsCombination a b k.values k'.values k''.values) {x : Raster α}
    {e : Position → Res α} {o o' o'' : List α} (ho : IsCombination a b o o' o'') {r r' r'' : Res (List α)}
    (h1 : k.Correlates x e o r) (h2 : k'.Correlates x e o' r') (h3 : k''.Correlates x e o'' r'') :
    Together (IsCombination a b) r r' r'' := by
  obtain ⟨s, s', h4, h5, h6⟩ := Kernel.triple (respects_weights a b) (triple_combination.2 hk) hw.symm hw'.symm
    (triple_same x.data) rfl rfl (ex := e) (ey := e) (ez := e) (fun p => by
      cases h : e p with
      | error f => exact .inl ⟨f, rfl, rfl, rfl⟩
      | ok u => exact .inr ⟨u, u, u, rfl, rfl, rfl, rfl, rfl⟩) (triple_combination.2 ho) h3
  cases h1.unique h4
  cases h2.unique h5
  rw [triple_eq] at h6
  exact h6

/-- **C102**: the outcome (termination, error, undefined behavior, or success) does not depend on the values. -/
theorem C102_kernel_outcome [Zero α] [Add α] [Mul α] [Zero β] [Add β] [Mul β] {k : Kernel α} {k' : Kernel β}
    (hv : k.values.length = k'.values.length) (hw : k.window = k'.window) {x : Raster α} {x' : Raster β} (hs : x.shape = x'.shape)
    (hx : x.data.length = x'.data.length) {e : Position → Res α} {e' : Position → Res β}
    (he : ∀ p, Alike (fun _ _ => True) (e p) (e' p)) {out : List α} {out' : List β} (ho : out.length = out'.length) :
    ((∃ r, k.Correlates x e out r) ↔ ∃ r', k'.Correlates x' e' out' r') ∧
    ∀ r r', k.Correlates x e out r → k'.Correlates x' e' out' r' → Alike (fun o o' => o.length = o'.length) r r' := by
  have ht : ∀ {l : List α} {l' : List β}, l.length = l'.length → List.Forall₂ (fun _ _ => True) l l' := by
    intro l l' h
    exact List.forall₂_iff_get.2 ⟨h, fun _ _ _ => trivial⟩
  obtain ⟨h1, h2⟩ := C102_kernel_related (W := fun _ _ => True) (I := fun _ _ => True) (S := fun _ _ => True)
    ⟨trivial, trivial, fun _ _ _ => trivial⟩ (ht hv) hw hs (ht hx) he (ht ho)
  refine ⟨h1, fun r r' h h' => ?_⟩
  rcases h2 r r' h h' with h | ⟨a, b, e1, e2, h3⟩
  · exact .inl h
  · exact .inr ⟨a, b, e1, e2, h3.length_eq⟩

/-- **C102**: correlation commutes with ring homomorphisms, e.g. with the conversion of integers to rationals, or modulo 2^64. -/
theorem C102_kernel_map [Semiring α] [Semiring β] (f : α →+* β) {k : Kernel α} {x : Raster α} {e : Position → Res α} {out : List α}
    {r : Res (List α)} (h : k.Correlates x e out r) :
    Correlates ⟨k.values.map f, k.window⟩ ⟨x.shape, x.data.map f⟩ (fun p => (e p).map f) (out.map f) (r.map (List.map f)) := by
  have hr : Respects (fun a b => f a = b) (fun a b => f a = b) (fun a b => f a = b) :=
    ⟨map_zero f, map_zero f, by rintro _ _ _ _ _ _ rfl rfl rfl; rw [map_add, map_mul]⟩
  obtain ⟨r', h1, h2⟩ := correlates_rel (k' := ⟨k.values.map f, k.window⟩) (x' := ⟨x.shape, x.data.map f⟩)
    (e' := fun p => (e p).map f) hr (forall₂_map_right _ (fun _ => rfl) _) rfl rfl (forall₂_map_right _ (fun _ => rfl) _)
    (fun p => by
      cases h : e p with
      | error f => exact .error
      | ok u => exact .ok rfl) (forall₂_map_right (P := fun a b => f a = b) _ (fun _ => rfl) _) h
  have : r' = r.map (List.map f) := by
    cases h2 with
    | error => rfl
    | ok h2 =>
      congr 1
      clear h h1
      induction h2 with
      | nil => rfl
      | cons h _ ih => rw [List.map_cons, ih, h]
  exact this ▸ h1

/-- **C102**: the real part of the correlation of a complex raster by a real kernel is the correlation of the real part, and the
same for the imaginary part. -/
theorem C102_kernel_parts {k : Kernel ℝ} {x : Raster ℂ} {e : Position → Res ℂ} {out : List ℂ} {r : Res (List ℂ)}
    (h : Correlates ⟨k.values.map Complex.ofReal, k.window⟩ x e out r) :
    k.Correlates ⟨x.shape, x.data.map Complex.re⟩ (fun p => (e p).map Complex.re) (out.map Complex.re)
      (r.map (List.map Complex.re)) ∧
    k.Correlates ⟨x.shape, x.data.map Complex.im⟩ (fun p => (e p).map Complex.im) (out.map Complex.im)
      (r.map (List.map Complex.im)) := by
  have key : ∀ f : ℂ → ℝ, f 0 = 0 → (∀ (s : ℂ) (w : ℝ) (z : ℂ), f (s + w * z) = f s + w * f z) →
      k.Correlates ⟨x.shape, x.data.map f⟩ (fun p => (e p).map f) (out.map f) (r.map (List.map f)) := by
    intro f h0 hf
    have hr : Respects (fun (a : ℂ) (b : ℝ) => a = b) (fun a b => f a = b) (fun a b => f a = b) :=
      ⟨h0, h0, by rintro _ _ _ _ _ _ rfl rfl rfl; rw [hf]⟩
    obtain ⟨r', h1, h2⟩ := correlates_rel (k' := k) (x' := ⟨x.shape, x.data.map f⟩)
      (e' := fun p => (e p).map f) hr (forall₂_map_right (P := fun (b : ℝ) (a : ℂ) => a = b) _ (fun _ => rfl) _).flip rfl rfl
      (forall₂_map_right _ (fun _ => rfl) _)
      (fun p => by
        cases h : e p with
        | error f => exact .error
        | ok u => exact .ok rfl) (forall₂_map_right (P := fun a b => f a = b) _ (fun _ => rfl) _) h
    have : r' = r.map (List.map f) := by
      cases h2 with
      | error => rfl
      | ok h2 =>
        congr 1
        clear h h1
        induction h2 with
        | nil => rfl
        | cons h _ ih => rw [List.map_cons, ih, h]
    exact this ▸ h1
  exact ⟨key Complex.re rfl (by simp), key Complex.im rfl (by simp)⟩

/-- **C102**: with non-negative weights, larger values yield a larger result.  The sum of the value type is monotonic, and so is
the product by non-negative values: this is the case of rational and of floating point numbers. -/
theorem C102_kernel_monotonic [Preorder α] [Zero α] [Add α] [Mul α] (hadd : ∀ a b c d : α, a ≤ b → c ≤ d → a + c ≤ b + d)
    (hmul : ∀ w a b : α, 0 ≤ w → a ≤ b → w * a ≤ w * b) {k : Kernel α} (hk : ∀ w ∈ k.values, 0 ≤ w) {x y : Raster α}
    (hs : x.shape = y.shape) (hd : List.Forall₂ (· ≤ ·) x.data y.data) {ex ey : Position → Res α}
    (he : ∀ p, Alike (· ≤ ·) (ex p) (ey p)) {ox oy : List α} (ho : List.Forall₂ (· ≤ ·) ox oy) {rx ry : Res (List α)}
    (h1 : k.Correlates x ex ox rx) (h2 : k.Correlates y ey oy ry) : Alike (List.Forall₂ (· ≤ ·)) rx ry := by
  refine (C102_kernel_related (W := fun w w' => 0 ≤ w ∧ w = w') (I := (· ≤ ·)) (S := (· ≤ ·)) ⟨le_rfl, le_rfl, ?_⟩ ?_ rfl hs hd he
    ho).2 rx ry h1 h2
  · rintro s s' w _ u u' h ⟨h0, rfl⟩ hu
    exact hadd _ _ _ _ h (hmul _ _ _ h0 hu)
  · exact List.forall₂_iff_get.2 ⟨rfl, fun i h _ => ⟨hk _ (List.get_mem _ _), rfl⟩⟩

theorem rounded_add_mono {p : Nat} (hp : 1 ≤ p) (emin : Int) {a b c d : Fl (Binary.rounding p hp emin)} (h : a ≤ b) (h' : c ≤ d) :
    a + c ≤ b + d := by
  have h1 : a.val ≤ b.val := h
  have h2 : c.val ≤ d.val := h'
  have h3 : (a + c).val ≤ (b + d).val := by
    rw [Fl.val_add, Fl.val_add]
    exact Binary.fl_mono hp emin (add_le_add h1 h2)
  exact h3

theorem rounded_mul_mono {p : Nat} (hp : 1 ≤ p) (emin : Int) {w a b : Fl (Binary.rounding p hp emin)} (h : 0 ≤ w) (h' : a ≤ b) :
    w * a ≤ w * b := by
  have h1 : 0 ≤ w.val := h
  have h2 : a.val ≤ b.val := h'
  have h3 : (w * a).val ≤ (w * b).val := by
    rw [Fl.val_mul, Fl.val_mul]
    exact Binary.fl_mono hp emin (mul_le_mul_of_nonneg_left h2 h1)
  exact h3

/-- **C102**: in floating point arithmetic, rounding preserves the order. -/
theorem C102_kernel_monotonic_rounded {p : Nat} (hp : 1 ≤ p) (emin : Int) {k : Kernel (Fl (Binary.rounding p hp emin))}
    (hk : ∀ w ∈ k.values, 0 ≤ w) {x y : Raster (Fl (Binary.rounding p hp emin))} (hs : x.shape = y.shape)
    (hd : List.Forall₂ (· ≤ ·) x.data y.data) {ex ey : Position → Res (Fl (Binary.rounding p hp emin))}
    (he : ∀ p, Alike (· ≤ ·) (ex p) (ey p)) {ox oy : List (Fl (Binary.rounding p hp emin))} (ho : List.Forall₂ (· ≤ ·) ox oy)
    {rx ry : Res (List (Fl (Binary.rounding p hp emin)))} (h1 : k.Correlates x ex ox rx) (h2 : k.Correlates y ey oy ry) :
    Alike (List.Forall₂ (· ≤ ·)) rx ry :=
  C102_kernel_monotonic (fun _ _ _ _ => rounded_add_mono hp emin) (fun _ _ _ => rounded_mul_mono hp emin) hk hs hd he ho h1 h2

/-- **C102**: in floating point arithmetic, the result for the opposite raster is the opposite. -/
theorem C102_kernel_opposite_rounded {p : Nat} (hp : 1 ≤ p) (emin : Int) {k : Kernel (Fl (Binary.rounding p hp emin))}
    {x y : Raster (Fl (Binary.rounding p hp emin))} (hs : x.shape = y.shape)
    (hd : List.Forall₂ (fun u v => v.val = -u.val) x.data y.data) {ex ey : Position → Res (Fl (Binary.rounding p hp emin))}
    (he : ∀ p, Alike (fun u v => v.val = -u.val) (ex p) (ey p)) {ox oy : List (Fl (Binary.rounding p hp emin))}
    (ho : List.Forall₂ (fun u v => v.val = -u.val) ox oy) {rx ry : Res (List (Fl (Binary.rounding p hp emin)))}
    (h1 : k.Correlates x ex ox rx) (h2 : k.Correlates y ey oy ry) : Alike (List.Forall₂ fun u v => v.val = -u.val) rx ry := by
  refine (C102_kernel_related (W := fun w w' => w = w') ⟨by rw [Fl.val_zero, neg_zero], by rw [Fl.val_zero, neg_zero], ?_⟩ ?_ rfl hs
    hd he ho).2 rx ry h1 h2
  · rintro s s' w _ u u' h rfl hu
    have hfl : ∀ z : ℚ, (Binary.rounding p hp emin).fl (-z) = -(Binary.rounding p hp emin).fl z := Binary.fl_neg p emin
    rw [Fl.val_add, Fl.val_mul, h, hu, Fl.val_add, Fl.val_mul, mul_neg, hfl, ← neg_add, hfl]
  · exact List.forall₂_iff_get.2 ⟨rfl, fun i h _ => rfl⟩

end Kernel

/-! ## Extrapolation -/

theorem get_together {P : α → α → α → Prop} {x y z : Raster α} (hx : x.shape = z.shape) (hy : y.shape = z.shape)
    (hd : Triple (fun c (p : α × α) => P p.1 p.2 c) x.data y.data z.data) (p : Position) :
    Together P (x.get p) (y.get p) (z.get p) := by
  have h1 := RelRes.readAt hd.2 (index z.shape p)
  have h2 := RelRes.readAt (forall₂_fst hd.1) (index z.shape p)
  have h3 := RelRes.readAt (forall₂_snd hd.1) (index z.shape p)
  unfold Raster.get
  rw [hx, hy]
  generalize readAt (x.data.zip y.data) (index z.shape p) = q at h1 h2 h3
  cases q with
  | error e =>
    generalize readAt x.data (index z.shape p) = u at h2
    generalize readAt y.data (index z.shape p) = v at h3
    generalize readAt z.data (index z.shape p) = w at h1
    cases h1; cases h2; cases h3
    exact .inl ⟨e, rfl, rfl, rfl⟩
  | ok q =>
    generalize readAt x.data (index z.shape p) = u at h2
    generalize readAt y.data (index z.shape p) = v at h3
    generalize readAt z.data (index z.shape p) = w at h1
    cases h1 with
    | ok h1 =>
      cases h2 with
      | ok h2 =>
        cases h3 with
        | ok h3 =>
          subst h2
          subst h3
          exact .inr ⟨_, _, _, rfl, rfl, rfl, h1⟩

/-- **C102**: extrapolators of a linear combination of rasters. -/
theorem C102_extrapolation [CommSemiring α] {a b : α} {x y z : Raster α} (hx : x.shape = z.shape) (hy : y.shape = z.shape)
    (hd : IsCombination a b x.data y.data z.data) (p : Position) :
    (∀ c d, Together (fun u v w => w = a * u + b * v) (constantAt c x p) (constantAt d y p) (constantAt (a * c + b * d) z p)) ∧
    Together (fun u v w => w = a * u + b * v) (nearestAt x p) (nearestAt y p) (nearestAt z p) ∧
    Together (fun u v w => w = a * u + b * v) (periodicAt x p) (periodicAt y p) (periodicAt z p) := by
  have hg := fun q => get_together (P := fun u v w => w = a * u + b * v) hx hy (triple_combination.2 hd) q
  refine ⟨fun c d => ?_, ?_, ?_⟩
  · unfold constantAt
    rw [hx, hy]
    split
    · exact hg p
    · exact .inr ⟨c, d, _, rfl, rfl, rfl, rfl⟩
  · unfold nearestAt
    rw [hx, hy]
    exact hg _
  · unfold periodicAt
    rw [hx, hy]
    cases periodicPosition p z.shape with
    | error e => exact .inl ⟨e, rfl, rfl, rfl⟩
    | ok q => exact hg q

namespace Kernel

variable [CommSemiring α]

theorem combination_length {a b : α} {x y z : List α} (h : IsCombination a b x y z) : z.length = x.length := by
  rw [h.2, combination, List.length_zipWith, ← h.1, min_self]

theorem isCombination_zeros (a b : α) (n : Nat) : IsCombination a b (List.replicate n 0) (List.replicate n 0) (List.replicate n 0) := by
  refine ⟨rfl, ?_⟩
  unfold combination
  induction n with
  | zero => rfl
  | succ n ih => rw [List.replicate_succ, List.zipWith_cons_cons, ← ih]; simp

theorem superposition {a b : α} {k : Kernel α} {x y z : Raster α} (ho : OriginInside k) (hw : WindowFits k z.shape)
    (hx : x.shape = z.shape) (hy : y.shape = z.shape) (hc : IsCombination a b x.data y.data z.data) {n : Nat}
    {ex ey ez : Position → Res α} {Fx Fy Fz : Position → α} (sx : Suitable k x ex Fx (List.replicate n 0))
    (sy : Suitable k y ey Fy (List.replicate n 0)) (sz : Suitable k z ez Fz (List.replicate n 0))
    (he : ∀ p, Together (fun u v w => w = a * u + b * v) (ex p) (ey p) (ez p)) :
    ∃ ox oy, Returns k x ex (List.replicate n 0) ox ∧ Returns k y ey (List.replicate n 0) oy ∧ ox.length = oy.length ∧
      Returns k z ez (List.replicate n 0) (combination a b ox oy) := by
  obtain ⟨ox, h1, _⟩ := C45_edges_partial sx ho (hx ▸ hw)
  obtain ⟨oy, h2, _⟩ := C45_edges_partial sy ho (hy ▸ hw)
  obtain ⟨oz, h3, _⟩ := C45_edges_partial sz ho hw
  have h := C102_kernel_signal hx hy hc he (isCombination_zeros a b n) ((h1 _).2 rfl) ((h2 _).2 rfl) ((h3 _).2 rfl)
  rcases h with ⟨e, h, _⟩ | ⟨u, v, w, e1, e2, e3, h⟩
  · cases h
  · cases e1; cases e2; cases e3
    exact ⟨ox, oy, h1, h2, h.1, h.2 ▸ h3⟩

/-- **C102**: superposition.  Whatever the extrapolation method, `k * extrapolate(a * x + b * y)` is
`a * (k * extrapolate(x)) + b * (k * extrapolate(y))`: the three correlations have one outcome, and these are successes. -/
theorem C102_superposition (a b c d : α) {k : Kernel α} {x y z : Raster α} (dim : z.shape ≠ []) (pos : Pos z.shape)
    (hfl : k.window.front.length = z.shape.length) (hle : List.Forall₂ (· ≤ ·) k.window.front k.window.back)
    (hv : (k.values.length : Int) = pixelCount k.window.shape) (ho : OriginInside k) (hw : WindowFits k z.shape)
    (hx : x.shape = z.shape) (hy : y.shape = z.shape) (hc : IsCombination a b x.data y.data z.data) {n : Nat}
    (hd : (x.data.length : Int) = pixelCount z.shape) (hn : (n : Int) = pixelCount z.shape) :
    (∃ ox oy, Returns k x (constantAt c x) (List.replicate n 0) ox ∧ Returns k y (constantAt d y) (List.replicate n 0) oy ∧
      ox.length = oy.length ∧ Returns k z (constantAt (a * c + b * d) z) (List.replicate n 0) (combination a b ox oy)) ∧
    (∃ ox oy, Returns k x (nearestAt x) (List.replicate n 0) ox ∧ Returns k y (nearestAt y) (List.replicate n 0) oy ∧
      ox.length = oy.length ∧ Returns k z (nearestAt z) (List.replicate n 0) (combination a b ox oy)) ∧
    ∃ ox oy, Returns k x (periodicAt x) (List.replicate n 0) ox ∧ Returns k y (periodicAt y) (List.replicate n 0) oy ∧
      ox.length = oy.length ∧ Returns k z (periodicAt z) (List.replicate n 0) (combination a b ox oy) := by
  have hl : ((List.replicate n (0 : α)).length : Int) = pixelCount z.shape := by rw [List.length_replicate]; exact hn
  have hdy : (y.data.length : Int) = pixelCount z.shape := by rw [← hc.1]; exact hd
  have hdz : (z.data.length : Int) = pixelCount z.shape := by rw [combination_length hc]; exact hd
  have sx := fun c => C45_extrapolation_methods (k := k) (input := x) (out := List.replicate n 0) c (hx ▸ dim) (hx ▸ pos) (hx ▸ hfl) hle
    hv (hx ▸ hd) (hx ▸ hl)
  have sy := fun c => C45_extrapolation_methods (k := k) (input := y) (out := List.replicate n 0) c (hy ▸ dim) (hy ▸ pos) (hy ▸ hfl) hle
    hv (hy ▸ hdy) (hy ▸ hl)
  have sz := fun c => C45_extrapolation_methods (k := k) (input := z) (out := List.replicate n 0) c dim pos hfl hle hv hdz hl
  have he := C102_extrapolation hx hy hc
  exact ⟨superposition ho hw hx hy hc (sx c).1 (sy d).1 (sz _).1 fun p => (he p).1 c d,
    superposition ho hw hx hy hc (sx c).2.1 (sy d).2.1 (sz c).2.1 fun p => (he p).2.1,
    superposition ho hw hx hy hc (sx c).2.2 (sy d).2.2 (sz c).2.2 fun p => (he p).2.2⟩

end Kernel

/-! ## Line kernels -/

namespace LineKernel

/-- **C102**, line kernels: linearity in the signal. -/
theorem C102_line_signal [CommSemiring α] {a b : α} {k : LineKernel α} {x y z : Int → Res α}
    (hd : ∀ i, Together (fun u v w => w = a * u + b * v) (x i) (y i) (z i)) {inn out : DataSamples} {ox oy oz : List α}
    (ho : IsCombination a b ox oy oz) {rx ry rz : Res (List α)} (h1 : k.Correlates x inn out ox rx)
    (h2 : k.Correlates y inn out oy ry) (h3 : k.Correlates z inn out oz rz) : Together (IsCombination a b) rx ry rz := by
  obtain ⟨rx', ry', h4, h5, h6⟩ := LineKernel.triple (respects_signal a b) (triple_same k.values) rfl rfl hd
    (triple_combination.2 ho) h3
  cases h1.unique h4
  cases h2.unique h5
  rw [triple_eq] at h6
  exact h6

/-- **C102**, line kernels: linearity in the kernel. -/
theorem C102_line_weights [CommSemiring α] {a b : α} {k k' k'' : LineKernel α} (hw : k.origin = k''.origin)
    (hw' : k'.origin = k''.origin) (hk : IsCombination a b k.values k'.values k''.values) {x : Int → Res α} {inn out : DataSamples}
    {o o' o'' : List α} (ho : IsCombination a b o o' o'') {r r' r'' : Res (List α)} (h1 : k.Correlates x inn out o r)
    (h2 : k'.Correlates x inn out o' r') (h3 : k''.Correlates x inn out o'' r'') : Together (IsCombination a b) r r' r'' := by
  obtain ⟨s, s', h4, h5, h6⟩ := LineKernel.triple (respects_weights a b) (triple_combination.2 hk) hw.symm hw'.symm
    (x := x) (y := x) (z := x) (fun p => by
      cases h : x p with
      | error f => exact .inl ⟨f, rfl, rfl, rfl⟩
      | ok u => exact .inr ⟨u, u, u, rfl, rfl, rfl, rfl, rfl⟩) (triple_combination.2 ho) h3
  cases h1.unique h4
  cases h2.unique h5
  rw [triple_eq] at h6
  exact h6

/-- **C102**, line kernels: with non-negative weights, larger values yield a larger result. -/
theorem C102_line_monotonic [Preorder α] [Zero α] [Add α] [Mul α] (hadd : ∀ a b c d : α, a ≤ b → c ≤ d → a + c ≤ b + d)
    (hmul : ∀ w a b : α, 0 ≤ w → a ≤ b → w * a ≤ w * b) {k : LineKernel α} (hk : ∀ w ∈ k.values, 0 ≤ w) {x y : Int → Res α}
    (hd : ∀ i, Alike (· ≤ ·) (x i) (y i)) {inn out : DataSamples} {ox oy : List α} (ho : List.Forall₂ (· ≤ ·) ox oy)
    {rx ry : Res (List α)} (h1 : k.Correlates x inn out ox rx) (h2 : k.Correlates y inn out oy ry) :
    Alike (List.Forall₂ (· ≤ ·)) rx ry := by
  obtain ⟨r, h3, h4⟩ := correlates_rel (W := fun w w' => 0 ≤ w ∧ w = w') (I := (· ≤ ·)) (S := (· ≤ ·)) ⟨le_rfl, le_rfl, by
    rintro s s' w _ u u' h ⟨h0, rfl⟩ hu
    exact hadd _ _ _ _ h (hmul _ _ _ h0 hu)⟩ (k' := k)
    (List.forall₂_iff_get.2 ⟨rfl, fun i h _ => ⟨hk _ (List.get_mem _ _), rfl⟩⟩) rfl (fun i => .of_alike (hd i)) ho h1
  cases h3.unique h2
  exact h4.alike

end LineKernel

/-! ## Separable kernels -/

namespace SeparableKernel

/-- **C102**, separable kernels: linearity in the signal. -/
theorem C102_separable_signal [CommSemiring α] {a b : α} {k : SeparableKernel α} {x y z : Raster α} (hx : x.shape = z.shape)
    (hy : y.shape = z.shape) (hd : IsCombination a b x.data y.data z.data) {rx ry rz : Res (Raster α)} (h1 : k.Correlates x rx)
    (h2 : k.Correlates y ry) (h3 : k.Correlates z rz) :
    Together (fun u v w => u.shape = w.shape ∧ v.shape = w.shape ∧ IsCombination a b u.data v.data w.data) rx ry rz := by
  obtain ⟨rx', ry', h4, h5, h6⟩ := SeparableKernel.triple (respects_signal a b) (triple_combination.2 hd) hx.symm hy.symm h3
  cases AlongSeq.unique h1 h4
  cases AlongSeq.unique h2 h5
  simpa only [triple_combination] using h6

/-- **C102**, separable kernels: with non-negative weights, larger values yield a larger result. -/
theorem C102_separable_monotonic [Preorder α] [Zero α] [Add α] [Mul α] (hadd : ∀ a b c d : α, a ≤ b → c ≤ d → a + c ≤ b + d)
    (hmul : ∀ w a b : α, 0 ≤ w → a ≤ b → w * a ≤ w * b) {k : SeparableKernel α}
    (hk : ∀ e ∈ k.kernels, ∀ w ∈ e.2.values, 0 ≤ w) {x y : Raster α} (hs : x.shape = y.shape)
    (hd : List.Forall₂ (· ≤ ·) x.data y.data) {rx ry : Res (Raster α)} (h1 : k.Correlates x rx) (h2 : k.Correlates y ry) :
    Alike (fun u v => u.shape = v.shape ∧ List.Forall₂ (· ≤ ·) u.data v.data) rx ry := by
  obtain ⟨r, h3, h4⟩ := alongSeq_rel (W := fun w w' => 0 ≤ w ∧ w = w') (S := (· ≤ ·)) ⟨le_rfl, le_rfl, by
    rintro s s' w _ u u' h ⟨h0, rfl⟩ hu
    exact hadd _ _ _ _ h (hmul _ _ _ h0 hu)⟩ (m' := k.kernels) (by
      refine List.forall₂_iff_get.2 ⟨rfl, fun i h _ => ⟨rfl, rfl, ?_⟩⟩
      exact List.forall₂_iff_get.2 ⟨rfl, fun j h' _ => ⟨hk _ (List.get_mem _ _) _ (List.get_mem _ _), rfl⟩⟩) h1
    (x' := y) ⟨hs, hd⟩
  cases AlongSeq.unique h3 h2
  exact h4.alike

end SeparableKernel

/-! ## Interpolation -/

section

variable {K : Type} [Field K] [LinearOrder K] [FloorRing K]

theorem together_bind {γ : Type} {P : α → α → α → Prop} {Q : γ → γ → γ → Prop} {x y z : Res α}
    (h : Together P x y z) {f g k : α → Res γ} (hf : ∀ u v w, P u v w → Together Q (f u) (g v) (k w)) :
    Together Q (x >>= f) (y >>= g) (z >>= k) := by
  rcases h with ⟨e, rfl, rfl, rfl⟩ | ⟨u, v, w, rfl, rfl, rfl, h⟩
  · exact .inl ⟨e, rfl, rfl, rfl⟩
  · exact hf u v w h

theorem linearRev_together {a b : K} {x y z : Position → Res K}
    (h : ∀ p, Together (fun u v w => w = a * u + b * v) (x p) (y p) (z p)) : ∀ (pos : List K) (indices : Position),
    Together (fun u v w => w = a * u + b * v) (linearRev x pos indices) (linearRev y pos indices) (linearRev z pos indices)
  | [], _ => .inl ⟨_, rfl, rfl, rfl⟩
  | [_], _ => together_bind (h _) fun u v w h1 => together_bind (h _) fun u' v' w' h2 =>
      .inr ⟨_, _, _, rfl, rfl, rfl, by rw [h1, h2]; unfold linearFormula; ring⟩
  | _ :: y' :: pos, _ => together_bind (linearRev_together h (y' :: pos) _) fun u v w h1 =>
      together_bind (linearRev_together h (y' :: pos) _) fun u' v' w' h2 =>
      .inr ⟨_, _, _, rfl, rfl, rfl, by rw [h1, h2]; unfold linearFormula; ring⟩

theorem cubicRev_together {a b : K} {x y z : Position → Res K}
    (h : ∀ p, Together (fun u v w => w = a * u + b * v) (x p) (y p) (z p)) : ∀ (pos : List K) (indices : Position),
    Together (fun u v w => w = a * u + b * v) (cubicRev x pos indices) (cubicRev y pos indices) (cubicRev z pos indices)
  | [], _ => .inl ⟨_, rfl, rfl, rfl⟩
  | [_], _ => together_bind (h _) fun u v w h1 => together_bind (h _) fun u' v' w' h2 => together_bind (h _) fun u v w h3 =>
      together_bind (h _) fun u' v' w' h4 =>
      .inr ⟨_, _, _, rfl, rfl, rfl, by rw [h1, h2, h3, h4]; unfold cubicFormula; ring⟩
  | _ :: y' :: pos, _ => together_bind (cubicRev_together h (y' :: pos) _) fun u v w h1 =>
      together_bind (cubicRev_together h (y' :: pos) _) fun u' v' w' h2 =>
      together_bind (cubicRev_together h (y' :: pos) _) fun u v w h3 =>
      together_bind (cubicRev_together h (y' :: pos) _) fun u' v' w' h4 =>
      .inr ⟨_, _, _, rfl, rfl, rfl, by rw [h1, h2, h3, h4]; unfold cubicFormula; ring⟩

/-- **C102**: interpolators of a linear combination of rasters or extrapolators, at all positions. -/
theorem C102_interpolation {a b : K} {x y z : Position → Res K}
    (h : ∀ p, Together (fun u v w => w = a * u + b * v) (x p) (y p) (z p)) (pos : List K) :
    Together (fun u v w => w = a * u + b * v) (nearestInterp x pos) (nearestInterp y pos) (nearestInterp z pos) ∧
    Together (fun u v w => w = a * u + b * v) (linearAt x pos) (linearAt y pos) (linearAt z pos) ∧
    Together (fun u v w => w = a * u + b * v) (cubicAt x pos) (cubicAt y pos) (cubicAt z pos) :=
  ⟨h _, linearRev_together h _ _, cubicRev_together h _ _⟩

theorem alike_bind {γ : Type} {P : α → α → Prop} {Q : γ → γ → Prop} {x y : Res α}
    (h : Alike P x y) {f g : α → Res γ} (hf : ∀ u v, P u v → Alike Q (f u) (g v)) : Alike Q (x >>= f) (y >>= g) := by
  rcases h with ⟨e, rfl, rfl⟩ | ⟨u, v, rfl, rfl, h⟩
  · exact .inl ⟨e, rfl, rfl⟩
  · exact hf u v h

theorem linearFormula_mono [IsStrictOrderedRing K] (x : K) {p p' n n' : K} (hp : p ≤ p') (hn : n ≤ n') :
    linearFormula (x - floorIndex x) p n ≤ linearFormula (x - floorIndex x) p' n' := by
  obtain ⟨h1, h2⟩ := floorIndex_bounds x
  have h3 : 0 ≤ x - floorIndex x := by linarith
  have h4 : 0 ≤ 1 - (x - floorIndex x) := by linarith
  have h5 := mul_le_mul_of_nonneg_left hp h3
  have h6 := mul_le_mul_of_nonneg_left hn h4
  unfold linearFormula
  linarith

theorem linearRev_alike [IsStrictOrderedRing K] {x y : Position → Res K} (h : ∀ p, Alike (· ≤ ·) (x p) (y p)) :
    ∀ (pos : List K) (indices : Position), Alike (· ≤ ·) (linearRev x pos indices) (linearRev y pos indices)
  | [], _ => .inl ⟨_, rfl, rfl⟩
  | [_], _ => alike_bind (h _) fun _ _ h1 => alike_bind (h _) fun _ _ h2 => .inr ⟨_, _, rfl, rfl, linearFormula_mono _ h1 h2⟩
  | _ :: y' :: pos, _ => alike_bind (linearRev_alike h (y' :: pos) _) fun _ _ h1 =>
      alike_bind (linearRev_alike h (y' :: pos) _) fun _ _ h2 => .inr ⟨_, _, rfl, rfl, linearFormula_mono _ h1 h2⟩

/-- **C102**: linear interpolation preserves the order: larger values yield a larger result, at all positions. -/
theorem C102_linear_monotonic [IsStrictOrderedRing K] {x y : Position → Res K} (h : ∀ p, Alike (· ≤ ·) (x p) (y p))
    (pos : List K) : Alike (· ≤ ·) (linearAt x pos) (linearAt y pos) := linearRev_alike h _ _

/-- Cubic interpolation does not preserve the order: its weights may be negative. -/
theorem C102_cubic_not_monotonic : ¬ ∀ (x y : Position → Res ℚ), (∀ p, Alike (· ≤ ·) (x p) (y p)) → ∀ pos,
    Alike (· ≤ ·) (cubicAt x pos) (cubicAt y pos) := by
  intro h
  have h1 := h (fun _ => .ok 0) (fun p => .ok (if p = [-1] then 1 else 0)) (fun p => .inr ⟨_, _, rfl, rfl, by
    dsimp only; split_ifs <;> norm_num⟩) [1 / 2]
  have e : floorIndex (1 / 2 : ℚ) = 0 := by decide +kernel
  have e1 : cubicAt (fun _ => .ok 0) [(1 / 2 : ℚ)] = .ok 0 := by
    simp only [cubicAt, List.reverse_cons, List.reverse_nil, List.nil_append, cubicRev, e, cubicFormula]
    norm_num [bind, Except.bind, pure, Except.pure]
  have e2 : cubicAt (fun p => .ok (if p = [-1] then 1 else 0)) [(1 / 2 : ℚ)] = .ok (-1 / 16) := by
    simp only [cubicAt, List.reverse_cons, List.reverse_nil, List.nil_append, cubicRev, e, cubicFormula]
    norm_num [bind, Except.bind, pure, Except.pure]
  rw [e1, e2] at h1
  rcases h1 with ⟨_, h1, _⟩ | ⟨u, v, h1, h2, h3⟩
  · cases h1
  · cases h1; cases h2
    norm_num at h3

end

/-! ## Median filter -/

namespace MedianFilter

theorem isNth_map {f : ℚ → ℚ} (hf : Monotone f) {l : List ℚ} {k : Nat} {m : ℚ} (h : IsNth l k m) : IsNth (l.map f) k (f m) := by
  refine ⟨le_trans ?_ h.1, lt_of_lt_of_le h.2 ?_⟩
  · rw [List.countP_map]
    refine List.countP_mono_left fun x _ hx => ?_
    simp only [Function.comp_apply, decide_eq_true_eq] at hx ⊢
    exact lt_of_not_ge fun h => absurd (hf h) (not_le.2 hx)
  · rw [List.countP_map]
    refine List.countP_mono_left fun x _ hx => ?_
    simp only [Function.comp_apply, decide_eq_true_eq] at hx ⊢
    exact hf hx

theorem isMedian_map {f : ℚ → ℚ} (hf : Monotone f) {l : List ℚ} {m : ℚ} (hl : l.length % 2 = 1) (h : IsMedian l m) :
    IsMedian (l.map f) (f m) := by
  rcases h with ⟨k, h1, h2⟩ | ⟨k, _, _, h1, _⟩
  · exact .inl ⟨k, by rw [List.length_map, h1], isNth_map hf h2⟩
  · omega

/-- **C102**, median filter: for windows of odd size, the filter commutes with all changes of contrast, i.e. with the maps which
preserve the order. -/
theorem C102_median_contrast {window : Box} {convert : ℚ → β} {zero : β} {convert' : ℚ → α} {zero' : α} {f : ℚ → ℚ}
    (hf : Monotone f) {x y : Position → Res ℚ} {F : Position → ℚ} {shape : Position} (hd : shape ≠ []) (hpos : Pos shape)
    (hsize : shape.prod < 2 ^ 63) (hfr : window.front.length = shape.length)
    (hle : List.Forall₂ (· ≤ ·) window.front window.back) (hx : ∀ q, q.length = shape.length → x q = .ok (F q))
    (hy : ∀ q, q.length = shape.length → y q = .ok (f (F q))) (hodd : window.size % 2 = 1) {rx : Res (Raster β)}
    {ry : Res (Raster α)} (h1 : Applies window convert zero x shape rx) (h2 : Applies window convert' zero' y shape ry) :
    ∃ ox oy, rx = .ok ox ∧ ry = .ok oy ∧ ∀ p, InShape shape p → ∃ m, ox.get p = .ok (convert m) ∧ oy.get p = .ok (convert' (f m)) := by
  obtain ⟨ox, h3, _, h4⟩ := C51_apply_partial (convert := convert) (zero := zero) hd hpos hsize hfr hle hx hodd
  obtain ⟨oy, h5, _, h6⟩ := C51_apply_partial (convert := convert') (zero := zero') (F := fun q => f (F q)) hd hpos hsize hfr hle hy
    hodd
  refine ⟨ox, oy, (h3 rx).1 h1, (h5 ry).1 h2, fun p hp => ?_⟩
  obtain ⟨m, h7, h8⟩ := h4 p hp
  obtain ⟨m', h9, h10⟩ := h6 p hp
  refine ⟨m, h7, ?_⟩
  rw [h9]
  have hmem : ∀ k, k ∈ enum window.front window.back ↔ InBox window.front window.back k := fun k => mem_enum hle.length_eq
  have hnd : (enum window.front window.back).Nodup := nodup_enum
  have h11 := h8 _ hnd hmem
  have h12 := h10 _ hnd hmem
  have h13 := isMedian_map hf (by
    rw [List.length_map]
    have hne : window.front ≠ [] := by
      intro e
      rw [e] at hfr
      exact hd (List.length_eq_zero_iff.1 hfr.symm)
    have hl := length_enum hle
    rw [Box.size, shapeSize_eq (Box.shape_ne_nil hle.length_eq hne), Box.shape, ← hl] at hodd
    omega) h11
  rw [List.map_map] at h13
  rw [isMedian_unique h12 h13]

end MedianFilter

/-! ## Examples -/

/-- `2 * x - 3 * y`, for rasters of shape (3, 2) and a kernel of shape (2, 2). -/
example : ∃ ox oy, Kernel.Returns (α := Int) ⟨[1, 2, 3, 4], ⟨[-1, 0], [0, 1]⟩⟩ ⟨[3, 2], [1, 2, 3, 4, 5, 6]⟩
      (nearestAt ⟨[3, 2], [1, 2, 3, 4, 5, 6]⟩) (List.replicate 6 0) ox ∧
    Kernel.Returns (α := Int) ⟨[1, 2, 3, 4], ⟨[-1, 0], [0, 1]⟩⟩ ⟨[3, 2], [0, 1, 0, 7, 1, 0]⟩
      (nearestAt ⟨[3, 2], [0, 1, 0, 7, 1, 0]⟩) (List.replicate 6 0) oy ∧ ox.length = oy.length ∧
    Kernel.Returns (α := Int) ⟨[1, 2, 3, 4], ⟨[-1, 0], [0, 1]⟩⟩ ⟨[3, 2], [2, 1, 6, -13, 7, 12]⟩
      (nearestAt ⟨[3, 2], [2, 1, 6, -13, 7, 12]⟩) (List.replicate 6 0) (combination 2 (-3) ox oy) :=
  (Kernel.C102_superposition (α := Int) 2 (-3) 0 0 (k := ⟨[1, 2, 3, 4], ⟨[-1, 0], [0, 1]⟩⟩) (x := ⟨[3, 2], [1, 2, 3, 4, 5, 6]⟩)
    (y := ⟨[3, 2], [0, 1, 0, 7, 1, 0]⟩) (z := ⟨[3, 2], [2, 1, 6, -13, 7, 12]⟩) (n := 6) (by simp) (by simp [Pos]) rfl (by simp)
    (by decide) (by constructor <;> simp) (by
      intro i hi
      match i, hi with
      | 0, _ => decide
      | 1, _ => decide) rfl rfl ⟨rfl, by decide⟩ (by decide) (by decide)).2.1

/-- Executions of a kernel on a raster of integers, for the examples below. -/
theorem exampleRun (values data : List Int) (hv : values.length = 4) (hd : data.length = 6) :
    ∃ o, Kernel.Correlates (α := Int) ⟨values, ⟨[-1, 0], [0, 1]⟩⟩ ⟨[3, 2], data⟩ (constantAt 0 ⟨[3, 2], data⟩)
      (List.replicate 6 0) (.ok o) := by
  obtain ⟨o, h, _⟩ := Kernel.C45_edges_partial (α := Int) (k := ⟨values, ⟨[-1, 0], [0, 1]⟩⟩) (input := ⟨[3, 2], data⟩)
    (Kernel.C45_extrapolation_methods (k := ⟨values, ⟨[-1, 0], [0, 1]⟩⟩) 0 (by simp) (by simp [Pos]) rfl (by simp)
      (by rw [hv]; rfl) (by rw [hd]; rfl) (out := List.replicate 6 0) rfl).1 (by constructor <;> simp) (by
      intro i hi
      match i, hi with
      | 0, _ => exact (by decide : (0 : Int) - -1 ≤ 3)
      | 1, _ => exact (by decide : (1 : Int) - 0 ≤ 2))
  exact ⟨o, (h _).2 rfl⟩

/-- Linearity in the kernel: `[5, 5, 5, 5] = [1, 2, 3, 4] + [4, 3, 2, 1]`. -/
example : ∃ o o' o'', IsCombination (1 : Int) 1 o o' o'' ∧
    Kernel.Correlates (α := Int) ⟨[5, 5, 5, 5], ⟨[-1, 0], [0, 1]⟩⟩ ⟨[3, 2], [1, 2, 3, 4, 5, 6]⟩
      (constantAt 0 ⟨[3, 2], [1, 2, 3, 4, 5, 6]⟩) (List.replicate 6 0) (.ok o'') := by
  obtain ⟨o, h1⟩ := exampleRun [1, 2, 3, 4] [1, 2, 3, 4, 5, 6] rfl rfl
  obtain ⟨o', h2⟩ := exampleRun [4, 3, 2, 1] [1, 2, 3, 4, 5, 6] rfl rfl
  obtain ⟨o'', h3⟩ := exampleRun [5, 5, 5, 5] [1, 2, 3, 4, 5, 6] rfl rfl
  have h := Kernel.C102_kernel_weights (a := 1) (b := 1) (k := ⟨[1, 2, 3, 4], ⟨[-1, 0], [0, 1]⟩⟩)
    (k' := ⟨[4, 3, 2, 1], ⟨[-1, 0], [0, 1]⟩⟩) (k'' := ⟨[5, 5, 5, 5], ⟨[-1, 0], [0, 1]⟩⟩) rfl rfl ⟨rfl, by decide⟩ (Kernel.isCombination_zeros 1 1 6) h1 h2 h3
  rcases h with ⟨_, h, _⟩ | ⟨u, v, w, e1, e2, e3, h⟩
  · cases h
  · cases e1; cases e2; cases e3
    exact ⟨o, o', o'', h, h3⟩

/-- Order: all values of the second raster are larger. -/
example : ∃ o o', List.Forall₂ (· ≤ ·) o o' ∧
    Kernel.Correlates (α := Int) ⟨[1, 2, 3, 4], ⟨[-1, 0], [0, 1]⟩⟩ ⟨[3, 2], [1, 3, 3, 5, 5, 7]⟩
      (constantAt 0 ⟨[3, 2], [1, 3, 3, 5, 5, 7]⟩) (List.replicate 6 0) (.ok o') := by
  obtain ⟨o, h1⟩ := exampleRun [1, 2, 3, 4] [1, 2, 3, 4, 5, 6] rfl rfl
  obtain ⟨o', h2⟩ := exampleRun [1, 2, 3, 4] [1, 3, 3, 5, 5, 7] rfl rfl
  have hd : List.Forall₂ (· ≤ ·) [1, 2, 3, 4, 5, (6 : Int)] [1, 3, 3, 5, 5, 7] := by decide
  have h := Kernel.C102_kernel_monotonic (fun _ _ _ _ => add_le_add) (fun _ _ _ h h' => mul_le_mul_of_nonneg_left h' h)
    (x := ⟨[3, 2], [1, 2, 3, 4, 5, 6]⟩) (y := ⟨[3, 2], [1, 3, 3, 5, 5, 7]⟩) (by decide) rfl hd (fun p => by
      unfold constantAt
      split
      · exact (RelRes.readAt hd _).alike
      · exact .inr ⟨_, _, rfl, rfl, le_rfl⟩) (by decide) h1 h2
  rcases h with ⟨_, h, _⟩ | ⟨u, v, e1, e2, h⟩
  · cases h
  · cases e1; cases e2
    exact ⟨o, o', h, h2⟩

/-- Conversion of integers to rational numbers. -/
example : ∃ o : List Int, Kernel.Correlates (α := ℚ) ⟨[1, 2, 3, 4].map (Int.castRingHom ℚ), ⟨[-1, 0], [0, 1]⟩⟩
      ⟨[3, 2], [1, 2, 3, 4, 5, 6].map (Int.castRingHom ℚ)⟩
      (fun p => (constantAt 0 ⟨[3, 2], [1, 2, 3, 4, 5, 6]⟩ p).map (Int.castRingHom ℚ))
      ((List.replicate 6 0).map (Int.castRingHom ℚ)) (.ok (o.map (Int.castRingHom ℚ))) := by
  obtain ⟨o, h⟩ := exampleRun [1, 2, 3, 4] [1, 2, 3, 4, 5, 6] rfl rfl
  exact ⟨o, Kernel.C102_kernel_map (Int.castRingHom ℚ) h⟩

/-- The outcome for other values is a success, too. -/
example (e : Fail) (data : List Int) (hd : data.length = 6) : ¬ Kernel.Correlates (α := Int) ⟨[0, -1, 8, 4], ⟨[-1, 0], [0, 1]⟩⟩
    ⟨[3, 2], data⟩ (constantAt 9 ⟨[3, 2], data⟩) (List.replicate 6 5) (.error e) := by
  intro h'
  obtain ⟨o, h⟩ := exampleRun [1, 2, 3, 4] (List.replicate 6 3) rfl rfl
  have h1 := (Kernel.C102_kernel_outcome (k := ⟨[1, 2, 3, 4], ⟨[-1, 0], [0, 1]⟩⟩) (k' := ⟨[0, -1, 8, 4], ⟨[-1, 0], [0, 1]⟩⟩)
    (x := ⟨[3, 2], List.replicate 6 3⟩) (x' := ⟨[3, 2], data⟩) rfl rfl rfl (by rw [hd, List.length_replicate]) (fun p => by
    unfold constantAt
    split
    · exact (RelRes.readAt (List.forall₂_iff_get.2 ⟨by rw [hd, List.length_replicate], fun _ _ _ => trivial⟩) _).alike
    · exact .inr ⟨_, _, rfl, rfl, trivial⟩) (by rw [List.length_replicate, List.length_replicate])).2 _ _ h h'
  rcases h1 with ⟨_, h1, _⟩ | ⟨u, v, _, e2, _⟩
  · cases h1
  · cases e2

/-- Hence, there are executions for all value types. -/
theorem exampleRun' {γ : Type} [Zero γ] [Add γ] [Mul γ] (values data : List γ) (hv : values.length = 4) (hd : data.length = 6) :
    ∃ o, o.length = 6 ∧ Kernel.Correlates (α := γ) ⟨values, ⟨[-1, 0], [0, 1]⟩⟩ ⟨[3, 2], data⟩ (constantAt 0 ⟨[3, 2], data⟩)
      (List.replicate 6 0) (.ok o) := by
  obtain ⟨o, h1, h2, _⟩ := Kernel.C45_edges_partial (α := Int) (k := ⟨[1, 2, 3, 4], ⟨[-1, 0], [0, 1]⟩⟩)
    (input := ⟨[3, 2], List.replicate 6 3⟩)
    (Kernel.C45_extrapolation_methods (k := ⟨[1, 2, 3, 4], ⟨[-1, 0], [0, 1]⟩⟩) 0 (by simp) (by simp [Pos]) rfl (by simp)
      rfl rfl (out := List.replicate 6 0) rfl).1 (by constructor <;> simp) (by
      intro i hi
      match i, hi with
      | 0, _ => exact (by decide : (0 : Int) - -1 ≤ 3)
      | 1, _ => exact (by decide : (1 : Int) - 0 ≤ 2))
  have h := (h1 _).2 rfl
  obtain ⟨h3, h4⟩ := Kernel.C102_kernel_outcome (α := Int) (k := ⟨[1, 2, 3, 4], ⟨[-1, 0], [0, 1]⟩⟩) (k' := ⟨values, ⟨[-1, 0], [0, 1]⟩⟩)
    (x := ⟨[3, 2], List.replicate 6 3⟩) (x' := ⟨[3, 2], data⟩) (out' := List.replicate 6 0) hv.symm rfl rfl
    (by rw [hd, List.length_replicate]) (e := constantAt 0 ⟨[3, 2], List.replicate 6 3⟩) (out := List.replicate 6 0) (e' := constantAt 0 ⟨[3, 2], data⟩) (fun p => by
      unfold constantAt
      split
      · exact (RelRes.readAt (List.forall₂_iff_get.2 ⟨by rw [hd, List.length_replicate], fun _ _ _ => trivial⟩) _).alike
      · exact .inr ⟨_, _, rfl, rfl, trivial⟩) (by rw [List.length_replicate, List.length_replicate])
  obtain ⟨r, h5⟩ := h3.1 ⟨_, h⟩
  rcases h4 _ _ h h5 with ⟨_, h6, _⟩ | ⟨u, v, e1, rfl, h6⟩
  · cases h6
  · cases e1
    exact ⟨v, by rw [← h6, h2, List.length_replicate], h5⟩

/-- Complex values and their parts. -/
example (data : List ℂ) (hd : data.length = 6) : ∃ o : List ℂ, o.length = 6 ∧
    Kernel.Correlates (α := ℝ) ⟨[1, 2, 3, 4], ⟨[-1, 0], [0, 1]⟩⟩ ⟨[3, 2], data.map Complex.re⟩
      (fun p => (constantAt 0 ⟨[3, 2], data⟩ p).map Complex.re) ((List.replicate 6 0).map Complex.re) (.ok (o.map Complex.re)) := by
  obtain ⟨o, h1, h2⟩ := exampleRun' ([1, 2, 3, 4].map Complex.ofReal) data rfl hd
  exact ⟨o, h1, (Kernel.C102_kernel_parts (k := ⟨[1, 2, 3, 4], ⟨[-1, 0], [0, 1]⟩⟩) h2).1⟩

/-- Opposite values in double precision. -/
example : ∃ ox oy : List (Fl (Binary.rounding 53 (by norm_num) (-1074))), ox.length = 6 ∧
    List.Forall₂ (fun u v => v.val = -u.val) ox oy := by
  obtain ⟨ox, h1, h2⟩ := exampleRun' (γ := Fl (Binary.rounding 53 (by norm_num) (-1074))) (List.replicate 4 (.of (1 / 8)))
    (List.replicate 6 (.of 3)) rfl rfl
  obtain ⟨oy, _, h3⟩ := exampleRun' (γ := Fl (Binary.rounding 53 (by norm_num) (-1074))) (List.replicate 4 (.of (1 / 8)))
    (List.replicate 6 (.of (-3))) rfl rfl
  have hd : ∀ n (a b : Fl (Binary.rounding 53 (by norm_num) (-1074))), b.val = -a.val →
      List.Forall₂ (fun u v => v.val = -u.val) (List.replicate n a) (List.replicate n b) := by
    intro n a b h
    refine List.forall₂_iff_get.2 ⟨by rw [List.length_replicate, List.length_replicate], fun i h1 h2 => ?_⟩
    rw [List.get_eq_getElem, List.get_eq_getElem, List.getElem_replicate, List.getElem_replicate, h]
  have h0 : (0 : Fl (Binary.rounding 53 (by norm_num) (-1074))).val = -(0 : Fl (Binary.rounding 53 (by norm_num) (-1074))).val := by
    rw [Fl.val_zero, neg_zero]
  have h4 := Kernel.C102_kernel_opposite_rounded (by norm_num) (-1074) (x := ⟨[3, 2], List.replicate 6 (.of 3)⟩)
    (y := ⟨[3, 2], List.replicate 6 (.of (-3))⟩) rfl (hd 6 _ _ rfl) (fun p => by
      unfold constantAt
      split
      · exact (RelRes.readAt (hd 6 _ _ rfl) _).alike
      · exact .inr ⟨_, _, rfl, rfl, h0⟩) (hd 6 _ _ h0) h2 h3
  rcases h4 with ⟨_, h4, _⟩ | ⟨u, v, e1, e2, h4⟩
  · cases h4
  · cases e1; cases e2
    exact ⟨ox, oy, h1, h4⟩

/-- A line of stride 2: `x + x`. -/
example : ∃ o, LineKernel.Correlates (α := Int) ⟨[1, 0, -1], 1⟩ LineKernel.exampleRead (LineKernel.full 10 4 2)
      (LineKernel.full 1 4 3) (List.replicate 11 0) (.ok o) ∧
    ∀ r, LineKernel.Correlates (α := Int) ⟨[1, 0, -1], 1⟩ (fun i => (LineKernel.exampleRead i).map fun u => 1 * u + 1 * u)
      (LineKernel.full 10 4 2) (LineKernel.full 1 4 3) (List.replicate 11 0) r → r = .ok (combination 1 1 o o) := by
  obtain ⟨o, _, h⟩ := LineKernel.C46_correlation (k := ⟨[1, 0, -1], 1⟩) (by decide) (by decide) (by norm_num)
    LineKernel.exampleRead_line (by decide) LineKernel.exampleFits
  refine ⟨o, (h _).2 rfl, fun r hr => ?_⟩
  have h1 := LineKernel.C102_line_signal (a := 1) (b := 1) (fun i => by
    cases LineKernel.exampleRead i with
    | error e => exact .inl ⟨e, rfl, rfl, rfl⟩
    | ok u => exact .inr ⟨u, u, _, rfl, rfl, rfl, rfl⟩) (Kernel.isCombination_zeros 1 1 11) ((h _).2 rfl) ((h _).2 rfl) hr
  rcases h1 with ⟨_, h1, _⟩ | ⟨u, v, w, e1, e2, e3, h1⟩
  · cases h1
  · cases e1; cases e2
    rw [e3, h1.2]

/-- A separable kernel: `x + 2 * x`. -/
example : ∃ out : Raster Int, SeparableKernel.exampleKernel.Correlates SeparableKernel.exampleRaster (.ok out) ∧
    ∀ r, SeparableKernel.exampleKernel.Correlates
      ⟨SeparableKernel.exampleRaster.shape, combination 1 2 SeparableKernel.exampleRaster.data SeparableKernel.exampleRaster.data⟩ r →
      ∃ w, r = .ok w ∧ w.data = combination 1 2 out.data out.data := by
  obtain ⟨out, _, h, _⟩ := SeparableKernel.C49_separable SeparableKernel.example_wellFormed (by decide) (by unfold Pos; decide)
    (by decide) SeparableKernel.example_large (by decide) SeparableKernel.example_extends
  refine ⟨out, (h _).2 rfl, fun r hr => ?_⟩
  have h1 := SeparableKernel.C102_separable_signal (a := 1) (b := 2) (x := SeparableKernel.exampleRaster)
    (y := SeparableKernel.exampleRaster) (z := ⟨SeparableKernel.exampleRaster.shape,
    combination 1 2 SeparableKernel.exampleRaster.data SeparableKernel.exampleRaster.data⟩) rfl rfl ⟨rfl, rfl⟩ ((h _).2 rfl) ((h _).2 rfl) hr
  rcases h1 with ⟨_, h1, _⟩ | ⟨u, v, w, e1, e2, e3, _, _, h1⟩
  · cases h1
  · cases e1; cases e2
    exact ⟨w, e3, h1.2⟩

/-- Interpolations of a sum. -/
example (pos : List ℚ) : Together (fun u v w => w = 1 * u + 1 * v) (cubicAt (fun p => .ok ((p.getD 0 0 : Int) : ℚ)) pos)
    (cubicAt (fun _ => .ok (5 : ℚ)) pos) (cubicAt (fun p => .ok (((p.getD 0 0 : Int) : ℚ) + 5)) pos) :=
  (C102_interpolation (fun p => .inr ⟨_, _, _, rfl, rfl, rfl, by ring⟩) pos).2.2

example (pos : List ℚ) : Alike (· ≤ ·) (linearAt (fun p => .ok ((p.getD 0 0 : Int) : ℚ)) pos)
    (linearAt (fun p => .ok (((p.getD 0 0 : Int) : ℚ) + 5)) pos) :=
  C102_linear_monotonic (fun p => .inr ⟨_, _, rfl, rfl, by linarith⟩) pos

/-- The cubes of the values. -/
example {rx ry : Res (Raster ℚ)}
    (h1 : MedianFilter.Applies ⟨[-1, 0], [1, 0]⟩ id 0 (fun q => .ok ((q.getD 0 0 * q.getD 1 0 : Int) : ℚ)) [4, 2] rx)
    (h2 : MedianFilter.Applies ⟨[-1, 0], [1, 0]⟩ id 0 (fun q => .ok (((q.getD 0 0 * q.getD 1 0 : Int) : ℚ) ^ 3)) [4, 2] ry) :
    ∃ ox oy, rx = .ok ox ∧ ry = .ok oy ∧ ∀ p, InShape [4, 2] p → ∃ m, ox.get p = .ok (id m) ∧ oy.get p = .ok (id (m ^ 3)) :=
  MedianFilter.C102_median_contrast (f := fun x => x ^ 3) (Odd.strictMono_pow (by decide)).monotone
    (window := ⟨[-1, 0], [1, 0]⟩) (shape := [4, 2]) (F := fun q => ((q.getD 0 0 * q.getD 1 0 : Int) : ℚ)) (by simp) (by simp [Pos])
    (by decide) rfl (by simp) (fun _ _ => rfl) (fun _ _ => rfl) (by decide) h1 h2

end Litl
