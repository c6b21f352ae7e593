import Verif.Props.SeparableOrder
import Verif.Props.Rounding
import Mathlib.Algebra.Order.Ring.Abs

/-!
# Separable correlation in floating point arithmetic (C85)
-/

namespace Litl

open Spec

variable {K : Type} [Field K] [LinearOrder K] [IsStrictOrderedRing K]

namespace Spec

/-- `x` is the sum of given terms, computed accurately through `n` roundings at most, of which `w` (weighted) may underflow. -/
def IsAccurateUpTo (R : Rounding K) (n : Nat) (w : K) (terms : List K) (x : K) : Prop :=
  |x - terms.sum| ≤ ((1 + R.u) ^ n - 1) * (terms.map fun t => |t|).sum + (1 + R.u) ^ n * w * R.eta

/-- The number of products of passes with given kernels, weighted by the kernels of the subsequent passes. -/
def weightedProducts (kernels : List (List K)) : K :=
  kernels.foldl (fun w κ => (κ.map fun x => |x|).sum * w + κ.length) 0

end Spec

namespace Rounded

variable {R : Rounding K}

/-- The sum of products in floating point arithmetic. -/
theorem foldl_accurate {ι : Type} (l : List ι) (k y : ι → Fl R) :
    R.fl (l.foldl (fun s i => s + k i * y i) 0).val = (l.foldl (fun s i => s + k i * y i) 0).val ∧
    (l = [] → (l.foldl (fun s i => s + k i * y i) 0).val = 0) ∧
    |(l.map fun i => (k i).val * (y i).val).sum| ≤ (l.map fun i => |(k i).val| * |(y i).val|).sum ∧
    |(l.foldl (fun s i => s + k i * y i) 0).val - (l.map fun i => (k i).val * (y i).val).sum| ≤
      bound R l.length (l.map fun i => |(k i).val| * |(y i).val|).sum := by
  induction l using List.reverseRecOn with
  | nil => simp [bound, Fl.val_zero, R.zero]
  | append_singleton l a ih =>
    obtain ⟨h1, h2, h3, h4⟩ := ih
    rw [List.foldl_append]
    simp only [List.foldl_cons, List.foldl_nil, List.map_append, List.map_cons, List.map_nil, List.sum_append, List.sum_cons,
      List.sum_nil, add_zero, List.length_append, List.length_singleton]
    refine ⟨by rw [Fl.val_add, R.idem], fun h => absurd h (by simp), ?_, ?_⟩
    · refine (abs_add_le _ _).trans (add_le_add h3 ?_)
      rw [abs_mul]
    · rw [Fl.val_add, Fl.val_mul]
      refine step_bound R h1 h3 (fun hc => ?_) h4
      have : l = [] := by simpa using hc
      subst this
      exact ⟨h2 rfl, by simp⟩

/-- A sum of products with approximate values. -/
theorem pass_accurate {ι : Type} {l : List ι} {k y : ι → Fl R} {x a : ι → K} {Q e N : K} {n : Nat} (hn : l.length ≤ n)
    (he : 0 ≤ e) (hN : (l.map fun i => |(k i).val|).sum ≤ N) (hx : ∀ i ∈ l, |x i| ≤ a i)
    (h : ∀ i ∈ l, |(y i).val - x i| ≤ (Q - 1) * a i + e) :
    |(l.foldl (fun s i => s + k i * y i) 0).val - (l.map fun i => (k i).val * x i).sum| ≤
      ((1 + R.u) ^ n * Q - 1) * (l.map fun i => |(k i).val| * a i).sum + (1 + R.u) ^ n * (N * e + n * R.eta) := by
  have h4 := (foldl_accurate l k y).2.2.2
  have hS0 : 0 ≤ (l.map fun i => |(k i).val| * |(y i).val|).sum := List.sum_nonneg (by
    intro t ht
    obtain ⟨i, _, rfl⟩ := List.mem_map.1 ht
    positivity)
  have h5 := h4.trans (bound_mono R hS0 hn)
  -- the approximation of the values
  have h6 : |(l.map fun i => (k i).val * (y i).val).sum - (l.map fun i => (k i).val * x i).sum| ≤
      (Q - 1) * (l.map fun i => |(k i).val| * a i).sum + (l.map fun i => |(k i).val|).sum * e := by
    clear h4 h5 hS0 hn hN
    induction l with
    | nil => simp
    | cons i l ih =>
      have h7 := ih (fun j hj => hx j (by simp [hj])) (fun j hj => h j (by simp [hj]))
      have h8 := mul_le_mul_of_nonneg_left (h i (by simp)) (abs_nonneg (k i).val)
      simp only [List.map_cons, List.sum_cons]
      have e1 : (k i).val * (y i).val + (l.map fun i => (k i).val * (y i).val).sum -
          ((k i).val * x i + (l.map fun i => (k i).val * x i).sum) =
          (k i).val * ((y i).val - x i) + ((l.map fun i => (k i).val * (y i).val).sum -
            (l.map fun i => (k i).val * x i).sum) := by ring
      rw [e1]
      refine (abs_add_le _ _).trans ?_
      rw [abs_mul]
      nlinarith
  -- their absolute values
  have h9 : (l.map fun i => |(k i).val| * |(y i).val|).sum ≤
      Q * (l.map fun i => |(k i).val| * a i).sum + (l.map fun i => |(k i).val|).sum * e := by
    clear h4 h5 h6 hS0 hn hN
    induction l with
    | nil => simp
    | cons i l ih =>
      have h7 := ih (fun j hj => hx j (by simp [hj])) (fun j hj => h j (by simp [hj]))
      have h10 : |(y i).val| ≤ Q * a i + e := by
        have e1 : (y i).val = x i + ((y i).val - x i) := by ring
        have h11 := h i (by simp)
        have h12 := hx i (by simp)
        rw [e1]
        refine (abs_add_le _ _).trans ?_
        linarith
      have h8 := mul_le_mul_of_nonneg_left h10 (abs_nonneg (k i).val)
      simp only [List.map_cons, List.sum_cons]
      nlinarith
  set S := (l.map fun i => |(k i).val| * |(y i).val|).sum
  set A := (l.map fun i => |(k i).val| * a i).sum
  set M := (l.map fun i => |(k i).val|).sum
  set P := (1 + R.u) ^ n with hP
  have hP1 : 1 ≤ P := one_le_pow R n
  have h13 : |(l.foldl (fun s i => s + k i * y i) 0).val - (l.map fun i => (k i).val * x i).sum| ≤
      bound R n S + ((Q - 1) * A + M * e) := by
    have e1 : (l.foldl (fun s i => s + k i * y i) 0).val - (l.map fun i => (k i).val * x i).sum =
        ((l.foldl (fun s i => s + k i * y i) 0).val - (l.map fun i => (k i).val * (y i).val).sum) +
        ((l.map fun i => (k i).val * (y i).val).sum - (l.map fun i => (k i).val * x i).sum) := by ring
    rw [e1]
    exact (abs_add_le _ _).trans (add_le_add h5 h6)
  refine h13.trans ?_
  unfold bound
  rw [← hP]
  have h14 := mul_le_mul_of_nonneg_left h9 (by linarith : 0 ≤ P - 1)
  have h15 := mul_le_mul_of_nonneg_left (mul_le_mul_of_nonneg_right hN he) (by linarith : 0 ≤ P)
  nlinarith

/-- The values of a kernel. -/
def vals (κ : Nat × List (Fl R) × Int) : Nat × List K × Int := (κ.1, κ.2.1.map Fl.val, κ.2.2)

/-- The absolute values of a kernel. -/
def absVals (κ : Nat × List (Fl R) × Int) : Nat × List K × Int := (κ.1, κ.2.1.map (fun x => |x.val|), κ.2.2)

omit [IsStrictOrderedRing K] in
theorem getD_map_val (l : List (Fl R)) (j : Nat) : (l.map Fl.val).getD j 0 = (l.getD j 0).val := by
  simp only [List.getD_eq_getElem?_getD, List.getElem?_map]
  cases l[j]? <;> rfl

theorem getD_map_abs (l : List (Fl R)) (j : Nat) : (l.map fun x => |x.val|).getD j 0 = |(l.getD j 0).val| := by
  simp only [List.getD_eq_getElem?_getD, List.getElem?_map]
  cases l[j]? with
  | none => simp [Fl.val_zero]
  | some x => rfl

theorem sum_filter_le {ι : Type} (l : List ι) (q : ι → Bool) (g : ι → K) (h : ∀ i, 0 ≤ g i) :
    ((l.filter q).map g).sum ≤ (l.map g).sum := by
  induction l with
  | nil => simp
  | cons i l ih =>
    rw [List.filter_cons]
    have := h i
    split
    · simp only [List.map_cons, List.sum_cons]
      linarith
    · simp only [List.map_cons, List.sum_cons]
      linarith

omit [LinearOrder K] [IsStrictOrderedRing K] in
theorem sum_getD {β : Type} (l : List β) (g : β → K) (d : β) :
    ((List.range l.length).map fun j => g (l.getD j d)).sum = (l.map g).sum := by
  rw [Kernel.map_eq_range l g d]

/-- One pass. -/
theorem linePass_accurate {shape : Position} {κ : Nat × List (Fl R) × Int} {f : List Int → Fl R} {x a : List Int → K}
    {n : Nat} {w : K} (hw : 0 ≤ w) (hx : ∀ p, InShape shape p → |x p| ≤ a p)
    (h : ∀ p, InShape shape p → |(f p).val - x p| ≤ ((1 + R.u) ^ n - 1) * a p + (1 + R.u) ^ n * w * R.eta)
    {p : Position} (hp : InShape shape p) :
    |linePass shape (vals κ) x p| ≤ linePass shape (absVals κ) a p ∧
    |(linePass shape κ f p).val - linePass shape (vals κ) x p| ≤
      ((1 + R.u) ^ (n + κ.2.1.length) - 1) * linePass shape (absVals κ) a p +
        (1 + R.u) ^ (n + κ.2.1.length) * ((κ.2.1.map fun x => |x.val|).sum * w + κ.2.1.length) * R.eta := by
  have hin : ∀ j ∈ (List.range κ.2.1.length).filter (fun j : Nat => decide (0 ≤ p.getD κ.1 0 + j - κ.2.2 ∧
      p.getD κ.1 0 + j - κ.2.2 < (shape.getD κ.1 0).toNat)), InShape shape (p.set κ.1 (p.getD κ.1 0 + j - κ.2.2)) := by
    intro j hj
    have := of_decide_eq_true (List.mem_filter.1 hj).2
    exact inShape_set hp ⟨this.1, by omega⟩
  unfold linePass
  rw [lineFold_eq, lineFold_eq]
  simp only [vals, absVals]
  rw [← lineFold_eq, ← lineFold_eq]
  unfold lineFold
  simp only [List.length_map]
  generalize hL : (List.range κ.2.1.length).filter (fun j : Nat => decide (0 ≤ p.getD κ.1 0 + j - κ.2.2 ∧
      p.getD κ.1 0 + j - κ.2.2 < (shape.getD κ.1 0).toNat)) = L at hin
  have hN : (L.map fun j => |(κ.2.1.getD j 0).val|).sum ≤ (κ.2.1.map fun x => |x.val|).sum := by
    rw [← sum_getD κ.2.1 (fun x => |x.val|) 0, ← hL]
    exact sum_filter_le _ _ _ fun j => abs_nonneg _
  have hlen : L.length ≤ κ.2.1.length := by
    rw [← hL]
    exact (List.length_filter_le _ _).trans (by simp)
  simp only [Kernel.foldl_add_eq (α := K), zero_add, getD_map_val, getD_map_abs]
  constructor
  · clear hN hlen hL
    induction L with
    | nil => simp
    | cons j L ih =>
      simp only [List.map_cons, List.sum_cons]
      refine (abs_add_le _ _).trans (add_le_add ?_ (ih fun i hi => hin i (by simp [hi])))
      rw [abs_mul]
      exact mul_le_mul_of_nonneg_left (hx _ (hin j (by simp))) (abs_nonneg _)
  · have hQ := one_le_pow R n
    have he : 0 ≤ (1 + R.u) ^ n * w * R.eta := mul_nonneg (mul_nonneg (by linarith) hw) R.eta_nonneg
    have := pass_accurate (R := R) (l := L) (k := fun j => κ.2.1.getD j 0)
      (y := fun j => f (p.set κ.1 (p.getD κ.1 0 + j - κ.2.2))) (x := fun j => x (p.set κ.1 (p.getD κ.1 0 + j - κ.2.2)))
      (a := fun j => a (p.set κ.1 (p.getD κ.1 0 + j - κ.2.2))) hlen he hN (fun j hj => hx _ (hin j hj))
      (fun j hj => h _ (hin j hj))
    refine this.trans ?_
    rw [pow_add, mul_comm ((1 + R.u) ^ κ.2.1.length)]
    refine add_le_add le_rfl ?_
    have hP := one_le_pow R κ.2.1.length
    have h1 : (κ.2.1.length : K) * R.eta ≤ (1 + R.u) ^ n * (κ.2.1.length * R.eta) :=
      le_mul_of_one_le_left (mul_nonneg (Nat.cast_nonneg _) R.eta_nonneg) hQ
    have h2 := mul_le_mul_of_nonneg_left h1 (by linarith : 0 ≤ (1 + R.u) ^ κ.2.1.length)
    nlinarith

/-- All the passes. -/
theorem linePasses_accurate {shape : Position} : ∀ {ks : List (Nat × List (Fl R) × Int)} {f : List Int → Fl R}
    {x a : List Int → K} {n : Nat} {w : K}, 0 ≤ w → (∀ p, InShape shape p → |x p| ≤ a p) →
    (∀ p, InShape shape p → |(f p).val - x p| ≤ ((1 + R.u) ^ n - 1) * a p + (1 + R.u) ^ n * w * R.eta) →
    ∀ {p : Position}, InShape shape p →
    |(linePasses shape ks f p).val - linePasses shape (ks.map vals) x p| ≤
      ((1 + R.u) ^ (n + (ks.map fun κ => κ.2.1.length).sum) - 1) * linePasses shape (ks.map absVals) a p +
        (1 + R.u) ^ (n + (ks.map fun κ => κ.2.1.length).sum) *
          (ks.foldl (fun w κ => (κ.2.1.map fun x => |x.val|).sum * w + (κ.2.1.length : K)) w) * R.eta := by
  intro ks
  induction ks with
  | nil => intro f x a n w _ _ h p hp; exact h p hp
  | cons κ ks ih =>
    intro f x a n w hw hx h p hp
    have hw' : 0 ≤ (κ.2.1.map fun x => |x.val|).sum * w + κ.2.1.length := by
      refine add_nonneg (mul_nonneg (List.sum_nonneg ?_) hw) (Nat.cast_nonneg _)
      intro t ht
      obtain ⟨i, _, rfl⟩ := List.mem_map.1 ht
      exact abs_nonneg _
    have := ih (f := linePass shape κ f) (x := linePass shape (vals κ) x) (a := linePass shape (absVals κ) a)
      (n := n + κ.2.1.length) hw' (fun q hq => (linePass_accurate hw hx h hq).1)
      (fun q hq => (linePass_accurate hw hx h hq).2) hp
    simp only [List.map_cons, List.sum_cons, List.foldl_cons, ← add_assoc] at this ⊢
    exact this

end Rounded

namespace SeparableKernel

/-- The same kernel with other values. -/
def mapValues {α β : Type} (g : α → β) (k : SeparableKernel α) : SeparableKernel β :=
  ⟨k.axes, k.kernels.map fun e => (e.1, ⟨e.2.values.map g, e.2.origin⟩)⟩

theorem lookup_mapValues {α β : Type} (g : α → β) (k : SeparableKernel α) (i : Nat) :
    (mapValues g k).kernels.lookup i = (k.kernels.lookup i).map fun κ => ⟨κ.values.map g, κ.origin⟩ := by
  unfold mapValues
  simp only
  generalize k.kernels = m
  induction m with
  | nil => rfl
  | cons e m ih =>
    rw [List.map_cons, List.lookup_cons, List.lookup_cons, ih]
    split <;> rfl

theorem wellFormed_mapValues {α β : Type} (g : α → β) {k : SeparableKernel α} (h : WellFormed k) :
    WellFormed (mapValues g k) := by
  refine ⟨?_, fun i => ?_⟩
  · have := h.sorted
    unfold Sorted mapValues at *
    rw [List.pairwise_map]
    exact this
  · rw [lookup_mapValues, ← show i ∈ k.axes ↔ i ∈ (mapValues g k).axes from Iff.rfl, ← h.lookup i]
    cases k.kernels.lookup i <;> rfl

theorem largeEnough_mapValues {α β : Type} (g : α → β) {k : SeparableKernel α} {shape : Position} (h : LargeEnough k shape) :
    LargeEnough (mapValues g k) shape := by
  intro i κ hκ
  rw [lookup_mapValues] at hκ
  cases hk : k.kernels.lookup i with
  | none => rw [hk] at hκ; cases hκ
  | some κ' =>
    rw [hk] at hκ
    simp only [Option.map_some, Option.some.injEq] at hκ
    subst hκ
    simpa using h i κ' hk

theorem passes_mapValues {α β : Type} (g : α → β) (k : SeparableKernel α) :
    passes (mapValues g k) = (passes k).map fun κ => (κ.1, κ.2.1.map g, κ.2.2) := by
  unfold passes
  rw [List.map_filterMap]
  refine List.filterMap_congr fun i _ => ?_
  rw [lookup_mapValues]
  cases k.kernels.lookup i <;> rfl

/-- In exact arithmetic, the passes are the correlation by the outer product. -/
theorem linePasses_outer {α : Type} [CommSemiring α] {k : SeparableKernel α} {shape : Position} {f : List Int → α}
    (hwf : WellFormed k) (hnd : k.axes.Nodup) (hs : Pos shape) (hsize : shape.prod < 2 ^ 63) (hl : LargeEnough k shape)
    (hf : ∀ p, ¬ InShape shape p → f p = 0) {p : Position} (hp : InShape shape p) :
    IsOuterCorrelation (axisKernels shape.length (kernelAt k)) f p (linePasses shape (passes k) f p) := by
  have h0 : 0 < shape.prod := by
    have := take_prod_pos hs shape.length
    rwa [List.take_length] at this
  let input : Raster α := ⟨shape, (List.range shape.prod.toNat).map fun i : Nat => f (unravel shape i)⟩
  have hd : (input.data.length : Int) = input.shape.prod := by
    simp only [input, List.length_map, List.length_range]
    omega
  have hin : ∀ q, InShape input.shape q → input.get q = .ok (f q) := by
    intro q hq
    rw [get_value hd hq]
    congr 1
    obtain ⟨h1, h2⟩ := index_bounds (show InShape shape q from hq)
    obtain ⟨g1, g2⟩ := unravel_spec (s := shape) (k := index shape q) (fun x hx => (hs x hx).le) h1 h2
    have e : unravel shape (index shape q) = q := index_inj g1 hq g2
    have h3 : (index shape q).toNat < shape.prod.toNat := by omega
    simp only [value, input, List.getD_eq_getElem?_getD, List.getElem?_map, List.getElem?_range h3, Option.map_some,
      Option.getD_some]
    rw [Int.toNat_of_nonneg h1, e]
  obtain ⟨o, _, h1, h2⟩ := C83_separable (input := input) hwf hs hsize hl hd hin
  obtain ⟨o', _, h1', h2'⟩ := C49_separable (input := input) hwf hnd hs hsize hl hd ⟨hin, hf⟩
  obtain rfl : o = o' := by simpa using (h1' _).1 ((h1 _).2 rfl)
  obtain ⟨x, h3, h4⟩ := h2' p hp
  rw [h2 p hp] at h3
  injection h3 with h3
  rw [h3]
  exact h4

variable {R : Rounding K}

/-- The values of the kernels for each axis, for the specification. -/
def exactKernels (k : SeparableKernel (Fl R)) (n : Nat) : List (List K × Int) :=
  axisKernels n fun i => (k.kernels.lookup i).map fun κ => (κ.values.map Fl.val, κ.origin)

/-- **C85**: in floating point arithmetic, the correlation by a separable kernel along distinct axes has one outcome, and each
output pixel is the correlation by the outer product with zero extrapolation, computed accurately: the number of roundings is
the sum of the lengths of the kernels, and not the size of the window. -/
theorem C85_separable {k : SeparableKernel (Fl R)} {input : Raster (Fl R)} {f : List Int → Fl R}
    (hwf : WellFormed k) (hnd : k.axes.Nodup) (hs : Pos input.shape) (hsize : input.shape.prod < 2 ^ 63)
    (hl : LargeEnough k input.shape) (hd : (input.data.length : Int) = input.shape.prod)
    (hf : ∀ p, InShape input.shape p → input.get p = .ok (f p)) (hf0 : ∀ p, ¬ InShape input.shape p → f p = 0) :
    ∃ out : Raster (Fl R), out.shape = input.shape ∧ (∀ r, k.Correlates input r ↔ r = .ok out) ∧
      ∀ p, InShape input.shape p → ∃ y, out.get p = .ok y ∧
        ∀ l : List Position, l.Nodup → (∀ j, j ∈ l ↔ InWindow (exactKernels k input.shape.length) j) →
          IsAccurateUpTo R ((passes k).map fun κ => κ.2.1.length).sum
            (weightedProducts ((passes k).map fun κ => κ.2.1.map Fl.val))
            (l.map fun j => outerProduct (exactKernels k input.shape.length) j * (f (List.zipWith (· + ·) p j)).val)
            y.val := by
  obtain ⟨out, h1, h2, h3⟩ := C83_separable hwf hs hsize hl hd hf
  refine ⟨out, h1, h2, fun p hp => ⟨_, h3 p hp, fun l hn hm => ?_⟩⟩
  have hx := linePasses_outer (f := fun q => (f q).val) (wellFormed_mapValues Fl.val hwf) hnd hs hsize
    (largeEnough_mapValues Fl.val hl) (fun q hq => by rw [hf0 q hq]; rfl) hp
  have ha := linePasses_outer (f := fun q => |(f q).val|) (wellFormed_mapValues (fun x : Fl R => |x.val|) hwf) hnd hs hsize
    (largeEnough_mapValues (fun x : Fl R => |x.val|) hl)
    (fun q hq => by rw [hf0 q hq, Fl.val_zero, abs_zero]) hp
  rw [passes_mapValues] at hx ha
  have e1 : axisKernels input.shape.length (kernelAt (mapValues Fl.val k)) = exactKernels k input.shape.length := by
    unfold exactKernels
    congr 1
    funext i
    unfold kernelAt
    rw [lookup_mapValues]
    cases k.kernels.lookup i <;> rfl
  have e2 : axisKernels input.shape.length (kernelAt (mapValues (fun x : Fl R => |x.val|) k)) =
      (exactKernels k input.shape.length).map fun κ => (κ.1.map fun x => |x|, κ.2) := by
    unfold exactKernels axisKernels
    rw [List.map_map]
    refine List.map_congr_left fun i _ => ?_
    unfold kernelAt
    rw [lookup_mapValues]
    simp only [Function.comp]
    cases k.kernels.lookup i with
    | none => simp
    | some κ => simp
  rw [e1] at hx
  rw [e2] at ha
  have hx := hx l hn hm
  have ha := ha l hn (fun j => by
    rw [hm]
    unfold InWindow
    simp only [List.map_map, Function.comp_def, List.length_map])
  have e3 : ∀ (ks : List (List K × Int)) (j : List Int),
      outerProduct (ks.map fun κ => (κ.1.map fun x => |x|, κ.2)) j = |outerProduct ks j| := by
    intro ks
    unfold outerProduct
    induction ks with
    | nil => intro j; simp
    | cons κ ks ih =>
      intro j
      cases j with
      | nil => simp
      | cons y j =>
        simp only [List.map_cons, List.zipWith_cons_cons, List.prod_cons, ih j, abs_mul]
        congr 1
        simp only [List.getD_eq_getElem?_getD, List.getElem?_map]
        cases κ.1[(y + κ.2).toNat]? <;> simp
  simp only [e3] at ha
  have hb := Rounded.linePasses_accurate (R := R) (ks := passes k) (f := f) (x := fun q => (f q).val)
    (a := fun q => |(f q).val|) (n := 0) (w := 0) le_rfl (fun _ _ => le_rfl) (fun q _ => by simp) hp
  unfold IsAccurateUpTo weightedProducts
  rw [← hx, List.map_map]
  have e4 : (l.map ((fun t => |t|) ∘ fun j => outerProduct (exactKernels k input.shape.length) j *
      (f (List.zipWith (· + ·) p j)).val)).sum = linePasses input.shape ((passes k).map Rounded.absVals)
        (fun q => |(f q).val|) p := by
    have : (passes k).map Rounded.absVals = (passes k).map fun κ => (κ.1, κ.2.1.map (fun x : Fl R => |x.val|), κ.2.2) := rfl
    rw [this, ha]
    congr 1
    refine List.map_congr_left fun j _ => ?_
    simp only [Function.comp, abs_mul]
  rw [e4]
  rw [List.foldl_map]
  simp only [zero_add] at hb
  simp only [List.map_map, List.length_map, Function.comp_def]
  exact hb

/-- A sum over 2 x 2 pixels in `float` precision. -/
example : let R := Binary.rounding 24 (by norm_num) (-149)
    let k : SeparableKernel (Fl R) := along ⟨[Fl.of 1, Fl.of 1], 0⟩ [0, 1]
    WellFormed k ∧ k.axes.Nodup ∧ LargeEnough k [2, 2] ∧
      ((passes k).map fun κ => κ.2.1.length).sum = 4 ∧
      weightedProducts ((passes k).map fun κ => κ.2.1.map Fl.val) = (6 : ℚ) := by
  intro R k
  refine ⟨(C49_along _ _).1, by decide, ?_, rfl, ?_⟩
  · intro i κ hκ
    rw [(C49_along _ _).2] at hκ
    split at hκ
    · case isTrue hi =>
        cases hκ
        simp only [List.mem_cons, List.not_mem_nil, or_false] at hi
        rcases hi with rfl | rfl <;> simp
    · cases hκ
  · have e : passes k = [(0, [Fl.of 1, Fl.of 1], 0), (1, [Fl.of 1, Fl.of 1], 0)] := rfl
    rw [e]
    have h1 : (Fl.of 1 : Fl R).val = 1 := rfl
    simp only [weightedProducts, List.map_cons, List.map_nil, h1, List.foldl_cons, List.foldl_nil, List.sum_cons, List.sum_nil,
      List.length_cons, List.length_nil]
    norm_num

end SeparableKernel

end Litl
