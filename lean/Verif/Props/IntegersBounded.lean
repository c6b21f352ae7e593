import Verif.Props.Integers

/-!
# Correlation of integers: the values for which nothing overflows (C89)

Whatever the integral type, correlations are exact if the absolute values of the terms add up to a value of the type.
-/

namespace Litl

open Spec

namespace IntType

variable {t : IntType}

/-- The signs which are possible for the type. -/
def Signs (t : IntType) (x : Int) : Prop := t.signed = true ∨ 0 ≤ x

theorem Mem.signs {x : Int} (h : t.Mem x) : t.Signs x := by
  unfold Mem lowest at h
  unfold Signs
  cases hs : t.signed
  · rw [hs] at h
    exact .inr (by simpa using h.1)
  · exact .inl rfl

theorem Signs.mul {x y : Int} (hx : t.Signs x) (hy : t.Signs y) : t.Signs (x * y) := by
  rcases hx with hx | hx
  · exact .inl hx
  · rcases hy with hy | hy
    · exact .inl hy
    · exact .inr (mul_nonneg hx hy)

theorem signs_sum {l : List Int} (h : ∀ m ∈ l, t.Signs m) : t.Signs l.sum := by
  unfold Signs at *
  cases hs : t.signed
  · rw [hs] at h
    exact .inr (List.sum_nonneg fun m hm => by simpa using h m hm)
  · exact .inl rfl

theorem mem_of_abs {x : Int} (hs : t.Signs x) (hx : |x| ≤ t.highest) : t.Mem x := by
  rw [abs_le] at hx
  unfold Mem
  refine ⟨?_, hx.2⟩
  rcases hs with hs | hs
  · unfold lowest
    unfold highest at hx
    rw [hs, if_pos rfl]
    linarith [hx.1]
  · unfold lowest
    split
    · have : (0 : Int) ≤ 2 ^ t.digits := by positivity
      omega
    · exact hs

theorem promoted_mem {x : Int} (hx : |x| ≤ t.highest) (hp : t.promoted.signed = true) :
    t.promoted.Mem x := by
  refine mem_of_abs (.inl hp) (hx.trans ?_)
  unfold promoted
  split
  · next h =>
    show (2 : Int) ^ t.digits - 1 ≤ 2 ^ 31 - 1
    have : (2 : Int) ^ t.digits ≤ 2 ^ 31 := pow_le_pow_right₀ (by norm_num) h
    omega
  · exact le_rfl

theorem abs_sum_le (l : List Int) : |l.sum| ≤ (l.map fun m => |m|).sum := by
  induction l with
  | nil => simp
  | cons m l ih =>
    rw [List.sum_cons, List.map_cons, List.sum_cons]
    exact (abs_add_le _ _).trans (by omega)

/-- If the absolute values of the terms add up to a value of the type, then nothing overflows. -/
theorem inRange_of_abs (ht : 2 ≤ t.digits) {terms : List Int} (hs : ∀ m ∈ terms, t.Signs m)
    (hb : (terms.map fun m => |m|).sum ≤ t.highest) : t.InRange terms ∧ t.Mem terms.sum := by
  refine ⟨?_, mem_of_abs (signs_sum hs) ((abs_sum_le _).trans hb)⟩
  intro l₁ m l₂ e hp
  subst e
  rw [List.map_append, List.sum_append, List.map_cons, List.sum_cons] at hb
  have h2 : 0 ≤ (l₂.map fun m => |m|).sum := List.sum_nonneg fun x hx => by
    obtain ⟨y, _, rfl⟩ := List.mem_map.1 hx
    exact abs_nonneg y
  have h1 := abs_sum_le l₁
  have h0 := abs_nonneg l₁.sum
  have hm := abs_nonneg m
  have hs1 : t.Signs l₁.sum := signs_sum fun x hx => hs x (by simp [hx])
  rw [convert_of_mem ht (mem_of_abs hs1 (by omega))]
  refine ⟨promoted_mem (by omega) hp, promoted_mem ((abs_add_le _ _).trans (by omega)) hp⟩

end IntType

namespace Kernel

open IntType

variable {t : IntType}

/-- **C89** for any integral type and values for which nothing overflows: at the pixels where the correlation of the absolute
values is a value of the type, the behaviour is defined and the correlation is exact.
Missing: the other values, for which see `C89_exact`. -/
theorem C89_bounded_partial (ht : 2 ≤ t.digits) {k : Kernel Int} {input : Raster Int} {extrapolator : Position → Res Int}
    {F : Position → Int} {out : List Int} (h : Suitable k input extrapolator F out) (ho : OriginInside k)
    (hw : WindowFits k input.shape) (hv : ∀ v ∈ k.values, t.Mem v) (hF : ∀ q, t.Mem (F q)) :
    ∃ o, ReturnsNumbers t k input extrapolator out o ∧ ∀ p x w, Covered k input.shape p →
      IsCorrelation k.values k.window.front k.window.back F p x →
      IsCorrelation (k.values.map fun v => |v|) k.window.front k.window.back (fun q => |F q|) p w → w ≤ t.highest →
        Pixel input.shape o p x := by
  obtain ⟨o, h1, h2⟩ := C89_exact ht h ho hw
  refine ⟨o, h1, fun p x w hp hx hw' hle => ?_⟩
  have habs : ∀ j, kernelValue (k.values.map fun v => |v|) k.window.front k.window.back j =
      |kernelValue k.values k.window.front k.window.back j| := by
    intro j
    unfold kernelValue
    generalize (offset _ _).toNat = i
    rw [List.getD_eq_getElem?_getD, List.getD_eq_getElem?_getD, List.getElem?_map]
    cases k.values[i]? <;> simp
  have key : ∀ l : List Position, l.Nodup → (∀ j, j ∈ l ↔ InBox k.window.front k.window.back j) →
      t.InRange (l.map fun j => kernelValue k.values k.window.front k.window.back j * F (List.zipWith (· + ·) p j)) ∧
      t.Mem x := by
    intro l hnd hmem
    rw [hx l hnd hmem]
    refine inRange_of_abs ht (fun m hm => ?_) ?_
    · obtain ⟨j, _, rfl⟩ := List.mem_map.1 hm
      exact (Mem.signs (kernelValue_mem hv)).mul (hF _).signs
    · rw [hw' l hnd hmem] at hle
      simpa only [List.map_map, Function.comp_def, abs_mul, habs] using hle
  have hl := h.nonempty.length_eq
  have hmem := (key (enum k.window.front k.window.back) (nodup_enum) (fun _ => mem_enum hl)).2
  have := (h2 p hp).1 (fun l hpw hm => (key l (hpw.imp fun h e => by subst e; exact h.asymm h) hm).1) x hx
  rwa [convert_of_mem ht hmem] at this

/-- With `int` and the largest values for which nothing overflows. -/
example : ∃ o, ReturnsNumbers int exampleIntKernel ⟨[3], [2 ^ 31 - 3, 1, 1]⟩
    (fun q => .ok (exampleInt (2 ^ 31 - 3) q)) [0, 0, 0] o ∧ Pixel [3] o [1] (2 ^ 31 - 3) := by
  obtain ⟨h1, h2, h3⟩ := exampleInt_suitable (2 ^ 31 - 3) [1, 1, -1] rfl
  obtain ⟨o, h4, h5⟩ := C89_bounded_partial (t := int) (by decide) h1 h2 h3 (by decide)
    (fun q => by unfold exampleInt; split <;> decide)
  refine ⟨o, h4, h5 [1] _ (2 ^ 31 - 1) (exampleInt_covered _) ?_ ?_ (by decide)⟩
  · have := exampleInt_correlation (2 ^ 31 - 3) [1, 1, -1]
    exact this
  · refine isCorrelation_enum (by rfl) ?_
    have e : enum [-1] [1] = [[-1], [0], [1]] := by decide
    rw [e]
    simp [kernelValue, exampleInt, Position.add, offset, strides]

end Kernel

namespace LineKernel

open IntType

variable {t : IntType}

/-- The terms of the correlation at index `i` of a line, in the order of the kernel. -/
def lineTerms (kernel : List Int) (origin : Int) (n : Nat) (x : Int → Int) (i : Int) : List Int :=
  ((List.range kernel.length).filter fun j : Nat => decide (0 ≤ i + j - origin ∧ i + j - origin < n)).map
    fun j : Nat => kernel.getD j 0 * x (i + j - origin)

theorem sum_lineTerms (kernel : List Int) (origin : Int) (n : Nat) (x : Int → Int) (i : Int) :
    (lineTerms kernel origin n x i).sum = lineCorrelation kernel origin n x i := by
  rw [← lineFold_eq]
  unfold lineTerms lineFold
  rw [Kernel.foldl_add_eq, zero_add]

/-- **C89** for line kernels and any integral type, exactly: the correlation of a line has one outcome, whose values are the
exact correlations, converted to the value type, if no product and no partial sum overflows; otherwise, the behaviour is
undefined. -/
theorem C89_line_exact (ht : 2 ≤ t.digits) {k : LineKernel Int} {read : Int → Res (Number t)} {n : Nat}
    {a s b u : Int} {x : Int → Int} {data : List (Number t)}
    (ho : 0 ≤ k.origin ∧ k.origin < k.values.length) (hK : k.values.length ≤ n) (hn : n < 2 ^ 63)
    (hline : Line read a s n fun i => Number.of t (x i)) (hu : u ≠ 0) (hfit : Fits (full a n s) (full b n u) data) :
    ∃ res, (∀ r, Correlates (k.numbers t) read (full a n s) (full b n u) data r ↔ r = .ok res) ∧ ∀ i : Nat, i < n →
      (t.InRange (lineTerms k.values k.origin n x i) →
        res[(b + i * u).toNat]? = some (Number.of t (t.convert (lineCorrelation k.values k.origin n x i)))) ∧
      (¬ t.InRange (lineTerms k.values k.origin n x i) → res[(b + i * u).toNat]? = some (Number.undefined t)) := by
  have ho' : 0 ≤ (k.numbers t).origin ∧ (k.numbers t).origin < (k.numbers t).values.length := by
    simpa [numbers] using ho
  have hK' : (k.numbers t).values.length ≤ n := by simpa [numbers] using hK
  obtain ⟨res, h1, h2⟩ := C83_line ho' hK' hn hline hu hfit
  refine ⟨res, h2, fun i hi => ?_⟩
  rw [line_value ho' hK' hn hline hu hfit ((h2 _).2 rfl) hi, ← sum_lineTerms]
  unfold lineFold lineTerms
  obtain ⟨f1, f2⟩ := Number.fold_eq ht (fun j : Nat => k.values.getD j 0) (fun j : Nat => x (i + j - k.origin))
    ((List.range k.values.length).filter fun j : Nat => decide (0 ≤ (i : Int) + j - k.origin ∧ (i : Int) + j - k.origin < n))
  simp only [numbers, getD_numbers, List.length_map]
  exact ⟨fun hr => congrArg some (f1 hr), fun hr => congrArg some (f2 hr)⟩

/-- One pass of bounded values. -/
theorem lineFold_bounded (ht : 2 ≤ t.digits) {values : List Int} (hv : ∀ v ∈ values, t.Mem v) {origin : Int}
    {n : Nat} {x : Int → Int} (hx : ∀ i, t.Mem (x i)) {M : Int} (hM : 0 ≤ M)
    (hb : ∀ i : Int, 0 ≤ i → i < n → |x i| ≤ M) (hw : (values.map fun v => |v|).sum * M ≤ t.highest) (i : Int) :
    lineFold (values.map (Number.of t)) origin n (fun i => Number.of t (x i)) i =
      Number.of t (lineFold values origin n x i) ∧ t.Mem (lineFold values origin n x i) ∧
      |lineFold values origin n x i| ≤ (values.map fun v => |v|).sum * M := by
  have e : lineFold values origin n x i = (lineTerms values origin n x i).sum := by rw [sum_lineTerms, lineFold_eq]
  have hsum : ((lineTerms values origin n x i).map fun m => |m|).sum ≤ (values.map fun v => |v|).sum * M := by
    have h1 : ∀ l : List Nat, (((l.filter fun j : Nat => decide (0 ≤ i + j - origin ∧ i + j - origin < n)).map
        fun j : Nat => values.getD j 0 * x (i + j - origin)).map fun m => |m|).sum ≤
        (l.map fun j => |values.getD j 0|).sum * M := by
      intro l
      induction l with
      | nil => simp
      | cons j l ih =>
        rw [List.map_cons, List.sum_cons, add_mul, List.filter_cons]
        have hj := mul_nonneg (abs_nonneg (values.getD j 0)) hM
        split
        · next h =>
          rw [decide_eq_true_eq] at h
          rw [List.map_cons, List.map_cons, List.sum_cons, abs_mul]
          exact add_le_add (mul_le_mul_of_nonneg_left (hb _ h.1 h.2) (abs_nonneg _)) ih
        · omega
    have h2 : (List.range values.length).map (fun j => |values.getD j 0|) = values.map fun v => |v| := by
      refine List.ext_getElem (by simp) fun j _ hj => ?_
      simp at hj ⊢
      rw [List.getElem?_eq_getElem hj]
      rfl
    rw [← h2]
    exact h1 _
  obtain ⟨hr, hm⟩ := inRange_of_abs ht (terms := lineTerms values origin n x i) (fun m hm => by
    obtain ⟨j, _, rfl⟩ := List.mem_map.1 hm
    exact (getD_mem hv _).signs.mul (hx _).signs) (hsum.trans hw)
  refine ⟨?_, by rw [e]; exact hm, by rw [e]; exact (abs_sum_le _).trans hsum⟩
  have := (Number.fold_eq ht (fun j : Nat => values.getD j 0) (fun j : Nat => x (i + j - origin))
    ((List.range values.length).filter fun j : Nat => decide (0 ≤ i + j - origin ∧ i + j - origin < n))).1 hr
  rw [e]
  unfold lineTerms at hm ⊢
  rw [convert_of_mem ht hm] at this
  rw [← this]
  unfold lineFold
  simp only [getD_numbers, List.length_map]

/-- **C89** for line kernels, any integral type and values for which nothing overflows: if the values are at most `M` in absolute
value, and the sum of the absolute values of the kernel times `M` is a value of the type, then the correlation is exact.
Missing: the other values, for which see `C89_line_exact`. -/
theorem C89_line_bounded_partial (ht : 2 ≤ t.digits) {k : LineKernel Int} {read : Int → Res (Number t)} {n : Nat}
    {a s b u : Int} {x : Int → Int} {data : List (Number t)} (hv : ∀ v ∈ k.values, t.Mem v) (hx : ∀ i, t.Mem (x i))
    (ho : 0 ≤ k.origin ∧ k.origin < k.values.length) (hK : k.values.length ≤ n) (hn : n < 2 ^ 63)
    (hline : Line read a s n fun i => Number.of t (x i)) (hu : u ≠ 0) (hfit : Fits (full a n s) (full b n u) data)
    {M : Int} (hM : 0 ≤ M) (hb : ∀ i : Int, 0 ≤ i → i < n → |x i| ≤ M)
    (hw : (k.values.map fun v => |v|).sum * M ≤ t.highest) :
    ∃ res, (∀ r, Correlates (k.numbers t) read (full a n s) (full b n u) data r ↔ r = .ok res) ∧ ∀ i : Nat, i < n →
      res[(b + i * u).toNat]? = some (Number.of t (lineCorrelation k.values k.origin n x i)) := by
  have ho' : 0 ≤ (k.numbers t).origin ∧ (k.numbers t).origin < (k.numbers t).values.length := by
    simpa [numbers] using ho
  have hK' : (k.numbers t).values.length ≤ n := by simpa [numbers] using hK
  obtain ⟨res, h1, h2⟩ := C83_line ho' hK' hn hline hu hfit
  refine ⟨res, h2, fun i hi => ?_⟩
  rw [line_value ho' hK' hn hline hu hfit ((h2 _).2 rfl) hi, ← lineFold_eq]
  exact congrArg some (lineFold_bounded ht hv hx hM hb hw _).1

/-- With `int`, the sums of two values up to 2^30 - 1 are exact, while the sum of 2^30 and 2^30 is undefined. -/
example : (∃ res, (∀ r, Correlates ((⟨[1, 1], 0⟩ : LineKernel Int).numbers int)
      (readAt (([2 ^ 30 - 1, 2 ^ 30 - 1] : List Int).map (Number.of int))) (full 0 2 1) (full 0 2 1)
      (List.replicate 2 0) r ↔ r = .ok res) ∧ res[0]? = some (Number.of _ (2 ^ 31 - 2))) ∧
    ∃ res, (∀ r, Correlates ((⟨[1, 1], 0⟩ : LineKernel Int).numbers int)
      (readAt (([2 ^ 30, 2 ^ 30] : List Int).map (Number.of int))) (full 0 2 1) (full 0 2 1)
      (List.replicate 2 0) r ↔ r = .ok res) ∧ res[0]? = some (Number.undefined _) ∧
        res[1]? = some (Number.of _ (2 ^ 30)) := by
  have hfit : Fits (full 0 2 1) (full 0 2 1) (List.replicate 2 (0 : Number int)) := by
    rw [full_eq (by norm_num) (by norm_num)]
    intro m hm
    simp only [List.length_replicate] at hm ⊢
    omega
  constructor
  · obtain ⟨res, h1, h2⟩ := C89_line_bounded_partial (t := int) (k := ⟨[1, 1], 0⟩) (n := 2) (a := 0) (s := 1) (b := 0)
      (u := 1) (read := readAt (([2 ^ 30 - 1, 2 ^ 30 - 1] : List Int).map (Number.of int)))
      (x := fun _ => 2 ^ 30 - 1) (data := List.replicate 2 0) (M := 2 ^ 30 - 1)
      (by decide) (by decide) (fun i => by decide) (by decide) (by decide) (by decide) (by
        intro i h0 h1
        have : i = 0 ∨ i = 1 := by omega
        rcases this with rfl | rfl <;> rfl) (by decide) hfit (by decide) (fun _ _ _ => by decide) (by decide)
    exact ⟨res, h1, h2 0 (by decide)⟩
  · obtain ⟨res, h1, h2⟩ := C89_line_exact (t := int) (k := ⟨[1, 1], 0⟩) (n := 2) (a := 0) (s := 1) (b := 0)
      (u := 1) (read := readAt (([2 ^ 30, 2 ^ 30] : List Int).map (Number.of int)))
      (x := fun _ => 2 ^ 30) (data := List.replicate 2 0)
      (by decide) (by decide) (by decide) (by decide) (by
        intro i h0 h1
        have : i = 0 ∨ i = 1 := by omega
        rcases this with rfl | rfl <;> rfl) (by decide) hfit
    refine ⟨res, h1, (h2 0 (by decide)).2 fun hr => ?_, (h2 1 (by decide)).1 ?_⟩
    · have := (hr [2 ^ 30] (2 ^ 30) [] (by decide) rfl).2
      revert this
      decide
    · exact (inRange_of_abs (by decide) (fun _ _ => .inl rfl) (by decide)).1

end LineKernel

namespace SeparableKernel

open IntType

variable {t : IntType}

theorem linePasses_bounded (ht : 2 ≤ t.digits) {shape : Position} (ks : List (Nat × List Int × Int))
    (hv : ∀ κ ∈ ks, ∀ v ∈ κ.2.1, t.Mem v) {f : List Int → Int} (hf : ∀ p, t.Mem (f p)) {M : Int} (hM : 0 ≤ M)
    (hb : ∀ p, |f p| ≤ M)
    (hw : ∀ ks₁ ks₂, ks = ks₁ ++ ks₂ → (ks₁.map fun κ => (κ.2.1.map fun v => |v|).sum).prod * M ≤ t.highest) (p : Position) :
    linePasses shape (ks.map fun κ => (κ.1, κ.2.1.map (Number.of t), κ.2.2)) (fun p => Number.of t (f p)) p =
      Number.of t (linePasses shape ks f p) := by
  induction ks generalizing f M with
  | nil => rfl
  | cons κ ks ih =>
    have hκ := hw [κ] ks rfl
    rw [List.map_singleton, List.prod_singleton] at hκ
    have hpass := fun q : Position => LineKernel.lineFold_bounded ht (hv κ (by simp)) (origin := κ.2.2)
      (n := (shape.getD κ.1 0).toNat) (x := fun i => f (q.set κ.1 i)) (fun i => hf _) hM (fun i _ _ => hb _) hκ
      (q.getD κ.1 0)
    have e : linePass shape (κ.1, κ.2.1.map (Number.of t), κ.2.2) (fun p => Number.of t (f p)) =
        fun p => Number.of t (linePass shape κ f p) := by
      funext q
      exact (hpass q).1
    unfold linePasses at ih ⊢
    rw [List.map_cons, List.foldl_cons, e, List.foldl_cons]
    have hnn : 0 ≤ (κ.2.1.map fun v => |v|).sum := List.sum_nonneg fun x hx => by
      obtain ⟨y, _, rfl⟩ := List.mem_map.1 hx
      exact abs_nonneg y
    refine ih (fun κ' h' => hv κ' (by simp [h'])) (fun q => (hpass q).2.1) (mul_nonneg hnn hM) (fun q => (hpass q).2.2) ?_
    intro ks₁ ks₂ e'
    have := hw (κ :: ks₁) ks₂ (by rw [e']; rfl)
    rw [List.map_cons, List.prod_cons] at this
    rwa [← mul_assoc, mul_comm _ (List.sum _)]

/-- The sum of the absolute values of the kernel along an axis. -/
def weightAt (k : SeparableKernel Int) (i : Nat) : Int := (((kernelAt k i).getD ([], 0)).1.map fun v => |v|).sum

/-- **C89** for separable kernels, any integral type and values for which nothing overflows: if the values are at most `M` in
absolute value, and the weights of the kernels of the first axes times `M` are values of the type, however many these axes are,
then the correlation is exact.
Missing: the other values. Beware that the intermediate correlations may overflow although the correlation does not, see
`C89_separable_violated`. -/
theorem C89_separable_bounded_partial (ht : 2 ≤ t.digits) {k : SeparableKernel Int} {input : Raster Int}
    {f : List Int → Int} (hwf : WellFormed k) (hnd : k.axes.Nodup) (hpos : Pos input.shape)
    (hsize : input.shape.prod < 2 ^ 63) (hl : LargeEnough k input.shape)
    (hd : (input.data.length : Int) = input.shape.prod) (hf : ZeroExtends input f)
    (hv : ∀ i κ, k.kernels.lookup i = some κ → ∀ v ∈ κ.values, t.Mem v) (hx : ∀ v ∈ input.data, t.Mem v)
    {M : Int} (hM : 0 ≤ M) (hb : ∀ v ∈ input.data, |v| ≤ M)
    (hw : ∀ m, ((k.axes.take m).map (weightAt k)).prod * M ≤ t.highest) :
    ∃ out : Raster (Number t), out.shape = input.shape ∧
      (∀ r, (k.numbers t).Correlates (input.numbers t) r ↔ r = .ok out) ∧
      ∀ p, InShape input.shape p → ∃ x, IsOuterCorrelation (axisKernels input.shape.length (kernelAt k)) f p x ∧
        out.get p = .ok (Number.of t x) := by
  have hfe : ∀ p, InShape input.shape p → input.get p = .ok (value input.shape input.data p) :=
    fun p hp => get_value hd hp
  obtain ⟨o1, _, g1, g2⟩ := C49_separable hwf hnd hpos hsize hl hd hf
  obtain ⟨o2, _, g3, g4⟩ := C83_separable hwf hpos hsize hl hd hfe
  obtain rfl : o1 = o2 := by
    have := (g3 _).1 ((g1 (.ok o1)).2 rfl)
    simpa using this
  have hmem : ∀ p, t.Mem (value input.shape input.data p) := fun p => LineKernel.getD_mem hx _
  have habs : ∀ p, |value input.shape input.data p| ≤ M := by
    intro p
    unfold value
    rw [List.getD_eq_getElem?_getD]
    generalize (Int.toNat _) = i
    cases hi : input.data[i]? with
    | none => simpa using hM
    | some v => exact hb v (List.mem_of_getElem? hi)
  have hget : ∀ p, InShape (input.numbers t).shape p → (input.numbers t).get p =
      .ok (Number.of t (value input.shape input.data p)) := by
    intro p hp
    have := hfe p hp
    unfold Raster.get at this ⊢
    rw [readAt_eq_ok] at this ⊢
    refine ⟨this.1, ?_⟩
    simp only [Raster.numbers, List.getElem?_map, this.2]
    rfl
  obtain ⟨out, h1, h2, h3⟩ := C83_separable (wellFormed_numbers (t := t) hwf) (input := input.numbers t) hpos hsize
    (largeEnough_numbers hl) (by simpa [Raster.numbers] using hd) hget
  refine ⟨out, h1, h2, fun p hp => ?_⟩
  obtain ⟨x, e1, e2⟩ := g2 p hp
  refine ⟨x, e2, ?_⟩
  rw [g4 p hp] at e1
  injection e1 with e1
  rw [h3 p hp, passes_numbers, ← e1]
  refine congrArg Except.ok ?_
  refine linePasses_bounded ht _ (fun κ hκ => ?_) hmem hM habs ?_ p
  · obtain ⟨κ', h4, h5⟩ := mem_passes hκ
    rw [h5]
    exact hv _ _ h4
  · intro ks₁ ks₂ e
    have hp' : (passes k).map (fun κ => (κ.2.1.map fun v => |v|).sum) = k.axes.map (weightAt k) := by
      have hax : ∀ axes : List Nat, (∀ i ∈ axes, i ∈ k.axes) → (axes.filterMap fun i =>
          (k.kernels.lookup i).map fun κ => (i, κ.values, κ.origin)).map
            (fun κ : Nat × List Int × Int => (κ.2.1.map fun v => |v|).sum) = axes.map (weightAt k) := by
        intro axes hin
        induction axes with
        | nil => rfl
        | cons i axes ih =>
          obtain ⟨κ, hκ⟩ := Option.isSome_iff_exists.1 ((hwf.lookup i).2 (hin i (by simp)))
          rw [List.filterMap_cons, hκ, Option.map_some, List.map_cons, List.map_cons,
            ih fun j hj => hin j (by simp [hj])]
          unfold weightAt kernelAt
          rw [hκ]
          rfl
      exact hax _ fun _ h => h
    have := hw ks₁.length
    rwa [List.map_take, ← hp', e, List.map_append, List.take_left' (by simp)] at this

/-- With `int`, the sum of 2 x 2 pixels up to 2^29 - 1. -/
example : ∃ (f : List Int → Int) (out : Raster (Number int)),
    (∀ r, (exampleChars.numbers int).Correlates
      ((⟨[2, 2], [2 ^ 29 - 1, 5, -(2 ^ 29 - 1), 2 ^ 29 - 1]⟩ : Raster Int).numbers int) r ↔ r = .ok out) ∧
      ∀ p, InShape [2, 2] p → ∃ x, IsOuterCorrelation (axisKernels 2 (kernelAt exampleChars)) f p x ∧
        out.get p = .ok (Number.of _ x) := by
  classical
  obtain ⟨h1, h2, h3, h4⟩ := exampleChars_ok
  obtain ⟨out, _, h6, h7⟩ := C89_separable_bounded_partial (t := int)
    (input := ⟨[2, 2], [2 ^ 29 - 1, 5, -(2 ^ 29 - 1), 2 ^ 29 - 1]⟩)
    (f := fun p => if InShape [2, 2] p then value [2, 2] [2 ^ 29 - 1, 5, -(2 ^ 29 - 1), 2 ^ 29 - 1] p else 0)
    (by decide) h1 h2 (by simp [Pos]) (by decide) h3 (by decide)
    ⟨fun p hp => by
        rw [if_pos hp]
        exact get_value (r := ⟨[2, 2], [2 ^ 29 - 1, 5, -(2 ^ 29 - 1), 2 ^ 29 - 1]⟩) (by decide) hp,
      fun p hp => if_neg hp⟩ (fun i κ h v hv => by
        have := h4 i κ h v hv
        unfold Mem at this ⊢
        have e1 : (⟨7, true⟩ : IntType).lowest = -128 ∧ (⟨7, true⟩ : IntType).highest = 127 := by decide
        have e2 : int.lowest = -2147483648 ∧ int.highest = 2147483647 := by decide
        rw [e1.1, e1.2] at this
        rw [e2.1, e2.2]
        omega) (by decide) (M := 2 ^ 29 - 1) (by decide) (by decide) (by
      intro m
      have e : exampleChars.axes = [1, 0] := by decide
      rw [e]
      match m with
      | 0 => decide
      | 1 => decide
      | m + 2 =>
        simp only [List.take_succ_cons, List.take_nil]
        decide)
  exact ⟨_, out, h6, h7⟩

/-- **C89** for separable kernels, in full: whatever the integral type of 7 to 64 digits, the pixels whose correlation is a value
of the type are this value. -/
def C89_separable_Statement : Prop :=
  ∀ (t : IntType) (k : SeparableKernel Int) (input : Raster Int) (f : List Int → Int) (out : Raster (Number t)),
    7 ≤ t.digits → t.digits ≤ 64 → WellFormed k → k.axes.Nodup → Pos input.shape → input.shape.prod < 2 ^ 63 →
    LargeEnough k input.shape → (input.data.length : Int) = input.shape.prod → ZeroExtends input f →
    (∀ i κ, k.kernels.lookup i = some κ → ∀ v ∈ κ.values, t.Mem v) → (∀ v ∈ input.data, t.Mem v) →
    (k.numbers t).Correlates (input.numbers t) (.ok out) → ∀ p x, InShape input.shape p →
      IsOuterCorrelation (axisKernels input.shape.length (kernelAt k)) f p x → t.Mem x → out.get p = .ok (Number.of t x)

/-- The kernel whose second pass multiplies by 0 the sums of the first pass. -/
def exampleNull : SeparableKernel Int := (along ⟨[1, 1], 0⟩ [0]).combine (along ⟨[0], 0⟩ [1])

theorem exampleNull_lookup : ∀ i κ, exampleNull.kernels.lookup i = some κ →
    (i = 0 ∧ κ = ⟨[1, 1], 0⟩) ∨ (i = 1 ∧ κ = ⟨[0], 0⟩) := by
  intro i κ h
  have e : exampleNull.kernels = [(0, ⟨[1, 1], 0⟩), (1, ⟨[0], 0⟩)] := by decide
  rw [e] at h
  match i, h with
  | 0, h => simp at h; exact .inl ⟨rfl, h.symm⟩
  | 1, h => simp [List.lookup_cons] at h; exact .inr ⟨rfl, h.symm⟩
  | n + 2, h => simp [List.lookup_cons] at h

/-- The correlation by a null kernel is 0, but the sums of the first pass overflow: the behaviour is undefined. -/
theorem C89_separable_violated : ¬ C89_separable_Statement := by
  classical
  intro h
  let input : Raster Int := ⟨[2, 1], [2 ^ 30, 2 ^ 30]⟩
  have hwf : WellFormed exampleNull := (C49_combine (C49_along _ _).1 (C49_along _ _).1).1
  have hl : LargeEnough exampleNull [2, 1] := by
    intro i κ h
    rcases exampleNull_lookup i κ h with ⟨rfl, rfl⟩ | ⟨rfl, rfl⟩ <;> decide
  have hget : ∀ p, InShape (input.numbers int).shape p → (input.numbers int).get p =
      .ok (value (input.numbers int).shape (input.numbers int).data p) := fun p hp => get_value (by decide) hp
  have hz : ZeroExtends input fun p => if InShape [2, 1] p then value [2, 1] [2 ^ 30, 2 ^ 30] p else 0 :=
    ⟨fun p hp => by
      rw [if_pos hp]
      exact get_value (r := input) (by decide) hp, fun p hp => if_neg hp⟩
  obtain ⟨out, h1, h2, h3⟩ := C83_separable (wellFormed_numbers (t := int) hwf) (input := input.numbers int)
    (by simp [Pos, input, Raster.numbers]) (by decide) (largeEnough_numbers hl) (by decide) hget
  have hp : InShape [2, 1] [0, 0] := .cons ⟨by decide, by decide⟩ (.cons ⟨by decide, by decide⟩ .nil)
  have h5 := h int exampleNull input _ out (by decide) (by decide) hwf (by decide) (by simp [Pos, input]) (by decide) hl
    (by decide) hz (fun i κ h => by rcases exampleNull_lookup i κ h with ⟨rfl, rfl⟩ | ⟨rfl, rfl⟩ <;> decide) (by decide)
    ((h2 _).2 rfl) [0, 0] 0 hp ?_ (by decide)
  · rw [h3 _ hp] at h5
    injection h5 with h5
    have h6 : linePasses (input.numbers int).shape (passes (exampleNull.numbers int))
      (value (input.numbers int).shape (input.numbers int).data) [0, 0] = Number.undefined int := by rfl
    rw [h6] at h5
    cases h5
  · intro l _ hmem
    symm
    refine List.sum_eq_zero fun y hy => ?_
    obtain ⟨j, hj, rfl⟩ := List.mem_map.1 hy
    have hk : axisKernels 2 (kernelAt exampleNull) = [([1, 1], 0), ([0], 0)] := by decide
    have hj' := (hmem j).1 hj
    rw [show input.shape.length = 2 from rfl, hk] at hj' ⊢
    match j, hj' with
    | [a, b], ⟨.cons _ (.cons h6 .nil), .cons _ (.cons h7 .nil)⟩ =>
      have : b = 0 := by
        simp at h6 h7
        omega
      subst this
      simp [outerProduct]

end SeparableKernel

end Litl
