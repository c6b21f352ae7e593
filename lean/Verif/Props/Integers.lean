import Verif.Model.Integers
import Verif.Props.KernelOrder
import Verif.Props.SeparableOrder

/-!
# Correlation of integers (C89)
-/

namespace Litl

open Spec

namespace IntType

/-- The number of values of a type. -/
def count (t : IntType) : Int := 2 ^ (t.digits + if t.signed then 1 else 0)

theorem count_pos (t : IntType) : 0 < t.count := by unfold count; positivity

theorem count_eq (t : IntType) : t.count = t.highest - t.lowest + 1 := by
  unfold count highest lowest
  cases t.signed <;> simp [pow_succ]
  ring

/-- Conversions are to the value which is congruent modulo the number of values, but for Booleans. -/
theorem convert_spec {t : IntType} (h : 2 ≤ t.digits) (x : Int) : t.Mem (t.convert x) ∧ t.count ∣ t.convert x - x := by
  have hc := t.count_pos
  unfold convert Mem
  rw [if_neg (by omega)]
  cases hs : t.signed with
  | true =>
    have e : ((2 ^ (t.digits + 1) : Nat) : Int) = 2 * 2 ^ t.digits := by push_cast; ring
    simp only [if_true, lowest, highest, count, hs]
    have h1 := Int.le_bmod (x := x) (m := 2 ^ (t.digits + 1)) (by positivity)
    have h2 := Int.bmod_lt (x := x) (m := 2 ^ (t.digits + 1)) (by positivity)
    rw [e] at h1 h2
    refine ⟨⟨by omega, by omega⟩, ?_⟩
    have := Int.bmod_emod (x := x) (m := 2 ^ (t.digits + 1))
    have h4 : ((2 ^ (t.digits + 1) : Nat) : Int) ∣ x.bmod (2 ^ (t.digits + 1)) - x := by
      exact Int.ModEq.dvd (Int.ModEq.symm this)
    simpa using h4
  | false =>
    simp only [Bool.false_eq_true, if_false, lowest, highest, count, hs, add_zero]
    have hp : (0 : Int) < 2 ^ t.digits := by positivity
    have h1 := Int.emod_nonneg x hp.ne'
    have h2 := Int.emod_lt_of_pos x hp
    refine ⟨⟨by omega, by omega⟩, ?_⟩
    exact ⟨-(x / 2 ^ t.digits), by have := Int.emod_add_mul_ediv x (2 ^ t.digits); linarith⟩

/-- A value of the type is determined by its class. -/
theorem eq_of_dvd {t : IntType} {x y : Int} (hx : t.Mem x) (hy : t.Mem y) (h : t.count ∣ x - y) : x = y := by
  have hc := t.count_eq
  unfold Mem at hx hy
  obtain ⟨z, hz⟩ := h
  have hp := t.count_pos
  rcases lt_trichotomy z 0 with h0 | h0 | h0
  · have : t.count * z ≤ t.count * (-1) := mul_le_mul_of_nonneg_left (by omega) hp.le
    omega
  · rw [h0] at hz; omega
  · have : t.count * 1 ≤ t.count * z := mul_le_mul_of_nonneg_left (by omega) hp.le
    omega

theorem mem_zero (t : IntType) : t.Mem 0 := by
  have : (1 : Int) ≤ 2 ^ t.digits := one_le_pow₀ (by norm_num)
  unfold Mem lowest highest
  split <;> constructor <;> omega

theorem convert_of_mem {t : IntType} (h : 2 ≤ t.digits) {x : Int} (hx : t.Mem x) : t.convert x = x :=
  eq_of_dvd (convert_spec h x).1 hx (convert_spec h x).2

theorem convert_congr {t : IntType} (h : 2 ≤ t.digits) {x y : Int} (hxy : t.count ∣ x - y) : t.convert x = t.convert y := by
  refine eq_of_dvd (convert_spec h x).1 (convert_spec h y).1 ?_
  have h1 := (convert_spec h x).2
  have h2 := (convert_spec h y).2
  have := (h1.add hxy).sub h2
  rwa [show t.convert x - x + (x - y) - (t.convert y - y) = t.convert x - t.convert y by ring] at this

/-- Adding the term `m` to an accumulator of value `s` does not overflow: if the promoted type is signed, then it has the term
and the sum. -/
def Representable (t : IntType) (s m : Int) : Prop :=
  t.promoted.signed = true → t.promoted.Mem m ∧ t.promoted.Mem (s + m)

instance (t : IntType) (s m : Int) : Decidable (t.Representable s m) := inferInstanceAs (Decidable (_ → _))

/-- Adding terms one by one does not overflow, where the accumulator is converted to the type each time. -/
def InRange (t : IntType) (terms : List Int) : Prop :=
  ∀ l₁ m l₂, terms = l₁ ++ m :: l₂ → t.Representable (t.convert l₁.sum) m

/-- The types for which nothing can overflow: the operands are promoted to an unsigned type, or to a signed type which has the
product of any two of their values. -/
def Safe (t : IntType) : Prop := t.promoted.signed = false ∨ t.digits ≤ 15

end IntType

namespace Number

open IntType

variable {t : IntType}

theorem step_eq (h : 2 ≤ t.digits) (s a b : Int) :
    of t s + of t a * of t b = if t.Representable s (a * b) then of t (t.convert (s + a * b)) else undefined t := by
  show (Option.bind (t.promoted.result (a * b)) fun x => (t.promoted.result (s + x)).map t.convert) = _
  have hR : t.Representable s (a * b) ↔ (t.promoted.signed = true → t.promoted.Mem (a * b) ∧ t.promoted.Mem (s + a * b)) :=
    Iff.rfl
  unfold IntType.result
  by_cases hs : t.promoted.signed = true
  · rw [if_pos hs]
    simp only [if_pos hs]
    by_cases h1 : t.promoted.Mem (a * b)
    · rw [if_pos h1]
      show Option.map _ _ = _
      by_cases h2 : t.promoted.Mem (s + a * b)
      · rw [if_pos h2, if_pos (hR.2 fun _ => ⟨h1, h2⟩)]; rfl
      · rw [if_neg h2, if_neg (fun h => h2 (hR.1 h hs).2)]; rfl
    · rw [if_neg h1, if_neg (fun h => h1 (hR.1 h hs).1)]; rfl
  · have hp : t.promoted = t := by
      unfold IntType.promoted at hs ⊢
      split at hs
      · exact absurd rfl hs
      · next h' => rw [if_neg h']
    rw [if_neg hs, if_pos (hR.2 fun h => absurd h hs)]
    simp only [if_neg hs]
    rw [hp]
    show some (t.convert (t.convert (s + t.convert (a * b)))) = some (t.convert (s + a * b))
    congr 1
    have h1 := (convert_spec h (a * b)).2
    have h2 := (convert_spec h (s + t.convert (a * b))).2
    refine convert_congr h ?_
    have := h2.add h1
    rwa [show t.convert (s + t.convert (a * b)) - (s + t.convert (a * b)) + (t.convert (a * b) - a * b) =
      t.convert (s + t.convert (a * b)) - (s + a * b) by ring] at this

theorem undefined_add (x : Number t) : undefined t + x = undefined t := rfl

theorem fold_undefined {ι : Type} (l : List ι) (g : ι → Number t) :
    l.foldl (fun s i => s + g i) (undefined t) = undefined t := by
  induction l with
  | nil => rfl
  | cons i l ih => rw [List.foldl_cons, undefined_add, ih]

theorem fold_from {ι : Type} (h : 2 ≤ t.digits) (a b : ι → Int) (l : List ι) (S : Int) :
    ((∀ l₁ m l₂, (l.map fun i => a i * b i) = l₁ ++ m :: l₂ → t.Representable (t.convert (S + l₁.sum)) m) →
      l.foldl (fun s i => s + of t (a i) * of t (b i)) (of t (t.convert S)) =
        of t (t.convert (S + (l.map fun i => a i * b i).sum))) ∧
    (¬ (∀ l₁ m l₂, (l.map fun i => a i * b i) = l₁ ++ m :: l₂ → t.Representable (t.convert (S + l₁.sum)) m) →
      l.foldl (fun s i => s + of t (a i) * of t (b i)) (of t (t.convert S)) = undefined t) := by
  induction l generalizing S with
  | nil =>
    refine ⟨fun _ => by simp, fun h' => absurd ?_ h'⟩
    intro l₁ m l₂ e
    simp at e
  | cons i l ih =>
    rw [List.foldl_cons, step_eq h]
    have hcongr : t.convert (t.convert S + a i * b i) = t.convert (S + a i * b i) := by
      refine convert_congr h ?_
      have := (convert_spec h S).2
      rwa [show t.convert S + a i * b i - (S + a i * b i) = t.convert S - S by ring]
    have hsplit : (∀ l₁ m l₂, ((i :: l).map fun i => a i * b i) = l₁ ++ m :: l₂ →
          t.Representable (t.convert (S + l₁.sum)) m) ↔
        t.Representable (t.convert S) (a i * b i) ∧ ∀ l₁ m l₂, (l.map fun i => a i * b i) = l₁ ++ m :: l₂ →
          t.Representable (t.convert (S + a i * b i + l₁.sum)) m := by
      constructor
      · intro h'
        refine ⟨by simpa using h' [] _ _ rfl, fun l₁ m l₂ e => ?_⟩
        have := h' (a i * b i :: l₁) m l₂ (by rw [List.map_cons, e]; rfl)
        rwa [List.sum_cons, ← add_assoc] at this
      · rintro ⟨h1, h2⟩ l₁ m l₂ e
        rcases l₁ with _ | ⟨x, l₁⟩
        · rw [List.map_cons, List.nil_append, List.cons.injEq] at e
          rw [← e.1]
          simpa using h1
        · rw [List.map_cons, List.cons_append, List.cons.injEq] at e
          rw [← e.1, List.sum_cons, ← add_assoc]
          exact h2 l₁ m l₂ e.2
    rw [hsplit]
    obtain ⟨ih1, ih2⟩ := ih (S + a i * b i)
    constructor
    · rintro ⟨h1, h2⟩
      rw [if_pos h1, hcongr, ih1 h2, List.map_cons, List.sum_cons, add_assoc]
    · intro hn
      by_cases h1 : t.Representable (t.convert S) (a i * b i)
      · rw [if_pos h1, hcongr]
        exact ih2 fun h2 => hn ⟨h1, h2⟩
      · rw [if_neg h1, fold_undefined]

/-- What is computed: the sum, converted to the type, or nothing in case of overflow. -/
theorem fold_eq {ι : Type} (h : 2 ≤ t.digits) (a b : ι → Int) (l : List ι) :
    (t.InRange (l.map fun i => a i * b i) → l.foldl (fun s i => s + of t (a i) * of t (b i)) 0 =
      of t (t.convert (l.map fun i => a i * b i).sum)) ∧
    (¬ t.InRange (l.map fun i => a i * b i) → l.foldl (fun s i => s + of t (a i) * of t (b i)) 0 = undefined t) := by
  have h0 : t.convert 0 = 0 := convert_of_mem h t.mem_zero
  have := fold_from h a b l 0
  rw [h0] at this
  simp only [zero_add] at this
  exact this

end Number

namespace IntType

theorem inRange_of_safe {t : IntType} (h : 2 ≤ t.digits) (hs : t.Safe) {ι : Type} {a b : ι → Int} {l : List ι}
    (ha : ∀ i ∈ l, t.Mem (a i)) (hb : ∀ i ∈ l, t.Mem (b i)) : t.InRange (l.map fun i => a i * b i) := by
  intro l₁ m l₂ e hp
  rcases hs with hs | hs
  · rw [hs] at hp; cases hp
  · have hm : m ∈ l.map fun i => a i * b i := by rw [e]; simp
    obtain ⟨i, hi, rfl⟩ := List.mem_map.1 hm
    have h1 := ha i hi
    have h2 := hb i hi
    have h3 := (convert_spec h l₁.sum).1
    have hle : (2 : Int) ^ t.digits ≤ 2 ^ 15 := pow_le_pow_right₀ (by norm_num) hs
    have hbound : ∀ x, t.Mem x → |x| ≤ 2 ^ 15 := by
      intro x hx
      unfold Mem lowest highest at hx
      rw [abs_le]
      split at hx <;> constructor <;> linarith [hx.1, hx.2]
    have hab : |a i * b i| ≤ 2 ^ 30 := by
      rw [abs_mul, show (2 : Int) ^ 30 = 2 ^ 15 * 2 ^ 15 by norm_num]
      exact mul_le_mul (hbound _ h1) (hbound _ h2) (abs_nonneg _) (by positivity)
    have h3' := hbound _ h3
    rw [abs_le] at hab h3'
    have hpr : t.promoted = int := by unfold promoted; rw [if_pos (by omega)]
    rw [hpr]
    simp only [Mem, lowest, highest, int, if_true]
    norm_num at hab h3' ⊢
    omega

/-- For signed types which are not narrower than `int`, accumulators are never converted. -/
theorem inRange_signed {t : IntType} (h : 31 ≤ t.digits) (hs : t.signed = true) (terms : List Int) :
    t.InRange terms ↔ (∀ m ∈ terms, t.Mem m) ∧ ∀ l₁ l₂, terms = l₁ ++ l₂ → t.Mem l₁.sum := by
  have hp : t.promoted.Mem = t.Mem ∧ t.promoted.signed = true := by
    unfold promoted
    split
    · have : t = int := by
        cases t
        simp only at h hs
        simp only [int, IntType.mk.injEq]
        exact ⟨by simp only at *; omega, hs⟩
      rw [this]
      exact ⟨rfl, rfl⟩
    · exact ⟨rfl, hs⟩
  unfold InRange Representable
  rw [hp.1, hp.2]
  simp only [true_implies]
  constructor
  · intro h'
    have key : ∀ l₁ l₂, terms = l₁ ++ l₂ → t.Mem l₁.sum := by
      intro l₁
      induction l₁ using List.reverseRecOn with
      | nil =>
        intro _ _
        exact t.mem_zero
      | append_singleton l₁ m ih =>
        intro l₂ e
        rw [List.append_assoc, List.singleton_append] at e
        have h1 := ih _ e
        have h2 := (h' l₁ m l₂ e).2
        rw [convert_of_mem (by omega) h1] at h2
        simpa using h2
    refine ⟨fun m hm => ?_, key⟩
    obtain ⟨l₁, l₂, e⟩ := List.append_of_mem hm
    exact (h' l₁ m l₂ e).1
  · rintro ⟨h1, h2⟩ l₁ m l₂ e
    refine ⟨h1 m (by rw [e]; simp), ?_⟩
    rw [convert_of_mem (by omega) (h2 _ _ e)]
    have := h2 (l₁ ++ [m]) l₂ (by rw [e]; simp)
    simpa using this

end IntType

namespace Kernel

open IntType

variable {t : IntType}

theorem suitable_numbers {k : Kernel Int} {input : Raster Int} {extrapolator : Position → Res Int} {F : Position → Int}
    {out : List Int} (t : IntType) (h : Suitable k input extrapolator F out) :
    Suitable (k.numbers t) (input.numbers t) (fun q => (extrapolator q).map (Number.of t)) (fun q => Number.of t (F q))
      (out.map (Number.of t)) where
  dim := h.dim
  pos := h.pos
  front_length := h.front_length
  back_length := h.back_length
  nonempty := h.nonempty
  values := by
    have := h.values
    simpa [numbers] using this
  data := by
    have := h.data
    simpa [Raster.numbers] using this
  out := by
    have := h.out
    simpa [Raster.numbers] using this
  inside := by
    intro q hq
    have := h.inside q hq
    unfold Raster.get at this ⊢
    rw [readAt_eq_ok] at this ⊢
    refine ⟨this.1, ?_⟩
    simp only [Raster.numbers, List.getElem?_map, this.2]
    rfl
  extrapolated := by
    intro q hq
    have := h.extrapolated q hq
    simp only [this]
    rfl

theorem kernelValue_numbers (values : List Int) (front back j : List Int) :
    kernelValue (values.map (Number.of t)) front back j = Number.of t (kernelValue values front back j) := by
  unfold kernelValue
  generalize (offset _ _).toNat = i
  rw [List.getD_eq_getElem?_getD, List.getD_eq_getElem?_getD, List.getElem?_map]
  cases values[i]? <;> rfl

theorem kernelValue_mem {values front back j : List Int} (hv : ∀ v ∈ values, t.Mem v) :
    t.Mem (kernelValue values front back j) := by
  unfold kernelValue
  generalize (offset _ _).toNat = i
  rw [List.getD_eq_getElem?_getD]
  cases hi : values[i]? with
  | none => exact t.mem_zero
  | some v => exact hv v (List.mem_of_getElem? hi)

/-- Nothing overflows in the computation of the pixel at `p`: the terms are added one by one in storage order. -/
def NoOverflow (t : IntType) (k : Kernel Int) (F : Position → Int) (p : Position) : Prop :=
  ∀ l : List Position, l.Pairwise StorageLt → (∀ j, j ∈ l ↔ InBox k.window.front k.window.back j) →
    t.InRange (l.map fun j => kernelValue k.values k.window.front k.window.back j * F (List.zipWith (· + ·) p j))

/-- The pixel at `p` is `x`. -/
def Pixel (shape : Position) (o : List (Number t)) (p : Position) (x : Int) : Prop :=
  o[(offset shape p).toNat]? = some (Number.of t x)

/-- The computation of the pixel at `p` has undefined behaviour. -/
def Undefined (shape : Position) (o : List (Number t)) (p : Position) : Prop :=
  o[(offset shape p).toNat]? = some (Number.undefined t)

/-- The result of the correlation of integers of type `t`. -/
def ReturnsNumbers (t : IntType) (k : Kernel Int) (input : Raster Int) (extrapolator : Position → Res Int) (out : List Int)
    (o : List (Number t)) : Prop :=
  Returns (k.numbers t) (input.numbers t) (fun q => (extrapolator q).map (Number.of t)) (out.map (Number.of t)) o

/-- **C89**, in full: whatever the integral type of 7 to 64 digits, the pixels whose correlation is a value of the type are
this value. -/
def C89_Statement : Prop :=
  ∀ (t : IntType) (k : Kernel Int) (input : Raster Int) (extrapolator : Position → Res Int) (F : Position → Int)
    (out : List Int) (o : List (Number t)), 7 ≤ t.digits → t.digits ≤ 64 → Suitable k input extrapolator F out →
    OriginInside k → WindowFits k input.shape → (∀ v ∈ k.values, t.Mem v) → (∀ q, t.Mem (F q)) →
    ReturnsNumbers t k input extrapolator out o → ∀ p x, Covered k input.shape p →
      IsCorrelation k.values k.window.front k.window.back F p x → t.Mem x → Pixel input.shape o p x

/-- **C89** for any integral type, exactly: the correlation has one outcome, whose pixels are the exact correlation, converted to
the value type, if no product and no partial sum overflows; otherwise, the behaviour is undefined. -/
theorem C89_exact (ht : 2 ≤ t.digits) {k : Kernel Int} {input : Raster Int} {extrapolator : Position → Res Int}
    {F : Position → Int} {out : List Int} (h : Suitable k input extrapolator F out) (ho : OriginInside k)
    (hw : WindowFits k input.shape) :
    ∃ o, ReturnsNumbers t k input extrapolator out o ∧ ∀ p, Covered k input.shape p →
      (NoOverflow t k F p → ∀ x, IsCorrelation k.values k.window.front k.window.back F p x →
        Pixel input.shape o p (t.convert x)) ∧
      (¬ NoOverflow t k F p → Undefined input.shape o p) := by
  obtain ⟨o, h1, _, h2⟩ := C83_order (suitable_numbers t h) ho hw
  refine ⟨o, h1, fun p hp => ?_⟩
  obtain ⟨y, e1, l, hpw, hmem, rfl⟩ := h2 p hp
  have huniq : ∀ l' : List Position, l'.Pairwise StorageLt →
      (∀ j, j ∈ l' ↔ InBox k.window.front k.window.back j) → l' = l :=
    fun l' h3 h4 => eq_of_storage_order h3 hpw fun j => by rw [h4, hmem]; rfl
  have hnd : l.Nodup := hpw.imp fun h e => by subst e; exact h.asymm h
  simp only [numbers, kernelValue_numbers] at e1
  obtain ⟨f1, f2⟩ := Number.fold_eq ht (fun j => kernelValue k.values k.window.front k.window.back j)
    (fun j => F (List.zipWith (· + ·) p j)) l
  constructor
  · intro hno x hx
    have hr := f1 (hno l hpw hmem)
    unfold Pixel
    rw [hx l hnd hmem, ← hr]
    exact e1
  · intro hno
    unfold Undefined
    rw [← f2 fun hr => hno fun l' h3 h4 => by rw [huniq l' h3 h4]; exact hr]
    exact e1

/-- **C89** for the types which are narrower than 16 unsigned digits, and for the unsigned types which are not narrower than
`int`: the behaviour is defined, and pixels are right modulo the number of values of the type, hence right as soon as the
correlation is a value of the type, whatever the partial sums.
Missing: the other types, see `C89_signed` and `C89_unsigned_short`. -/
theorem C89_modular_partial (ht : 2 ≤ t.digits) (hs : t.Safe) {k : Kernel Int} {input : Raster Int}
    {extrapolator : Position → Res Int} {F : Position → Int} {out : List Int} (h : Suitable k input extrapolator F out)
    (ho : OriginInside k) (hw : WindowFits k input.shape) (hv : ∀ v ∈ k.values, t.Mem v) (hF : ∀ q, t.Mem (F q)) :
    ∃ o, ReturnsNumbers t k input extrapolator out o ∧ ∀ p x, Covered k input.shape p →
      IsCorrelation k.values k.window.front k.window.back F p x →
        (∃ y, Pixel input.shape o p y ∧ t.Mem y ∧ t.count ∣ y - x) ∧ (t.Mem x → Pixel input.shape o p x) := by
  obtain ⟨o, h1, h2⟩ := C89_exact ht h ho hw
  refine ⟨o, h1, fun p x hp hx => ?_⟩
  have hno : NoOverflow t k F p := by
    intro l _ _
    refine inRange_of_safe ht hs (fun j _ => ?_) fun j _ => hF _
    exact kernelValue_mem hv
  have h3 := (h2 p hp).1 hno x hx
  refine ⟨⟨_, h3, (convert_spec ht x).1, (convert_spec ht x).2⟩, fun hm => ?_⟩
  rwa [convert_of_mem ht hm] at h3

/-- **C89** for signed types which are not narrower than `int`: the behaviour is defined if and only if all the products and all
the partial sums in storage order are values of the type, and then the pixel is right. -/
theorem C89_signed (ht : 31 ≤ t.digits) (hs : t.signed = true) {k : Kernel Int} {input : Raster Int}
    {extrapolator : Position → Res Int} {F : Position → Int} {out : List Int} (h : Suitable k input extrapolator F out)
    (ho : OriginInside k) (hw : WindowFits k input.shape) :
    ∃ o, ReturnsNumbers t k input extrapolator out o ∧ ∀ p x, Covered k input.shape p →
      IsCorrelation k.values k.window.front k.window.back F p x → ∀ l : List Position, l.Pairwise StorageLt →
      (∀ j, j ∈ l ↔ InBox k.window.front k.window.back j) → ∀ terms : List Int,
      terms = l.map (fun j => kernelValue k.values k.window.front k.window.back j * F (List.zipWith (· + ·) p j)) →
        ((∀ m ∈ terms, t.Mem m) ∧ (∀ l₁ l₂, terms = l₁ ++ l₂ → t.Mem l₁.sum) → Pixel input.shape o p x) ∧
        (¬ ((∀ m ∈ terms, t.Mem m) ∧ ∀ l₁ l₂, terms = l₁ ++ l₂ → t.Mem l₁.sum) → Undefined input.shape o p) := by
  obtain ⟨o, h1, h2⟩ := C89_exact (t := t) (by omega) h ho hw
  refine ⟨o, h1, fun p x hp hx l hpw hmem terms e => ?_⟩
  have huniq : ∀ l' : List Position, l'.Pairwise StorageLt →
      (∀ j, j ∈ l' ↔ InBox k.window.front k.window.back j) → l' = l :=
    fun l' h3 h4 => eq_of_storage_order h3 hpw fun j => by rw [h4, hmem]
  have hnd : l.Nodup := hpw.imp fun h e => by subst e; exact h.asymm h
  rw [← inRange_signed ht hs]
  constructor
  · intro hr
    have := (h2 p hp).1 (fun l' h3 h4 => by rw [huniq l' h3 h4, ← e]; exact hr) x hx
    have hxm : t.Mem x := by
      rw [hx l hnd hmem, ← e]
      exact ((inRange_signed ht hs _).1 hr).2 terms [] (by simp)
    rwa [convert_of_mem (by omega) hxm] at this
  · intro hr
    exact (h2 p hp).2 fun hno => hr (by rw [e]; exact hno l hpw hmem)

/-- **C89** for `unsigned short`: operands are promoted to `int`, in which the product of two values may overflow; in this case,
the behaviour is undefined, although `unsigned short` is an unsigned type. -/
theorem C89_unsigned_short {k : Kernel Int} {input : Raster Int} {extrapolator : Position → Res Int}
    {F : Position → Int} {out : List Int} (h : Suitable k input extrapolator F out) (ho : OriginInside k)
    (hw : WindowFits k input.shape) (hv : ∀ v ∈ k.values, (⟨16, false⟩ : IntType).Mem v)
    (hF : ∀ q, (⟨16, false⟩ : IntType).Mem (F q)) :
    ∃ o, ReturnsNumbers ⟨16, false⟩ k input extrapolator out o ∧ ∀ p, Covered k input.shape p →
      ((∃ j, InBox k.window.front k.window.back j ∧
        2 ^ 31 ≤ kernelValue k.values k.window.front k.window.back j * F (List.zipWith (· + ·) p j)) →
        Undefined input.shape o p) ∧
      ((∀ j, InBox k.window.front k.window.back j →
        kernelValue k.values k.window.front k.window.back j * F (List.zipWith (· + ·) p j) ≤ 2 ^ 31 - 2 ^ 16) →
        ∀ x, IsCorrelation k.values k.window.front k.window.back F p x → Pixel input.shape o p (x % 2 ^ 16)) := by
  obtain ⟨o, h1, h2⟩ := C89_exact (t := ⟨16, false⟩) (by decide) h ho hw
  refine ⟨o, h1, fun p hp => ⟨?_, ?_⟩⟩
  · rintro ⟨j, hj, hbig⟩
    refine (h2 p hp).2 fun hno => ?_
    have hl := h.nonempty.length_eq
    have hr := hno (enum k.window.front k.window.back) pairwise_enum (fun _ => mem_enum hl)
    obtain ⟨l₁, l₂, e⟩ := List.append_of_mem (List.mem_map.2 ⟨j, (mem_enum hl).2 hj, rfl⟩ :
      kernelValue k.values k.window.front k.window.back j * F (List.zipWith (· + ·) p j) ∈
        (enum k.window.front k.window.back).map fun j =>
          kernelValue k.values k.window.front k.window.back j * F (List.zipWith (· + ·) p j))
    have := (hr l₁ _ l₂ e rfl).1.2
    have e2 : (promoted ⟨16, false⟩).highest = 2 ^ 31 - 1 := rfl
    rw [e2] at this
    omega
  · intro hsmall x hx
    refine (h2 p hp).1 ?_ x hx
    intro l hpw hmem l₁ m l₂ e _
    have hm : m ∈ l.map fun j =>
        kernelValue k.values k.window.front k.window.back j * F (List.zipWith (· + ·) p j) := by rw [e]; simp
    obtain ⟨j, hj, rfl⟩ := List.mem_map.1 hm
    have g1 := hsmall j ((hmem j).1 hj)
    have g2 := (convert_spec (t := ⟨16, false⟩) (by decide) l₁.sum).1
    have g3 : (⟨16, false⟩ : IntType).Mem (kernelValue k.values k.window.front k.window.back j) :=
      kernelValue_mem hv
    have g4 := hF (List.zipWith (· + ·) p j)
    have e1 : (⟨16, false⟩ : IntType).lowest = 0 ∧ (⟨16, false⟩ : IntType).highest = 65535 := by decide
    have e2 : (promoted ⟨16, false⟩).highest = 2147483647 ∧ (promoted ⟨16, false⟩).lowest = -2147483648 := by decide
    unfold Mem at g2 g3 g4 ⊢
    rw [e1.1, e1.2] at g2 g3 g4
    rw [e2.1, e2.2]
    have := mul_nonneg g3.1 g4.1
    norm_num at g1
    omega

/-! ## Examples -/

/-- The raster `a, 1, 1` with nearest neighbor extrapolation. -/
def exampleInt (a : Int) (q : Position) : Int := if q.getD 0 0 ≤ 0 then a else 1

/-- The sum of the previous pixel and of the pixel, minus the next one. -/
def exampleIntKernel : Kernel Int := ⟨[1, 1, -1], ⟨[-1], [1]⟩⟩

theorem exampleInt_suitable (a : Int) (values : List Int) (hl : values.length = 3) :
    Suitable ⟨values, ⟨[-1], [1]⟩⟩ ⟨[3], [a, 1, 1]⟩ (fun q => .ok (exampleInt a q)) (exampleInt a) [0, 0, 0] ∧
    OriginInside (⟨values, ⟨[-1], [1]⟩⟩ : Kernel Int) ∧ WindowFits (⟨values, ⟨[-1], [1]⟩⟩ : Kernel Int) [3] := by
  refine ⟨⟨by simp, by simp [Pos], rfl, rfl, by simp, by simp only [hl]; rfl, rfl, rfl, ?_, fun q _ => rfl⟩,
    by simp [OriginInside], ?_⟩
  · intro q hq
    match q, hq with
    | [x], .cons h .nil =>
      have : x = 0 ∨ x = 1 ∨ x = 2 := by omega
      rcases this with rfl | rfl | rfl <;> rfl
  · intro i hi
    have : i = 0 := by simpa using hi
    subst this
    show (1 : Int) - -1 ≤ 3
    decide

theorem exampleInt_correlation (a : Int) (values : List Int) :
    IsCorrelation values [-1] [1] (exampleInt a) [1] (values.getD 0 0 * a + values.getD 1 0 + values.getD 2 0) := by
  refine isCorrelation_enum (by rfl) ?_
  have e : enum [-1] [1] = [[-1], [0], [1]] := by decide
  rw [e]
  simp [kernelValue, exampleInt, Position.add, offset, strides]
  ring

theorem exampleInt_covered (values : List Int) : Covered (⟨values, ⟨[-1], [1]⟩⟩ : Kernel Int) [3] [1] :=
  covered_1d rfl rfl rfl (.cons ⟨by decide, by decide⟩ .nil)

/-- With `signed char`, the partial sum 127 + 1 is converted to -128, from which 1 is subtracted: the pixel is 127 nonetheless. -/
example : ∃ o, ReturnsNumbers ⟨7, true⟩ exampleIntKernel ⟨[3], [127, 1, 1]⟩ (fun q => .ok (exampleInt 127 q)) [0, 0, 0] o ∧
    Pixel [3] o [1] 127 := by
  obtain ⟨h1, h2, h3⟩ := exampleInt_suitable 127 [1, 1, -1] rfl
  obtain ⟨o, h4, h5⟩ := C89_modular_partial (t := ⟨7, true⟩) (by decide) (.inr (by decide)) h1 h2 h3 (by decide)
    (fun q => by unfold exampleInt; split <;> decide)
  exact ⟨o, h4, (h5 [1] 127 (exampleInt_covered _) (exampleInt_correlation 127 [1, 1, -1])).2 (by decide)⟩

/-- With `int`, the partial sum overflows. -/
theorem exampleInt_overflow : ∃ o, ReturnsNumbers int exampleIntKernel ⟨[3], [2 ^ 31 - 1, 1, 1]⟩
    (fun q => .ok (exampleInt (2 ^ 31 - 1) q)) [0, 0, 0] o ∧ Undefined [3] o [1] := by
  obtain ⟨h1, h2, h3⟩ := exampleInt_suitable (2 ^ 31 - 1) [1, 1, -1] rfl
  obtain ⟨o, h4, h5⟩ := C89_signed (t := int) (by decide) rfl h1 h2 h3
  refine ⟨o, h4, (h5 [1] _ (exampleInt_covered _) (exampleInt_correlation _ [1, 1, -1]) (enum [-1] [1]) pairwise_enum
    (fun _ => mem_enum rfl) _ rfl).2 ?_⟩
  rintro ⟨_, h6⟩
  have := h6 [2 ^ 31 - 1, 1] [-1] (by decide)
  revert this
  decide

/-- **C89** is refuted: with `int`, the pixel is undefined although the correlation is a value of the type. -/
theorem C89_violated : ¬ C89_Statement := by
  intro h
  obtain ⟨o, h4, h5⟩ := exampleInt_overflow
  obtain ⟨h1, h2, h3⟩ := exampleInt_suitable (2 ^ 31 - 1) [1, 1, -1] rfl
  have := h int exampleIntKernel ⟨[3], [2 ^ 31 - 1, 1, 1]⟩ _ _ _ o (by decide) (by decide) h1 h2 h3 (by decide)
    (fun q => by unfold exampleInt; split <;> decide) h4 [1] (2 ^ 31 - 1) (exampleInt_covered _)
    (by have := exampleInt_correlation (2 ^ 31 - 1) [1, 1, -1]; exact this) (by decide)
  unfold Pixel at this
  unfold Undefined at h5
  rw [h5] at this
  cases this

/-- With `unsigned short`, the product of 50000 by itself is undefined, while that of 40000 is reduced modulo 65536. -/
example : (∃ o, ReturnsNumbers ⟨16, false⟩ ⟨[50000, 0, 0], ⟨[-1], [1]⟩⟩ ⟨[3], [50000, 1, 1]⟩
      (fun q => .ok (exampleInt 50000 q)) [0, 0, 0] o ∧ Undefined [3] o [1]) ∧
    ∃ o, ReturnsNumbers ⟨16, false⟩ ⟨[40000, 0, 0], ⟨[-1], [1]⟩⟩ ⟨[3], [40000, 1, 1]⟩
      (fun q => .ok (exampleInt 40000 q)) [0, 0, 0] o ∧ Pixel [3] o [1] 4096 := by
  constructor
  · obtain ⟨h1, h2, h3⟩ := exampleInt_suitable 50000 [50000, 0, 0] rfl
    obtain ⟨o, h4, h5⟩ := C89_unsigned_short h1 h2 h3 (by decide) (fun q => by unfold exampleInt; split <;> decide)
    exact ⟨o, h4, (h5 [1] (exampleInt_covered _)).1 ⟨[-1], by simp [InBox], by decide⟩⟩
  · obtain ⟨h1, h2, h3⟩ := exampleInt_suitable 40000 [40000, 0, 0] rfl
    obtain ⟨o, h4, h5⟩ := C89_unsigned_short h1 h2 h3 (by decide) (fun q => by unfold exampleInt; split <;> decide)
    refine ⟨o, h4, (h5 [1] (exampleInt_covered _)).2 ?_ _ (exampleInt_correlation _ [40000, 0, 0])⟩
    intro j hj
    match j, hj with
    | [x], ⟨.cons h6 .nil, .cons h7 .nil⟩ =>
      have : x = -1 ∨ x = 0 ∨ x = 1 := by omega
      rcases this with rfl | rfl | rfl <;> decide

end Kernel

namespace LineKernel

open IntType

variable {t : IntType}

theorem getD_numbers (values : List Int) (j : Nat) :
    (values.map (Number.of t)).getD j 0 = Number.of t (values.getD j 0) := by
  rw [List.getD_eq_getElem?_getD, List.getD_eq_getElem?_getD, List.getElem?_map]
  cases values[j]? <;> rfl

theorem getD_mem {values : List Int} (hv : ∀ v ∈ values, t.Mem v) (j : Nat) : t.Mem (values.getD j 0) := by
  rw [List.getD_eq_getElem?_getD]
  cases hi : values[j]? with
  | none => exact t.mem_zero
  | some v => exact hv v (List.mem_of_getElem? hi)

theorem sum_congr {ι : Type} (ht : 2 ≤ t.digits) (l : List ι) (a b : ι → Int) :
    t.convert (l.map fun i => a i * t.convert (b i)).sum = t.convert (l.map fun i => a i * b i).sum := by
  refine convert_congr ht ?_
  induction l with
  | nil => simp
  | cons i l ih =>
    simp only [List.map_cons, List.sum_cons]
    have h1 := ((convert_spec ht (b i)).2.mul_left (a i)).add ih
    rwa [show a i * (t.convert (b i) - b i) + ((l.map fun i => a i * t.convert (b i)).sum - (l.map fun i => a i * b i).sum) =
      a i * t.convert (b i) + (l.map fun i => a i * t.convert (b i)).sum -
        (a i * b i + (l.map fun i => a i * b i).sum) by ring] at h1

/-- One pass of values modulo the number of values of the type. -/
theorem lineFold_numbers (ht : 2 ≤ t.digits) (hs : t.Safe) {values : List Int} (hv : ∀ v ∈ values, t.Mem v) (origin : Int)
    (n : Nat) (x : Int → Int) (i : Int) :
    lineFold (values.map (Number.of t)) origin n (fun i => Number.of t (t.convert (x i))) i =
      Number.of t (t.convert (lineFold values origin n x i)) := by
  unfold lineFold
  rw [List.length_map]
  simp only [getD_numbers]
  rw [(Number.fold_eq ht (fun j : Nat => values.getD j 0) (fun j : Nat => t.convert (x (i + j - origin))) _).1
    (inRange_of_safe ht hs (fun j _ => getD_mem hv j) fun j _ => (convert_spec ht _).1), sum_congr ht, Kernel.foldl_add_eq,
    zero_add]

/-- **C89** for line kernels and the same types as in `C89_modular_partial`: the correlation of a line terminates without
undefined behaviour, and output values are right modulo the number of values of the type.
Missing: the other types, see `C89_line_exact`. -/
theorem C89_line_partial (ht : 2 ≤ t.digits) (hs : t.Safe) {k : LineKernel Int} {read : Int → Res (Number t)} {n : Nat}
    {a s b u : Int} {x : Int → Int} {data : List (Number t)} (hv : ∀ v ∈ k.values, t.Mem v) (hx : ∀ i, t.Mem (x i))
    (ho : 0 ≤ k.origin ∧ k.origin < k.values.length) (hK : k.values.length ≤ n) (hn : n < 2 ^ 63)
    (hline : Line read a s n fun i => Number.of t (x i)) (hu : u ≠ 0) (hfit : Fits (full a n s) (full b n u) data) :
    ∃ res, (∀ r, Correlates (k.numbers t) read (full a n s) (full b n u) data r ↔ r = .ok res) ∧ ∀ i : Nat, i < n →
      res[(b + i * u).toNat]? = some (Number.of t (t.convert (lineCorrelation k.values k.origin n x i))) := by
  have ho' : 0 ≤ (k.numbers t).origin ∧ (k.numbers t).origin < (k.numbers t).values.length := by
    simpa [numbers] using ho
  have hK' : (k.numbers t).values.length ≤ n := by simpa [numbers] using hK
  obtain ⟨res, h1, h2⟩ := C83_line ho' hK' hn hline hu hfit
  refine ⟨res, h2, fun i hi => ?_⟩
  rw [line_value ho' hK' hn hline hu hfit ((h2 _).2 rfl) hi, ← lineFold_eq]
  have e : (fun i => Number.of t (x i)) = fun i => Number.of t (t.convert (x i)) := by
    funext i
    rw [convert_of_mem ht (hx i)]
  rw [e]
  exact congrArg some (lineFold_numbers ht hs hv _ _ _ _)

/-- 200 and 199 are converted to -56 and -57, and their difference is right. -/
example : ∃ res, (∀ r, Correlates ((⟨[1, 1, -1, -1], 0⟩ : LineKernel Int).numbers ⟨7, true⟩)
      (readAt (([100, 100, 100, 99] : List Int).map (Number.of ⟨7, true⟩))) (full 0 4 1) (full 0 4 1)
      (List.replicate 4 0) r ↔ r = .ok res) ∧ res[0]? = some (Number.of _ 1) := by
  obtain ⟨res, h1, h2⟩ := C89_line_partial (t := ⟨7, true⟩) (k := ⟨[1, 1, -1, -1], 0⟩) (n := 4) (a := 0) (s := 1) (b := 0)
    (u := 1) (read := readAt (([100, 100, 100, 99] : List Int).map (Number.of ⟨7, true⟩)))
    (x := fun i => if i = 3 then 99 else 100) (data := List.replicate 4 0)
    (by decide) (.inr (by decide)) (by decide) (fun i => by split <;> decide) (by decide) (by decide)
    (by decide) (by
      intro i h0 h1
      have : i = 0 ∨ i = 1 ∨ i = 2 ∨ i = 3 := by omega
      rcases this with rfl | rfl | rfl | rfl <;> rfl) (by decide) (by
      rw [full_eq (by norm_num) (by norm_num)]
      intro m hm
      simp only [List.length_replicate] at hm ⊢
      omega)
  exact ⟨res, h1, h2 0 (by decide)⟩

end LineKernel

namespace SeparableKernel

open IntType

variable {t : IntType}

theorem lookup_numbers (m : List (Nat × LineKernel Int)) (i : Nat) :
    (m.map fun iκ => (iκ.1, iκ.2.numbers t)).lookup i = (m.lookup i).map (LineKernel.numbers t) := by
  induction m with
  | nil => rfl
  | cons a m ih =>
    rcases a with ⟨key, κ⟩
    simp only [List.map_cons, List.lookup_cons]
    cases h : i == key
    · exact ih
    · rfl

theorem wellFormed_numbers {k : SeparableKernel Int} (h : WellFormed k) : WellFormed (k.numbers t) where
  sorted := by
    have := h.sorted
    unfold Sorted at this ⊢
    exact List.pairwise_map.2 this
  lookup := by
    intro i
    rw [← show (k.kernels.lookup i).isSome ↔ i ∈ (k.numbers t).axes from h.lookup i]
    simp only [numbers, lookup_numbers, Option.isSome_map]

theorem largeEnough_numbers {k : SeparableKernel Int} {shape : Position} (h : LargeEnough k shape) :
    LargeEnough (k.numbers t) shape := by
  intro i κ hκ
  simp only [numbers, lookup_numbers, Option.map_eq_some_iff] at hκ
  obtain ⟨κ', h1, rfl⟩ := hκ
  have := h i κ' h1
  simpa [LineKernel.numbers] using this

theorem passes_numbers (k : SeparableKernel Int) :
    passes (k.numbers t) = (passes k).map fun κ => (κ.1, κ.2.1.map (Number.of t), κ.2.2) := by
  unfold passes
  rw [List.map_filterMap]
  refine List.filterMap_congr fun i _ => ?_
  simp only [numbers, lookup_numbers, Option.map_map]
  rfl

theorem linePasses_numbers (ht : 2 ≤ t.digits) (hs : t.Safe) {shape : Position} (ks : List (Nat × List Int × Int))
    (hv : ∀ κ ∈ ks, ∀ v ∈ κ.2.1, t.Mem v) (f : List Int → Int) (p : Position) :
    linePasses shape (ks.map fun κ => (κ.1, κ.2.1.map (Number.of t), κ.2.2)) (fun p => Number.of t (t.convert (f p))) p =
      Number.of t (t.convert (linePasses shape ks f p)) := by
  induction ks generalizing f with
  | nil => rfl
  | cons κ ks ih =>
    have e : linePass shape (κ.1, κ.2.1.map (Number.of t), κ.2.2) (fun p => Number.of t (t.convert (f p))) =
        fun p => Number.of t (t.convert (linePass shape κ f p)) := by
      funext q
      unfold linePass
      exact LineKernel.lineFold_numbers ht hs (hv κ (by simp)) _ _ _ _
    unfold linePasses at ih ⊢
    rw [List.map_cons, List.foldl_cons, e, List.foldl_cons]
    exact ih (fun κ' h' => hv κ' (by simp [h'])) _

/-- **C89** for separable kernels and the same types as in `C89_modular_partial`: although intermediate results are converted
to the value type, pixels are the exact correlation of the zero-padded raster, converted to this type.
Missing: the other types, see `C89_separable_bounded_partial` and `C89_separable_violated`. -/
theorem C89_separable_partial (ht : 2 ≤ t.digits) (hs : t.Safe) {k : SeparableKernel Int} {input : Raster Int}
    {f : List Int → Int} (hwf : WellFormed k) (hnd : k.axes.Nodup) (hpos : Pos input.shape)
    (hsize : input.shape.prod < 2 ^ 63) (hl : LargeEnough k input.shape)
    (hd : (input.data.length : Int) = input.shape.prod) (hf : ZeroExtends input f)
    (hv : ∀ i κ, k.kernels.lookup i = some κ → ∀ v ∈ κ.values, t.Mem v) (hx : ∀ v ∈ input.data, t.Mem v) :
    ∃ out : Raster (Number t), out.shape = input.shape ∧
      (∀ r, (k.numbers t).Correlates (input.numbers t) r ↔ r = .ok out) ∧
      ∀ p, InShape input.shape p → ∃ x, IsOuterCorrelation (axisKernels input.shape.length (kernelAt k)) f p x ∧
        out.get p = .ok (Number.of t (t.convert x)) := by
  have hfe : ∀ p, InShape input.shape p → input.get p = .ok (value input.shape input.data p) :=
    fun p hp => get_value hd hp
  obtain ⟨o1, _, g1, g2⟩ := C49_separable hwf hnd hpos hsize hl hd hf
  obtain ⟨o2, _, g3, g4⟩ := C83_separable hwf hpos hsize hl hd hfe
  obtain rfl : o1 = o2 := by
    have := (g3 _).1 ((g1 (.ok o1)).2 rfl)
    simpa using this
  have hmem : ∀ p, t.Mem (value input.shape input.data p) := fun p => LineKernel.getD_mem hx _
  have hget : ∀ p, InShape (input.numbers t).shape p → (input.numbers t).get p =
      .ok (Number.of t (t.convert (value input.shape input.data p))) := by
    intro p hp
    have := hfe p hp
    unfold Raster.get at this ⊢
    rw [readAt_eq_ok] at this ⊢
    refine ⟨this.1, ?_⟩
    simp only [Raster.numbers, List.getElem?_map, this.2, convert_of_mem ht (hmem p)]
    rfl
  obtain ⟨out, h1, h2, h3⟩ := C83_separable (wellFormed_numbers (t := t) hwf) (input := input.numbers t) hpos hsize
    (largeEnough_numbers hl) (by simpa [Raster.numbers] using hd) hget
  refine ⟨out, h1, h2, fun p hp => ?_⟩
  obtain ⟨x, e1, e2⟩ := g2 p hp
  refine ⟨x, e2, ?_⟩
  rw [g4 p hp] at e1
  injection e1 with e1
  rw [h3 p hp, passes_numbers, ← e1]
  refine congrArg Except.ok ?_
  refine linePasses_numbers ht hs _ (fun κ hκ => ?_) _ p
  obtain ⟨κ', h4, h5⟩ := mem_passes hκ
  rw [h5]
  exact hv _ _ h4

/-- The sum of the 2 x 2 neighbors minus that of the next column, with `signed char`: the sums of the first pass overflow. -/
def exampleChars : SeparableKernel Int := (along ⟨[1, 1], 0⟩ [1]).combine (along ⟨[1, -1], 0⟩ [0])

theorem exampleChars_ok : WellFormed exampleChars ∧ exampleChars.axes.Nodup ∧ LargeEnough exampleChars [2, 2] ∧
    ∀ i κ, exampleChars.kernels.lookup i = some κ → ∀ v ∈ κ.values, (⟨7, true⟩ : IntType).Mem v := by
  have hlook : ∀ i κ, exampleChars.kernels.lookup i = some κ →
      (i = 0 ∧ κ = ⟨[1, -1], 0⟩) ∨ (i = 1 ∧ κ = ⟨[1, 1], 0⟩) := by
    intro i κ h
    have e : exampleChars.kernels = [(0, ⟨[1, -1], 0⟩), (1, ⟨[1, 1], 0⟩)] := by decide
    rw [e] at h
    match i, h with
    | 0, h => simp at h; exact .inl ⟨rfl, h.symm⟩
    | 1, h => simp [List.lookup_cons] at h; exact .inr ⟨rfl, h.symm⟩
    | n + 2, h => simp [List.lookup_cons] at h
  refine ⟨(C49_combine (C49_along _ _).1 (C49_along _ _).1).1, by decide, ?_, ?_⟩
  · intro i κ h
    rcases hlook i κ h with ⟨rfl, rfl⟩ | ⟨rfl, rfl⟩ <;> decide
  · intro i κ h
    rcases hlook i κ h with ⟨rfl, rfl⟩ | ⟨rfl, rfl⟩ <;> decide

/-- With the columns `100, 100` and `100, 99`, the first sums 200 and 199 are converted to -56 and -57. -/
example : ∃ (f : List Int → Int) (out : Raster (Number ⟨7, true⟩)),
    (∀ r, (exampleChars.numbers ⟨7, true⟩).Correlates ((⟨[2, 2], [100, 100, 100, 99]⟩ : Raster Int).numbers ⟨7, true⟩) r ↔
      r = .ok out) ∧ ∀ p, InShape [2, 2] p → ∃ x,
        IsOuterCorrelation (axisKernels 2 (kernelAt exampleChars)) f p x ∧
        out.get p = .ok (Number.of _ ((⟨7, true⟩ : IntType).convert x)) := by
  classical
  obtain ⟨h1, h2, h3, h4⟩ := exampleChars_ok
  obtain ⟨out, _, h6, h7⟩ := C89_separable_partial (t := ⟨7, true⟩) (input := ⟨[2, 2], [100, 100, 100, 99]⟩)
    (f := fun p => if InShape [2, 2] p then value [2, 2] [100, 100, 100, 99] p else 0)
    (by decide) (.inr (by decide)) h1 h2 (by simp [Pos]) (by decide) h3 (by decide)
    ⟨fun p hp => by rw [if_pos hp]; exact get_value (r := ⟨[2, 2], [100, 100, 100, 99]⟩) (by decide) hp,
      fun p hp => if_neg hp⟩ h4 (by decide)
  exact ⟨_, out, h6, h7⟩

end SeparableKernel

end Litl
