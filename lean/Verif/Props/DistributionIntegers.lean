import Verif.Model.DistributionIntegers
import Verif.Props.Integers

/-!
# Distributions of integers (C90)
-/

namespace Litl.Distribution

open IntType

variable {t : IntType}

/-- **C90**, in full: whatever the integral type of 7 to 64 digits, distributions can be constructed, and `sum()` is the sum of the
values as soon as it is a value of the type. -/
def C90_Statement : Prop :=
  ∀ (t : IntType) (values : List Int), 7 ≤ t.digits → t.digits ≤ 64 → (∀ v ∈ values, t.Mem v) →
    ∃ d, ofIntegers t values = .ok d ∧ (t.Mem values.sum → d.sum = values.sum)

theorem add_of (ht : 2 ≤ t.digits) (s : Number t) (v : Int) (hv : t.Mem v) :
    s + Number.of t v = s + Number.of t v * Number.of t 1 := by
  have hp : t.promoted.Mem v := by
    unfold promoted
    split
    · next h =>
        unfold Mem lowest highest at hv ⊢
        have : (2 : Int) ^ t.digits ≤ 2 ^ 31 := pow_le_pow_right₀ (by norm_num) h
        simp only [int, if_true]
        split at hv <;> constructor <;> linarith [hv.1, hv.2]
    · exact hv
  have e : Number.of t v * Number.of t 1 = Number.of t v := by
    show t.promoted.result (v * 1) = some v
    rw [mul_one]
    unfold result
    split
    · rfl
    · next h =>
        have hd : 2 ≤ t.promoted.digits := by
          unfold promoted; split
          · decide
          · exact ht
        rw [convert_of_mem hd hp]
  rw [e]

theorem sums_eq (values : List Int) :
    sums t values = (values.foldl (fun s v => s + Number.of t v) 0,
      values.foldl (fun s v => s + Number.of t v * Number.of t v) 0) := by
  unfold sums
  generalize (0 : Number t) = a
  have : ∀ (l : List Int) (x y : Number t),
      l.foldl (fun s v => (s.1 + Number.of t v, s.2 + Number.of t v * Number.of t v)) (x, y) =
        (l.foldl (fun s v => s + Number.of t v) x, l.foldl (fun s v => s + Number.of t v * Number.of t v) y) := by
    intro l
    induction l with
    | nil => intro x y; rfl
    | cons v l ih => intro x y; rw [List.foldl_cons, ih]; rfl
  exact this values a a

/-- **C90** for any integral type, exactly: the distribution can be constructed if and only if neither the sum of the values nor
that of their squares overflows, and then `sum()` is converted to the type. -/
theorem C90_exact (ht : 2 ≤ t.digits) {values : List Int} (hv : ∀ v ∈ values, t.Mem v) :
    (t.InRange values ∧ t.InRange (values.map fun v => v * v) →
      ofIntegers t values = .ok ⟨values, decide (values.Pairwise (· ≤ ·)), t.convert values.sum⟩) ∧
    (¬ (t.InRange values ∧ t.InRange (values.map fun v => v * v)) → ofIntegers t values = .error .ub) := by
  have e1 : values.foldl (fun s v => s + Number.of t v) 0 =
      values.foldl (fun s v => s + Number.of t v * Number.of t 1) 0 :=
    Kernel.foldl_congr_left fun s v hm => add_of ht s v (hv v hm)
  obtain ⟨f1, f2⟩ := Number.fold_eq ht (fun v : Int => v) (fun _ => 1) values
  obtain ⟨g1, g2⟩ := Number.fold_eq ht (fun v : Int => v) (fun v : Int => v) values
  simp only [mul_one, List.map_id'] at f1 f2
  unfold ofIntegers
  rw [sums_eq, e1]
  constructor
  · rintro ⟨h1, h2⟩
    rw [f1 h1, g1 h2]
    rfl
  · intro hn
    by_cases h1 : t.InRange values
    · rw [f1 h1, g2 fun h2 => hn ⟨h1, h2⟩]
      rfl
    · rw [f2 h1]
      rfl

/-- **C90** for the types which are narrower than 16 unsigned digits, and for the unsigned types which are not narrower than
`int`: distributions can be constructed, and `sum()` is right if it is a value of the type.
Missing: the other types, see `C90_signed` and `C90_unsigned_short`. -/
theorem C90_safe_partial (ht : 2 ≤ t.digits) (hs : t.Safe) {values : List Int} (hv : ∀ v ∈ values, t.Mem v) :
    ∃ d, ofIntegers t values = .ok d ∧ d.values = values ∧ t.Mem d.sum ∧ t.count ∣ d.sum - values.sum ∧
      (t.Mem values.sum → d.sum = values.sum) := by
  have h1 : t.Mem 1 := by
    have : (2 : Int) ^ 2 ≤ 2 ^ t.digits := pow_le_pow_right₀ (by norm_num) ht
    unfold Mem lowest highest
    split <;> constructor <;> linarith
  have r1 := inRange_of_safe ht hs (a := fun v : Int => v) (b := fun _ => 1) hv fun _ _ => h1
  simp only [mul_one, List.map_id'] at r1
  have r2 := inRange_of_safe ht hs (a := fun v : Int => v) (b := fun v : Int => v) hv hv
  exact ⟨_, (C90_exact ht hv).1 ⟨r1, r2⟩, rfl, (convert_spec ht _).1, (convert_spec ht _).2, fun h => convert_of_mem ht h⟩

/-- **C90** for signed types which are not narrower than `int`: the distribution can be constructed if and only if all partial
sums, all squares, and all partial sums of squares are values of the type -- although squares are useless. -/
theorem C90_signed (ht : 31 ≤ t.digits) (hs : t.signed = true) {values : List Int} (hv : ∀ v ∈ values, t.Mem v) :
    let fits := (∀ l₁ l₂, values = l₁ ++ l₂ → t.Mem l₁.sum) ∧ (∀ v ∈ values, t.Mem (v * v)) ∧
      ∀ l₁ l₂, values = l₁ ++ l₂ → t.Mem (l₁.map fun v => v * v).sum
    (fits → ∃ d, ofIntegers t values = .ok d ∧ d.values = values ∧ d.sum = values.sum) ∧
    (¬ fits → ofIntegers t values = .error .ub) := by
  intro fits
  have hiff : fits ↔ t.InRange values ∧ t.InRange (values.map fun v => v * v) := by
    rw [inRange_signed ht hs, inRange_signed ht hs]
    constructor
    · rintro ⟨h1, h2, h3⟩
      refine ⟨⟨hv, h1⟩, fun m hm => ?_, fun l₁ l₂ e => ?_⟩
      · obtain ⟨v, hv', rfl⟩ := List.mem_map.1 hm
        exact h2 v hv'
      · obtain ⟨m₁, m₂, e', rfl, _⟩ := List.map_eq_append_iff.1 e
        exact h3 m₁ m₂ e'
    · rintro ⟨⟨_, h1⟩, h2, h3⟩
      exact ⟨h1, fun v hv' => h2 _ (List.mem_map.2 ⟨v, hv', rfl⟩), fun l₁ l₂ e => h3 _ (l₂.map fun v => v * v) (by
        rw [e, List.map_append])⟩
  rw [hiff]
  obtain ⟨h1, h2⟩ := C90_exact (t := t) (by omega) hv
  refine ⟨fun h => ⟨_, h1 h, rfl, ?_⟩, h2⟩
  exact convert_of_mem (by omega) (((inRange_signed ht hs _).1 h.1).2 values [] (by simp))

/-- **C90** for `unsigned short`: the distribution can be constructed if and only if no value is greater than 46340, because
of the squares, which are numbers of type `int`. -/
theorem C90_unsigned_short {values : List Int} (hv : ∀ v ∈ values, (⟨16, false⟩ : IntType).Mem v) :
    ((∀ v ∈ values, v ≤ 46340) → ∃ d, ofIntegers ⟨16, false⟩ values = .ok d ∧ d.values = values ∧
      d.sum = values.sum % 2 ^ 16) ∧
    ((∃ v ∈ values, 46340 < v) → ofIntegers ⟨16, false⟩ values = .error .ub) := by
  have e1 : (⟨16, false⟩ : IntType).lowest = 0 ∧ (⟨16, false⟩ : IntType).highest = 65535 := by decide
  have e2 : (promoted ⟨16, false⟩).highest = 2147483647 ∧ (promoted ⟨16, false⟩).lowest = -2147483648 := by decide
  obtain ⟨h1, h2⟩ := C90_exact (t := ⟨16, false⟩) (by decide) hv
  have hmem : ∀ v ∈ values, 0 ≤ v ∧ v ≤ 65535 := fun v h => by
    have := hv v h
    unfold Mem at this
    rwa [e1.1, e1.2] at this
  have hconv : ∀ x, 0 ≤ (⟨16, false⟩ : IntType).convert x ∧ (⟨16, false⟩ : IntType).convert x ≤ 65535 := fun x => by
    have := (convert_spec (t := ⟨16, false⟩) (by decide) x).1
    unfold Mem at this
    rwa [e1.1, e1.2] at this
  constructor
  · intro hsmall
    refine ⟨_, h1 ⟨?_, ?_⟩, rfl, rfl⟩
    · intro l₁ m l₂ e _
      have g1 := hmem m (by rw [e]; simp)
      have g2 := hconv l₁.sum
      unfold Mem
      rw [e2.1, e2.2]
      omega
    · intro l₁ m l₂ e _
      have hm : m ∈ values.map fun v => v * v := by rw [e]; simp
      obtain ⟨v, hv', rfl⟩ := List.mem_map.1 hm
      have g1 := hmem v hv'
      have g2 := hconv l₁.sum
      have g3 := hsmall v hv'
      have g4 : v * v ≤ 46340 * 46340 := mul_le_mul g3 g3 g1.1 (by norm_num)
      have g5 := mul_nonneg g1.1 g1.1
      unfold Mem
      rw [e2.1, e2.2]
      omega
  · rintro ⟨v, hv', hbig⟩
    refine h2 fun ⟨_, hr⟩ => ?_
    obtain ⟨l₁, l₂, e⟩ := List.append_of_mem (List.mem_map.2 ⟨v, hv', rfl⟩ : v * v ∈ values.map fun v => v * v)
    have g1 := (hr l₁ _ l₂ e rfl).1.2
    rw [e2.1] at g1
    have g2 : 46341 * 46341 ≤ v * v := mul_le_mul (by omega) (by omega) (by norm_num) (by omega)
    omega

/-- **C90** is refuted: the distribution of the single value 50000 of type `unsigned short`. -/
theorem C90_violated : ¬ C90_Statement := by
  intro h
  have hv : ∀ v ∈ ([50000] : List Int), (⟨16, false⟩ : IntType).Mem v := by decide
  obtain ⟨d, h1, _⟩ := h ⟨16, false⟩ [50000] (by decide) (by decide) hv
  rw [(C90_unsigned_short hv).2 ⟨50000, by simp, by norm_num⟩] at h1
  cases h1

/-- With `int`, too. -/
example : ofIntegers int [50000] = .error .ub := by
  refine (C90_signed (t := int) (by decide) rfl (by decide)).2 ?_
  rintro ⟨_, h, _⟩
  have := h 50000 (by simp)
  revert this
  decide

/-- **C90**, the mean: for unsigned types, the sum is reduced modulo the number of values of the type before it is divided. -/
theorem C90_mean (ht : 2 ≤ t.digits) (ht' : t.digits ≤ 64) (hs : t.signed = false) {values : List Int}
    (hne : values ≠ []) {d : Distribution Int} (hv : ∀ v ∈ values, t.Mem v) (hd : ofIntegers t values = .ok d) :
    meanIntegers d = .ok ((values.sum % 2 ^ t.digits / (values.length : Int) : Int) : ℚ) := by
  have hl := List.length_pos_iff.2 hne
  obtain ⟨h1, h2⟩ := C90_exact ht hv
  by_cases hr : t.InRange values ∧ t.InRange (values.map fun v => v * v)
  · rw [h1 hr] at hd
    cases hd
    unfold meanIntegers
    rw [if_neg (by simp only; omega)]
    have hc : t.convert values.sum = values.sum % 2 ^ t.digits := by
      unfold convert
      rw [if_neg (by omega), hs]
      rfl
    have hp : (0 : Int) < 2 ^ t.digits := by positivity
    have b1 := Int.emod_nonneg values.sum hp.ne'
    have b2 := Int.emod_lt_of_pos values.sum hp
    have b3 : (2 : Int) ^ t.digits ≤ 2 ^ 64 := pow_le_pow_right₀ (by norm_num) ht'
    simp only [hc]
    rw [show u64 (values.sum % 2 ^ t.digits) = values.sum % 2 ^ t.digits by
      unfold u64; exact Int.emod_eq_of_lt b1 (by omega)]
  · rw [h2 hr] at hd
    cases hd

/-- **C90**, the mean: that of at least 256 bytes is zero, whatever they are; likewise for 65536 values of type
`unsigned short`, etc. -/
theorem C90_mean_zero (ht : 2 ≤ t.digits) (ht' : t.digits ≤ 64) (hs : t.signed = false) {values : List Int}
    {d : Distribution Int} (hv : ∀ v ∈ values, t.Mem v) (hd : ofIntegers t values = .ok d)
    (hn : 2 ^ t.digits ≤ values.length) : meanIntegers d = .ok 0 := by
  have hp : (0 : Int) < 2 ^ t.digits := by positivity
  have hn' : ((2 ^ t.digits : Nat) : Int) ≤ values.length := by exact_mod_cast hn
  push_cast at hn'
  have hne : values ≠ [] := by
    rintro rfl
    simp at hn'
    omega
  rw [C90_mean ht ht' hs hne hv hd]
  rw [Int.ediv_eq_zero_of_lt (Int.emod_nonneg _ hp.ne') ((Int.emod_lt_of_pos _ hp).trans_le hn')]
  rfl

/-- **C90**, the mean: for signed types, it is rounded down if the sum is nonnegative; otherwise, the sum is converted to a large
unsigned integer, and the mean is positive. -/
theorem C90_mean_signed (ht : 2 ≤ t.digits) (ht' : t.digits ≤ 63) {values : List Int} (hne : values ≠ [])
    {d : Distribution Int} (hv : ∀ v ∈ values, t.Mem v) (hd : ofIntegers t values = .ok d) (hsum : t.Mem values.sum) :
    (0 ≤ values.sum → meanIntegers d = .ok ((values.sum / (values.length : Int) : Int) : ℚ)) ∧
    (values.sum < 0 → meanIntegers d = .ok (((2 ^ 64 + values.sum) / (values.length : Int) : Int) : ℚ)) := by
  have hl := List.length_pos_iff.2 hne
  obtain ⟨h1, h2⟩ := C90_exact ht hv
  by_cases hr : t.InRange values ∧ t.InRange (values.map fun v => v * v)
  · rw [h1 hr] at hd
    cases hd
    unfold meanIntegers
    rw [if_neg (by simp only; omega)]
    rw [convert_of_mem ht hsum]
    have b3 : (2 : Int) ^ t.digits ≤ 2 ^ 63 := pow_le_pow_right₀ (by norm_num) ht'
    have b4 : (0 : Int) < 2 ^ t.digits := by positivity
    unfold Mem lowest highest at hsum
    have b5 : -2 ^ 63 ≤ values.sum ∧ values.sum < 2 ^ 63 := by
      split at hsum <;> constructor <;> omega
    have hu : (0 ≤ values.sum → u64 values.sum = values.sum) ∧ (values.sum < 0 → u64 values.sum = 2 ^ 64 + values.sum) := by
      unfold u64
      constructor <;> intro <;> omega
    exact ⟨fun h => by rw [hu.1 h], fun h => by rw [hu.2 h]⟩
  · rw [h2 hr] at hd
    cases hd

/-- **C90**, the mean: that of no value is a division by zero. -/
theorem C90_mean_empty : ∃ d, ofIntegers t [] = .ok d ∧ meanIntegers d = .error .ub := ⟨_, rfl, rfl⟩

/-- The mean of -3 and 1 is 2^63 - 1, that of 1 and 2 is 1. -/
example : (∃ d, ofIntegers int [-3, 1] = .ok d ∧ meanIntegers d = .ok ((2 ^ 63 - 1 : Int) : ℚ)) ∧
    ∃ d, ofIntegers int [1, 2] = .ok d ∧ meanIntegers d = .ok ((1 : Int) : ℚ) := by
  constructor
  · exact ⟨_, rfl, (C90_mean_signed (t := int) (values := [-3, 1]) (by decide) (by decide) (by simp) (by decide) rfl
      (by decide)).2 (by decide)⟩
  · exact ⟨_, rfl, (C90_mean_signed (t := int) (values := [1, 2]) (by decide) (by decide) (by simp) (by decide) rfl
      (by decide)).1 (by decide)⟩

/-- The mean of two bytes of value 200 is 72, and that of 300 of them is 0. -/
example : (∃ d, ofIntegers ⟨8, false⟩ [200, 200] = .ok d ∧ meanIntegers d = .ok 72) ∧
    ∃ d, ofIntegers ⟨8, false⟩ (List.replicate 300 200) = .ok d ∧ meanIntegers d = .ok 0 := by
  constructor
  · obtain ⟨d, h1, _⟩ := C90_safe_partial (t := ⟨8, false⟩) (values := [200, 200]) (by decide) (.inr (by decide)) (by decide)
    refine ⟨d, h1, ?_⟩
    rw [C90_mean (t := ⟨8, false⟩) (by decide) (by decide) rfl (by simp) (by decide) h1]
    norm_num
  · have hv : ∀ v ∈ List.replicate 300 (200 : Int), (⟨8, false⟩ : IntType).Mem v := by
      intro v hv
      rw [List.eq_of_mem_replicate hv]
      decide
    obtain ⟨d, h1, _⟩ := C90_safe_partial (t := ⟨8, false⟩) (values := List.replicate 300 200) (by decide)
      (.inr (by decide)) hv
    exact ⟨d, h1, C90_mean_zero (by decide) (by decide) rfl hv h1 (by rw [List.length_replicate]; norm_num)⟩

end Litl.Distribution
