import Verif.Model.NoiseRange
import Verif.Props.ScalarConversion
import Verif.Props.TypeUtils

/-!
# C104: noises with default parameters are well defined
-/

namespace Litl

open Random Spec

/-- **C104** (as stated in properties.jsonl), for any integral type but `bool`, where the values which
`std::normal_distribution` may return are up to 100 times the standard deviation. -/
def C104_Statement : Prop :=
  ∀ t : IntType, 7 ≤ t.digits →
    (∀ r, UniformDefault t r → ∃ x : Int, r = .ok x ∧ (t.lowest : ℚ) / 2 ≤ x ∧ (x : ℚ) ≤ ⌈(t.highest : ℚ) / 2⌉) ∧
    (∀ (v : List Int) r, (∀ x ∈ v, (t.lowest : ℚ) / 2 ≤ x ∧ (x : ℚ) ≤ ⌈(t.highest : ℚ) / 2⌉) →
      AppliesNoise (AddsNoise t (UniformDefault t)) v r →
        ∃ w, r = .ok w ∧ List.Forall₂ (fun x y : Int => (t.lowest : ℚ) / 2 ≤ (y - x : Int) ∧
          ((y - x : Int) : ℚ) ≤ ⌈(t.highest : ℚ) / 2⌉) v w) ∧
    (∀ r, GaussianDefault t (fun x => -100 ≤ x ∧ x ≤ 100) r → ∃ x, r = .ok x) ∧
    (∀ r, PoissonDefault t r → ∃ x, r = .ok x) ∧
    (∀ x r, 0 ≤ x → Shot t x r → ∃ y, r = .ok y)

/-! ## Uniform noise -/

theorem uniformDefault_iff {t : IntType} (h : 2 ≤ t.digits) (r : Res Int) :
    UniformDefault t r ↔ ∃ x : Int, (t.lowest : ℚ) / 2 ≤ x ∧ (x : ℚ) ≤ ⌈(t.highest : ℚ) / 2⌉ ∧ r = .ok x := by
  obtain ⟨_, h1, h2, _⟩ := Limits.C68_partial t (by omega)
  change (_ : ℚ) = (t.lowest : ℚ) / 2 at h1
  change _ = ⌈(t.highest : ℚ) / 2⌉ at h2
  have hle : Limits.halfMin t ≤ Limits.halfMax t := by
    rw [Limits.halfMin_eq (by omega), Limits.halfMax_eq (by omega)]
    have := Limits.pow_pos' (t.digits - 1)
    split <;> omega
  unfold UniformDefault UniformGenerates DrawsUniform
  rw [if_pos hle, ← h1, ← h2]
  simp only [Int.cast_le]

/-- **C104**: values generated by a uniform noise with default bounds are half the lowest value at least and half the highest
value (rounded up) at most, and there are such values. -/
theorem C104_uniform {t : IntType} (h : 2 ≤ t.digits) :
    (∃ r, UniformDefault t r) ∧
    ∀ r, UniformDefault t r → ∃ x : Int, r = .ok x ∧ (t.lowest : ℚ) / 2 ≤ x ∧ (x : ℚ) ≤ ⌈(t.highest : ℚ) / 2⌉ := by
  refine ⟨⟨.ok 0, (uniformDefault_iff h _).2 ⟨0, ?_, ?_, rfl⟩⟩, fun r hr => ?_⟩
  · have := t.mem_zero.1
    have : (t.lowest : ℚ) ≤ 0 := by exact_mod_cast this
    push_cast
    linarith
  · have h0 := t.mem_zero.2
    have h1 : (0 : ℚ) ≤ (t.highest : ℚ) / 2 := by
      have : (0 : ℚ) ≤ t.highest := by exact_mod_cast h0
      linarith
    exact_mod_cast Int.ceil_nonneg h1
  · obtain ⟨x, h1, h2, h3⟩ := (uniformDefault_iff h r).1 hr
    exact ⟨x, h3, h1, h2⟩

/-- The sum is the exact one if it is a value of the type, and otherwise either is undefined or differs by the number of
values. -/
theorem addTo_spec {t : IntType} (h : 2 ≤ t.digits) {x n : Int} :
    (t.Mem (x + n) → addTo t x n = .ok (x + n)) ∧
    (¬ t.Mem (x + n) → addTo t x n = .error .ub ∨ ∃ y, addTo t x n = .ok y ∧ y ≠ x + n ∧ t.count ∣ y - (x + n)) := by
  have hr : ∀ z, t.Mem z → t.promoted.Mem z := by
    intro z hz
    unfold IntType.promoted
    split
    · next hd =>
      unfold IntType.Mem IntType.lowest IntType.highest at hz ⊢
      have : (2 : Int) ^ t.digits ≤ 2 ^ 31 := pow_le_pow_right₀ (by norm_num) hd
      have hp : (0 : Int) < 2 ^ t.digits := by positivity
      simp only [IntType.int, if_true]
      split at hz <;> constructor <;> omega
    · exact hz
  have hpd : 2 ≤ t.promoted.digits := by
    unfold IntType.promoted
    split
    · decide
    · exact h
  constructor
  · intro hm
    unfold addTo IntType.result
    cases hs : t.promoted.signed with
    | true => simp only [if_true, if_pos (hr _ hm), t.convert_of_mem h hm]
    | false => simp only [Bool.false_eq_true, if_false, IntType.convert_of_mem hpd (hr _ hm), t.convert_of_mem h hm]
  · intro hm
    unfold addTo IntType.result
    have key : ∀ z, t.count ∣ z - (x + n) → t.convert z ≠ x + n ∧ t.count ∣ t.convert z - (x + n) := by
      intro z hz
      have h1 := t.convert_spec h z
      refine ⟨fun he => hm (he ▸ h1.1), ?_⟩
      have := h1.2.add hz
      rwa [sub_add_sub_cancel] at this
    cases hs : t.promoted.signed with
    | true =>
      by_cases hp : t.promoted.Mem (x + n)
      · simp only [if_true, if_pos hp]
        exact .inr ⟨_, rfl, key _ (by simp)⟩
      · simp only [if_true, if_neg hp]
        exact .inl trivial
    | false =>
      simp only [Bool.false_eq_true, if_false]
      refine .inr ⟨_, rfl, key _ ?_⟩
      have hpt : t.promoted = t := by
        unfold IntType.promoted at hs ⊢
        split at hs
        · cases hs
        · next hd => rw [if_neg hd]
      rw [hpt]
      exact (t.convert_spec h _).2

/-- There are runs. -/
theorem applies_exists {f : Int → Res Int → Prop} (hf : ∀ x, ∃ r, f x r) : ∀ v, ∃ r, AppliesNoise f v r := by
  intro v
  induction v with
  | nil => exact ⟨_, .nil⟩
  | cons x v ih =>
    obtain ⟨r, hr⟩ := ih
    obtain ⟨y, hy⟩ := hf x
    cases y with
    | error e => exact ⟨_, .fail hy⟩
    | ok y =>
      cases r with
      | error e => exact ⟨_, .later hy hr⟩
      | ok w => exact ⟨_, .cons hy hr⟩

/-- Runs are right if and only if elements are. -/
theorem applies_iff {f : Int → Res Int → Prop} (hf : ∀ x, ∃ r, f x r) (P : Int → Int → Prop) (v : List Int) :
    (∀ r, AppliesNoise f v r → ∃ w, r = .ok w ∧ List.Forall₂ P v w) ↔
      ∀ x ∈ v, ∀ r, f x r → ∃ y, r = .ok y ∧ P x y := by
  induction v with
  | nil =>
    refine ⟨fun _ x hx => absurd hx (by simp), fun _ r hr => ?_⟩
    cases hr
    exact ⟨[], rfl, .nil⟩
  | cons x v ih =>
    constructor
    · intro h
      have hx : ∀ r, f x r → ∃ y, r = .ok y ∧ P x y := by
        intro r hr
        cases r with
        | error e => obtain ⟨w, hw, _⟩ := h _ (.fail hr); cases hw
        | ok y =>
          obtain ⟨s, hs⟩ := applies_exists hf v
          cases s with
          | error e => obtain ⟨w, hw, _⟩ := h _ (.later hr hs); cases hw
          | ok w =>
            obtain ⟨w', hw, h2⟩ := h _ (.cons hr hs)
            cases hw
            exact ⟨y, rfl, (List.forall₂_cons.1 h2).1⟩
      have hv := ih.1 fun s hs => by
        obtain ⟨r, hr⟩ := hf x
        obtain ⟨y, rfl, _⟩ := hx r hr
        cases s with
        | error e => obtain ⟨w, hw, _⟩ := h _ (.later hr hs); cases hw
        | ok w =>
          obtain ⟨w', hw, h2⟩ := h _ (.cons hr hs)
          cases hw
          exact ⟨w, rfl, (List.forall₂_cons.1 h2).2⟩
      intro y hy
      rcases List.mem_cons.1 hy with rfl | hy
      · exact hx
      · exact hv y hy
    · intro h r hr
      have hv := ih.2 fun y hy => h y (by simp [hy])
      cases hr with
      | cons h1 h2 =>
        obtain ⟨w, hw, h3⟩ := hv _ h2
        cases hw
        obtain ⟨y, hy, h4⟩ := h x (by simp) _ h1
        cases hy
        exact ⟨_, rfl, .cons h4 h3⟩
      | fail h1 => obtain ⟨y, hy, _⟩ := h x (by simp) _ h1; cases hy
      | later h1 h2 => obtain ⟨w, hw, _⟩ := hv _ h2; cases hw

/-- **C104**: exact condition for a uniform noise to be added without overflow, whatever the values which are drawn: the sums
with both bounds are values of the type.  Otherwise, for some values, the result is undefined (`int` and larger signed types) or
is not the sum (other types). -/
theorem C104_uniform_add {t : IntType} (h : 2 ≤ t.digits) {min max : Int} (h1 : t.Mem min) (h2 : t.Mem max)
    (hle : min ≤ max) (v : List Int) :
    (∀ r, AppliesNoise (AddsNoise t (UniformGenerates min max)) v r →
        ∃ w, r = .ok w ∧ List.Forall₂ (fun x y => min ≤ y - x ∧ y - x ≤ max) v w) ↔
      ∀ x ∈ v, t.Mem (x + min) ∧ t.Mem (x + max) := by
  have hgen : ∀ x n, min ≤ n → n ≤ max → AddsNoise t (UniformGenerates min max) x (addTo t x n) := by
    intro x n a b
    refine ⟨.ok n, ?_, rfl⟩
    unfold UniformGenerates DrawsUniform
    rw [if_pos hle]
    exact ⟨n, a, b, rfl⟩
  rw [applies_iff (fun x => ⟨_, hgen x min le_rfl hle⟩)]
  refine forall₂_congr fun x _ => ?_
  have hc := t.count_eq
  have hcp := t.count_pos
  constructor
  · intro hx
    have key : ∀ n, min ≤ n → n ≤ max → t.Mem (x + n) := by
      intro n a b
      by_contra hm
      obtain ⟨y, hy, hy1, hy2⟩ := hx _ (hgen x n a b)
      rcases (addTo_spec h).2 hm with hu | ⟨z, hz, hne, z', hz'⟩
      · rw [hu] at hy; cases hy
      · rw [hz] at hy
        cases hy
        unfold IntType.Mem at h1 h2
        have hz0 : z' ≠ 0 := by
          rintro rfl
          rw [mul_zero] at hz'
          exact hne (by linarith)
        rcases lt_or_gt_of_ne hz0 with h0 | h0
        · have : t.count * z' ≤ t.count * (-1) := mul_le_mul_of_nonneg_left (by omega) hcp.le
          omega
        · have : t.count * 1 ≤ t.count * z' := mul_le_mul_of_nonneg_left (by omega) hcp.le
          omega
    exact ⟨key min le_rfl hle, key max hle le_rfl⟩
  · rintro ⟨m1, m2⟩ r ⟨g, hg, hr⟩
    unfold UniformGenerates DrawsUniform at hg
    rw [if_pos hle] at hg
    obtain ⟨n, a, b, rfl⟩ := hg
    dsimp only at hr
    rw [(addTo_spec h).1 ⟨by linarith [m1.1], by linarith [m2.2]⟩] at hr
    exact ⟨_, hr, by omega, by omega⟩

/-- **C104** for uniform noise with default bounds, which is added to data between half the lowest value and half the highest
value, excluded.
Missing: data which contain the latter, for which the property does not hold (`C104_half`). -/
theorem C104_uniform_add_partial {t : IntType} (h : 2 ≤ t.digits) {v : List Int} {r : Res (List Int)}
    (hv : ∀ x ∈ v, (t.lowest : ℚ) / 2 ≤ x ∧ (x : ℚ) < ⌈(t.highest : ℚ) / 2⌉)
    (hr : AppliesNoise (AddsNoise t (UniformDefault t)) v r) :
    ∃ w, r = .ok w ∧ List.Forall₂ (fun x y : Int => (t.lowest : ℚ) / 2 ≤ (y - x : Int) ∧
      ((y - x : Int) : ℚ) ≤ ⌈(t.highest : ℚ) / 2⌉) v w := by
  obtain ⟨_, e1, e2, _⟩ := Limits.C68_partial t (by omega)
  change (_ : ℚ) = (t.lowest : ℚ) / 2 at e1
  change _ = ⌈(t.highest : ℚ) / 2⌉ at e2
  have b1 := Limits.halfMin_eq (t := t) (by omega)
  have b2 := Limits.halfMax_eq (t := t) (by omega)
  have hp := Limits.pow_pos' (t.digits - 1)
  have hh := Limits.half_pow (n := t.digits) (by omega)
  have m1 : t.Mem (Limits.halfMin t) := by
    rw [b1]; unfold IntType.Mem IntType.lowest IntType.highest
    split <;> constructor <;> omega
  have m2 : t.Mem (Limits.halfMax t) := by
    rw [b2]; unfold IntType.Mem IntType.lowest IntType.highest
    have : (2 : Int) ^ (t.digits - 1) = 2 * 2 ^ (t.digits - 1 - 1) := Limits.half_pow (by omega)
    have := Limits.pow_pos' (t.digits - 1 - 1)
    split <;> constructor <;> omega
  have hle : Limits.halfMin t ≤ Limits.halfMax t := by rw [b1, b2]; split <;> omega
  rw [← e1, ← e2] at hv ⊢
  have hv' : ∀ x ∈ v, Limits.halfMin t ≤ x ∧ x < Limits.halfMax t := fun x hx => by
    have := hv x hx
    exact_mod_cast this
  obtain ⟨w, hw, h3⟩ := (C104_uniform_add h m1 m2 hle v).2 (fun x hx => by
    have := hv' x hx
    rw [b1, b2] at this
    rw [b1, b2]
    unfold IntType.Mem IntType.lowest IntType.highest
    cases hs : t.signed <;> simp only [hs, if_true, Bool.false_eq_true, if_false] at this ⊢ <;> omega) r hr
  refine ⟨w, hw, h3.imp fun x y hxy => ?_⟩
  simp only [Int.cast_le]
  exact hxy

/-- **C104**, negative result: whatever the type, adding a uniform noise with default bounds to half the highest value may be
undefined or not give the sum, because the bound is rounded up. -/
theorem C104_half {t : IntType} (h : 2 ≤ t.digits) {v : List Int} (hv : ⌈(t.highest : ℚ) / 2⌉ ∈ v) :
    ¬ ∀ r, AppliesNoise (AddsNoise t (UniformDefault t)) v r →
      ∃ w, r = .ok w ∧ List.Forall₂ (fun x y : Int => (t.lowest : ℚ) / 2 ≤ (y - x : Int) ∧
        ((y - x : Int) : ℚ) ≤ ⌈(t.highest : ℚ) / 2⌉) v w := by
  obtain ⟨_, e1, e2, _⟩ := Limits.C68_partial t (by omega)
  change (_ : ℚ) = (t.lowest : ℚ) / 2 at e1
  change _ = ⌈(t.highest : ℚ) / 2⌉ at e2
  have b1 := Limits.halfMin_eq (t := t) (by omega)
  have b2 := Limits.halfMax_eq (t := t) (by omega)
  have hp := Limits.pow_pos' (t.digits - 1)
  have hh := Limits.half_pow (n := t.digits) (by omega)
  have m1 : t.Mem (Limits.halfMin t) := by
    rw [b1]; unfold IntType.Mem IntType.lowest IntType.highest
    split <;> constructor <;> omega
  have m2 : t.Mem (Limits.halfMax t) := by
    rw [b2]; unfold IntType.Mem IntType.lowest IntType.highest
    have : (2 : Int) ^ (t.digits - 1) = 2 * 2 ^ (t.digits - 1 - 1) := Limits.half_pow (by omega)
    have := Limits.pow_pos' (t.digits - 1 - 1)
    split <;> constructor <;> omega
  have hle : Limits.halfMin t ≤ Limits.halfMax t := by rw [b1, b2]; split <;> omega
  intro hall
  rw [← e1, ← e2] at hall
  simp only [Int.cast_le] at hall
  have := ((C104_uniform_add h m1 m2 hle v).1 hall _ (e2 ▸ hv)).2
  rw [b2] at this
  unfold IntType.Mem IntType.highest at this
  omega

/-! ## Gaussian noise -/

/-- **C104**: exact result for the Gaussian noise of integers: the fractional part of the real value is lost, and the behaviour
is undefined if the real value is less than the lowest value by 1 or more, or more than the highest value by 1 or more. -/
theorem C104_gaussian (t : IntType) {normal : ℚ → Prop} {mean stdev : ℚ} (hs : 0 < stdev) (r : Res Int) :
    GaussianGenerates t normal mean stdev r ↔
      ∃ x, normal x ∧
        ((t.lowest - 1 < mean + stdev * x ∧ mean + stdev * x < t.highest + 1 ∧
            ∃ n, Truncates (mean + stdev * x) n ∧ r = .ok n) ∨
          (¬ (t.lowest - 1 < mean + stdev * x ∧ mean + stdev * x < t.highest + 1) ∧ r = .error .ub)) := by
  have hz := t.mem_zero
  have key : ∀ y : ℚ, t.Mem (toIndex y) ↔ ((t.lowest : ℚ) - 1 < y ∧ y < t.highest + 1) := by
    intro y
    have hT := Container.toIndex_truncates y
    unfold IntType.Mem at hz ⊢
    have z1 : (t.lowest : ℚ) ≤ 0 := by exact_mod_cast hz.1
    have z2 : (0 : ℚ) ≤ t.highest := by exact_mod_cast hz.2
    rcases le_total 0 y with h | h
    · obtain ⟨a, b⟩ := hT.1 h
      constructor
      · rintro ⟨c, d⟩
        have : (toIndex y : ℚ) ≤ t.highest := by exact_mod_cast d
        exact ⟨by linarith, by linarith⟩
      · rintro ⟨c, d⟩
        have h1 : (toIndex y : ℚ) < t.highest + 1 := by linarith
        have h2 : (-1 : ℚ) < toIndex y := by linarith
        norm_cast at h1
        have h2 : (-1 : Int) < toIndex y := by exact_mod_cast h2
        omega
    · obtain ⟨a, b⟩ := hT.2 h
      constructor
      · rintro ⟨c, d⟩
        have : (t.lowest : ℚ) ≤ toIndex y := by exact_mod_cast c
        exact ⟨by linarith, by linarith⟩
      · rintro ⟨c, d⟩
        have h1 : (t.lowest : ℚ) < toIndex y + 1 := by linarith
        have h2 : (toIndex y : ℚ) < 1 := by linarith
        norm_cast at h1 h2
        omega
  unfold GaussianGenerates
  rw [if_pos hs]
  refine exists_congr fun x => and_congr_right fun _ => ?_
  unfold toType
  generalize mean + stdev * x = y
  by_cases hm : t.Mem (toIndex y)
  · rw [if_pos hm]
    have := (key y).1 hm
    constructor
    · rintro rfl
      exact .inl ⟨this.1, this.2, _, Container.toIndex_truncates y, rfl⟩
    · rintro (⟨_, _, n, hn, rfl⟩ | ⟨h, _⟩)
      · rw [Container.truncates_unique hn (Container.toIndex_truncates y)]
      · exact absurd this h
  · rw [if_neg hm]
    have := fun h => hm ((key y).2 h)
    constructor
    · rintro rfl
      exact .inr ⟨this, rfl⟩
    · rintro (⟨a, b, _⟩ | ⟨_, h⟩)
      · exact absurd ⟨a, b⟩ this
      · exact h

/-- **C104** for the Gaussian noise of signed integers, with default parameters.
Missing: unsigned integers, for which the property does not hold (`C104_gaussian_unsigned`). -/
theorem C104_gaussian_partial {t : IntType} (h : 7 ≤ t.digits) (hs : t.signed = true) {r : Res Int}
    (hr : GaussianDefault t (fun x => -100 ≤ x ∧ x ≤ 100) r) : ∃ x, r = .ok x := by
  obtain ⟨_, _, _, _, e0, e1, _⟩ := Limits.C68_partial t (by omega)
  unfold GaussianDefault at hr
  rw [e0, e1, C104_gaussian t (by norm_num)] at hr
  obtain ⟨x, ⟨x1, x2⟩, h1 | ⟨h1, _⟩⟩ := hr
  · obtain ⟨_, _, n, _, hn⟩ := h1
    exact ⟨n, hn⟩
  · exfalso
    apply h1
    have h4 : (2 : ℚ) ^ 7 ≤ 2 ^ t.digits := pow_le_pow_right₀ (by norm_num) h
    unfold IntType.lowest IntType.highest
    rw [if_pos hs]
    push_cast
    constructor <;> linarith

/-- **C104**, negative result: for unsigned integers, whatever the standard deviation and the mean, the behaviour is undefined as
soon as a value at least one below 0 is drawn, e.g. more than one time in seven with the default parameters. -/
theorem C104_gaussian_unsigned {t : IntType} (hs : t.signed = false) {normal : ℚ → Prop} {mean stdev x : ℚ} (h0 : 0 < stdev)
    (hx : normal x) (h1 : mean + stdev * x ≤ -1) :
    GaussianGenerates t normal mean stdev (.error .ub) ∧
    ∀ v ≠ [], AppliesNoise (AddsNoise t (GaussianGenerates t normal mean stdev)) v (.error .ub) := by
  have h : GaussianGenerates t normal mean stdev (.error .ub) := by
    refine (C104_gaussian t h0 _).2 ⟨x, hx, .inr ⟨?_, rfl⟩⟩
    unfold IntType.lowest
    rw [hs]
    rintro ⟨h2, _⟩
    norm_num at h2
    linarith
  refine ⟨h, fun v hv => ?_⟩
  cases v with
  | nil => exact absurd rfl hv
  | cons y v => exact .fail ⟨_, h, rfl⟩

/-- **C104**, negative result: there is no Gaussian noise of null standard deviation. -/
theorem C104_gaussian_null {t : IntType} {normal : ℚ → Prop} {mean stdev : ℚ} (h : stdev ≤ 0) (r : Res Int) :
    GaussianGenerates t normal mean stdev r ↔ r = .error .ub := by
  unfold GaussianGenerates
  rw [if_neg (not_lt.2 h)]

/-- **C104**, negative result: nor is there a uniform noise if the bounds are not sorted. -/
theorem C104_uniform_unsorted {min max : Int} (h : max < min) (r : Res Int) :
    UniformGenerates min max r ↔ r = .error .ub := by
  unfold UniformGenerates DrawsUniform
  rw [if_neg (not_le.2 h)]

/-! ## Poisson noise -/

/-- **C104**, negative result: with the default mean, which is 0, the behaviour of the Poisson noise is undefined, for any
type. -/
theorem C104_poisson_default {t : IntType} (h : 0 < t.digits) (r : Res Int) : PoissonDefault t r ↔ r = .error .ub := by
  obtain ⟨_, _, _, _, e0, _⟩ := Limits.C68_partial t h
  unfold PoissonDefault PoissonGenerates
  rw [e0, if_neg (lt_irrefl 0)]

/-- **C104**, exact result for shot noise: it is well defined (and not negative) if and only if all data are positive.
In particular it cannot be applied to null data, e.g. those of the documentation. -/
theorem C104_shot (t : IntType) (v : List Int) :
    (∀ r, AppliesNoise (Shot t) v r → ∃ w, r = .ok w ∧ List.Forall₂ (fun _ y => t.Mem y ∧ 0 ≤ y) v w) ↔ ∀ x ∈ v, 0 < x := by
  have hz := t.mem_zero
  have hex : ∀ x, ∃ r, Shot t x r := by
    intro x
    unfold Shot PoissonGenerates
    split
    · exact ⟨.ok 0, 0, le_rfl, hz.2, rfl⟩
    · exact ⟨_, rfl⟩
  rw [applies_iff hex]
  refine forall₂_congr fun x _ => ?_
  unfold Shot PoissonGenerates
  by_cases hx : 0 < x
  · simp only [if_pos hx]
    refine ⟨fun _ => hx, fun _ r hr => ?_⟩
    obtain ⟨y, h1, h2, h3⟩ := hr
    exact ⟨y, h3, ⟨hz.1.trans h1, h2⟩, h1⟩
  · simp only [if_neg hx]
    refine ⟨fun hr => ?_, fun h => absurd h hx⟩
    obtain ⟨y, hy, _⟩ := hr _ rfl
    cases hy

/-- **C104** does not hold, for any type. -/
theorem C104_violated : ¬ C104_Statement := by
  intro h
  obtain ⟨x, hx⟩ := (h IntType.int (by decide)).2.2.2.1 _ ((C104_poisson_default (by decide) _).2 rfl)
  cases hx

/-! ## Other value types -/

/-- **C104** for complex value types: the standard deviations of both parts are positive, as required. -/
theorem C104_complex : 0 < complexStdev.1 ∧ 0 < complexStdev.2 := by
  simp [complexStdev, fromScalar]

/-- **C104** for floating point types: the bounds of the uniform noise are sorted, and they differ by the largest number at
most, as required by `std::uniform_real_distribution`; and the sum of two numbers between the bounds does not overflow. -/
theorem C104_real {highest : ℚ} (h : 0 < highest) :
    (realBounds highest).1 ≤ (realBounds highest).2 ∧ (realBounds highest).2 - (realBounds highest).1 ≤ highest ∧
    ∀ x n, (realBounds highest).1 ≤ x → x ≤ (realBounds highest).2 → (realBounds highest).1 ≤ n →
      n ≤ (realBounds highest).2 → |x + n| ≤ highest := by
  simp only [realBounds]
  refine ⟨by linarith, by linarith, fun x n h1 h2 h3 h4 => abs_le.2 ⟨by linarith, by linarith⟩⟩

/-! ## Concrete cases -/

/-- `unsigned char`: 0 to 127 are safe, 128 is not. -/
example : (∀ x ∈ ([0, 10, 127] : List Int), (((⟨8, false⟩ : IntType).lowest : ℚ) / 2 ≤ x ∧
    (x : ℚ) < ⌈((⟨8, false⟩ : IntType).highest : ℚ) / 2⌉)) ∧ ⌈((⟨8, false⟩ : IntType).highest : ℚ) / 2⌉ ∈ ([3, 128] : List Int) := by
  have e : ⌈(255 : ℚ) / 2⌉ = 128 := by rw [Int.ceil_eq_iff]; norm_num
  norm_num [IntType.lowest, IntType.highest]

/-- 128 + 128 is 0 for `unsigned char`, and 2^30 + 2^30 is undefined for `int`. -/
example : addTo ⟨8, false⟩ 128 128 = .ok 0 ∧ addTo IntType.int (2 ^ 30) (2 ^ 30) = .error .ub ∧
    addTo ⟨8, false⟩ 127 128 = .ok 255 := ⟨by rfl, by rfl, by rfl⟩

/-- Real values 1.5 and -0.5 with mean 0 and standard deviation 1: 1 and 0; and -1.5 is undefined for unsigned types. -/
example : toType IntType.int (3 / 2) = .ok 1 ∧ toType IntType.int (-1 / 2) = .ok 0 ∧
    toType ⟨32, false⟩ (-3 / 2) = .error .ub := by
  refine ⟨?_, ?_, ?_⟩ <;> decide +kernel

example : GaussianGenerates ⟨16, false⟩ (fun _ => True) 0 1 (.error .ub) :=
  (C104_gaussian_unsigned rfl (x := -3 / 2) (by norm_num) trivial (by norm_num)).1

/-- The example of the documentation of `StablePoissonNoise`: {0, 1, 2, 3}. -/
example : ¬ ∀ x ∈ ([0, 1, 2, 3] : List Int), 0 < x := by decide

end Litl
