import Verif.Props.Integers
import Verif.Spec.ScalarConversion

/-!
# Scalar operators with scalars of another type (C99)
-/

namespace Litl

open Spec Container

namespace Container

variable {t : IntType}

theorem toIndex_truncates (y : ℚ) : Truncates y (toIndex y) := by
  unfold toIndex
  constructor
  · intro h
    rw [if_pos h]
    exact ⟨Int.floor_le y, Int.lt_floor_add_one y⟩
  · intro h
    by_cases h0 : 0 ≤ y
    · obtain rfl : y = 0 := le_antisymm h h0
      simp
    · rw [if_neg h0]
      exact ⟨Int.le_ceil y, by linarith [Int.ceil_lt_add_one y]⟩

theorem truncates_unique {y : ℚ} {r s : Int} (hr : Truncates y r) (hs : Truncates y s) : r = s := by
  rcases le_total 0 y with h | h
  · have h1 := hr.1 h
    have h2 := hs.1 h
    have h3 : (r : ℚ) < s + 1 := by linarith
    have h4 : (s : ℚ) < r + 1 := by linarith
    norm_cast at h3 h4
    omega
  · have h1 := hr.2 h
    have h2 := hs.2 h
    have h3 : (r : ℚ) < s + 1 := by linarith
    have h4 : (s : ℚ) < r + 1 := by linarith
    norm_cast at h3 h4
    omega

theorem truncates_intCast (k : Int) : Truncates (k : ℚ) k := ⟨fun _ => by constructor <;> linarith, fun _ => by constructor <;> linarith⟩

theorem toIndex_intCast' (k : Int) : toIndex (k : ℚ) = k := truncates_unique (toIndex_truncates _) (truncates_intCast k)

theorem truncates_div (e : Int) {k : Int} (hk : k ≠ 0) : Truncates ((e : ℚ) / k) (Int.tdiv e k) := by
  have hkq : (k : ℚ) ≠ 0 := by exact_mod_cast hk
  have h := Int.mul_tdiv_add_tmod e k
  have hm : (Int.tmod e k).natAbs < k.natAbs := by
    rw [Int.natAbs_tmod]
    exact Nat.mod_lt _ (Int.natAbs_pos.mpr hk)
  have hq : (e : ℚ) / k = Int.tdiv e k + (Int.tmod e k : ℚ) / k := by
    have : ((k * Int.tdiv e k + Int.tmod e k : Int) : ℚ) = e := by rw [h]
    push_cast at this
    rw [← this]
    field_simp
  have habs : |(Int.tmod e k : ℚ) / k| < 1 := by
    rw [abs_div, div_lt_one (abs_pos.mpr hkq)]
    have : |Int.tmod e k| < |k| := by
      rw [Int.abs_eq_natAbs, Int.abs_eq_natAbs]
      exact_mod_cast hm
    exact_mod_cast this
  have h2 := abs_lt.mp habs
  constructor
  · intro h0
    have : 0 ≤ (Int.tmod e k : ℚ) / k := by
      rcases lt_or_gt_of_ne hk with hn | hp
      · have hkn : (k : ℚ) < 0 := by exact_mod_cast hn
        have he : e ≤ 0 := by
          by_contra hc
          have : (0 : ℚ) < e := by exact_mod_cast not_le.mp hc
          have := div_neg_of_pos_of_neg this hkn
          linarith
        have : Int.tmod e k ≤ 0 := by
          have := Int.tmod_nonneg k (show 0 ≤ -e by omega)
          rw [Int.neg_tmod] at this
          omega
        exact div_nonneg_of_nonpos (by exact_mod_cast this) hkn.le
      · have hkp : (0 : ℚ) < k := by exact_mod_cast hp
        have he : 0 ≤ e := by
          by_contra hc
          have : (e : ℚ) < 0 := by exact_mod_cast not_le.mp hc
          have := div_neg_of_neg_of_pos this hkp
          linarith
        exact div_nonneg (by exact_mod_cast Int.tmod_nonneg k he) hkp.le
    constructor <;> linarith
  · intro h0
    have : (Int.tmod e k : ℚ) / k ≤ 0 := by
      rcases lt_or_gt_of_ne hk with hn | hp
      · have hkn : (k : ℚ) < 0 := by exact_mod_cast hn
        have he : 0 ≤ e := by
          by_contra hc
          have : (e : ℚ) < 0 := by exact_mod_cast not_le.mp hc
          have := div_pos_of_neg_of_neg this hkn
          linarith
        exact div_nonpos_of_nonneg_of_nonpos (by exact_mod_cast Int.tmod_nonneg k he) hkn.le
      · have hkp : (0 : ℚ) < k := by exact_mod_cast hp
        have he : e ≤ 0 := by
          by_contra hc
          have : (0 : ℚ) < e := by exact_mod_cast not_le.mp hc
          have := div_pos this hkp
          linarith
        have : Int.tmod e k ≤ 0 := by
          have := Int.tmod_nonneg k (show 0 ≤ -e by omega)
          rw [Int.neg_tmod] at this
          omega
        exact div_nonpos_of_nonpos_of_nonneg (by exact_mod_cast this) hkp.le
    constructor <;> linarith

/-- The values of a type are values of its promoted type. -/
theorem mem_promoted {x : Int} (hx : t.Mem x) : t.promoted.Mem x := by
  unfold IntType.promoted
  split
  · rename_i h
    unfold IntType.Mem IntType.lowest IntType.highest at hx
    unfold IntType.Mem IntType.lowest IntType.highest IntType.int
    have : (2 : Int) ^ t.digits ≤ 2 ^ 31 := pow_le_pow_right₀ (by norm_num) h
    have : (0 : Int) < 2 ^ t.digits := by positivity
    simp only [if_true]
    split at hx <;> constructor <;> omega
  · exact hx

theorem promoted_digits (h : 2 ≤ t.digits) : 2 ≤ t.promoted.digits := by
  unfold IntType.promoted
  split
  · unfold IntType.int; simp
  · exact h

/-- Operations whose result is a value of the type are right. -/
theorem result_of_mem (h : 2 ≤ t.digits) {x : Int} (hx : t.promoted.Mem x) : t.promoted.result x = some x := by
  unfold IntType.result
  rw [if_pos hx, IntType.convert_of_mem (promoted_digits h) hx]
  simp

theorem mapM_ok_iff {α β : Type} {f : α → Res β} {v : List α} {w : List β} :
    v.mapM f = .ok w ↔ List.Forall₂ (fun e r => f e = .ok r) v w := by
  induction v generalizing w with
  | nil =>
    rw [List.mapM_nil]
    constructor
    · intro h
      cases h
      exact .nil
    · intro h
      cases h
      rfl
  | cons e v ih =>
    rw [List.mapM_cons]
    constructor
    · intro h
      cases hf : f e with
      | error u => rw [hf] at h; cases h
      | ok r =>
        rw [hf] at h
        cases hm : v.mapM f with
        | error u => rw [hm] at h; cases h
        | ok rs =>
          rw [hm] at h
          cases h
          exact .cons hf (ih.mp hm)
    · intro h
      cases h with
      | cons h1 h2 =>
        rw [h1, ih.mpr h2]
        rfl

theorem applied_int {op : Op} {e k r : Int} {y : ℚ} (hop : applied op e k = some y) (hy : Truncates y r) :
    (op = .add ∧ r = e + k) ∨ (op = .sub ∧ r = e - k) ∨ (op = .mul ∧ r = e * k) ∨ (op = .div ∧ k ≠ 0 ∧ r = Int.tdiv e k) := by
  cases op with
  | add =>
    cases hop
    exact .inl ⟨rfl, truncates_unique hy (by have := truncates_intCast (e + k); push_cast at this; exact this)⟩
  | sub =>
    cases hop
    exact .inr (.inl ⟨rfl, truncates_unique hy (by have := truncates_intCast (e - k); push_cast at this; exact this)⟩)
  | mul =>
    cases hop
    exact .inr (.inr (.inl ⟨rfl, truncates_unique hy (by have := truncates_intCast (e * k); push_cast at this; exact this)⟩))
  | div =>
    unfold applied at hop
    by_cases hk : (k : ℚ) = 0
    · simp [hk] at hop
    · simp only [hk, if_false] at hop
      cases hop
      have hk' : k ≠ 0 := by exact_mod_cast hk
      exact .inr (.inr (.inr ⟨rfl, hk', truncates_unique hy (truncates_div e hk')⟩))
  | rem => cases hop

theorem scalarElement_own (h : 2 ≤ t.digits) {op : Op} {e k r : Int} {y : ℚ} (hop : applied op e k = some y)
    (hy : Truncates y r) (hr : t.Mem r) : scalarElement t op k e = .ok r := by
  have hp := result_of_mem h (mem_promoted hr)
  have hc := IntType.convert_of_mem h hr
  unfold scalarElement Op.eval
  rcases applied_int hop hy with ⟨rfl, rfl⟩ | ⟨rfl, rfl⟩ | ⟨rfl, rfl⟩ | ⟨rfl, hk, rfl⟩
  · simp only [hp, hc]
  · simp only [hp, hc]
  · simp only [hp, hc]
  · simp only [if_neg hk, hp, hc]

end Container

/-- C99, full statement: `V op= a` replaces each element `e` by `e op a`, whatever the (integral) value type and the type of
the scalar, provided that the results are values of the value type. -/
def C99_Statement : Prop :=
  ∀ (t : IntType) (op : Op) (v : List Int) (a : Scalar) (w : List Int), 2 ≤ t.digits → (∀ e ∈ v, t.Mem e) →
    Applies t op v (scalarValue a) w → scalarAssign t op v a = .ok w

/-- The conversion of a scalar which is a value of the value type. -/
theorem convert_own {t : IntType} (h : 2 ≤ t.digits) {k : Int} (hk : t.Mem k) {a : Scalar} (ha : scalarValue a = k) :
    a.convert t = .ok k := by
  cases a with
  | int k' =>
    have : k' = k := by have ha' : (k' : ℚ) = k := ha; exact_mod_cast ha'
    subst this
    show Except.ok (t.convert k') = _
    rw [IntType.convert_of_mem h hk]
  | real x =>
    have : x = k := ha
    subst this
    unfold Scalar.convert
    simp only
    rw [if_neg (by omega), toIndex_intCast', if_pos hk]

/-- C99 for the scalars which are values of the value type, be they written as integers or as floating point numbers.
Missing: other scalars, see `C99_violated`. -/
theorem C99_values_partial {t : IntType} (h : 2 ≤ t.digits) {op : Op} {v w : List Int} {a : Scalar} {k : Int} (hk : t.Mem k)
    (ha : scalarValue a = k) (hw : Applies t op v (scalarValue a) w) : scalarAssign t op v a = .ok w := by
  unfold scalarAssign
  rw [convert_own h hk ha]
  refine mapM_ok_iff.mpr ?_
  rw [ha] at hw
  exact hw.imp fun e r ⟨y, hy, hr, hm⟩ => scalarElement_own (op := op) (e := e) (k := k) h hy hr hm

/-- C99 for the remainder of the division by a value of the value type, null divisors excepted; and, if the value type is
`int` or larger, the remainder of its lowest value by -1 is undefined. -/
theorem C99_remainder {t : IntType} (h : 2 ≤ t.digits) {v : List Int} {k : Int} (hk : t.Mem k) (h0 : k ≠ 0)
    (hv : ∀ e ∈ v, t.Mem e) (h1 : k = -1 → ∀ e ∈ v, t.promoted.Mem (-e)) :
    scalarAssign t .rem v (.int k) = .ok (v.map fun e => Int.tmod e k) := by
  unfold scalarAssign
  rw [convert_own h hk rfl]
  refine mapM_ok_iff.mpr ?_
  rw [List.forall₂_map_right_iff, List.forall₂_same]
  intro e he
  have hem := hv e he
  have hpe := mem_promoted hem
  have hq : t.promoted.Mem (Int.tdiv e k) := by
    by_cases hk1 : k = -1
    · have := h1 hk1 e he
      rw [hk1]
      simpa using this
    · by_cases hneg : t.signed = true
      · have hps : t.promoted.signed = true := by
          unfold IntType.promoted
          split
          · rfl
          · exact hneg
        unfold IntType.Mem IntType.lowest IntType.highest at hpe ⊢
        rw [hps] at hpe ⊢
        simp only [if_true] at hpe ⊢
        rcases eq_or_ne k 1 with rfl | hk1'
        · simpa using hpe
        · have h2 : 2 ≤ k.natAbs := by omega
          have h3 : (Int.tdiv e k).natAbs = e.natAbs / k.natAbs := Int.natAbs_tdiv e k
          have h4 : e.natAbs / k.natAbs ≤ e.natAbs / 2 := Nat.div_le_div_left h2 (by norm_num)
          have h5 : e.natAbs / 2 ≤ e.natAbs - 1 ∨ e = 0 := by omega
          rcases h5 with h5 | h5
          · constructor <;> omega
          · subst h5
            rw [Int.zero_tdiv]
            exact hpe
      · have hl : t.lowest = 0 := by unfold IntType.lowest; rw [if_neg hneg]
        have hk0 : 0 ≤ k := by have := hk.1; rw [hl] at this; exact this
        have he0 : 0 ≤ e := by have := hem.1; rw [hl] at this; exact this
        have h3 := Int.tdiv_nonneg he0 hk0
        have h4 : Int.tdiv e k ≤ e := by
          rw [Int.tdiv_eq_ediv_of_nonneg he0]
          exact Int.ediv_le_self k he0
        refine mem_promoted ⟨by rw [hl]; exact h3, h4.trans hem.2⟩
  have hr : t.Mem (Int.tmod e k) := by
    have hab : (Int.tmod e k).natAbs ≤ e.natAbs := by
      rw [Int.natAbs_tmod]; exact Nat.mod_le _ _
    have h6 : 0 ≤ e → 0 ≤ Int.tmod e k := fun h => Int.tmod_nonneg k h
    have h7 : e ≤ 0 → Int.tmod e k ≤ 0 := fun h => by
      have := Int.tmod_nonneg k (show 0 ≤ -e by omega)
      rw [Int.neg_tmod] at this
      omega
    obtain ⟨g1, g2⟩ := hem
    have z := IntType.mem_zero t
    unfold IntType.Mem at z ⊢
    rcases le_total 0 e with h8 | h8
    · have := h6 h8
      omega
    · have := h7 h8
      omega
  unfold scalarElement Op.eval
  simp only [if_neg h0, result_of_mem h hq, Option.map_some, IntType.convert_of_mem h hr]

/-- What floating point scalars do: the scalar is truncated first. -/
theorem C99_real {t : IntType} (h : 2 ≤ t.digits) (op : Op) (v : List Int) {x : ℚ} (hx : t.Mem (toIndex x)) :
    scalarAssign t op v (.real x) = scalarAssign t op v (.int (toIndex x)) := by
  have h1 : (Scalar.real x).convert t = .ok (toIndex x) := by
    unfold Scalar.convert
    simp only
    rw [if_neg (by omega), if_pos hx]
  unfold scalarAssign
  rw [h1, convert_own (a := .int (toIndex x)) h hx rfl]

/-- Floating point scalars whose truncation is not a value of the value type are undefined behaviour, even if the results are
values of the type, and even if the container is empty. -/
theorem C99_undefined {t : IntType} (h : 2 ≤ t.digits) (op : Op) (v : List Int) {x : ℚ} {k : Int} (hx : Truncates x k)
    (hk : ¬ t.Mem k) : scalarAssign t op v (.real x) = .error .ub := by
  unfold scalarAssign Scalar.convert
  simp only
  rw [if_neg (by omega), truncates_unique (toIndex_truncates x) hx, if_neg hk]
  rfl

/-- The value types whose arithmetic does not overflow for the results of C99: `char`, `short`, and unsigned types. -/
def Wraps (t : IntType) : Prop := t.promoted.signed = false ∨ t.digits ≤ 15 ∨ (t.signed = false ∧ t.digits ≤ 16)

theorem promoted_unsigned {t : IntType} (h : t.promoted.signed = false) : t.promoted = t := by
  unfold IntType.promoted at h ⊢
  split
  · rename_i h1
    rw [if_pos h1] at h
    cases h
  · rfl

/-- Results which are congruent to a value of the type are that value once stored. -/
theorem stored {t : IntType} (h : 2 ≤ t.digits) {z r : Int} (hr : t.Mem r) (hz : t.count ∣ z - r)
    (hp : t.promoted.signed = true → t.promoted.Mem z) : ∃ z', t.promoted.result z = some z' ∧ t.convert z' = r := by
  unfold IntType.result
  cases hs : t.promoted.signed with
  | true =>
    refine ⟨z, by simp [hp hs], ?_⟩
    rw [IntType.convert_congr h hz, IntType.convert_of_mem h hr]
  | false =>
    refine ⟨t.promoted.convert z, by simp, ?_⟩
    rw [promoted_unsigned hs, IntType.convert_of_mem h (IntType.convert_spec h z).1, IntType.convert_congr h hz,
      IntType.convert_of_mem h hr]

theorem mem_int {t : IntType} (ht : t.digits ≤ 31) {z : Int} (h1 : -2 ^ 31 ≤ z) (h2 : z < 2 ^ 31) :
    t.promoted.Mem z := by
  have : t.promoted = IntType.int := by unfold IntType.promoted; rw [if_pos ht]
  rw [this]
  unfold IntType.Mem IntType.lowest IntType.highest IntType.int
  simp only [if_true]
  omega

/-- Bounds of the values of narrow types. -/
theorem narrow {t : IntType} {x : Int} (hx : t.Mem x) :
    (t.digits ≤ 15 → -2 ^ 15 ≤ x ∧ x < 2 ^ 15) ∧ (t.signed = false ∧ t.digits ≤ 16 → 0 ≤ x ∧ x < 2 ^ 16) := by
  unfold IntType.Mem IntType.lowest IntType.highest at hx
  constructor
  · intro h
    have h1 : (2 : Int) ^ t.digits ≤ 2 ^ 15 := pow_le_pow_right₀ (by norm_num) h
    split at hx <;> omega
  · intro ⟨h0, h⟩
    have h1 : (2 : Int) ^ t.digits ≤ 2 ^ 16 := pow_le_pow_right₀ (by norm_num) h
    rw [h0] at hx
    simp only [Bool.false_eq_true, if_false] at hx
    omega

/-- C99 for `+`, `-` and `*` and integers of any type, e.g. negative integers and containers of unsigned values:
the conversion of the scalar and the conversion of the result compensate one another.
Missing: division, floating point scalars, and value types like `int` if the scalar is out of range (where intermediate results
may overflow); see `C99_violated`. -/
theorem C99_integers_partial {t : IntType} (h : 2 ≤ t.digits) (ht : Wraps t) {op : Op} (hop : op = .add ∨ op = .sub ∨ op = .mul)
    {v w : List Int} {k : Int} (hv : ∀ e ∈ v, t.Mem e) (hw : Applies t op v k w) :
    scalarAssign t op v (.int k) = .ok w := by
  by_cases hkm : t.Mem k
  · exact C99_values_partial h hkm rfl hw
  show v.mapM (scalarElement t op (t.convert k)) = _
  obtain ⟨hs, hd⟩ := IntType.convert_spec h k
  refine mapM_ok_iff.mpr ?_
  have hw' : List.Forall₂ (fun e r : Int => e ∈ v ∧ ∃ y, applied op e k = some y ∧ Truncates y r ∧ t.Mem r) v w := by
    have hlen := hw.length_eq
    rw [List.forall₂_iff_get]
    refine ⟨hlen, fun i hi hj => ⟨List.get_mem _ _, ?_⟩⟩
    exact (List.forall₂_iff_get.mp hw).2 i hi hj
  refine hw'.imp fun e r ⟨he, y, hy, hr, hm⟩ => ?_
  have hem := hv e he
  have key : ∃ z z', t.promoted.result z = some z' ∧ t.convert z' = r ∧ op.eval t e (t.convert k) = t.promoted.result z := by
    generalize t.convert k = s at *
    have hcases : t.promoted.signed = true → t.digits ≤ 15 ∨ (t.signed = false ∧ t.digits ≤ 16) := by
      intro hps
      rcases ht with ht | ht
      · rw [ht] at hps; cases hps
      · exact ht
    rcases applied_int hy hr with ⟨rfl, rfl⟩ | ⟨rfl, rfl⟩ | ⟨rfl, rfl⟩ | ⟨rfl, -, -⟩
    · obtain ⟨z', h1, h2⟩ := stored h (z := e + s) hm (by rwa [show e + s - (e + k) = s - k by ring]) (fun hps => by
        have he' := narrow hem
        have hs' := narrow hs
        rcases hcases hps with hc | hc
        · have := he'.1 hc; have := hs'.1 hc
          exact mem_int (by omega) (by omega) (by omega)
        · have := he'.2 hc; have := hs'.2 hc
          exact mem_int (by omega) (by omega) (by omega))
      exact ⟨_, z', h1, h2, rfl⟩
    · obtain ⟨z', h1, h2⟩ := stored h (z := e - s) hm (by
          rw [show e - s - (e - k) = -(s - k) by ring]; exact hd.neg_right) (fun hps => by
        have he' := narrow hem
        have hs' := narrow hs
        rcases hcases hps with hc | hc
        · have := he'.1 hc; have := hs'.1 hc
          exact mem_int (by omega) (by omega) (by omega)
        · have := he'.2 hc; have := hs'.2 hc
          exact mem_int (by omega) (by omega) (by omega))
      exact ⟨_, z', h1, h2, rfl⟩
    · obtain ⟨z', h1, h2⟩ := stored h (z := e * s) hm (by
          rw [show e * s - e * k = e * (s - k) by ring]; exact hd.mul_left e) (fun hps => by
        have he' := narrow hem
        have hs' := narrow hs
        rcases hcases hps with hc | hc
        · have h3 := he'.1 hc
          have h4 := hs'.1 hc
          have h5 : |e * s| ≤ 2 ^ 15 * 2 ^ 15 := by
            rw [abs_mul]
            exact mul_le_mul (abs_le.mpr ⟨h3.1, h3.2.le⟩) (abs_le.mpr ⟨h4.1, h4.2.le⟩) (abs_nonneg _) (by norm_num)
          have h6 := abs_le.mp h5
          exact mem_int (by omega) (by omega) (by omega)
        · have h3 := he'.2 hc
          have he0 : e = 0 := by
            by_contra hne
            have hpos : 1 ≤ e := by omega
            have hl : t.lowest = 0 := by unfold IntType.lowest; rw [hc.1]; rfl
            have hk0 : 0 ≤ k := by
              by_contra hk
              have : e * k < 0 := mul_neg_of_pos_of_neg (by omega) (by omega)
              have := hm.1
              omega
            have : k ≤ e * k := le_mul_of_one_le_left hk0 hpos
            exact hkm ⟨by omega, this.trans hm.2⟩
          rw [he0, zero_mul]
          exact IntType.mem_zero _)
      exact ⟨_, z', h1, h2, rfl⟩
    · simp at hop
  obtain ⟨z, z', h1, h2, h3⟩ := key
  unfold scalarElement
  rw [h3, h1]
  show Except.ok (t.convert z') = _
  rw [h2]

/-- The results of the operators for one floating point scalar which is not negative, if the elements are not negative. -/
theorem real_ok_iff {t : IntType} (h : 2 ≤ t.digits) {op : Op} {v w : List Int} {x : ℚ} (hx : 0 ≤ x) (hm : t.Mem ⌊x⌋) :
    scalarAssign t op v (.real x) = .ok w ↔ List.Forall₂ (fun e r => scalarElement t op ⌊x⌋ e = .ok r) v w := by
  have hi : toIndex x = ⌊x⌋ := by unfold toIndex; rw [if_pos hx]
  rw [C99_real h op v (by rwa [hi]), hi]
  unfold scalarAssign
  rw [convert_own (a := .int ⌊x⌋) h hm rfl]
  exact mapM_ok_iff

/-- Lifts a characterisation of the elements to containers. -/
theorem forall₂_iff_of {α β : Type} {P Q : α → β → Prop} {R : α → Prop} {v : List α} {w : List β} (hP : List.Forall₂ P v w)
    (hv : ∀ e ∈ v, ∀ r, P e r → (Q e r ↔ R e)) : List.Forall₂ Q v w ↔ ∀ e ∈ v, R e := by
  induction hP with
  | nil => simp
  | cons h1 h2 ih =>
    rw [List.forall₂_cons, List.forall_mem_cons, ih fun e he => hv e (List.mem_cons_of_mem _ he),
      hv _ List.mem_cons_self _ h1]

/-- A floating point scalar multiplies elements which are not negative as documented if and only if the error which the truncation
of the scalar makes on each element is less than 1. -/
theorem C99_mul_iff {t : IntType} (h : 2 ≤ t.digits) {v w : List Int} {x : ℚ} (hx : 0 ≤ x) (hm : t.Mem ⌊x⌋)
    (hv : ∀ e ∈ v, 0 ≤ e) (hw : Applies t .mul v x w) :
    scalarAssign t .mul v (.real x) = .ok w ↔ ∀ e ∈ v, (e : ℚ) * (x - ⌊x⌋) < 1 := by
  rw [real_ok_iff h hx hm]
  refine forall₂_iff_of hw fun e he r ⟨y, hy, hr, hrm⟩ => ?_
  cases hy
  have he0 : (0 : ℚ) ≤ e := by exact_mod_cast hv e he
  have h1 := hr.1 (mul_nonneg he0 hx)
  have hf := Int.floor_le x
  have hf0 : 0 ≤ ⌊x⌋ := Int.floor_nonneg.mpr hx
  -- the computed product is not larger than the exact one
  have hle : e * ⌊x⌋ ≤ r := by
    have : ((e * ⌊x⌋ : Int) : ℚ) < r + 1 := by
      push_cast
      have := mul_le_mul_of_nonneg_left hf he0
      linarith
    have h' : ((e * ⌊x⌋ : Int) : ℚ) < ((r + 1 : Int) : ℚ) := by push_cast at this ⊢; exact this
    have := Int.cast_lt.mp h'
    omega
  have hpm : t.Mem (e * ⌊x⌋) := by
    refine ⟨?_, hle.trans hrm.2⟩
    have := (IntType.mem_zero t).1
    have := mul_nonneg (hv e he) hf0
    omega
  unfold scalarElement Op.eval
  simp only [result_of_mem h (mem_promoted hpm), IntType.convert_of_mem h hpm]
  constructor
  · intro hq
    have : e * ⌊x⌋ = r := by cases hq; rfl
    have hc : (e : ℚ) * ⌊x⌋ = r := by rw [← this]; push_cast; rfl
    rw [mul_sub]
    linarith
  · intro hq
    have hc : r < e * ⌊x⌋ + 1 := by
      have : ((r : Int) : ℚ) < ((e * ⌊x⌋ + 1 : Int) : ℚ) := by
        push_cast
        rw [mul_sub] at hq
        linarith
      exact_mod_cast this
    rw [show e * ⌊x⌋ = r by omega]

/-- A floating point scalar which is not negative is added to elements which are not negative as documented.
Missing: other floating point scalars, see `C99_violated`. -/
theorem C99_add_partial {t : IntType} (h : 2 ≤ t.digits) {v w : List Int} {x : ℚ} (hx : 0 ≤ x) (hm : t.Mem ⌊x⌋)
    (hv : ∀ e ∈ v, 0 ≤ e) (hw : Applies t .add v x w) : scalarAssign t .add v (.real x) = .ok w := by
  rw [real_ok_iff h hx hm]
  refine (forall₂_iff_of (R := fun _ => True) hw fun e he r ⟨y, hy, hr, hrm⟩ => ?_).mpr fun _ _ => trivial
  rw [iff_true]
  cases hy
  have he0 : (0 : ℚ) ≤ e := by exact_mod_cast hv e he
  have : r = e + ⌊x⌋ := by
    refine truncates_unique hr ?_
    refine ⟨fun _ => ?_, fun hle => ?_⟩
    · push_cast
      constructor <;> linarith [Int.floor_le x, Int.lt_floor_add_one x]
    · have hx0 : x = 0 := by linarith
      have he1 : (e : ℚ) = 0 := by linarith
      push_cast
      simp [hx0, he1]
  subst this
  unfold scalarElement Op.eval
  simp only [result_of_mem h (mem_promoted hrm), IntType.convert_of_mem h hrm]

/-- A floating point scalar which is not negative is subtracted as documented from the elements which are not negative if and only
if it is an integer, or larger than all the elements. -/
theorem C99_sub_iff {t : IntType} (h : 2 ≤ t.digits) {v w : List Int} {x : ℚ} (hx : 0 ≤ x) (hm : t.Mem ⌊x⌋)
    (hv : ∀ e ∈ v, 0 ≤ e ∧ t.Mem (e - ⌊x⌋)) (hw : Applies t .sub v x w) :
    scalarAssign t .sub v (.real x) = .ok w ↔ ∀ e ∈ v, x = ⌊x⌋ ∨ (e : ℚ) ≤ x := by
  rw [real_ok_iff h hx hm]
  refine forall₂_iff_of hw fun e he r ⟨y, hy, hr, hrm⟩ => ?_
  cases hy
  have hpm := (hv e he).2
  unfold scalarElement Op.eval
  simp only [result_of_mem h (mem_promoted hpm), IntType.convert_of_mem h hpm]
  have hf := Int.floor_le x
  have hf1 := Int.lt_floor_add_one x
  constructor
  · intro hq
    have hr' : e - ⌊x⌋ = r := by cases hq; rfl
    by_contra hc
    rw [not_or, not_le] at hc
    have h1 := hr.1 (by linarith)
    have h2 : (e : ℚ) - ⌊x⌋ = r := by rw [← hr']; push_cast; rfl
    exact hc.1 (by linarith)
  · intro hq
    have : r = e - ⌊x⌋ := by
      refine truncates_unique hr ?_
      rcases hq with hq | hq
      · have := truncates_intCast (e - ⌊x⌋)
        push_cast at this
        rwa [← hq] at this
      · refine ⟨fun h0 => ?_, fun _ => ?_⟩
        · have hex : (e : ℚ) = x := by linarith
          push_cast
          have : x = ⌊x⌋ := by
            rw [← hex]
            simp
          constructor <;> linarith
        · push_cast
          constructor <;> linarith
    rw [this]

/-- A floating point scalar divides elements which are not negative as documented if and only if the quotients by the truncated
scalar are not too large. -/
theorem C99_div_iff {t : IntType} (h : 2 ≤ t.digits) {v w : List Int} {x : ℚ} (hx : 1 ≤ x) (hm : t.Mem ⌊x⌋)
    (hv : ∀ e ∈ v, 0 ≤ e ∧ t.Mem e) (hw : Applies t .div v x w) :
    scalarAssign t .div v (.real x) = .ok w ↔ ∀ e ∈ v, ((e / ⌊x⌋ : Int) : ℚ) * x ≤ e := by
  have hx0 : 0 < x := by linarith
  rw [real_ok_iff h hx0.le hm]
  refine forall₂_iff_of hw fun e he r ⟨y, hy, hr, hrm⟩ => ?_
  unfold applied at hy
  simp only [if_neg hx0.ne'] at hy
  cases hy
  have hf1 : 1 ≤ ⌊x⌋ := Int.le_floor.mpr (by exact_mod_cast hx)
  obtain ⟨he0, hem⟩ := hv e he
  have heq : (0 : ℚ) ≤ e := by exact_mod_cast he0
  have hq0 : 0 ≤ e / ⌊x⌋ := Int.ediv_nonneg he0 (by omega)
  have hpm : t.Mem (e / ⌊x⌋) := by
    refine ⟨?_, (Int.ediv_le_self _ he0).trans hem.2⟩
    have := (IntType.mem_zero t).1
    omega
  have htd : Int.tdiv e ⌊x⌋ = e / ⌊x⌋ := Int.tdiv_eq_ediv_of_nonneg he0
  have h1 := hr.1 (div_nonneg heq hx0.le)
  rw [le_div_iff₀ hx0, div_lt_iff₀ hx0] at h1
  unfold scalarElement Op.eval
  simp only [if_neg (show ⌊x⌋ ≠ 0 by omega), htd, result_of_mem h (mem_promoted hpm), IntType.convert_of_mem h hpm]
  constructor
  · intro hq
    have hr' : e / ⌊x⌋ = r := by cases hq; rfl
    rw [hr']
    exact h1.1
  · intro hq
    -- the exact quotient is not larger than the computed one, and not smaller by hypothesis
    have hlt : e / ⌊x⌋ < r + 1 := by
      have : ((e / ⌊x⌋ : Int) : ℚ) < r + 1 := lt_of_mul_lt_mul_right (lt_of_le_of_lt hq h1.2) hx0.le
      exact_mod_cast this
    have hge : r ≤ e / ⌊x⌋ := by
      refine Int.le_ediv_of_mul_le (by omega) ?_
      have hr0 : 0 ≤ r := by
        have : (0 : ℚ) < r + 1 := by
          by_contra hc
          have := mul_nonpos_of_nonpos_of_nonneg (not_lt.mp hc) hx0.le
          linarith
        have h' : (0 : Int) < r + 1 := by exact_mod_cast this
        omega
      have : ((r * ⌊x⌋ : Int) : ℚ) ≤ e := by
        push_cast
        have := mul_le_mul_of_nonneg_left (Int.floor_le x) (show (0 : ℚ) ≤ r by exact_mod_cast hr0)
        linarith
      exact_mod_cast this
    rw [show e / ⌊x⌋ = r by omega]

/-- Scalars between -1 and 1: multiplying gives zeros, dividing is undefined behaviour, and adding or subtracting does nothing. -/
theorem C99_fraction {t : IntType} (h : 2 ≤ t.digits) {v : List Int} (hv : ∀ e ∈ v, t.Mem e) {x : ℚ} (h1 : -1 < x) (h2 : x < 1) :
    scalarAssign t .mul v (.real x) = .ok (v.map fun _ => 0) ∧
    scalarAssign t .add v (.real x) = .ok v ∧ scalarAssign t .sub v (.real x) = .ok v ∧
    (v ≠ [] → scalarAssign t .div v (.real x) = .error .ub ∧ scalarAssign t .rem v (.real x) = .error .ub) := by
  have hi : toIndex x = 0 := by
    refine truncates_unique (toIndex_truncates x) ⟨fun _ => ?_, fun _ => ?_⟩ <;> push_cast <;> constructor <;> linarith
  have h0 := IntType.mem_zero t
  have hreal : ∀ op, scalarAssign t op v (.real x) = v.mapM (scalarElement t op 0) := by
    intro op
    rw [C99_real h op v (by rwa [hi]), hi]
    unfold scalarAssign
    rw [convert_own (a := .int 0) h h0 rfl]
    rfl
  have hself : List.Forall₂ (fun e r : Int => e ∈ v ∧ e = r) v v := by
    rw [List.forall₂_same]
    exact fun e he => ⟨he, rfl⟩
  refine ⟨?_, ?_, ?_, fun hne => ⟨?_, ?_⟩⟩
  · rw [hreal, mapM_ok_iff, List.forall₂_map_right_iff, List.forall₂_same]
    intro e he
    unfold scalarElement Op.eval
    simp only [mul_zero, result_of_mem h (mem_promoted h0), IntType.convert_of_mem h h0]
  · rw [hreal, mapM_ok_iff]
    refine hself.imp fun e r ⟨he, hr⟩ => ?_
    subst hr
    unfold scalarElement Op.eval
    simp only [add_zero, result_of_mem h (mem_promoted (hv _ he)), IntType.convert_of_mem h (hv _ he)]
  · rw [hreal, mapM_ok_iff]
    refine hself.imp fun e r ⟨he, hr⟩ => ?_
    subst hr
    unfold scalarElement Op.eval
    simp only [sub_zero, result_of_mem h (mem_promoted (hv _ he)), IntType.convert_of_mem h (hv _ he)]
  · cases v with
    | nil => exact absurd rfl hne
    | cons e v => rw [hreal, List.mapM_cons]; rfl
  · cases v with
    | nil => exact absurd rfl hne
    | cons e v => rw [hreal, List.mapM_cons]; rfl

/-- `unsigned char` (LitlDemo/tests/src/LitlDemoChannels_test.cpp:20). -/
def uchar : IntType := ⟨8, false⟩

/-- The example of the documentation (doc/channels.dox:90, LitlDemo/tests/src/LitlDemoChannels_test.cpp:166-168) "multiplies" the
channels by factors between 1 and 2, which does nothing, or between 0 and 1, which clears them. -/
theorem C99_channels {v : List Int} (hv : ∀ e ∈ v, uchar.Mem e) {x : ℚ} :
    (1 ≤ x ∧ x < 2 → scalarAssign uchar .mul v (.real x) = .ok v) ∧
    (0 ≤ x ∧ x < 1 → scalarAssign uchar .mul v (.real x) = .ok (v.map fun _ => 0)) := by
  have hd : 2 ≤ uchar.digits := by decide
  constructor
  · intro ⟨h1, h2⟩
    have hf : ⌊x⌋ = 1 := Int.floor_eq_iff.mpr ⟨by exact_mod_cast h1, by push_cast; linarith⟩
    rw [real_ok_iff hd (by linarith) (by rw [hf]; decide), hf]
    have hself : List.Forall₂ (fun e r : Int => e ∈ v ∧ e = r) v v := by
      rw [List.forall₂_same]
      exact fun e he => ⟨he, rfl⟩
    refine hself.imp fun e r ⟨he, hr⟩ => ?_
    subst hr
    unfold scalarElement Op.eval
    simp only [mul_one, result_of_mem hd (mem_promoted (hv _ he)), IntType.convert_of_mem hd (hv _ he)]
  · intro ⟨h1, h2⟩
    exact (C99_fraction hd hv (by linarith) h2).1

/-- Negative floating point scalars are undefined behaviour for unsigned values, though `V += -1` is right
(`C99_integers_partial`). -/
theorem C99_negative {t : IntType} (h : 2 ≤ t.digits) (ht : t.signed = false) (op : Op) (v : List Int) {x : ℚ} (hx : x ≤ -1) :
    scalarAssign t op v (.real x) = .error .ub := by
  refine C99_undefined h op v (toIndex_truncates x) fun hm => ?_
  have h1 := hm.1
  have hl : t.lowest = 0 := by unfold IntType.lowest; rw [ht]; rfl
  have h2 := ((toIndex_truncates x).2 (by linarith)).2
  have h3 : ((toIndex x : Int) : ℚ) < 1 - 1 := by linarith
  have h4 : ((toIndex x : Int) : ℚ) < ((0 : Int) : ℚ) := by push_cast; linarith
  have := Int.cast_lt.mp h4
  omega

/-- The red channel of the example (LitlDemo/tests/src/LitlDemoChannels_test.cpp:159-166). -/
theorem C99_example : Applies uchar .mul [64] (2125 / 10000) [13] :=
  .cons ⟨_, rfl, ⟨fun _ => by norm_num, fun h => by norm_num at h⟩, by decide⟩ .nil

/-- C99 does not hold. -/
theorem C99_violated : ¬ C99_Statement := by
  intro hs
  have h1 := hs uchar .mul [64] (.real (2125 / 10000)) [13] (by decide) (by decide) C99_example
  have h2 := (C99_channels (v := [64]) (by decide) (x := 2125 / 10000)).2 (by norm_num)
  rw [h2] at h1
  cases h1

/-- C99 does not hold for integers either: dividing an unsigned value by an integer which is not a value of the type gives another
number. -/
example : Applies uchar .div [200] (scalarValue (.int 300)) [0] ∧ scalarAssign uchar .div [200] (.int 300) = .ok [4] :=
  ⟨.cons ⟨200 / 300, by norm_num [applied, scalarValue], ⟨fun _ => by norm_num, fun h => by norm_num at h⟩,
    by decide⟩ .nil, by decide⟩

/-- A case of `C99_integers_partial` where the scalar is not a value of the type. -/
example : Applies uchar .add [200, 3] ((-1 : Int) : ℚ) [199, 2] ∧ ¬ uchar.Mem (-1) ∧ Wraps uchar :=
  ⟨.cons ⟨_, rfl, by have := truncates_intCast 199; norm_num at this ⊢; exact this, by decide⟩
    (.cons ⟨_, rfl, by have := truncates_intCast 2; norm_num at this ⊢; exact this, by decide⟩ .nil), by decide,
    .inr (.inl (by decide))⟩

/-- A case of `C99_integers_partial` which `int` does not have: the converted scalar makes the sum overflow. -/
example : IntType.int.Mem (-2 ^ 31) ∧ (-2 ^ 31 + 2 ^ 31 : Int) = 0 ∧
    scalarAssign IntType.int .add [-2 ^ 31] (.int (2 ^ 31)) = .error .ub := ⟨by decide, by decide, by decide⟩

/-- Cases of `C99_values_partial`, `C99_mul_iff` and `C99_remainder`. -/
example : scalarAssign uchar .mul [1, 2, 3] (.real 2) = .ok [2, 4, 6] := by
  refine C99_values_partial (k := 2) (by decide) (by decide) (by norm_num [scalarValue]) ?_
  refine .cons ⟨_, rfl, ?_, by decide⟩ (.cons ⟨_, rfl, ?_, by decide⟩ (.cons ⟨_, rfl, ?_, by decide⟩ .nil)) <;>
    exact ⟨fun _ => by norm_num [scalarValue], fun h => by norm_num [scalarValue] at h⟩

example : scalarAssign uchar .mul [1] (.real (3 / 2)) = .ok [1] := by
  refine (C99_mul_iff (by decide) (by norm_num) (by norm_num; decide) (by decide) ?_).mpr (by norm_num)
  exact .cons ⟨_, rfl, ⟨fun _ => by norm_num, fun h => by norm_num at h⟩, by decide⟩ .nil

example : scalarAssign uchar .rem [200, 7] (.int 6) = .ok [2, 1] :=
  C99_remainder (by decide) (by decide) (by decide) (by decide) (by decide)

/-- The exact value of `e op k` for the operators which do not divide. -/
def exactInt (op : Op) (e k : Int) : Int :=
  match op with
  | .add => e + k
  | .sub => e - k
  | _ => e * k

/-- What `+`, `-` and `*` compute whatever the results: the exact values, reduced to the value type, unless one of them overflows the
promoted type while it is signed, which is undefined behaviour (e.g. 65535 * 65535 for `unsigned short`). -/
theorem C99_exact {t : IntType} (h : 2 ≤ t.digits) {op : Op} (hop : op = .add ∨ op = .sub ∨ op = .mul) {v : List Int} {k : Int}
    (hk : t.Mem k) :
    ((t.promoted.signed = true → ∀ e ∈ v, t.promoted.Mem (exactInt op e k)) →
      scalarAssign t op v (.int k) = .ok (v.map fun e => t.convert (exactInt op e k))) ∧
    (t.promoted.signed = true → (∃ e ∈ v, ¬ t.promoted.Mem (exactInt op e k)) →
      scalarAssign t op v (.int k) = .error .ub) := by
  have hev : ∀ e, op.eval t e k = t.promoted.result (exactInt op e k) := by
    intro e
    rcases hop with rfl | rfl | rfl <;> rfl
  have hass : scalarAssign t op v (.int k) = v.mapM (scalarElement t op k) := by
    unfold scalarAssign
    rw [convert_own (a := .int k) h hk rfl]
    rfl
  rw [hass]
  constructor
  · intro hm
    refine mapM_ok_iff.mpr ?_
    rw [List.forall₂_map_right_iff, List.forall₂_same]
    intro e he
    unfold scalarElement
    rw [hev]
    unfold IntType.result
    cases hs : t.promoted.signed with
    | true => simp [hm hs e he]
    | false =>
      simp only [Bool.false_eq_true, if_false]
      rw [promoted_unsigned hs, IntType.convert_of_mem h (IntType.convert_spec h _).1]
  · intro hs hm
    have hbad : ∀ e, ¬ t.promoted.Mem (exactInt op e k) → scalarElement t op k e = .error .ub := by
      intro e he
      unfold scalarElement
      rw [hev]
      unfold IntType.result
      simp [hs, he]
    have hall : ∀ e, (∃ r, scalarElement t op k e = .ok r) ∨ scalarElement t op k e = .error .ub := by
      intro e
      unfold scalarElement
      cases op.eval t e k with
      | none => exact .inr rfl
      | some r => exact .inl ⟨_, rfl⟩
    clear hass
    induction v with
    | nil => obtain ⟨e, he, -⟩ := hm; cases he
    | cons e v ih =>
      rw [List.mapM_cons]
      rcases hall e with ⟨r, hr⟩ | hr
      · obtain ⟨e', he', hb⟩ := hm
        rcases List.mem_cons.mp he' with rfl | he'
        · rw [hbad _ hb]; rfl
        · rw [hr, ih ⟨e', he', hb⟩]; rfl
      · rw [hr]; rfl

/-- The remainder by -1 is undefined behaviour if the lowest value of a signed type at least as wide as `int` is in the container,
though it is mathematically null. -/
theorem C99_remainder_undefined {t : IntType} (ht : t.signed = true) (hd : 31 ≤ t.digits) {v : List Int}
    (hv : t.lowest ∈ v) : scalarAssign t .rem v (.int (-1)) = .error .ub := by
  have hm1 : t.Mem (-1) := by
    unfold IntType.Mem IntType.lowest IntType.highest
    rw [ht]
    have : (1 : Int) ≤ 2 ^ t.digits := one_le_pow₀ (by norm_num)
    simp only [if_true]
    omega
  have hp : t.promoted = t := by
    unfold IntType.promoted
    split
    · rename_i h
      obtain ⟨d, s⟩ := t
      have : d = 31 := le_antisymm h hd
      subst this
      cases ht
      rfl
    · rfl
  have hlow : scalarElement t .rem (-1) t.lowest = .error .ub := by
    unfold scalarElement Op.eval
    have hbig : ¬ t.Mem (Int.tdiv t.lowest (-1)) := by
      have : Int.tdiv t.lowest (-1) = 2 ^ t.digits := by
        simp [IntType.lowest, ht]
      rw [this]
      intro hc
      have := hc.2
      unfold IntType.highest at this
      omega
    simp only [hp, IntType.result, ht, if_true, if_neg hbig]
    simp
  have hass : scalarAssign t .rem v (.int (-1)) = v.mapM (scalarElement t .rem (-1)) := by
    unfold scalarAssign
    rw [convert_own (a := .int (-1)) (by omega) hm1 rfl]
    rfl
  rw [hass]
  clear hass
  induction v with
  | nil => cases hv
  | cons e v ih =>
    rw [List.mapM_cons]
    rcases List.mem_cons.mp hv with rfl | he
    · rw [hlow]; rfl
    · have hall : (∃ r, scalarElement t .rem (-1) e = .ok r) ∨ scalarElement t .rem (-1) e = .error .ub := by
        unfold scalarElement
        cases Op.eval t .rem e (-1) with
        | none => exact .inr rfl
        | some r => exact .inl ⟨_, rfl⟩
      rcases hall with ⟨r, hr⟩ | hr
      · rw [hr, ih he]; rfl
      · rw [hr]; rfl

/-- Cases of `C99_exact` and of `C99_remainder_undefined`. -/
example : scalarAssign ⟨16, false⟩ .mul [2, 65535] (.int 65535) = .error .ub :=
  (C99_exact (by decide) (.inr (.inr rfl)) (by decide)).2 rfl ⟨65535, by decide, by decide⟩

example : scalarAssign uchar .add [200, 3] (.int 100) = .ok [44, 103] :=
  (C99_exact (by decide) (.inl rfl) (by decide)).1 fun _ => by decide

example : scalarAssign IntType.int .rem [5, -2 ^ 31] (.int (-1)) = .error .ub :=
  C99_remainder_undefined rfl (by decide) (by decide)

/-- Cases of `C99_add_partial`, `C99_sub_iff` and `C99_div_iff`. -/
example : scalarAssign uchar .add [7] (.real (3 / 2)) = .ok [8] :=
  C99_add_partial (by decide) (by norm_num) (by norm_num; decide) (by decide)
    (.cons ⟨_, rfl, ⟨fun _ => by norm_num, fun h => by norm_num at h⟩, by decide⟩ .nil)

example : scalarAssign uchar .sub [7] (.real (3 / 2)) ≠ .ok [5] := fun h => by
  have := (C99_sub_iff (by decide) (by norm_num) (by norm_num; decide) (by norm_num; decide)
    (.cons ⟨_, rfl, ⟨fun _ => by norm_num, fun h => by norm_num at h⟩, by decide⟩ .nil)).mp h
  norm_num at this

example : scalarAssign uchar .div [7] (.real (3 / 2)) ≠ .ok [4] := fun h => by
  have := (C99_div_iff (by decide) (by norm_num) (by norm_num; decide) (by norm_num; decide)
    (.cons ⟨14 / 3, by norm_num [applied], ⟨fun _ => by norm_num, fun h => by norm_num at h⟩, by decide⟩ .nil)).mp h
  norm_num at this

end Litl
