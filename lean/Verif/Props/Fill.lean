import Verif.Model.Fill
import Verif.Lemmas.Arithmetic
import Verif.Props.Arithmetic
import Mathlib.Algebra.Order.Field.Rat
import Mathlib.Order.Defs.LinearOrder
import Mathlib.Data.Nat.Cast.Field
import Mathlib.Algebra.CharZero.Defs
import Mathlib.Tactic.FieldSimp
import Mathlib.Tactic.LinearCombination
import Mathlib.Tactic.Linarith

/-!
# C28, C63: `range()`, `linspace()`, `fill()`
-/

namespace Litl

open Spec Container

variable {α σ : Type}

/-- Elements of a memory given by their index. -/
theorem elements_eq_range {m : List α} {a n : Nat} (f : Nat → α) (h : ∀ i < n, m[a + i]? = some (f i)) :
    elements m a n = (List.range n).map f := by
  apply List.ext_getElem?
  intro i
  rw [elements_getElem?]
  by_cases hi : i < n
  · rw [if_pos hi, h i hi]
    simp [hi]
  · simp [hi]

/-- Exact result of `range` when the step is stored at an address which is not overwritten. -/
theorem rangeMem_spec [Add α] (mem : List α) (a n kmin kstep : Nat) (min step : α) (ha : a + n ≤ mem.length)
    (hmin : mem[kmin]? = some min) (hstep : mem[kstep]? = some step) (h : kstep < a ∨ a + n ≤ kstep) :
    ∃ m, rangeMem mem a n kmin kstep = .ok m ∧ m.length = mem.length ∧
      elements m a n = (List.range n).map (fun i => (· + step)^[i] min) ∧ SameOutside mem m a n := by
  obtain ⟨hk1, rfl⟩ := List.getElem?_eq_some_iff.1 hmin
  obtain ⟨hk2, rfl⟩ := List.getElem?_eq_some_iff.1 hstep
  obtain ⟨⟨m, v⟩, h1, h2, hl, h3⟩ := foldlM_range_inv (body := rangeStep a kstep) (b := (mem, mem[kmin])) (n := n)
    (P := fun i (mv : List α × α) => mv.2 = (· + mem[kstep])^[i] mem[kmin] ∧
      ∃ hl : mv.1.length = mem.length, ∀ k (hk : k < mem.length),
        mv.1[k] = if a ≤ k ∧ k < a + i then (· + mem[kstep])^[k - a] mem[kmin] else mem[k])
    ⟨rfl, rfl, fun k hk => by rw [if_neg (by omega)]⟩ (by
      rintro i ⟨m, v⟩ hi ⟨hv, hl, hm⟩
      simp only at hv hl hm
      subst hv
      refine ⟨(m.set (a + i) ((· + mem[kstep])^[i] mem[kmin]), (· + mem[kstep])^[i + 1] mem[kmin]), ?_, rfl,
        by simpa using hl, ?_⟩
      · simp only [rangeStep]
        rw [writeAt_nat_ok (by omega), ok_bind, readAt_nat_ok (by simp; omega), ok_bind, List.getElem_set,
          if_neg (by omega), hm _ hk2, if_neg (by omega), Function.iterate_succ_apply']
        rfl
      · intro k hk
        simp only [List.getElem_set]
        by_cases e : a + i = k
        · subst e
          rw [if_pos rfl, if_pos (show a ≤ a + i ∧ a + i < a + (i + 1) by omega), Nat.add_sub_cancel_left]
        · rw [if_neg e, hm k hk]
          by_cases hc : a ≤ k ∧ k < a + i
          · rw [if_pos hc, if_pos (show a ≤ k ∧ k < a + (i + 1) by omega)]
          · rw [if_neg hc, if_neg (show ¬ (a ≤ k ∧ k < a + (i + 1)) by omega)])
  simp only at h2 hl h3
  refine ⟨m, ?_, hl, ?_, ?_⟩
  · rw [rangeMem, readAt_nat_ok hk1, ok_bind, h1]
    rfl
  · apply elements_eq_range
    intro i hi
    rw [List.getElem?_eq_getElem (by omega), h3 _ (by omega), if_pos (by omega), Nat.add_sub_cancel_left]
  · intro k hk
    by_cases hk' : k < mem.length
    · rw [List.getElem?_eq_getElem (by omega), List.getElem?_eq_getElem hk', h3 k hk', if_neg (by omega)]
    · rw [List.getElem?_eq_none (by omega), List.getElem?_eq_none (by omega)]

/-- **C28**: `range(min, step)` assigns `min + i * step` to element `i`, for any additive monoid
(machine integers modulo 2^n, exact reals, complex numbers...), provided that the step is not an element of the
container. -/
theorem C28_range [AddMonoid α] (mem : List α) (a n kmin kstep : Nat) (min step : α) (ha : a + n ≤ mem.length)
    (hmin : mem[kmin]? = some min) (hstep : mem[kstep]? = some step) (h : kstep < a ∨ a + n ≤ kstep) :
    ∃ m, rangeMem mem a n kmin kstep = .ok m ∧ elements m a n = (List.range n).map (fun i => min + i • step) ∧
      SameOutside mem m a n := by
  obtain ⟨m, h1, _, h2, h3⟩ := rangeMem_spec mem a n kmin kstep min step ha hmin hstep h
  refine ⟨m, h1, ?_, h3⟩
  rw [h2]
  congr 1
  funext i
  induction i with
  | zero => simp
  | succ i ih => rw [Function.iterate_succ_apply', ih, succ_nsmul, add_assoc]

/-- **C28**: the first element is `min` and the difference between adjacent elements is exactly `step`, without
any law on the addition: this holds for floating point numbers, too. -/
theorem C28_range_difference [Add α] (mem : List α) (a n kmin kstep : Nat) (min step : α) (ha : a + n ≤ mem.length)
    (hmin : mem[kmin]? = some min) (hstep : mem[kstep]? = some step) (h : kstep < a ∨ a + n ≤ kstep) :
    ∃ m, rangeMem mem a n kmin kstep = .ok m ∧ (0 < n → m[a]? = some min) ∧
      ∀ i x, i + 1 < n → m[a + i]? = some x → m[a + i + 1]? = some (x + step) := by
  obtain ⟨m, h1, hl, h2, _⟩ := rangeMem_spec mem a n kmin kstep min step ha hmin hstep h
  have key : ∀ i < n, m[a + i]? = some ((· + step)^[i] min) := by
    intro i hi
    have := congrArg (·[i]?) h2
    simp only [elements_getElem?, if_pos hi] at this
    rw [this]
    simp [hi]
  refine ⟨m, h1, fun hn => key 0 hn, ?_⟩
  intro i x hi hx
  rw [key i (by omega)] at hx
  cases hx
  rw [add_assoc, key (i + 1) hi, Function.iterate_succ_apply']

/-- Result of `linspace` when the arguments are stored outside of the container, without any law on the operators. -/
theorem linspaceMem_spec [Add α] [Sub α] [Mul α] [Div α] [NatCast α] (mem : List α) (a n kmin kmax : Nat) (min max : α) (ha : a + n ≤ mem.length)
    (hn : 0 < n) (hn' : n < 2 ^ 64) (hmin : mem[kmin]? = some min) (hmax : mem[kmax]? = some max)
    (h : kmin < a ∨ a + n ≤ kmin) (h' : kmax < a ∨ a + n ≤ kmax) :
    ∃ m, linspaceMem mem a n kmin kmax = .ok m ∧ m.length = mem.length ∧
      elements m a n =
        (List.range n).map (fun i => if i + 1 = n then max else min + (max - min) / ((n - 1 : Nat) : α) * i) ∧
      SameOutside mem m a n := by
  obtain ⟨hk1, rfl⟩ := List.getElem?_eq_some_iff.1 hmin
  obtain ⟨hk2, rfl⟩ := List.getElem?_eq_some_iff.1 hmax
  have hc : (u64 ((n : Int) - 1)).toNat = n - 1 := by
    unfold u64; omega
  obtain ⟨m, h1, hl, h3⟩ := foldlM_range_inv
    (body := linspaceStep a kmin ((mem[kmax] - mem[kmin]) / ((n - 1 : Nat) : α))) (b := mem) (n := n - 1)
    (P := fun i (m : List α) =>
      ∃ hl : m.length = mem.length, ∀ k (hk : k < mem.length),
        m[k] = if a ≤ k ∧ k < a + i then
          mem[kmin] + (mem[kmax] - mem[kmin]) / ((n - 1 : Nat) : α) * ((k - a : Nat) : α) else mem[k])
    ⟨rfl, fun k hk => by rw [if_neg (by omega)]⟩ (by
      rintro i m hi ⟨hl, hm⟩
      refine ⟨m.set (a + i) (mem[kmin] + (mem[kmax] - mem[kmin]) / ((n - 1 : Nat) : α) * (i : α)), ?_,
        by simpa using hl, ?_⟩
      · rw [linspaceStep, readAt_nat_ok (by omega), ok_bind, writeAt_nat_ok (by omega), hm _ hk1, if_neg (by omega)]
      · intro k hk
        rw [List.getElem_set]
        by_cases e : a + i = k
        · subst e
          rw [if_pos rfl, if_pos (show a ≤ a + i ∧ a + i < a + (i + 1) by omega), Nat.add_sub_cancel_left]
        · rw [if_neg e, hm k hk]
          by_cases hc : a ≤ k ∧ k < a + i
          · rw [if_pos hc, if_pos (show a ≤ k ∧ k < a + (i + 1) by omega)]
          · rw [if_neg hc, if_neg (show ¬ (a ≤ k ∧ k < a + (i + 1)) by omega)])
  refine ⟨m.set (a + (n - 1)) mem[kmax], ?_, by simpa using hl, ?_, ?_⟩
  · rw [linspaceMem, readAt_nat_ok hk1, ok_bind, readAt_nat_ok hk2, ok_bind]
    simp only [hc]
    rw [h1, ok_bind, readAt_nat_ok (by omega), ok_bind, writeAt_nat_ok (by omega), h3 _ hk2, if_neg (by omega)]
  · apply elements_eq_range
    intro i hi
    rw [List.getElem?_set]
    by_cases hi' : i + 1 = n
    · rw [if_pos (by omega), if_pos (by omega), if_pos hi']
    · rw [if_neg (by omega), if_neg hi', List.getElem?_eq_getElem (by omega), h3 _ (by omega), if_pos (by omega),
        Nat.add_sub_cancel_left]
  · intro k hk
    rw [List.getElem?_set, if_neg (by omega)]
    by_cases hk' : k < mem.length
    · rw [List.getElem?_eq_getElem (by omega), List.getElem?_eq_getElem hk', h3 k hk', if_neg (by omega)]
    · rw [List.getElem?_eq_none (by omega), List.getElem?_eq_none (by omega)]

/-- **C28** (full statement, violated by the code) for `linspace` of integers: the values are evenly spaced
whenever this is possible with integers, the first is `min` and the last is `max`.  The empty container is left
empty, and the single element of a container of size 1 is either bound. -/
def C28_Statement : Prop :=
  ∀ (data : List Int) (min max step : Int), IsI64 min → IsI64 max → IsI64 (max - min) →
    max - min = step * ((data.length : Int) - 1) → 1 < data.length →
      linspaceInt data min max = .ok ((List.range data.length).map fun i : Nat => min + step * i)

/-- **C28**, exact values: `linspace(min, max)` assigns `min + i (max - min) / (n - 1)` to element `i`; in
particular the first is `min`, the last is `max`.
Missing: integers, see `C28_linspace_int_partial`; rounding, see C86. -/
theorem C28_linspace_partial [Field α] [CharZero α] (mem : List α) (a n kmin kmax : Nat) (min max : α)
    (ha : a + n ≤ mem.length) (hn : 2 ≤ n) (hn' : n < 2 ^ 64) (hmin : mem[kmin]? = some min)
    (hmax : mem[kmax]? = some max) (h : kmin < a ∨ a + n ≤ kmin) (h' : kmax < a ∨ a + n ≤ kmax) :
    ∃ m, linspaceMem mem a n kmin kmax = .ok m ∧
      elements m a n = (List.range n).map (fun i : Nat => min + i * ((max - min) / (n - 1))) ∧
      m[a]? = some min ∧ m[a + n - 1]? = some max ∧ SameOutside mem m a n := by
  obtain ⟨m, h1, hl, h2, h3⟩ := linspaceMem_spec mem a n kmin kmax min max ha (by omega) hn' hmin hmax h h'
  have key : ∀ i < n, m[a + i]? =
      some (if i + 1 = n then max else min + (max - min) / ((n - 1 : Nat) : α) * i) := by
    intro i hi
    have := congrArg (·[i]?) h2
    simp only [elements_getElem?, if_pos hi] at this
    rw [this]
    simp [hi]
  refine ⟨m, h1, ?_, ?_, ?_, h3⟩
  · rw [h2]
    apply List.map_congr_left
    intro i hi
    have hn1 : ((n : α) - 1) ≠ 0 := by
      have : ((n - 1 : Nat) : α) ≠ 0 := Nat.cast_ne_zero.2 (by omega)
      rwa [Nat.cast_sub (by omega), Nat.cast_one] at this
    by_cases hi' : i + 1 = n
    · rw [if_pos hi']
      have : (i : α) = (n : α) - 1 := by rw [← hi']; simp
      rw [this, mul_div_cancel₀ _ hn1]
      ring
    · rw [if_neg hi', Nat.cast_sub (by omega), Nat.cast_one]
      ring
  · have := key 0 (by omega)
    rw [if_neg (by omega)] at this
    simpa using this
  · have := key (n - 1) (by omega)
    rw [if_pos (by omega)] at this
    rwa [show a + n - 1 = a + (n - 1) by omega]

/-- **C28**: a single element is set to `max`. -/
theorem C28_linspace_single [Field α] (mem : List α) (a kmin kmax : Nat) (min max : α)
    (ha : a + 1 ≤ mem.length) (hmin : mem[kmin]? = some min)
    (hmax : mem[kmax]? = some max) (h : kmin < a ∨ a + 1 ≤ kmin) (h' : kmax < a ∨ a + 1 ≤ kmax) :
    ∃ m, linspaceMem mem a 1 kmin kmax = .ok m ∧ elements m a 1 = [max] := by
  obtain ⟨m, h1, hl, h2, h3⟩ := linspaceMem_spec mem a 1 kmin kmax min max ha (by omega) (by norm_num) hmin hmax h h'
  exact ⟨m, h1, by rw [h2]; rfl⟩

/-- Non-vacuity of C28, exact values. -/
example : rangeMem [0, 0, 0, 10, 3] 0 3 3 4 = .ok [10, 13, 16, 10, 3] ∧
    linspaceMem ([0, 0, 0, 10, 3] : List ℚ) 0 3 3 4 = .ok [10, 13 / 2, 3, 10, 3] := by
  refine ⟨rfl, ?_⟩
  obtain ⟨m, h1, hl, h2, h3⟩ := linspaceMem_spec ([0, 0, 0, 10, 3] : List ℚ) 0 3 3 4 10 3 (by simp) (by simp) (by simp)
    rfl rfl (by simp) (by simp)
  rw [h1]
  congr 1
  have e3 := h3 3 (by simp)
  have e4 := h3 4 (by simp)
  have e := List.take_append_drop 3 m
  have h2' : m.take 3 = [10, 13 / 2, 3] := by
    have : elements m 0 3 = m.take 3 := by simp [elements]
    rw [← this, h2]
    simp [List.range_succ]
    norm_num
  rw [← e, h2', show ([10, 13 / 2, 3, 10, 3] : List ℚ) = [10, 13 / 2, 3] ++ [10, 3] from rfl]
  congr 1
  apply List.ext_getElem?
  intro i
  rw [List.getElem?_drop, h3 _ (by omega), show 3 + i = i + 1 + 1 + 1 by omega]
  simp

theorem i64_of_isI64 {x : Int} (h : IsI64 x) : i64 x = x := by
  unfold IsI64 at h
  unfold i64
  split <;> omega

theorem i64_u64 (x : Int) : i64 (u64 x) = i64 x := by
  simp only [i64, u64, Int.emod_emod_of_dvd _ (dvd_refl _)]

theorem i64_congr (x : Int) : ∃ t, i64 x = x - 2 ^ 64 * t := by
  unfold i64
  split
  · exact ⟨x / 2 ^ 64, by omega⟩
  · exact ⟨x / 2 ^ 64 + 1, by omega⟩

/-- Exact result of `linspace` for integers. -/
theorem linspaceInt_spec (data : List Int) (min max : Int) (hd : IsI64 (max - min)) (hn : 2 ≤ data.length)
    (hn' : data.length < 2 ^ 64) :
    linspaceInt data min max = .ok ((List.range data.length).map fun i : Nat =>
      if i + 1 = data.length then max else i64 (min + u64 (max - min) / ((data.length : Int) - 1) * i)) := by
  set n := data.length with hndef
  have hc : u64 ((n : Int) - 1) = (n : Int) - 1 := by
    unfold u64; omega
  have hc' : ((n : Int) - 1).toNat = n - 1 := by omega
  set step := u64 (max - min) / ((n : Int) - 1) with hstep
  obtain ⟨m, h1, hl, h3⟩ := foldlM_range_inv (body := linspaceIntStep min step) (b := data) (n := n - 1)
    (P := fun i (m : List Int) => ∃ hl : m.length = n, ∀ k (hk : k < n),
        m[k] = if k < i then i64 (min + step * k) else data[k])
    ⟨rfl, fun k hk => by rw [if_neg (by omega)]⟩ (by
      rintro i m hi ⟨hl, hm⟩
      refine ⟨m.set i (i64 (min + step * i)), ?_, by simpa using hl, ?_⟩
      · rw [linspaceIntStep, writeAt_nat_ok (by omega)]
        have : i64 (u64 (u64 min + u64 (step * i))) = i64 (min + step * i) := by
          rw [i64_u64]
          have : (u64 min + u64 (step * i)) % 2 ^ 64 = (min + step * i) % 2 ^ 64 := (Int.add_emod _ _ _).symm
          unfold i64
          rw [this]
        rw [this]
      · intro k hk
        rw [List.getElem_set]
        by_cases e : i = k
        · subst e
          rw [if_pos rfl, if_pos (show i < i + 1 by omega)]
        · rw [if_neg e, hm k hk]
          by_cases hc : k < i
          · rw [if_pos hc, if_pos (show k < i + 1 by omega)]
          · rw [if_neg hc, if_neg (show ¬ k < i + 1 by omega)])
  have hd' : -2 ^ 63 ≤ max - min ∧ max - min < 2 ^ 63 := hd
  rw [linspaceInt]
  simp only [← hndef, hc, hc', ← hstep, if_neg (not_not.2 hd')]
  rw [if_neg (show ¬ ((n : Int) - 1 = 0) by omega), h1]
  change writeAt m _ _ = _
  rw [show (n : Int) - 1 = ((n - 1 : Nat) : Int) by omega, writeAt_nat_ok (by omega)]
  congr 1
  apply List.ext_getElem?
  intro i
  rw [List.getElem?_set]
  by_cases hi : i < n
  · by_cases hi' : i + 1 = n
    · simp [hi, hi', show n - 1 = i by omega, hl]
    · rw [if_neg (by omega), List.getElem?_eq_getElem (by omega), h3 i hi, if_pos (by omega)]
      simp [hi, hi']
  · rw [if_neg (by omega), List.getElem?_eq_none (by omega)]
    simp [hi]

/-- **C28**, integers, increasing: the step is rounded down, the last element is `max` anyway.
Missing: decreasing bounds (`C28_linspace_decreasing_wrong`), sizes 0 and 1 (`C28_linspace_int_small`). -/
theorem C28_linspace_int_partial (data : List Int) (min max : Int) (h0 : IsI64 min) (h1 : IsI64 max)
    (hd : IsI64 (max - min)) (hn : 2 ≤ data.length) (hn' : data.length < 2 ^ 64) (h : min ≤ max) :
    linspaceInt data min max = .ok ((List.range data.length).map fun i : Nat =>
      if i + 1 = data.length then max else min + (max - min) / ((data.length : Int) - 1) * i) := by
  rw [linspaceInt_spec data min max hd hn hn']
  congr 1
  apply List.map_congr_left
  intro i hi
  rw [List.mem_range] at hi
  split
  · rfl
  · unfold IsI64 at h0 h1 hd
    have hu : u64 (max - min) = max - min := by unfold u64; omega
    rw [hu]
    apply i64_of_isI64
    have hq : 0 ≤ (max - min) / ((data.length : Int) - 1) := Int.ediv_nonneg (by omega) (by omega)
    have hq' : (max - min) / ((data.length : Int) - 1) * ((data.length : Int) - 1) ≤ max - min :=
      Int.ediv_mul_le _ (by omega)
    have hi' : (i : Int) ≤ (data.length : Int) - 1 := by omega
    have h3 := mul_le_mul_of_nonneg_left hi' hq
    have h4 : 0 ≤ (max - min) / ((data.length : Int) - 1) * i := mul_nonneg hq (by omega)
    unfold IsI64
    constructor <;> omega

/-- **C28**, integers: if the bounds are increasing and the step is an integer, then values are evenly spaced.
Missing: the other steps, see `C28_linspace_int_partial`. -/
theorem C28_linspace_divisible_partial (data : List Int) (min max step : Int) (h0 : IsI64 min) (h1 : IsI64 max)
    (hd : IsI64 (max - min)) (hs : max - min = step * ((data.length : Int) - 1)) (hn : 2 ≤ data.length)
    (hn' : data.length < 2 ^ 64) (h : min ≤ max) :
    linspaceInt data min max = .ok ((List.range data.length).map fun i : Nat => min + step * i) := by
  rw [C28_linspace_int_partial data min max h0 h1 hd hn hn' h]
  congr 1
  apply List.map_congr_left
  intro i hi
  rw [hs, Int.mul_ediv_cancel _ (by omega)]
  split
  · rename_i h
    have : (i : Int) = (data.length : Int) - 1 := by omega
    rw [this]
    omega
  · rfl

/-- **C28**: for integers and decreasing bounds, element 1 is always wrong if there are at least three elements. -/
theorem C28_linspace_decreasing_wrong (data : List Int) (min max : Int) (hd : IsI64 (max - min))
    (hn : 3 ≤ data.length) (hn' : data.length < 2 ^ 63) (h : max < min) :
    ∃ r x, linspaceInt data min max = .ok r ∧ r[1]? = some x ∧
      x * ((data.length : Int) - 1) ≠ min * ((data.length : Int) - 1) + (max - min) ∧
      ∀ step, max - min = step * ((data.length : Int) - 1) → x ≠ min + step := by
  have key : ∀ x, x = i64 (min + u64 (max - min) / ((data.length : Int) - 1) * (1 : Nat)) →
      x * ((data.length : Int) - 1) ≠ min * ((data.length : Int) - 1) + (max - min) := by
    intro x hx he
    obtain ⟨t, ht⟩ := i64_congr (min + u64 (max - min) / ((data.length : Int) - 1) * (1 : Nat))
    rw [ht] at hx
    unfold IsI64 at hd
    have hu : u64 (max - min) = 2 ^ 64 + (max - min) := by unfold u64; omega
    rw [hu] at hx
    set m : Int := (data.length : Int) - 1 with hm
    set q := (2 ^ 64 + (max - min)) / m with hq
    have h1 : q * m ≤ 2 ^ 64 + (max - min) := Int.ediv_mul_le _ (by omega)
    have h2 : 2 ^ 64 + (max - min) < (q + 1) * m := Int.lt_ediv_add_one_mul_self _ (by omega)
    have h3 : (q - 2 ^ 64 * t) * m = max - min := by
      rw [hx] at he
      push_cast at he
      linear_combination he
    have h4 : q * m - (max - min) = 2 ^ 64 * (t * m) := by linear_combination h3
    have h5 : 2 ^ 64 * (t * m) ≤ 2 ^ 64 := by omega
    have h6 : 2 ^ 64 - m < 2 ^ 64 * (t * m) := by
      have : (q + 1) * m = q * m + m := by ring
      omega
    have h7 : t * m = 1 := by omega
    have h8 : m ∣ 1 := ⟨t, by rw [mul_comm]; exact h7.symm⟩
    have h9 := Int.le_of_dvd (by norm_num) h8
    omega
  refine ⟨_, _, linspaceInt_spec data min max hd (by omega) (by omega), ?_, key _ rfl, ?_⟩
  · rw [List.getElem?_map, List.getElem?_range (by omega)]
    simp only [Option.map_some]
    rw [if_neg (by omega)]
  · intro step hs he
    refine key _ rfl ?_
    rw [he, hs]
    ring

/-- **C28**: for integers, a single element is an integer division by zero; for any type, an empty container
is a write out of bounds. -/
theorem C28_linspace_int_small (x min max : Int) :
    linspaceInt [x] min max = .error .ub ∧ linspaceInt [] min max = .error .ub := by
  have hr : List.range 18446744073709551615 = 0 :: (List.range 18446744073709551614).map Nat.succ :=
    List.range_succ_eq_map
  constructor
  · rw [linspaceInt]
    by_cases h : -2 ^ 63 ≤ max - min ∧ max - min < 2 ^ 63
    · rw [if_neg (not_not.2 h)]; rfl
    · rw [if_pos h]; rfl
  · rw [linspaceInt]
    by_cases h : -2 ^ 63 ≤ max - min ∧ max - min < 2 ^ 63
    · have e : u64 (((([] : List Int).length : Nat) : Int) - 1) = 18446744073709551615 := by decide
      simp only [if_neg (not_not.2 h), e]
      rw [if_neg (by norm_num), show (18446744073709551615 : Int).toNat = 18446744073709551615 by rfl, hr]
      rfl
    · rw [if_pos h]; rfl

/-- **C28**: filling an empty container with `linspace` writes out of bounds if it is at the end of the memory. -/
theorem C28_linspace_empty [Field α] (mem : List α) (kmin kmax : Nat) (h : kmin < mem.length) (h' : kmax < mem.length) :
    linspaceMem mem mem.length 0 kmin kmax = .error .ub := by
  have hr : List.range 18446744073709551615 = 0 :: (List.range 18446744073709551614).map Nat.succ :=
    List.range_succ_eq_map
  have e : (u64 (((0 : Nat) : Int) - 1)).toNat = 18446744073709551615 := by decide
  rw [linspaceMem, readAt_nat_ok h, readAt_nat_ok h', ok_bind, ok_bind]
  simp only [e]
  rw [hr, List.foldlM_cons, linspaceStep, readAt_nat_ok h, ok_bind, writeAt_ub (Or.inr (by simp))]
  rfl

/-- **C28** is violated for integers: `linspace(3, 0)` for 4 elements. -/
theorem C28_violated : ¬ C28_Statement := by
  intro h
  have h1 := h [0, 0, 0, 0] 3 0 (-1) (by simp [IsI64]) (by simp [IsI64]) (by simp [IsI64]) (by simp) (by simp)
  obtain ⟨r, x, h2, h3, _, h4⟩ := C28_linspace_decreasing_wrong [0, 0, 0, 0] 3 0 (by simp [IsI64]) (by simp)
    (by simp) (by norm_num)
  rw [h1] at h2
  cases h2
  refine h4 (-1) (by simp) ?_
  have : some (2 : Int) = some x := h3
  cases this
  rfl

/-- Non-vacuity of C28, integers: rounded, divisible and decreasing cases. -/
example : linspaceInt [0, 0, 0, 0] 0 10 = .ok [0, 3, 6, 10] ∧ linspaceInt [0, 0, 0, 0] (-1) 5 = .ok [-1, 1, 3, 5] ∧
    linspaceInt [0, 0, 0, 0] 3 0 = .ok [3, 6148914691236517207, -6148914691236517205, 0] :=
  ⟨rfl, rfl, rfl⟩

/-- **C63** (full statement, violated by the code): `range`, `linspace` and `fill` depend on the values of their
arguments on call, wherever they are stored. -/
def C63_Statement : Prop :=
  ∀ (mem : List ℚ) (a n k k' : Nat) (x y : ℚ), a + n ≤ mem.length → 2 ≤ n → n < 2 ^ 64 →
    mem[k]? = some x → mem[k']? = some y →
    (∃ m, rangeMem mem a n k k' = .ok m ∧ elements m a n = (List.range n).map fun i : Nat => x + i • y) ∧
    (∃ m, linspaceMem mem a n k k' = .ok m ∧
      elements m a n = (List.range n).map fun i : Nat => x + i * ((y - x) / (n - 1))) ∧
    ∃ m, fillMem mem a n k = .ok m ∧ elements m a n = List.replicate n x

/-- **C63**, what holds: `fill` with an element of the container is right. -/
theorem C63_fill (mem : List α) (a n k : Nat) (x : α) (ha : a + n ≤ mem.length) (hk : mem[k]? = some x) :
    ∃ m, fillMem mem a n k = .ok m ∧ elements m a n = List.replicate n x ∧ SameOutside mem m a n := by
  obtain ⟨hk1, rfl⟩ := List.getElem?_eq_some_iff.1 hk
  obtain ⟨m, h1, hl, h3⟩ := foldlM_range_inv
    (body := fun (m : List α) (i : Nat) => do let v ← readAt m (k : Int); writeAt m ((a + i : Nat) : Int) v)
    (b := mem) (n := n)
    (P := fun i (m : List α) => ∃ hl : m.length = mem.length, ∀ j (hj : j < mem.length),
        m[j] = if a ≤ j ∧ j < a + i then mem[k] else mem[j])
    ⟨rfl, fun k hk => by rw [if_neg (by omega)]⟩ (by
      rintro i m hi ⟨hl, hm⟩
      refine ⟨m.set (a + i) mem[k], ?_, by simpa using hl, ?_⟩
      · rw [readAt_nat_ok (by omega), ok_bind, writeAt_nat_ok (by omega), hm _ hk1, ite_self]
      · intro j hj
        rw [List.getElem_set]
        by_cases e : a + i = j
        · subst e
          rw [if_pos rfl, if_pos (show a ≤ a + i ∧ a + i < a + (i + 1) by omega)]
        · rw [if_neg e, hm j hj]
          by_cases hc : a ≤ j ∧ j < a + i
          · rw [if_pos hc, if_pos (show a ≤ j ∧ j < a + (i + 1) by omega)]
          · rw [if_neg hc, if_neg (show ¬ (a ≤ j ∧ j < a + (i + 1)) by omega)])
  refine ⟨m, h1, ?_, ?_⟩
  · rw [elements_eq_range (fun _ => mem[k]) fun i hi => by
      rw [List.getElem?_eq_getElem (by omega), h3 _ (by omega), if_pos (by omega)]]
    simp
  · intro j hj
    by_cases hj' : j < mem.length
    · rw [List.getElem?_eq_getElem (by omega), List.getElem?_eq_getElem hj', h3 j hj', if_neg (by omega)]
    · rw [List.getElem?_eq_none (by omega), List.getElem?_eq_none (by omega)]

/-- **C63**: exact result of `range(min, c[j])`: from element `j` on, the step is `min + j * step`. -/
theorem C63_range_exact [AddMonoid α] (mem : List α) (a n kmin j : Nat) (min step : α) (ha : a + n ≤ mem.length)
    (hmin : mem[kmin]? = some min) (hj : j < n) (hstep : mem[a + j]? = some step) :
    ∃ m, rangeMem mem a n kmin (a + j) = .ok m ∧
      elements m a n = (List.range n).map
        (fun i => if i ≤ j then min + i • step else (min + j • step) + (i - j) • (min + j • step)) := by
  obtain ⟨hk1, rfl⟩ := List.getElem?_eq_some_iff.1 hmin
  obtain ⟨hk2, rfl⟩ := List.getElem?_eq_some_iff.1 hstep
  set min := mem[kmin]
  set step := mem[a + j]
  set f : Nat → α := fun i => if i ≤ j then min + i • step else (min + j • step) + (i - j) • (min + j • step) with hf
  obtain ⟨⟨m, v⟩, h1, h2, hl, h3⟩ := foldlM_range_inv (body := rangeStep a (a + j)) (b := (mem, min)) (n := n)
    (P := fun i (mv : List α × α) => mv.2 = f i ∧
      ∃ hl : mv.1.length = mem.length, ∀ k (hk : k < mem.length),
        mv.1[k] = if a ≤ k ∧ k < a + i then f (k - a) else mem[k])
    ⟨by simp [hf], rfl, fun k hk => by rw [if_neg (by omega)]⟩ (by
      rintro i ⟨m, v⟩ hi ⟨hv, hl, hm⟩
      simp only at hv hl hm
      subst hv
      have hset : ∀ k (hk : k < mem.length), (m.set (a + i) (f i))[k]'(by simp; omega) =
          if a ≤ k ∧ k < a + (i + 1) then f (k - a) else mem[k] := by
        intro k hk
        simp only [List.getElem_set]
        by_cases e : a + i = k
        · subst e
          rw [if_pos rfl, if_pos (show a ≤ a + i ∧ a + i < a + (i + 1) by omega), Nat.add_sub_cancel_left]
        · rw [if_neg e, hm k hk]
          by_cases hc : a ≤ k ∧ k < a + i
          · rw [if_pos hc, if_pos (show a ≤ k ∧ k < a + (i + 1) by omega)]
          · rw [if_neg hc, if_neg (show ¬ (a ≤ k ∧ k < a + (i + 1)) by omega)]
      refine ⟨(m.set (a + i) (f i), f (i + 1)), ?_, rfl, by simpa using hl, hset⟩
      simp only [rangeStep]
      rw [writeAt_nat_ok (by omega), ok_bind, readAt_nat_ok (by simp; omega), ok_bind, hset _ hk2]
      congr 1
      congr 1
      by_cases hij : j ≤ i
      · rw [if_pos (by omega), Nat.add_sub_cancel_left]
        simp only [hf, if_pos (le_refl j), if_neg (show ¬ i + 1 ≤ j by omega)]
        by_cases e : i = j
        · subst e
          simp
        · rw [if_neg (by omega), show i + 1 - j = (i - j) + 1 by omega, succ_nsmul]
          simp only [add_assoc]
      · rw [if_neg (by omega)]
        simp only [hf, if_pos (show i ≤ j by omega), if_pos (show i + 1 ≤ j by omega), succ_nsmul, ← add_assoc]
        rfl)
  simp only at h2 hl h3
  refine ⟨m, ?_, ?_⟩
  · rw [rangeMem, readAt_nat_ok hk1, ok_bind, h1]
    rfl
  · apply elements_eq_range
    intro i hi
    rw [List.getElem?_eq_getElem (by omega), h3 _ (by omega), if_pos (by omega), Nat.add_sub_cancel_left]

/-- **C63** is violated by `range`: `{0, 2, 0}.range(1, c[1])`. -/
theorem C63_violated : ¬ C63_Statement := by
  intro h
  obtain ⟨⟨m, h1, h2⟩, _⟩ := h [0, 2, 0, 1] 0 3 3 1 1 2 (by simp) (by simp) (by simp) rfl rfl
  obtain ⟨m', h1', h2'⟩ := C63_range_exact ([0, 2, 0, 1] : List ℚ) 0 3 3 1 1 2 (by simp) rfl (by simp) rfl
  rw [Nat.zero_add] at h1'
  rw [h1] at h1'
  cases h1'
  rw [h2] at h2'
  have := congrArg (·[2]?) h2'
  simp at this
  norm_num at this

/-- **C63**: `linspace(min, c[j])` sets the last element to the *new* value of `c[j]`, for any `j` but the last, i.e.
not to the requested upper bound. -/
theorem C63_linspace_max [Field α] (mem : List α) (a n kmin j : Nat) (min max : α) (ha : a + n ≤ mem.length)
    (hn' : n < 2 ^ 64) (hmin : mem[kmin]? = some min) (hmax : mem[a + j]? = some max)
    (h : kmin < a ∨ a + n ≤ kmin) (hj : j + 1 < n) :
    ∃ m, linspaceMem mem a n kmin (a + j) = .ok m ∧
      m[a + n - 1]? = some (min + (max - min) / ((n - 1 : Nat) : α) * (j : α)) := by
  obtain ⟨hk1, rfl⟩ := List.getElem?_eq_some_iff.1 hmin
  obtain ⟨hk2, rfl⟩ := List.getElem?_eq_some_iff.1 hmax
  set min := mem[kmin] with hmindef
  set max := mem[a + j]
  have hc : (u64 ((n : Int) - 1)).toNat = n - 1 := by
    unfold u64; omega
  obtain ⟨m, h1, hl, h3⟩ := foldlM_range_inv
    (body := linspaceStep a kmin ((max - min) / ((n - 1 : Nat) : α))) (b := mem) (n := n - 1)
    (P := fun i (m : List α) =>
      ∃ hl : m.length = mem.length, ∀ k (hk : k < mem.length),
        m[k] = if a ≤ k ∧ k < a + i then
          min + (max - min) / ((n - 1 : Nat) : α) * ((k - a : Nat) : α) else mem[k])
    ⟨rfl, fun k hk => by rw [if_neg (by omega)]⟩ (by
      rintro i m hi ⟨hl, hm⟩
      refine ⟨m.set (a + i) (min + (max - min) / ((n - 1 : Nat) : α) * (i : α)), ?_,
        by simpa using hl, ?_⟩
      · rw [linspaceStep, readAt_nat_ok (by omega), ok_bind, writeAt_nat_ok (by omega), hm _ hk1, if_neg (by omega)]
      · intro k hk
        rw [List.getElem_set]
        by_cases e : a + i = k
        · subst e
          rw [if_pos rfl, if_pos (show a ≤ a + i ∧ a + i < a + (i + 1) by omega), Nat.add_sub_cancel_left]
        · rw [if_neg e, hm k hk]
          by_cases hc : a ≤ k ∧ k < a + i
          · rw [if_pos hc, if_pos (show a ≤ k ∧ k < a + (i + 1) by omega)]
          · rw [if_neg hc, if_neg (show ¬ (a ≤ k ∧ k < a + (i + 1)) by omega)])
  refine ⟨m.set (a + (n - 1)) (min + (max - min) / ((n - 1 : Nat) : α) * (j : α)), ?_, ?_⟩
  · rw [linspaceMem, readAt_nat_ok hk1, ok_bind, readAt_nat_ok hk2, ok_bind]
    simp only [hc]
    rw [h1, ok_bind, readAt_nat_ok (by omega), ok_bind, writeAt_nat_ok (by omega), h3 _ hk2, if_pos (by omega),
      Nat.add_sub_cancel_left]
  · rw [show a + n - 1 = a + (n - 1) by omega, List.getElem?_set, if_pos rfl, if_pos (by omega)]

/-- **C63**, what remains true of `range` and `linspace`: arguments stored outside of the container.
Missing: elements of the container, see `C63_range_exact` and `C63_linspace_max`. -/
theorem C63_independent_partial [Field α] [CharZero α] (mem : List α) (a n k k' : Nat) (x y : α)
    (ha : a + n ≤ mem.length) (hn : 2 ≤ n) (hn' : n < 2 ^ 64) (hk : mem[k]? = some x) (hk' : mem[k']? = some y)
    (h : k < a ∨ a + n ≤ k) (h' : k' < a ∨ a + n ≤ k') :
    (∃ m, rangeMem mem a n k k' = .ok m ∧ elements m a n = (List.range n).map fun i : Nat => x + i • y) ∧
    ∃ m, linspaceMem mem a n k k' = .ok m ∧
      elements m a n = (List.range n).map fun i : Nat => x + i * ((y - x) / (n - 1)) := by
  obtain ⟨m, h1, h2, _⟩ := C28_range mem a n k k' x y ha hk hk' h'
  obtain ⟨m', h3, h4, _⟩ := C28_linspace_partial mem a n k k' x y ha hn hn' hk hk' h h'
  exact ⟨⟨m, h1, h2⟩, ⟨m', h3, h4⟩⟩

/-- Non-vacuity of C63. -/
example : fillMem [1, 2, 3, 4] 0 4 2 = .ok [3, 3, 3, 3] ∧
    rangeMem [0, 2, 0, 0, 1] 0 4 4 1 = .ok [1, 3, 6, 9, 1] := ⟨rfl, rfl⟩

end Litl
