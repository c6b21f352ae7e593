import Verif.Lemmas.Distribution
import Mathlib.Tactic.NormNum
import Mathlib.Tactic.Ring
import Mathlib.Tactic.FieldSimp
import Mathlib.Tactic.IntervalCases
import Mathlib.Tactic.LinearCombination

/-!
# C30, C31, C32, C33, C64: `DataDistribution`
-/

namespace Litl

open Spec Distribution

/-- Members of the data are what order statistics select. -/
theorem Spec.IsNth.mem {α : Type} [LinearOrder α] {data : List α} {n : Nat} {x : α} (h : IsNth data n x) :
    x ∈ data := by
  by_contra hc
  have : data.countP (· ≤ x) ≤ data.countP (· < x) :=
    List.countP_mono_left fun z hz hz' => by
      simp only [decide_eq_true_eq] at hz' ⊢
      exact lt_of_le_of_ne hz' fun e => hc (e ▸ hz)
  have h1 := h.1
  have h2 := h.2
  omega

/-- **C30**: whatever the history of queries, `nth(n)` is the `n`-th smallest value of the initial data. -/
theorem C30_nth (data : List ℚ) (d d' : Distribution ℚ) (n : Nat) (x : ℚ) (hd : Reachable data d)
    (h : Nth d n x d') : IsNth data n x :=
  (h.inv hd.inv.1).2.1

/-- **C30**: the values which are returned do not depend on the history, nor on the sorting algorithms. -/
theorem C30_history_independent (data : List ℚ) (d₁ d₂ d₁' d₂' : Distribution ℚ) (n : Nat) (x₁ x₂ : ℚ)
    (h₁ : Reachable data d₁) (h₂ : Reachable data d₂) (q₁ : Nth d₁ n x₁ d₁') (q₂ : Nth d₂ n x₂ d₂') : x₁ = x₂ :=
  (C30_nth data d₁ d₁' n x₁ h₁ q₁).unique (C30_nth data d₂ d₂' n x₂ h₂ q₂)

/-- **C30**: `nth(n)` is defined for each `n` less than the initial number of values, whatever the history. -/
theorem C30_defined (data : List ℚ) (d : Distribution ℚ) (n : Nat) (hd : Reachable data d) :
    (∃ x d', Nth d n x d') ↔ n < data.length := by
  have hl := hd.inv.1.perm.length_eq
  constructor
  · rintro ⟨x, d', h⟩
    cases h with
    | sorted _ hx => rw [← hl]; exact (List.getElem?_eq_some_iff.1 hx).1
    | unsorted _ hn _ _ => rwa [← hl]
  · intro h
    exact Nth.exists d n (by omega)

/-- **C30**: whatever the history of queries, `min()` is the minimum of the initial data. -/
theorem C30_min (data : List ℚ) (d d' : Distribution ℚ) (x : ℚ) (hd : Reachable data d) (h : Min d x d') :
    x ∈ data ∧ ∀ y ∈ data, x ≤ y := by
  have hn := C30_nth data d d' 0 x hd h
  refine ⟨hn.mem, fun y hy => ?_⟩
  have := hn.1
  rw [Nat.le_zero, List.countP_eq_zero] at this
  simpa using this y hy

/-- **C30**: whatever the history of queries, `max()` is the maximum of the initial data. -/
theorem C30_max (data : List ℚ) (d d' : Distribution ℚ) (x : ℚ) (hne : data ≠ []) (hd : Reachable data d)
    (h : Max d x d') : x ∈ data ∧ ∀ y ∈ data, y ≤ x := by
  have hn := C30_nth data d d' _ x hd h
  rw [hd.inv.1.perm.length_eq] at hn
  refine ⟨hn.mem, fun y hy => ?_⟩
  have h1 := hn.2
  have h2 := List.countP_le_length (p := fun y => decide (y ≤ x)) (l := data)
  have h3 := List.length_pos_iff.2 hne
  have := List.countP_eq_length.1 (show data.countP (fun y => decide (y ≤ x)) = data.length by omega) y hy
  simpa using this

/-- **C30**: `min()` and `max()` are defined as soon as there is a value, whatever the history. -/
theorem C30_extrema_defined (data : List ℚ) (d : Distribution ℚ) (hne : data ≠ []) (hd : Reachable data d) :
    (∃ x d', Min d x d') ∧ ∃ x d', Max d x d' := by
  have hl := List.length_pos_iff.2 hne
  have := hd.inv.1.perm.length_eq
  exact ⟨(C30_defined data d 0 hd).2 hl, (C30_defined data d _ hd).2 (by omega)⟩

/-- **C30**: the specification agrees with sorting: it is the value of rank `n` of any sorted permutation. -/
theorem C30_sorted_rank (data s : List ℚ) (n : Nat) (x : ℚ) (hp : s.Perm data) (hs : s.Pairwise (· ≤ ·))
    (hx : IsNth data n x) : s[n]? = some x := by
  have h1 : n < s.length := by
    rw [hp.length_eq]
    exact lt_of_lt_of_le hx.2 List.countP_le_length
  rw [List.getElem?_eq_getElem h1]
  congr 1
  exact ((isNth_of_sorted hs (List.getElem?_eq_getElem h1)).perm hp).unique hx

/-- Non-vacuity of C30: `nth(1)` then `nth(0)` with a partial sorting which leaves values unsorted. -/
example : Reachable [3, 1, 2, 5, 4] ⟨[1, 2, 3, 5, 4], false, 15⟩ ∧
    Nth ⟨[1, 2, 3, 5, 4], false, 15⟩ 0 1 (⟨[1, 2, 5, 3, 4], false, 15⟩ : Distribution ℚ) := by
  constructor
  · have e : ofValues ([3, 1, 2, 5, 4] : List ℚ) = ⟨[3, 1, 2, 5, 4], false, 15⟩ := by
      simp only [ofValues, Distribution.mk.injEq, true_and]
      refine ⟨?_, by norm_num⟩
      simp only [decide_eq_false_iff_not, List.pairwise_cons]
      intro h
      have := h.1 1 (by simp)
      norm_num at this
    have h0 : Reachable [3, 1, 2, 5, 4] ⟨[3, 1, 2, 5, 4], false, 15⟩ := e ▸ Reachable.init
    refine Reachable.query h0 (Query.nth (n := 1) (x := 2) (Nth.unsorted (v := [1, 2, 3, 5, 4]) rfl (by simp) ⟨?_, ?_⟩ rfl))
    · decide
    · intro i j x y hi hj hx hy
      have hi' : i = 0 ∨ i = 1 := by omega
      have hj' : j < 5 := (List.getElem?_eq_some_iff.1 hy).1
      rcases hi' with rfl | rfl <;> interval_cases j <;> simp at hx hy <;> subst hx <;> subst hy <;> norm_num
  · refine Nth.unsorted rfl (by simp) ⟨?_, ?_⟩ rfl
    · decide
    · intro i j x y hi hj hx hy
      have hi' : i = 0 := by omega
      have hj' : j < 5 := (List.getElem?_eq_some_iff.1 hy).1
      subst hi'
      interval_cases j <;> simp at hx hy <;> subst hx <;> subst hy <;> norm_num

/-- **C31** (full statement, violated by the code): whatever the history, `quantile(q)` is the linear interpolation
of the sorted data at abscissa `q * (size - 1)`. -/
def C31_Statement : Prop :=
  ∀ (data : List ℚ) (o : EvalOrder) (d d' : Distribution ℚ) (q r : ℚ), data ≠ [] → 0 ≤ q → q ≤ 1 →
    Reachable data d → Quantile o d q r d' → IsQuantile data q r

/-- **C31**, exact result: the weights are swapped. -/
theorem C31_exact (data : List ℚ) (o : EvalOrder) (d d' : Distribution ℚ) (q r : ℚ) (hne : data ≠ []) (h0 : 0 ≤ q)
    (hd : Reachable data d) (h : Quantile o d q r d') (ho : o ≠ .late) :
    ∃ (k : Nat) (t x y : ℚ), 0 ≤ t ∧ t < 1 ∧ q * ((data.length : ℚ) - 1) = k + t ∧ IsNth data k x ∧
      (t = 0 ∧ r = x ∨ t ≠ 0 ∧ IsNth data (k + 1) y ∧ r = t * x + (1 - t) * y) := by
  have hi := hd.inv.1
  have hlen : ((d.values.length - 1 : Nat) : ℚ) = (data.length : ℚ) - 1 := by
    rw [hi.perm.length_eq, Nat.cast_sub (List.length_pos_iff.2 hne), Nat.cast_one]
  have hpos : (0 : ℚ) ≤ q * ((data.length : ℚ) - 1) := by
    rw [← hlen]
    exact mul_nonneg h0 (Nat.cast_nonneg _)
  have key : ∀ {n : ℚ} {f : Nat}, n = q * ((d.values.length - 1 : Nat) : ℚ) → f = ⌊n⌋₊ →
      0 ≤ n - f ∧ n - f < 1 ∧ q * ((data.length : ℚ) - 1) = f + (n - f) := by
    intro n f hn hf
    rw [hlen] at hn
    have h1 : (f : ℚ) ≤ n := hf ▸ Nat.floor_le (hn ▸ hpos)
    have h2 : n < f + 1 := hf ▸ Nat.lt_floor_add_one n
    exact ⟨by linarith, by linarith, by rw [← hn]; ring⟩
  cases h with
  | exact hn hf hnf h1 =>
    rename_i n f
    obtain ⟨k1, k2, k3⟩ := key hn hf
    exact ⟨f, n - f, r, r, k1, k2, k3, (h1.inv hi).2.1, Or.inl ⟨by rw [hnf]; ring, rfl⟩⟩
  | lr hn hf hnf h1 h2 =>
    rename_i d1 n x y f
    obtain ⟨k1, k2, k3⟩ := key hn hf
    obtain ⟨i1, i2, _⟩ := h1.inv hi
    exact ⟨f, n - f, x, y, k1, k2, k3, i2, Or.inr ⟨sub_ne_zero.2 hnf, (h2.inv i1).2.1, by ring⟩⟩
  | rl hn hf hnf h1 h2 =>
    rename_i d1 n x y f
    obtain ⟨k1, k2, k3⟩ := key hn hf
    obtain ⟨i1, i2, _⟩ := h1.inv hi
    exact ⟨f, n - f, x, y, k1, k2, k3, (h2.inv i1).2.1, Or.inr ⟨sub_ne_zero.2 hnf, i2, by ring⟩⟩
  | late => exact absurd rfl ho

/-- **C31**: `quantile(q)` is defined for each `q` between 0 and 1 and for each evaluation order, whatever the history. -/
theorem C31_defined (data : List ℚ) (o : EvalOrder) (d : Distribution ℚ) (q : ℚ) (hne : data ≠ []) (h0 : 0 ≤ q) (h1 : q ≤ 1)
    (hd : Reachable data d) : ∃ r d', Quantile o d q r d' := by
  have hl := List.length_pos_iff.2 hne
  have hp := hd.inv.1.perm.length_eq
  obtain ⟨n, hn⟩ : ∃ n, n = q * ((d.values.length - 1 : Nat) : ℚ) := ⟨_, rfl⟩
  obtain ⟨f, hf⟩ : ∃ f, f = ⌊n⌋₊ := ⟨_, rfl⟩
  have hL : (0 : ℚ) ≤ ((d.values.length - 1 : Nat) : ℚ) := Nat.cast_nonneg _
  have hn0 : 0 ≤ n := by rw [hn]; positivity
  have hn1 : n ≤ ((d.values.length - 1 : Nat) : ℚ) := by rw [hn]; nlinarith
  have hfn : (f : ℚ) ≤ n := by rw [hf]; exact Nat.floor_le hn0
  have hfl : f ≤ d.values.length - 1 := by exact_mod_cast hfn.trans hn1
  by_cases he : n = f
  · obtain ⟨x, d', h⟩ := (C30_defined data d f hd).2 (by omega)
    exact ⟨x, d', .exact hn hf he h⟩
  · have hlt : f < d.values.length - 1 := by
      have : (f : ℚ) < ((d.values.length - 1 : Nat) : ℚ) := (lt_of_le_of_ne hfn (Ne.symm he)).trans_le hn1
      exact_mod_cast this
    cases o with
    | lr =>
      obtain ⟨x, d1, h⟩ := (C30_defined data d f hd).2 (by omega)
      obtain ⟨y, d', h'⟩ := (C30_defined data d1 (f + 1) (hd.query (.nth h))).2 (by omega)
      exact ⟨_, _, .lr hn hf he h h'⟩
    | rl =>
      obtain ⟨x, d1, h⟩ := (C30_defined data d (f + 1) hd).2 (by omega)
      obtain ⟨y, d', h'⟩ := (C30_defined data d1 f (hd.query (.nth h))).2 (by omega)
      exact ⟨_, _, .rl hn hf he h h'⟩
    | late =>
      obtain ⟨x, d1, h⟩ := (C30_defined data d f hd).2 (by omega)
      have hd1 := hd.query (.nth h)
      obtain ⟨y, d', h'⟩ := (C30_defined data d1 (f + 1) hd1).2 (by omega)
      have hp' := (hd1.query (.nth h')).inv.1.perm.length_eq
      exact ⟨_, _, .late hn hf he h h' (List.getElem?_eq_getElem (by omega)) (List.getElem?_eq_getElem (by omega))⟩

/-- The decomposition of an abscissa is unique. -/
theorem floor_unique {k k' : Nat} {t t' : ℚ} (h0 : 0 ≤ t) (h1 : t < 1) (h0' : 0 ≤ t') (h1' : t' < 1)
    (h : (k : ℚ) + t = k' + t') : k = k' ∧ t = t' := by
  have e1 : ⌊(k : ℚ) + t⌋₊ = k := by
    rw [Nat.floor_eq_iff (by positivity)]; constructor <;> linarith
  have e2 : ⌊(k' : ℚ) + t'⌋₊ = k' := by
    rw [Nat.floor_eq_iff (by positivity)]; constructor <;> linarith
  have : k = k' := by rw [← e1, ← e2, h]
  subst this
  exact ⟨rfl, by linarith⟩

/-- **C31**, what remains true: quantiles at integer abscissas are right in any evaluation order, and those at
half-integer abscissas if references are read in due time.
Missing: any other abscissa, see `C31_swapped`. -/
theorem C31_half_integer_partial (data : List ℚ) (o : EvalOrder) (d d' : Distribution ℚ) (q r : ℚ) (hne : data ≠ [])
    (h0 : 0 ≤ q) (hd : Reachable data d) (h : Quantile o d q r d') (k : Nat)
    (hq : q * ((data.length : ℚ) - 1) = k ∨ o ≠ .late ∧ q * ((data.length : ℚ) - 1) = k + 1 / 2) :
    IsQuantile data q r := by
  by_cases ho : o = .late
  · rcases hq with hq | hq
    · have hi := hd.inv.1
      have hlen : ((d.values.length - 1 : Nat) : ℚ) = (data.length : ℚ) - 1 := by
        rw [hi.perm.length_eq, Nat.cast_sub (List.length_pos_iff.2 hne), Nat.cast_one]
      subst ho
      cases h with
      | exact hn hf hnf h1 =>
        rename_i n f
        rw [hlen] at hn
        exact ⟨f, 0, r, 0, le_rfl, by norm_num, by rw [← hn, hnf]; ring, (h1.inv hi).2.1, Or.inl rfl, by ring⟩
      | late hn hf hnf =>
        rename_i n _ _ _ _ f
        rw [hlen, hq] at hn
        rw [hn, Nat.floor_natCast] at hf
        exact absurd (hn.trans (by rw [hf])) hnf
    · exact absurd ho hq.1
  · obtain ⟨k', t, x, y, h1, h2, h3, h4, h5⟩ := C31_exact data o d d' q r hne h0 hd h ho
    rcases h5 with ⟨h5, h6⟩ | ⟨h5, h6, h7⟩
    · exact ⟨k', t, x, x, h1, h2, h3, h4, Or.inl h5, by rw [h6, h5]; ring⟩
    · rcases hq with hq | ⟨_, hq⟩
      · have := floor_unique (k := k) (t := 0) le_rfl (by norm_num) h1 h2 (by rw [← h3, hq]; ring)
        exact absurd this.2.symm h5
      · have := floor_unique (k := k) (t := 1 / 2) (by norm_num) (by norm_num) h1 h2 (by rw [← h3, hq])
        exact ⟨k', t, x, y, h1, h2, h3, h4, Or.inr h6, by rw [h7, ← this.2]; ring⟩

/-- **C31**: the result is wrong for any other abscissa, unless both neighboring values are equal. -/
theorem C31_swapped (data : List ℚ) (o : EvalOrder) (d d' : Distribution ℚ) (q r t x y : ℚ) (k : Nat) (hne : data ≠ [])
    (h0 : 0 ≤ q) (hd : Reachable data d) (h : Quantile o d q r d') (ho : o ≠ .late)
    (ht0 : 0 < t) (ht1 : t < 1) (ht : t ≠ 1 / 2) (hq : q * ((data.length : ℚ) - 1) = k + t)
    (hx : IsNth data k x) (hy : IsNth data (k + 1) y) (hxy : x ≠ y) : ¬ IsQuantile data q r := by
  rintro ⟨k1, t1, x1, y1, a1, a2, a3, a4, a5, a6⟩
  obtain ⟨k2, t2, x2, y2, b1, b2, b3, b4, b5⟩ := C31_exact data o d d' q r hne h0 hd h ho
  obtain ⟨rfl, rfl⟩ := floor_unique ht0.le ht1 a1 a2 (by rw [← hq, a3])
  obtain ⟨rfl, rfl⟩ := floor_unique ht0.le ht1 b1 b2 (by rw [← hq, b3])
  have e1 := a4.unique hx
  have e2 := b4.unique hx
  rcases a5 with a5 | a5
  · exact ht0.ne' a5
  · rcases b5 with ⟨b5, _⟩ | ⟨_, b5, b6⟩
    · exact ht0.ne' b5
    · have e3 := a5.unique hy
      have e4 := b5.unique hy
      subst e1 e2 e3 e4
      have : (1 - 2 * t) * (x2 - y2) = 0 := by linear_combination b6 - a6
      rcases mul_eq_zero.1 this with h | h
      · exact ht (by linarith)
      · exact hxy (by linarith)

theorem isNth_zero_one : IsNth ([0, 1] : List ℚ) 0 0 ∧ IsNth ([0, 1] : List ℚ) 1 1 :=
  ⟨isNth_of_sorted (by simp) rfl, isNth_of_sorted (by simp) rfl⟩

/-- First quartile of {0, 1} according to the code. -/
theorem quantile_zero_one :
    Quantile .lr (ofValues [0, 1]) (1 / 4) (3 / 4) (ofValues [0, 1]) := by
  have hf : (0 : Nat) = ⌊(1 / 4 : ℚ)⌋₊ := by rw [eq_comm, Nat.floor_eq_zero]; norm_num
  have := Quantile.lr (d := ofValues [0, 1]) (d1 := ofValues [0, 1]) (d' := ofValues [0, 1]) (q := 1 / 4) (n := 1 / 4)
    (x := 0) (y := 1) (by simp [ofValues]) hf (by norm_num) (.sorted (by simp [ofValues]) rfl)
    (.sorted (by simp [ofValues]) rfl)
  norm_num at this ⊢
  exact this

/-- **C31** is violated: `{0, 1}.quantile(0.25)` is 0.75. -/
theorem C31_violated : ¬ C31_Statement := fun h =>
  C31_swapped [0, 1] .lr _ _ (1 / 4) (3 / 4) (1 / 4) 0 1 0 (by simp) (by norm_num) .init quantile_zero_one (by simp)
    (by norm_num) (by norm_num) (by norm_num) (by norm_num) isNth_zero_one.1 isNth_zero_one.2 (by norm_num)
    (h [0, 1] .lr _ _ (1 / 4) (3 / 4) (by simp) (by norm_num) (by norm_num) .init quantile_zero_one)

/-- Non-vacuity of C31: a quantile at an integer abscissa. -/
example : Quantile .rl (ofValues [1, 2, 4]) (1 / 2) 2 (ofValues [1, 2, 4]) ∧
    (1 / 2 : ℚ) * ((([1, 2, 4] : List ℚ).length : ℚ) - 1) = (1 : Nat) := by
  refine ⟨.exact (n := 1) (f := 1) ?_ ?_ ?_ (.sorted ?_ rfl), ?_⟩ <;> simp [ofValues] <;> norm_num

/-- **C64** (full statement, violated for one of the evaluation orders which are allowed by the C++ standard):
whatever the history, `median()` is the median and `mad()` is the median of the absolute deviations to the median. -/
def C64_Statement : Prop :=
  ∀ (data : List ℚ) (o : EvalOrder) (d d' : Distribution ℚ) (r : ℚ), data ≠ [] → Reachable data d →
    (Median o d r d' → IsMedian data r) ∧
    (Mad o d r d' → ∃ m, IsMedian data m ∧ IsMedian (data.map fun e => |e - m|) r)

theorem median_of_quantile {data : List ℚ} {r : ℚ} (hne : data ≠ []) (h : IsQuantile data (1 / 2) r) :
    IsMedian data r := by
  obtain ⟨k, t, x, y, h1, h2, h3, h4, h5, h6⟩ := h
  have hl := List.length_pos_iff.2 hne
  rcases Nat.even_or_odd' data.length with ⟨m, hm | hm⟩
  · obtain ⟨m, rfl⟩ : ∃ m', m = m' + 1 := ⟨m - 1, by omega⟩
    have := floor_unique (k := m) (t := 1 / 2) (by norm_num) (by norm_num) h1 h2 (by
      rw [← h3, hm]; push_cast; ring)
    obtain ⟨rfl, rfl⟩ := this
    rcases h5 with h5 | h5
    · norm_num at h5
    · exact Or.inr ⟨m, x, y, by omega, h4, h5, by rw [h6]; ring⟩
  · have := floor_unique (k := m) (t := 0) (by norm_num) (by norm_num) h1 h2 (by
      rw [← h3, hm]; push_cast; ring)
    obtain ⟨rfl, rfl⟩ := this
    exact Or.inl ⟨m, hm, by rw [h6]; simpa using h4⟩

/-- **C64**, what holds: `median()` is right for any history, unless references are read late.
Missing: late reads, see `C64_violated`. -/
theorem C64_median_partial (data : List ℚ) (o : EvalOrder) (d d' : Distribution ℚ) (r : ℚ) (hne : data ≠ [])
    (hd : Reachable data d) (ho : o ≠ .late) (h : Median o d r d') : IsMedian data r := by
  apply median_of_quantile hne
  rcases Nat.even_or_odd' data.length with ⟨m, hm | hm⟩
  · have hl := List.length_pos_iff.2 hne
    obtain ⟨m, rfl⟩ : ∃ m', m = m' + 1 := ⟨m - 1, by omega⟩
    exact C31_half_integer_partial data o d d' _ r hne (by norm_num) hd h m (Or.inr ⟨ho, by rw [hm]; push_cast; ring⟩)
  · exact C31_half_integer_partial data o d d' _ r hne (by norm_num) hd h m (Or.inl (by rw [hm]; push_cast; ring))

/-- **C64**: the median of an odd number of values is right in any evaluation order. -/
theorem C64_median_odd (data : List ℚ) (o : EvalOrder) (d d' : Distribution ℚ) (r : ℚ) (hodd : data.length % 2 = 1)
    (hd : Reachable data d) (h : Median o d r d') : IsMedian data r := by
  have hne : data ≠ [] := by rintro rfl; simp at hodd
  apply median_of_quantile hne
  obtain ⟨m, hm⟩ : ∃ m, data.length = 2 * m + 1 := ⟨data.length / 2, by omega⟩
  exact C31_half_integer_partial data o d d' _ r hne (by norm_num) hd h m (Or.inl (by rw [hm]; push_cast; ring))

theorem Spec.IsMedian.perm {data data' : List ℚ} {m : ℚ} (h : IsMedian data m) (p : data.Perm data') : IsMedian data' m := by
  rcases h with ⟨k, h1, h2⟩ | ⟨k, x, y, h1, h2, h3, h4⟩
  · exact Or.inl ⟨k, p.length_eq ▸ h1, h2.perm p⟩
  · exact Or.inr ⟨k, x, y, p.length_eq ▸ h1, h2.perm p, h3.perm p, h4⟩

/-- **C64**, what holds: `mad()` is right for any history, unless references are read late.
Missing: late reads, see `C64_violated`. -/
theorem C64_mad_partial (data : List ℚ) (o : EvalOrder) (d d' : Distribution ℚ) (r : ℚ) (hne : data ≠ [])
    (hd : Reachable data d) (ho : o ≠ .late) (h : Mad o d r d') :
    ∃ m, IsMedian data m ∧ IsMedian (data.map fun e => |e - m|) r := by
  obtain ⟨m, d'', h1, h2⟩ := h
  refine ⟨m, C64_median_partial data o d d' m hne hd ho h1, ?_⟩
  have hp := (Quantile.inv h1 hd.inv.1).1.perm
  have hne' : (d'.values.map fun e => |e - m|) ≠ [] := by
    intro e
    rw [List.map_eq_nil_iff] at e
    rw [e] at hp
    exact hne hp.nil_eq.symm
  exact (C64_median_partial _ o _ d'' r hne' .init ho h2).perm (hp.map _)

theorem Spec.IsMedian.map_sub {data : List ℚ} {m c : ℚ} (h : IsMedian (data.map fun x => x - c) m) : IsMedian data (m + c) := by
  have hn : ∀ n x, IsNth (data.map fun x => x - c) n x → IsNth data n (x + c) := by
    intro n x hx
    unfold IsNth at hx ⊢
    rw [List.countP_map, List.countP_map] at hx
    have e1 : data.countP ((fun y => decide (y < x)) ∘ fun x => x - c) = data.countP (fun y => decide (y < x + c)) := by
      refine List.countP_congr fun y _ => ?_
      simp only [Function.comp, decide_eq_true_eq, sub_lt_iff_lt_add]
    have e2 : data.countP ((fun y => decide (y ≤ x)) ∘ fun x => x - c) = data.countP (fun y => decide (y ≤ x + c)) := by
      refine List.countP_congr fun y _ => ?_
      simp only [Function.comp, decide_eq_true_eq, sub_le_iff_le_add]
    rwa [e1, e2] at hx
  rcases h with ⟨k, h1, h2⟩ | ⟨k, x, y, h1, h2, h3, h4⟩
  · exact Or.inl ⟨k, by simpa using h1, hn _ _ h2⟩
  · exact Or.inr ⟨k, x + c, y + c, by simpa using h1, hn _ _ h2, hn _ _ h3, by rw [h4]; ring⟩

/-- **C64** for integers: if the median is an integer, then `mad()` is right; otherwise, it is too small by 1/2 exactly.
Missing: late reads, see `C64_violated`. -/
theorem C64_mad_integers_partial (data : List ℚ) (o : EvalOrder) (d d' : Distribution ℚ) (r : ℚ) (hne : data ≠ [])
    (hint : ∀ e ∈ data, ∃ z : Int, e = z) (hd : Reachable data d) (ho : o ≠ .late) (h : MadIntegers o d r d') :
    ∃ m, IsMedian data m ∧ ((∃ z : Int, m = z) → IsMedian (data.map fun e => |e - m|) r) ∧
      (¬ (∃ z : Int, m = z) → IsMedian (data.map fun e => |e - m|) (r + 1 / 2)) := by
  obtain ⟨m, d'', h1, h2⟩ := h
  have hm := C64_median_partial data o d d' m hne hd ho h1
  have hp := (Quantile.inv h1 hd.inv.1).1.perm
  have hne' : (d'.values.map fun e => (⌊|e - m|⌋ : ℚ)) ≠ [] := by
    intro e
    rw [List.map_eq_nil_iff] at e
    rw [e] at hp
    exact hne hp.nil_eq.symm
  have h3 := (C64_median_partial _ o _ d'' r hne' .init ho h2).perm (hp.map _)
  refine ⟨m, hm, ?_, ?_⟩
  · rintro ⟨z, rfl⟩
    have e : (data.map fun e => (⌊|e - (z : ℚ)|⌋ : ℚ)) = data.map fun e => |e - (z : ℚ)| := by
      refine List.map_congr_left fun e he => ?_
      obtain ⟨w, rfl⟩ := hint e he
      rw [← Int.cast_sub, ← Int.cast_abs, Int.floor_intCast]
    rwa [e] at h3
  · intro hz
    -- the median is half an odd number
    have hnth : ∀ n x, IsNth data n x → ∃ z : Int, x = z := by
      intro n x hx
      have hx' : x ∈ data := by
        by_contra hx'
        have : data.countP (· ≤ x) = data.countP (· < x) := by
          refine List.countP_congr fun y hy => ?_
          have : y ≠ x := fun e => hx' (e ▸ hy)
          simp only [decide_eq_true_eq]
          exact ⟨fun h => lt_of_le_of_ne h this, le_of_lt⟩
        have h4 := hx.1
        have h5 := hx.2
        omega
      exact hint x hx'
    have hhalf : ∃ z : Int, m = z + 1 / 2 := by
      rcases hm with ⟨k, h1, h2⟩ | ⟨k, x, y, h1, h2, h3, h4⟩
      · exact absurd (hnth _ _ h2) hz
      · obtain ⟨a, rfl⟩ := hnth _ _ h2
        obtain ⟨b, rfl⟩ := hnth _ _ h3
        rcases Int.even_or_odd' (a + b) with ⟨c, hc | hc⟩
        · exact absurd ⟨c, by rw [h4, ← Int.cast_add, hc]; push_cast; ring⟩ hz
        · exact ⟨c, by rw [h4, ← Int.cast_add, hc]; push_cast; ring⟩
    obtain ⟨z, rfl⟩ := hhalf
    refine Spec.IsMedian.map_sub (c := 1 / 2) ?_
    rw [List.map_map]
    have e : (data.map fun e => (⌊|e - ((z : ℚ) + 1 / 2)|⌋ : ℚ)) =
        data.map ((fun x => x - 1 / 2) ∘ fun e => |e - ((z : ℚ) + 1 / 2)|) := by
      refine List.map_congr_left fun e he => ?_
      obtain ⟨w, rfl⟩ := hint e he
      simp only [Function.comp]
      rcases lt_or_ge w (z + 1) with hw | hw
      · have hw' : (w : ℚ) ≤ z := by exact_mod_cast Int.lt_add_one_iff.1 hw
        rw [abs_of_nonpos (by linarith)]
        rw [show -((w : ℚ) - (z + 1 / 2)) = ((z - w : Int) : ℚ) + 1 / 2 by push_cast; ring]
        rw [show ⌊((z - w : Int) : ℚ) + 1 / 2⌋ = z - w by
          rw [Int.floor_eq_iff]; constructor <;> linarith]
        ring
      · have hw' : (z : ℚ) + 1 ≤ w := by exact_mod_cast hw
        rw [abs_of_nonneg (by linarith)]
        rw [show (w : ℚ) - (z + 1 / 2) = ((w - z - 1 : Int) : ℚ) + 1 / 2 by push_cast; ring]
        rw [show ⌊((w - z - 1 : Int) : ℚ) + 1 / 2⌋ = w - z - 1 by
          rw [Int.floor_eq_iff]; constructor <;> linarith]
        ring
    rw [← e]
    exact h3

/-- The median of {0, 1} is 1/2, and `mad()` is 0. -/
example : MadIntegers .lr (ofValues [0, 1]) 0 (ofValues [0, 1]) := by
  have hf : (0 : Nat) = ⌊(1 / 2 : ℚ)⌋₊ := by rw [eq_comm, Nat.floor_eq_zero]; norm_num
  have h1 := Quantile.lr (d := ofValues [0, 1]) (d1 := ofValues [0, 1]) (d' := ofValues [0, 1]) (q := 1 / 2) (n := 1 / 2)
    (x := 0) (y := 1) (by simp [ofValues]) hf (by norm_num) (.sorted (by simp [ofValues]) rfl)
    (.sorted (by simp [ofValues]) rfl)
  have h2 := Quantile.lr (d := ofValues [0, 0]) (d1 := ofValues [0, 0]) (d' := ofValues [0, 0]) (q := 1 / 2) (n := 1 / 2)
    (x := 0) (y := 0) (by simp [ofValues]) hf (by norm_num) (.sorted (by simp [ofValues]) rfl)
    (.sorted (by simp [ofValues]) rfl)
  refine ⟨1 / 2, ofValues [0, 0], by norm_num at h1 ⊢; exact h1, ?_⟩
  have e : ((ofValues [0, 1] : Distribution ℚ).values.map fun e => ((⌊|e - 1 / 2|⌋ : Int) : ℚ)) = [0, 0] := by
    have e1 : ⌊|(0 : ℚ) - 1 / 2|⌋ = 0 := by rw [Int.floor_eq_iff, abs_of_neg] <;> norm_num
    have e2 : ⌊|(1 : ℚ) - 1 / 2|⌋ = 0 := by rw [Int.floor_eq_iff, abs_of_pos] <;> norm_num
    simp only [ofValues, List.map_cons, List.map_nil, e1, e2]
    rfl
  rw [e]
  norm_num at h2 ⊢
  exact h2

/-- **C64**: the median is unique, i.e. the specification determines the result. -/
theorem C64_median_unique (data : List ℚ) (m m' : ℚ) (h : IsMedian data m) (h' : IsMedian data m') : m = m' := by
  rcases h with ⟨k, h1, h2⟩ | ⟨k, x, y, h1, h2, h3, h4⟩ <;>
    rcases h' with ⟨k', h1', h2'⟩ | ⟨k', x', y', h1', h2', h3', h4'⟩
  · obtain rfl : k = k' := by omega
    exact h2.unique h2'
  · omega
  · omega
  · obtain rfl : k = k' := by omega
    rw [h4, h4', h2.unique h2', h3.unique h3']

/-- **C64** is violated if references are read late: the partial sorting of the second call moves the first value. -/
theorem C64_violated : ¬ C64_Statement := by
  intro h
  have e : ofValues ([4, 3, 2, 1] : List ℚ) = ⟨[4, 3, 2, 1], false, 10⟩ := by
    simp only [ofValues, Distribution.mk.injEq, true_and]
    refine ⟨?_, by norm_num⟩
    simp only [decide_eq_false_iff_not, List.pairwise_cons]
    intro h
    have := h.1 3 (by simp)
    norm_num at this
  have h0 : Reachable [4, 3, 2, 1] ⟨[4, 3, 2, 1], false, 10⟩ := e ▸ Reachable.init
  have hf : (1 : Nat) = ⌊(3 / 2 : ℚ)⌋₊ := by rw [eq_comm, Nat.floor_eq_iff (by norm_num)]; norm_num
  have n1 : Nth ⟨[4, 3, 2, 1], false, 10⟩ 1 2 (⟨[1, 2, 3, 4], false, 10⟩ : Distribution ℚ) := by
    refine Nth.unsorted rfl (by simp) ⟨by decide, ?_⟩ rfl
    intro i j x y hi hj hx hy
    have hj' : j < 4 := (List.getElem?_eq_some_iff.1 hy).1
    interval_cases i <;> interval_cases j <;> simp at hx hy <;> subst hx <;> subst hy <;> norm_num
  have n2 : Nth ⟨[1, 2, 3, 4], false, 10⟩ 2 3 (⟨[2, 1, 3, 4], false, 10⟩ : Distribution ℚ) := by
    refine Nth.unsorted rfl (by simp) ⟨by decide, ?_⟩ rfl
    intro i j x y hi hj hx hy
    have hj' : j < 4 := (List.getElem?_eq_some_iff.1 hy).1
    interval_cases i <;> interval_cases j <;> simp at hx hy <;> subst hx <;> subst hy <;> norm_num
  have q := Quantile.late (q := 1 / 2) (n := 3 / 2) (x := 1) (y := 3) (by norm_num) hf (by norm_num) n1 n2 rfl rfl
  have m := (h _ .late _ _ _ (by simp) h0).1 q
  have hr : ([1, 2, 3, 4] : List ℚ).Perm [4, 3, 2, 1] := by decide
  have hs : ([1, 2, 3, 4] : List ℚ).Pairwise (· ≤ ·) := by simp; norm_num
  have m' : IsMedian [4, 3, 2, 1] (5 / 2) := Or.inr ⟨1, 2, 3, rfl, (isNth_of_sorted hs rfl).perm hr,
    (isNth_of_sorted hs rfl).perm hr, by norm_num⟩
  have := C64_median_unique _ _ _ m m'
  norm_num at this

/-- Non-vacuity of C64: the median of {0, 1}. -/
example : Median .lr (ofValues [0, 1]) (1 / 2) (ofValues [0, 1]) := by
  have hf : (0 : Nat) = ⌊(1 / 2 : ℚ)⌋₊ := by rw [eq_comm, Nat.floor_eq_zero]; norm_num
  have := Quantile.lr (d := ofValues [0, 1]) (d1 := ofValues [0, 1]) (d' := ofValues [0, 1]) (q := 1 / 2) (n := 1 / 2)
    (x := 0) (y := 1) (by simp [ofValues]) hf (by norm_num) (.sorted (by simp [ofValues]) rfl)
    (.sorted (by simp [ofValues]) rfl)
  norm_num at this ⊢
  exact this

/-- **C32** (full statement, violated by the code) for integers: the mean is the real quotient. -/
def C32_Statement : Prop :=
  ∀ data : List Int, data ≠ [] → IsI64 data.sum →
    meanInt (ofValues data) = .ok ((data.sum : ℚ) / (data.length : ℚ))

/-- **C64**: `median()` and `mad()` are defined as soon as there is a value, whatever the history. -/
theorem C64_defined (data : List ℚ) (o : EvalOrder) (d : Distribution ℚ) (hne : data ≠ []) (hd : Reachable data d) :
    (∃ r d', Median o d r d') ∧ ∃ r d', Mad o d r d' := by
  obtain ⟨m, d', h⟩ := C31_defined data o d (1 / 2) hne (by norm_num) (by norm_num) hd
  refine ⟨⟨m, d', h⟩, ?_⟩
  have hp := (hd.query (.quantile h)).inv.1.perm.length_eq
  have hl := List.length_pos_iff.2 hne
  obtain ⟨r, d'', h'⟩ := C31_defined _ o _ (1 / 2) (List.length_pos_iff.1 (by simp; omega)) (by norm_num) (by norm_num)
    (.init (data := d'.values.map fun e => |e - m|))
  exact ⟨r, d', m, d'', h, h'⟩

/-- **C32** for exact floating point values, whatever the history of queries.
Missing: integers, see below; rounding, see C87. -/
theorem C32_floating_partial (data : List ℚ) (d : Distribution ℚ) (hd : Reachable data d) :
    mean d = data.sum / (data.length : ℚ) := by
  rw [mean, hd.inv.2, hd.inv.1.perm.length_eq]

theorem meanInt_eq (data : List Int) (hne : data ≠ []) (hs : IsI64 data.sum) :
    meanInt (ofValues data) = .ok ((u64 data.sum / (data.length : Int) : Int) : ℚ) := by
  have e : (ofValues data).sum = data.sum := by rw [ofValues, List.sum_eq_foldl]
  rw [meanInt, e, if_pos ⟨hs.1, hs.2, hne⟩]
  rfl

/-- **C32**, integers with a non-negative sum: the mean is rounded down. -/
theorem C32_nonneg_floor (data : List Int) (hne : data ≠ []) (hs : IsI64 data.sum) (h : 0 ≤ data.sum) :
    meanInt (ofValues data) = .ok ((⌊(data.sum : ℚ) / (data.length : ℚ)⌋ : Int) : ℚ) := by
  rw [meanInt_eq data hne hs]
  have e : u64 data.sum = data.sum := by
    unfold IsI64 at hs; unfold u64; omega
  rw [e]
  congr 2
  have := Rat.floor_intCast_div_natCast data.sum data.length
  rw [this]

/-- **C32**, what remains true for integers: the mean is right if the sum is a non-negative multiple of the size.
Missing: any other integers, see `C32_nonneg_floor` and `C32_negative_wrong`. -/
theorem C32_divisible_partial (data : List Int) (m : Int) (hne : data ≠ []) (hs : IsI64 data.sum) (hm : 0 ≤ m)
    (h : data.sum = m * data.length) :
    meanInt (ofValues data) = .ok ((data.sum : ℚ) / (data.length : ℚ)) := by
  have hl := List.length_pos_iff.2 hne
  rw [C32_nonneg_floor data hne hs (by rw [h]; positivity)]
  congr 1
  have e : (data.sum : ℚ) / (data.length : ℚ) = (m : ℚ) := by
    rw [h]; push_cast; field_simp
  rw [e, Int.floor_intCast]

/-- **C32**: for integers with a negative sum, the mean is always wrong: it is non-negative. -/
theorem C32_negative_wrong (data : List Int) (hne : data ≠ []) (hs : IsI64 data.sum) (h : data.sum < 0) :
    ∃ x, meanInt (ofValues data) = .ok x ∧ 0 ≤ x ∧ (data.sum : ℚ) / (data.length : ℚ) < 0 := by
  have hl := List.length_pos_iff.2 hne
  refine ⟨_, meanInt_eq data hne hs, ?_, ?_⟩
  · have : 0 ≤ u64 data.sum / (data.length : Int) := Int.ediv_nonneg (by unfold u64; omega) (by omega)
    exact_mod_cast this
  · apply div_neg_of_neg_of_pos
    · exact_mod_cast h
    · exact_mod_cast hl

/-- **C32** is violated: the mean of {1, 2} is 1. -/
theorem C32_violated : ¬ C32_Statement := by
  intro h
  have h1 := h [1, 2] (by simp) (by simp [IsI64])
  rw [meanInt_eq _ (by simp) (by simp [IsI64])] at h1
  injection h1 with h2
  norm_num [u64] at h2

/-- Non-vacuity of C32. -/
example : ([1, 2, 6] : List Int) ≠ [] ∧ IsI64 ([1, 2, 6] : List Int).sum ∧
    ([1, 2, 6] : List Int).sum = 3 * ([1, 2, 6] : List Int).length ∧ ([1, -2] : List Int).sum < 0 :=
  ⟨by simp, by simp [IsI64], by simp, by simp⟩

/-- **C33** (full statement, violated by the code): the counts of the bins, the last of which is closed. -/
def C33_Statement : Prop :=
  ∀ (data bins : List ℚ) (d d' : Distribution ℚ) (r : Res (List Nat)), Reachable data d → 2 ≤ bins.length →
    bins.Pairwise (· ≤ ·) → Histogram d bins r d' → r = .ok (binCounts data bins)

/-- **C33**: `sort()` and `histogram()` are defined, whatever the history, and the values are sorted afterwards. -/
theorem C33_defined (data bins : List ℚ) (d : Distribution ℚ) (hd : Reachable data d) :
    ∃ d', Sorts d d' ∧ (∃ r, Histogram d bins r d') ∧ d'.values.Perm data ∧ d'.values.Pairwise (· ≤ ·) := by
  have key : ∃ d', Sorts d d' := by
    cases hs : d.sorted with
    | true => exact ⟨d, .sorted hs⟩
    | false =>
      refine ⟨_, .unsorted hs (v := d.values.mergeSort) ⟨List.mergeSort_perm _ _, ?_⟩⟩
      have := List.pairwise_mergeSort (le := fun a b : ℚ => decide (a ≤ b)) (by simpa using fun a b c => le_trans)
        (by simpa using fun a b => le_total a b) d.values
      simpa using this
  obtain ⟨d', h⟩ := key
  have hi := h.inv hd.inv.1
  exact ⟨d', h, ⟨_, h, rfl⟩, hi.1.perm, hi.1.sorted hi.2.1⟩

theorem halfOpenCounts_perm {α : Type} [LinearOrder α] {data data' : List α} (p : data.Perm data') (bins : List α) :
    halfOpenCounts data bins = halfOpenCounts data' bins := by
  induction bins with
  | nil => rfl
  | cons a bins ih =>
    cases bins with
    | nil => rfl
    | cons b bins => rw [halfOpenCounts, halfOpenCounts, ih, countIn, countIn, p.countP_eq]

/-- Exact result of `histogram`. -/
theorem histogramSorted_eq {α : Type} [LinearOrder α] (values : List α) (hs : values.Pairwise (· ≤ ·)) (a : α)
    (bins : List α) (hb : (a :: bins).Pairwise (· ≤ ·)) :
    histogramSorted values (a :: bins) =
      if (a :: bins).getLast (by simp) ∈ values then .error .ub
      else .ok (halfOpenCounts values (a :: bins)) := by
  have hcount : ∀ bins : List α, ∀ a, (halfOpenCounts values (a :: bins)).length = bins.length := by
    intro bins
    induction bins with
    | nil => intro a; rfl
    | cons b bins ih => intro a; rw [halfOpenCounts, List.length_cons, ih, List.length_cons]
  rw [histogramSorted, skipBelow_eq a hs]
  have := binLoop_eq values hs bins a [] hb
  rw [List.length_nil, List.nil_append] at this
  rw [this]
  simp only [List.nil_append, Nat.zero_add]
  rw [Container.ok_bind]
  simp only
  generalize hlast : (a :: bins).getLast (by simp) = last
  have hsf : (values.filter (last ≤ ·)).Pairwise (· ≤ ·) := hs.sublist List.filter_sublist
  have hmem : ∀ x, x ∈ values.filter (last ≤ ·) ↔ x ∈ values ∧ last ≤ x := by
    intro x; simp
  cases hf : values.filter (last ≤ ·) with
  | nil =>
    have : last ∉ values := fun h => by
      have := (hmem last).2 ⟨h, le_rfl⟩
      rw [hf] at this
      simp at this
    rw [if_neg this]
  | cons x l =>
    rw [hf] at hsf hmem
    have hx := (hmem x).1 (by simp)
    by_cases hxl : x = last
    · subst hxl
      rw [if_pos hx.1]
      simp only [if_true]
      rw [readAt_ub (Or.inr (by rw [hcount]))]
      rfl
    · have : last ∉ values := fun h => by
        rcases List.mem_cons.1 ((hmem last).2 ⟨h, le_rfl⟩) with h1 | h1
        · exact hxl h1.symm
        · exact hxl (le_antisymm ((List.pairwise_cons.1 hsf).1 last h1) hx.2)
      rw [if_neg this]
      simp only [if_neg hxl]

/-- **C33**, exact result: whatever the history, the counts are those of half-open bins, but if some value equals the
upper bound, in which case the program writes outside of the counts. -/
theorem C33_exact (data : List ℚ) (a : ℚ) (bins : List ℚ) (d d' : Distribution ℚ) (r : Res (List Nat))
    (hd : Reachable data d) (hb : (a :: bins).Pairwise (· ≤ ·)) (h : Histogram d (a :: bins) r d') :
    r = if (a :: bins).getLast (by simp) ∈ data then .error .ub else .ok (halfOpenCounts data (a :: bins)) := by
  obtain ⟨h1, rfl⟩ := h
  obtain ⟨hi, hs, _⟩ := h1.inv hd.inv.1
  rw [histogramSorted_eq _ (hi.sorted hs) a bins hb, halfOpenCounts_perm hi.perm]
  simp only [hi.perm.mem_iff]

theorem binCounts_eq {data : List ℚ} : ∀ {bins : List ℚ} (hne : bins ≠ []), bins.getLast hne ∉ data →
    binCounts data bins = halfOpenCounts data bins := by
  intro bins
  induction bins with
  | nil => intro hne _; rfl
  | cons a bins ih =>
    intro hne hl
    cases bins with
    | nil => rfl
    | cons b bins =>
      cases bins with
      | nil =>
        simp only [binCounts, halfOpenCounts, countIn, countInClosed, List.cons.injEq, and_true]
        apply List.countP_congr
        intro x hx
        have : x ≠ b := fun e => hl (by simpa [← e] using hx)
        simp only [decide_eq_true_eq]
        constructor
        · rintro ⟨h1, h2⟩; exact ⟨h1, lt_of_le_of_ne h2 this⟩
        · rintro ⟨h1, h2⟩; exact ⟨h1, h2.le⟩
      | cons c bins =>
        rw [binCounts, halfOpenCounts, ih (by simp) (by simpa using hl)]
        simp

/-- **C33**, what remains true: the counts are right if no value equals the upper bound of the last bin.
Missing: values which equal this bound, see `C33_upper_bound`. -/
theorem C33_counts_partial (data bins : List ℚ) (d d' : Distribution ℚ) (r : Res (List Nat)) (hne : bins ≠ [])
    (hd : Reachable data d) (hb : bins.Pairwise (· ≤ ·)) (h : Histogram d bins r d')
    (hlast : bins.getLast hne ∉ data) : r = .ok (binCounts data bins) := by
  cases bins with
  | nil => exact absurd rfl hne
  | cons a bins =>
    rw [C33_exact data a bins d d' r hd hb h, if_neg hlast, binCounts_eq (by simp) hlast]

/-- **C33**: a value which equals the last bound always makes the program write outside of the counts. -/
theorem C33_upper_bound (data bins : List ℚ) (d d' : Distribution ℚ) (r : Res (List Nat)) (hne : bins ≠ [])
    (hd : Reachable data d) (hb : bins.Pairwise (· ≤ ·)) (h : Histogram d bins r d')
    (hlast : bins.getLast hne ∈ data) : r = .error .ub := by
  cases bins with
  | nil => exact absurd rfl hne
  | cons a bins => rw [C33_exact data a bins d d' r hd hb h, if_pos hlast]

theorem countIn_self (data : List ℚ) (a : ℚ) : countIn data a a = 0 := by
  rw [countIn, List.countP_eq_zero]
  intro x _
  rw [decide_eq_true_eq]
  exact fun h => not_lt.2 h.1 h.2

theorem countIn_add (data : List ℚ) {a b c : ℚ} (hab : a ≤ b) (hbc : b ≤ c) :
    countIn data a b + countIn data b c = countIn data a c := by
  simp only [countIn]
  induction data with
  | nil => rfl
  | cons x l ihl =>
    simp only [List.countP_cons]
    have : (if decide (a ≤ x ∧ x < b) = true then 1 else 0) + (if decide (b ≤ x ∧ x < c) = true then 1 else 0)
        = if decide (a ≤ x ∧ x < c) = true then 1 else 0 := by
      simp only [decide_eq_true_eq]
      by_cases h1 : x < b
      · have h2 : ¬ b ≤ x := not_le.2 h1
        by_cases h3 : a ≤ x <;> simp [h1, h2, h3, h1.trans_le hbc]
      · have h2 : b ≤ x := not_lt.1 h1
        by_cases h3 : x < c <;> simp [h1, h2, h3, hab.trans h2]
    omega

/-- **C33**: for the values which are binned, the counts add up to the number of values within the bounds. -/
theorem C33_total (data : List ℚ) (a : ℚ) (bins : List ℚ) (hb : (a :: bins).Pairwise (· ≤ ·)) :
    (halfOpenCounts data (a :: bins)).sum = countIn data a ((a :: bins).getLast (by simp)) := by
  induction bins generalizing a with
  | nil => exact (countIn_self data a).symm
  | cons b bins ih =>
    rw [List.pairwise_cons] at hb
    rw [halfOpenCounts, List.sum_cons, ih b hb.2, List.getLast_cons (List.cons_ne_nil b bins)]
    refine countIn_add data (hb.1 b (by simp)) ?_
    rcases List.mem_cons.1 (List.getLast_mem (l := b :: bins) (by simp)) with h | h
    · exact h.ge
    · exact (List.pairwise_cons.1 hb.2).1 _ h

/-- **C33** is violated: `{1}.histogram({0, 1})`. -/
theorem C33_violated : ¬ C33_Statement := by
  intro h
  have hs : Histogram (ofValues [1]) ([0, 1] : List ℚ) (.error .ub) (ofValues [1]) := by
    refine ⟨.sorted (by simp [ofValues]), ?_⟩
    change _ = histogramSorted [1] [0, 1]
    rw [histogramSorted_eq _ (by simp) _ _ (by simp), if_pos (by simp)]
  have := h [1] [0, 1] _ _ _ .init (by simp) (by simp) hs
  cases this

/-- Non-vacuity of C33. -/
example : Histogram (ofValues [1, 2, 3]) ([0, 2, 4] : List ℚ) (.ok [1, 2]) (ofValues [1, 2, 3]) ∧
    ([0, 2, 4] : List ℚ).Pairwise (· ≤ ·) ∧ (4 : ℚ) ∉ ([1, 2, 3] : List ℚ) := by
  have hb : ([0, 2, 4] : List ℚ).Pairwise (· ≤ ·) := by simp; norm_num
  refine ⟨⟨.sorted (by simp [ofValues]; norm_num), ?_⟩, hb, by norm_num⟩
  change _ = histogramSorted [1, 2, 3] [0, 2, 4]
  rw [histogramSorted_eq _ (by simp; norm_num) _ _ hb, if_neg (by norm_num)]
  norm_num [halfOpenCounts, countIn, List.countP_cons]

end Litl
