import Verif.Model.Sampling
import Verif.Lemmas.Core
import Verif.Lemmas.BoxIter
import Mathlib.Data.Int.ModEq

/-!
# C19, C20: samplings
-/

namespace Litl

/-- The number of samples for a positive step. -/
theorem Sampling.size_of_pos {s : Sampling} (h : 0 < s.step) :
    s.size = .ok ((s.back - s.front + s.step) / s.step).toNat := by
  rw [Sampling.size, if_neg h.ne']
  congr 1
  by_cases hn : 0 ≤ s.back - s.front + s.step
  · rw [Int.tdiv_eq_ediv_of_nonneg hn, max_eq_right (Int.ediv_nonneg hn h.le)]
  · have h1 : (s.back - s.front + s.step).tdiv s.step ≤ 0 := by
      have : (s.back - s.front + s.step).tdiv s.step = -((-(s.back - s.front + s.step)).tdiv s.step) := by
        rw [Int.neg_tdiv, neg_neg]
      rw [this]
      have := Int.tdiv_nonneg (a := -(s.back - s.front + s.step)) (b := s.step) (by omega) h.le
      omega
    have h2 : (s.back - s.front + s.step) / s.step < 0 := Int.ediv_neg_of_neg_of_pos (by omega) h
    rw [max_eq_left h1]
    omega

/-- The trace of the loop of a sampling. -/
theorem Sampling.loop (s : Sampling) (n : Nat) : ∀ k : Nat, k ≤ n →
    LoopUntil (s.advance 1) (fun it => it.index = (s.iter n).index) (s.iter k)
      ((List.range' k (n - k)).map fun i : Nat => s.iter i) := by
  intro k hk
  obtain ⟨m, rfl⟩ := Nat.exists_eq_add_of_le hk
  rw [Nat.add_sub_cancel_left]
  induction m generalizing k with
  | zero => exact LoopUntil.done rfl
  | succ m ih =>
    rw [List.range'_succ, List.map_cons]
    refine LoopUntil.next (by simp [Sampling.iter]; omega) ?_
    have h1 : s.advance 1 (s.iter k) = s.iter ((k + 1 : Nat) : Int) := by
      simp [Sampling.advance, Sampling.iter]; ring
    have := ih (k + 1) (by omega)
    rw [show k + 1 + m = k + (m + 1) by omega] at this
    rwa [h1]

/-- What a sampling yields, for a positive step. -/
theorem Sampling.yields {s : Sampling} (h : 0 < s.step) :
    s.Yields ((List.range ((s.back - s.front + s.step) / s.step).toNat).map fun k : Nat => s.front + s.step * k) := by
  refine ⟨_, Sampling.size_of_pos h, _, Sampling.loop s _ 0 (Nat.zero_le _), ?_⟩
  rw [List.map_map, Nat.sub_zero, List.range_eq_range']
  rfl

theorem Sampling.lt_size_iff {s : Sampling} (h : 0 < s.step) (k : Nat) :
    k < ((s.back - s.front + s.step) / s.step).toNat ↔ s.front + s.step * k ≤ s.back := by
  have h1 : (k < ((s.back - s.front + s.step) / s.step).toNat) ↔ ((k : Int) + 1 ≤ (s.back - s.front + s.step) / s.step) := by
    omega
  rw [h1, Int.le_ediv_iff_mul_le h]
  constructor <;> intro h <;> nlinarith

/-- **C19**: for a positive step, iterating over a sampling terminates and yields, in increasing order,
exactly the values of `[front, back]` which are congruent to `front` modulo `step`; `size()` is their number. -/
theorem C19_axis_sampling (s : Sampling) (h : 0 < s.step) :
    ∃ l, s.Yields l ∧ l.Pairwise (· < ·) ∧ s.size = .ok l.length ∧
      ∀ x, x ∈ l ↔ s.front ≤ x ∧ x ≤ s.back ∧ x ≡ s.front [ZMOD s.step] := by
  refine ⟨_, Sampling.yields h, ?_, by simp [Sampling.size_of_pos h], ?_⟩
  · rw [List.pairwise_map]
    refine List.pairwise_lt_range.imp ?_
    intro a b hab
    have : s.step * (a + 1 : Int) ≤ s.step * b := mul_le_mul_of_nonneg_left (by omega) h.le
    nlinarith
  · intro x
    simp only [List.mem_map, List.mem_range, Sampling.lt_size_iff h]
    constructor
    · rintro ⟨k, hk, rfl⟩
      refine ⟨?_, hk, ?_⟩
      · have : 0 ≤ s.step * k := by positivity
        omega
      · exact (Int.modEq_iff_dvd.2 ⟨-k, by ring⟩)
    · rintro ⟨h1, h2, h3⟩
      obtain ⟨k, hk⟩ := Int.modEq_iff_dvd.1 h3.symm
      have hk0 : 0 ≤ k := by
        by_contra hneg
        have : s.step * k < 0 := mul_neg_of_pos_of_neg h (by omega)
        omega
      refine ⟨k.toNat, ?_, ?_⟩ <;> rw [Int.toNat_of_nonneg hk0] <;> omega

/-- **C19**: the k-th value is `front + k * step`. -/
theorem C19_kth_value (s : Sampling) (h : 0 < s.step) (l : List Int) (hl : s.Yields l) (k : Nat)
    (hk : k < l.length) : l[k] = s.front + k * s.step := by
  obtain ⟨n, h1, its, h2, rfl⟩ := hl
  obtain ⟨n', h1', its', h2', e⟩ := Sampling.yields h
  rw [h1] at h1'
  cases h1'
  have := h2.unique h2'
  subst this
  simp only [← e, List.getElem_map, List.getElem_range]
  ring

/-- **C19**: iteration is deterministic. -/
theorem C19_unique (s : Sampling) (l l' : List Int) (h : s.Yields l) (h' : s.Yields l') : l = l' := by
  obtain ⟨n, h1, its, h2, rfl⟩ := h
  obtain ⟨n', h1', its', h2', rfl⟩ := h'
  rw [h1] at h1'
  cases h1'
  rw [h2.unique h2']

/-- **C19**: nothing is yielded when `back < front`. -/
theorem C19_empty (s : Sampling) (h : 0 < s.step) (hb : s.back < s.front) : s.Yields [] := by
  obtain ⟨l, h1, -, -, h2⟩ := C19_axis_sampling s h
  cases l with
  | nil => exact h1
  | cons x l => have := (h2 x).1 (by simp); omega

/-- **C19** for floating point samplings, in exact arithmetic: the values are those of the form
`front + k * step` in `[front, back]`, in increasing order. -/
theorem C19_real_sampling (s : RatSampling) (h : 0 < s.step) :
    s.values.Pairwise (· < ·) ∧ s.values.length = s.size ∧
      ∀ x, x ∈ s.values ↔ x ≤ s.back ∧ ∃ k : Nat, x = s.front + k * s.step := by
  refine ⟨?_, by simp [RatSampling.values], ?_⟩
  · rw [RatSampling.values, List.pairwise_map]
    refine List.pairwise_lt_range.imp ?_
    intro a b hab
    have : (a : ℚ) < b := by exact_mod_cast hab
    nlinarith
  · intro x
    have key : ∀ k : Nat, k < s.size ↔ s.front + s.step * k ≤ s.back := by
      intro k
      have h1 : k < s.size ↔ ((k : Int) + 1 ≤ ⌊max 0 ((s.back - s.front + s.step) / s.step)⌋) := by
        unfold RatSampling.size; omega
      rw [h1, Int.le_floor]
      push_cast
      rw [le_max_iff]
      have h2 : ¬ ((k : ℚ) + 1 ≤ 0) := by
        have : (0 : ℚ) ≤ k := by positivity
        intro h; linarith
      simp only [h2, false_or]
      rw [le_div_iff₀ h]
      constructor <;> intro h <;> linarith
    simp only [RatSampling.values, List.mem_map, List.mem_range, key]
    constructor
    · rintro ⟨k, hk, rfl⟩
      exact ⟨hk, k, by ring⟩
    · rintro ⟨h1, k, rfl⟩
      exact ⟨k, by linarith, by ring⟩

/-- **C19**: the shape of a sampling of positions gives the number of samples along each axis. -/
theorem C19_position_sampling_shape (f b st : Position) (hfb : f.length = b.length) (hl : st.length = f.length)
    (hs : ∀ x ∈ st, 0 < x) :
    ∃ n, PositionSampling.shape f b st = .ok n ∧ n.length = f.length ∧
      ∀ i (hi : i < f.length), ∃ m : Nat, n[i]? = some (m : Int) ∧
        (⟨f[i], b[i]'(hfb ▸ hi), st[i]'(hl.symm ▸ hi)⟩ : Sampling).size = .ok m := by
  induction f generalizing b st with
  | nil =>
    cases b with
    | nil => exact ⟨[], by
      cases st with
      | nil => rfl
      | cons => simp at hl, rfl, by simp⟩
    | cons => simp at hfb
  | cons x f ih =>
    cases b with
    | nil => simp at hfb
    | cons y b =>
      cases st with
      | nil => simp at hl
      | cons z st =>
        obtain ⟨n, h1, h2, h3⟩ := ih b st (by simpa using hfb) (by simpa using hl) fun w hw => hs w (by simp [hw])
        have hz := Sampling.size_of_pos (s := ⟨x, y, z⟩) (hs z (by simp))
        refine ⟨(((y - x + z) / z).toNat : Int) :: n, ?_, by simp [h2], ?_⟩
        · simp only [PositionSampling.shape] at h1
          simp only [PositionSampling.shape, List.zip_cons_cons, List.zipWith_cons_cons, List.mapM_cons, h1, hz]
          rfl
        · intro i hi
          cases i with
          | zero => exact ⟨_, by simp, hz⟩
          | succ i => simpa using h3 i (by simpa using hi)

/-- **C19**: the size of the default-constructed sampling overflows: an intermediate value of the
computation is not an `Index`. -/
theorem C19_default_overflows : ¬ IsI64 (Sampling.default.back - Sampling.default.front + Sampling.default.step) := by
  simp [IsI64, Sampling.default, Position.indexInf]

/-- Non-vacuity of C19: 3, 5, 7 for (3, 8, 2); the last bound may be excluded. -/
example : (0 : Int) < (⟨3, 8, 2⟩ : Sampling).step ∧ (⟨3, 8, 2⟩ : Sampling).Yields [3, 5, 7] ∧
    (⟨3, 8, 2⟩ : Sampling).size = .ok 3 :=
  ⟨by decide, Sampling.yields (by decide), rfl⟩

/-- **C20** (full statement, violated by the code): iterating over data samples visits the elements at
`stride * (front + k * step)`, for each sample `k` of the sampling. -/
def C20_Statement : Prop :=
  ∀ (d : DataSamples) (n : Nat), 0 < d.sampling.step → 0 < d.stride → d.count = .ok n →
    d.Visits ((List.range n).map fun k : Nat => d.data + d.stride * (d.sampling.front + k * d.sampling.step))

theorem DataSamples.loop (d : DataSamples) (h : d.sampling.step * d.stride ≠ 0) (n : Nat) : ∀ k : Nat, k ≤ n →
    LoopTrace (d.advance 1) (d.iter n) (d.iter k)
      ((List.range' k (n - k)).map fun k : Nat => d.data + d.stride * (d.sampling.front + k * d.sampling.step)) := by
  intro k hk
  obtain ⟨m, rfl⟩ := Nat.exists_eq_add_of_le hk
  rw [Nat.add_sub_cancel_left]
  induction m generalizing k with
  | zero => exact LoopTrace.done
  | succ m ih =>
    rw [List.range'_succ, List.map_cons]
    have h0 : d.iter k = d.data + d.stride * (d.sampling.front + k * d.sampling.step) := by
      simp only [DataSamples.iter]; ring
    rw [← h0]
    refine LoopTrace.next ?_ ?_
    · simp only [DataSamples.iter, ne_eq, add_right_inj]
      intro e
      have := mul_left_cancel₀ h e
      push_cast at this
      omega
    · have h1 : d.advance 1 (d.iter k) = d.iter ((k + 1 : Nat) : Int) := by
        simp [DataSamples.advance, DataSamples.iter]; ring
      have := ih (k + 1) (by omega)
      rw [show k + 1 + m = k + (m + 1) by omega] at this
      rwa [h1]

/-- **C20**: what iteration actually visits: as many elements as the *data size*, not the sample count. -/
theorem C20_visits_size_elements (d : DataSamples) (h : d.sampling.step * d.stride ≠ 0) (l : List Int) :
    d.Visits l ↔ l = (List.range d.size).map fun k : Nat => d.data + d.stride * (d.sampling.front + k * d.sampling.step) := by
  have := DataSamples.loop d h d.size 0 (Nat.zero_le _)
  rw [Nat.sub_zero, ← List.range_eq_range'] at this
  constructor
  · intro h'; exact h'.unique this
  · rintro rfl; exact this

/-- **C20**, what remains true: iteration visits the samples if the sampling has as many samples as the
data has elements (and, by `C20_visits_size_elements`, only then). Missing: all strict subsamplings. -/
theorem C20_full_sampling_partial (d : DataSamples) (n : Nat) (h : d.sampling.step * d.stride ≠ 0)
    (_hn : d.count = .ok n) :
    d.Visits ((List.range n).map fun k : Nat => d.data + d.stride * (d.sampling.front + k * d.sampling.step)) ↔
      n = d.size := by
  rw [C20_visits_size_elements d h]
  constructor
  · intro e; simpa using congrArg List.length e
  · rintro rfl; rfl

/-- **C20**: with the default sampling, all elements of the line are visited, in order.
Missing: the other samplings, see `C20_visits_size_elements`. -/
theorem C20_default_sampling_partial (size : Nat) (hsize : (size : Int) < 2 ^ 63) (stride : Int)
    (hst : stride ≠ 0) :
    (DataSamples.mk' 0 size Sampling.default stride).count = .ok size ∧
    (DataSamples.mk' 0 size Sampling.default stride).Visits ((List.range size).map fun k : Nat => stride * k) := by
  constructor
  · have hb : i64 (u64 ((size : Int) - 1)) = size - 1 := by
      unfold i64 u64; omega
    have : (DataSamples.mk' 0 size Sampling.default stride).sampling = ⟨0, size - 1, 1⟩ := by
      simp [DataSamples.mk', Sampling.default, hb]
    rw [DataSamples.count, this, Sampling.size_of_pos Int.one_pos]
    simp
  · have := (C20_visits_size_elements (DataSamples.mk' 0 size Sampling.default stride)
      (by simpa [DataSamples.mk', Sampling.default] using hst) _).2 rfl
    simpa [DataSamples.mk', Sampling.default] using this

/-- **C20**: a strict subsampling (step at least 2) of at least two elements makes the loop leave the data:
a visited offset is beyond the last element of the line. -/
theorem C20_out_of_bounds (d : DataSamples) (l : List Int) (hs : 2 ≤ d.sampling.step) (hst : 0 < d.stride)
    (hf : 0 ≤ d.sampling.front) (hn : 2 ≤ d.size) (hl : d.Visits l) :
    ∃ x ∈ l, d.data + d.stride * (d.size - 1) < x := by
  rw [C20_visits_size_elements d (mul_pos (by omega) hst).ne'] at hl
  refine ⟨d.data + d.stride * (d.sampling.front + ((d.size - 1 : Nat) : Int) * d.sampling.step), ?_, ?_⟩
  · rw [hl, List.mem_map]; exact ⟨d.size - 1, by simp; omega, rfl⟩
  · have h1 : (1 : Int) ≤ ((d.size - 1 : Nat) : Int) := by omega
    have h2 : ((d.size - 1 : Nat) : Int) = d.size - 1 := by omega
    have : (d.size : Int) - 1 < d.sampling.front + ((d.size - 1 : Nat) : Int) * d.sampling.step := by
      rw [h2] at h1 ⊢; nlinarith
    have := mul_lt_mul_of_pos_left this hst
    linarith

/-- **C20** is violated, e.g. by the even elements of a line of 4 elements. -/
theorem C20_violated : ¬ C20_Statement := by
  intro h
  have h1 := h ⟨0, 4, ⟨0, 3, 2⟩, 1⟩ 2 (by decide) (by decide) rfl
  have := (C20_full_sampling_partial ⟨0, 4, ⟨0, 3, 2⟩, 1⟩ 2 (by decide) rfl).1 h1
  simp at this

/-- Non-vacuity of C20. -/
example : (⟨0, 4, ⟨0, 3, 2⟩, 1⟩ : DataSamples).Visits [0, 2, 4, 6] ∧
    (⟨10, 3, ⟨0, 2, 1⟩, 5⟩ : DataSamples).Visits [10, 15, 20] :=
  ⟨(C20_visits_size_elements _ (by decide) _).2 rfl, (C20_visits_size_elements _ (by decide) _).2 rfl⟩

end Litl
