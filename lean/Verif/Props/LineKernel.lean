import Verif.Lemmas.LineKernel
import Mathlib.Tactic.NormNum

/-!
# 1D correlation and segments (C46, C47, C48, C58)
-/

namespace Litl

open Spec

namespace LineKernel

variable {α : Type}

/-- The memory of a line of `n` values `x`, from raw offset `a`, with given stride. -/
def Line (read : Int → Res α) (a stride : Int) (n : Nat) (x : Int → α) : Prop :=
  ∀ i : Int, 0 ≤ i → i < n → read (a + i * stride) = .ok (x i)

/-- There is nothing else than the line in the memory. -/
def Only (read : Int → Res α) (a stride : Int) (n : Nat) : Prop :=
  ∀ p : Int, (∀ i : Int, 0 ≤ i → i < n → p ≠ a + i * stride) → read p = .error .ub

/-- The values at the samples of index `front`, `front + step`... up to `back` are written in order at the successive output
offsets, and nothing else is. -/
def Writes (inn out : DataSamples) (value : Int → α) (data res : List α) : Prop :=
  res.length = data.length ∧
  (∀ m : Nat, inn.sampling.front + inn.sampling.step * m ≤ inn.sampling.back →
    res[(out.data + (out.sampling.front + out.sampling.step * m) * out.stride).toNat]? =
      some (value (inn.sampling.front + inn.sampling.step * m))) ∧
  (∀ p : Nat, (∀ m : Nat, inn.sampling.front + inn.sampling.step * m ≤ inn.sampling.back →
    p ≠ out.data + (out.sampling.front + out.sampling.step * m) * out.stride) → res[p]? = data[p]?)

/-- The correlation is written at the samples. -/
def Returns [Semiring α] (k : LineKernel α) (inn out : DataSamples) (x : Int → α) (data res : List α) : Prop :=
  Writes inn out (lineCorrelation k.values k.origin inn.size x) data res

/-- The output offsets are inside the output memory. -/
def Fits (inn out : DataSamples) (data : List α) : Prop :=
  ∀ m : Nat, inn.sampling.front + inn.sampling.step * m ≤ inn.sampling.back →
    0 ≤ out.data + (out.sampling.front + out.sampling.step * m) * out.stride ∧
    out.data + (out.sampling.front + out.sampling.step * m) * out.stride < data.length

/-- The correlation terminates without undefined behaviour and is right. -/
def Correct [Semiring α] (k : LineKernel α) (read : Int → Res α) (inn out : DataSamples) (x : Int → α) (data : List α) :
    Prop :=
  ∃ res, Returns k inn out x data res ∧ ∀ r, Correlates k read inn out data r ↔ r = .ok res

/-- The same in an arithmetic where the order of the operations may matter: it is that of the kernel. -/
def Sequential [Zero α] [Add α] [Mul α] (k : LineKernel α) (read : Int → Res α) (inn out : DataSamples) (x : Int → α)
    (data : List α) : Prop :=
  ∃ res, Writes inn out (lineFold k.values k.origin inn.size x) data res ∧
    ∀ r, Correlates k read inn out data r ↔ r = .ok res

/-- The correlation has undefined behaviour. -/
def Undefined [Zero α] [Add α] [Mul α] (k : LineKernel α) (read : Int → Res α) (inn out : DataSamples) (data : List α) : Prop :=
  ∀ r, Correlates k read inn out data r ↔ r = .error .ub

/-- All the indices of a line: the samples of a `DataSamples` with the default sampling
(LitlRaster/LitlRaster/Sampling.h:238-242). -/
def full (a : Int) (n : Nat) (stride : Int) : DataSamples := DataSamples.mk' a n ⟨0, Position.indexInf, 1⟩ stride

theorem full_eq {a : Int} {n : Nat} {stride : Int} (h0 : 1 ≤ n) (h1 : n < 2 ^ 63) :
    full a n stride = ⟨a, n, ⟨0, n - 1, 1⟩, stride⟩ := by
  unfold full DataSamples.mk'
  rw [if_pos rfl, u64_id (by omega) (by omega), i64_id (by omega) (by omega)]

theorem count_exists {inn : DataSamples} (h : 1 ≤ inn.sampling.step) :
    ∃ count : Nat, ∀ m : Nat, m < count ↔ sample inn m ≤ inn.sampling.back := by
  classical
  have hA : ∃ m, ¬ sample inn m ≤ inn.sampling.back :=
    ⟨(inn.sampling.back - inn.sampling.front + 1).toNat, by
      have := sample_ge h (inn.sampling.back - inn.sampling.front + 1).toNat
      omega⟩
  refine ⟨Nat.find hA, fun m => ⟨fun hm => by simpa using Nat.find_min hA hm, fun hm => ?_⟩⟩
  by_contra hlt
  have h1 := sample_mono h (show Nat.find hA ≤ m by omega)
  have h2 := Nat.find_spec hA
  omega

theorem iter_eq (out : DataSamples) (m : Int) :
    out.iter m = out.data + (out.sampling.front + out.sampling.step * m) * out.stride := by
  unfold DataSamples.iter
  ring

section Order

variable [Zero α] [Add α] [Mul α]

theorem sequential_of_safe {k : LineKernel α} {read : Int → Res α} {inn out : DataSamples} {x : Int → α} {data : List α}
    (h : Setup k read inn x) (hs : Safe k inn) (hfit : Fits inn out data) (hne : out.sampling.step * out.stride ≠ 0) :
    Sequential k read inn out x data := by
  obtain ⟨count, hc⟩ := count_exists h.step.1
  have hout : ∀ m, m < count → 0 ≤ out.iter m ∧ out.iter m < data.length := by
    intro m hm
    rw [iter_eq]
    exact hfit m ((hc m).1 hm)
  have hw := written_spec (val := fun j => lineFold k.values k.origin inn.size x (sample inn j)) hne hout
  refine ⟨_, ⟨length_written _ _ _ _, ?_, ?_⟩, correlates_ok h hs hc hout⟩
  · intro m hm
    rw [← iter_eq]
    exact hw.1 m ((hc m).2 hm)
  · intro p hp
    refine hw.2 p fun m hm he => ?_
    rw [iter_eq] at he
    exact hp m ((hc m).1 hm) he.symm

theorem sequential_full {k : LineKernel α} {read : Int → Res α} {n : Nat} {a s b t : Int} {x : Int → α} {data : List α}
    (ho : 0 ≤ k.origin ∧ k.origin < k.values.length) (hk : k.values.length < 2 ^ 63)
    (hK : k.values.length - 1 - k.origin + max k.origin 1 ≤ n) (hn : n < 2 ^ 63)
    (hline : Line read a s n x) (ht : t ≠ 0) (hfit : Fits (full a n s) (full b n t) data) :
    Sequential k read (full a n s) (full b n t) x data := by
  rw [full_eq (by omega) hn, full_eq (by omega) hn] at *
  have hsm : ∀ m : Nat, sample ⟨a, n, ⟨0, n - 1, 1⟩, s⟩ m = m := by intro m; simp [sample]
  refine sequential_of_safe ⟨ho, by omega, hn, le_rfl, ⟨le_rfl, by norm_num⟩, by simp, by norm_num, hline⟩
    ⟨?_, ?_, ?_, ?_⟩ hfit (by simpa using ht)
  · intro m hm
    rw [hsm] at *
    unfold fwd
    simp only
    omega
  · unfold fwd
    simp only
    omega
  · intro m
    rw [hsm]
    unfold fwd
    simp only
    omega
  · intro m
    rw [hsm]
    unfold fwd
    simp only
    omega

end Order

variable [Semiring α]

theorem sequential_iff {k : LineKernel α} {read : Int → Res α} {inn out : DataSamples} {x : Int → α} {data : List α} :
    Sequential k read inn out x data ↔ Correct k read inn out x data := by
  unfold Sequential Correct Returns
  rw [show lineFold k.values k.origin inn.size x = lineCorrelation k.values k.origin inn.size x from
    funext fun i => lineFold_eq _ _ _ _ i]

theorem correct_of_safe {k : LineKernel α} {read : Int → Res α} {inn out : DataSamples} {x : Int → α} {data : List α}
    (h : Setup k read inn x) (hs : Safe k inn) (hfit : Fits inn out data) (hne : out.sampling.step * out.stride ≠ 0) :
    Correct k read inn out x data :=
  sequential_iff.1 (sequential_of_safe h hs hfit hne)

theorem correct_full {k : LineKernel α} {read : Int → Res α} {n : Nat} {a s b t : Int} {x : Int → α} {data : List α}
    (ho : 0 ≤ k.origin ∧ k.origin < k.values.length) (hk : k.values.length < 2 ^ 63)
    (hK : k.values.length - 1 - k.origin + max k.origin 1 ≤ n) (hn : n < 2 ^ 63)
    (hline : Line read a s n x) (ht : t ≠ 0) (hfit : Fits (full a n s) (full b n t) data) :
    Correct k read (full a n s) (full b n t) x data :=
  sequential_iff.1 (sequential_full ho hk hK hn hline ht hfit)

/-! ## C46 -/

/-- C46: the correlation of a line by a kernel which is not longer, whatever the strides of the input and output. The memory
of the input is defined at the elements of the line only, and the correlation does not fail: it does not read elsewhere. -/
theorem C46_correlation {k : LineKernel α} {read : Int → Res α} {n : Nat} {a s b t : Int} {x : Int → α} {data : List α}
    (ho : 0 ≤ k.origin ∧ k.origin < k.values.length) (hK : k.values.length ≤ n) (hn : n < 2 ^ 63)
    (hline : Line read a s n x) (ht : t ≠ 0) (hfit : Fits (full a n s) (full b n t) data) :
    Correct k read (full a n s) (full b n t) x data :=
  correct_full ho (by omega) (by omega) hn hline ht hfit

/-- The value of the correlation in the bulk is the full sum. -/
theorem C46_bulk {kernel : List α} {origin : Int} {n : Nat} {x : Int → α} {i : Int} (h0 : origin ≤ i)
    (h1 : i + kernel.length - origin ≤ n) :
    lineCorrelation kernel origin n x i =
      ((List.range kernel.length).map fun j : Nat => kernel.getD j 0 * x (i + j - origin)).sum := by
  rw [lineCorrelation_eq (a := 0) (m := kernel.length)]
  · simp
  · omega
  · intro j hj; omega
  · intro j hj hj'; omega
  · intro t ht; omega

/-- An input line of stride 2 in memory, and nothing else. -/
def exampleRead (p : Int) : Res Int :=
  if 10 ≤ p ∧ p ≤ 16 ∧ p % 2 = 0 then .ok (p / 2) else .error .ub

theorem exampleRead_line : Line exampleRead 10 2 4 (fun i => i + 5) := by
  intro i h0 h1
  unfold exampleRead
  rw [if_pos (by omega)]
  congr 1
  simp only
  omega

theorem exampleRead_only : Only exampleRead 10 2 4 := by
  intro p hp
  unfold exampleRead
  rw [if_neg]
  intro h
  exact hp ((p - 10) / 2) (by omega) (by omega) (by omega)

theorem exampleFits : Fits (full 10 4 2) (full 1 4 3) (List.replicate 11 (0 : Int)) := by
  rw [full_eq (by omega) (by norm_num), full_eq (by omega) (by norm_num)]
  intro m hm
  simp only [List.length_replicate] at *
  omega

/-- Kernel `[1, 0, -1]` with origin 1 over the line `[5, 6, 7, 8]` gives `[-6, -2, -2, 7]`. -/
example : Correct ⟨[1, 0, -1], 1⟩ exampleRead (full 10 4 2) (full 1 4 3) (fun i => i + 5) (List.replicate 11 (0 : Int)) :=
  C46_correlation (by decide) (by decide) (by norm_num) exampleRead_line (by decide) exampleFits

example : (List.range 4).map (fun i : Nat => lineCorrelation [1, 0, -1] 1 4 (fun i => i + 5) i) =
    [-6, -2, -2, (7 : Int)] := by decide

example : lineCorrelation [1, 0, -1] 1 4 (fun i => i + 5) 2 = (-2 : Int) := by
  rw [C46_bulk (by decide) (by decide)]
  decide

/-! ## C47 -/

/-- C47: the same for any line. -/
def C47_Statement : Prop :=
  ∀ (k : LineKernel Int) (read : Int → Res Int) (n : Nat) (a s b t : Int) (x : Int → Int) (data : List Int),
    0 ≤ k.origin → k.origin < k.values.length → 1 ≤ n → n < 2 ^ 63 → k.values.length < 2 ^ 63 →
    Line read a s n x → t ≠ 0 → Fits (full a n s) (full b n t) data →
    Correct k read (full a n s) (full b n t) x data

/-- The exact domain of validity: a line of `n` elements which is alone in memory is correctly correlated if there are at least
as many elements in it as elements of the kernel at each side of the origin, and at least one more than the elements after
the origin.  Otherwise the correlation reads outside of the line.
Missing: the other lines, for which C47 is false. -/
theorem C47_exact_partial {k : LineKernel α} {read : Int → Res α} {n : Nat} {a s b t : Int} {x : Int → α} {data : List α}
    (ho : 0 ≤ k.origin ∧ k.origin < k.values.length) (hk : k.values.length < 2 ^ 63) (hn0 : 1 ≤ n) (hn : n < 2 ^ 63)
    (hline : Line read a s n x) (hs : s ≠ 0) (honly : Only read a s n) (ht : t ≠ 0)
    (hfit : Fits (full a n s) (full b n t) data) :
    (k.values.length - 1 - k.origin + max k.origin 1 ≤ n → Correct k read (full a n s) (full b n t) x data) ∧
    (n < k.values.length - 1 - k.origin + max k.origin 1 → Undefined k read (full a n s) (full b n t) data) := by
  refine ⟨fun hl => correct_full ho hk hl hn hline ht hfit, ?_⟩
  rw [full_eq (by omega) hn, full_eq (by omega) hn] at *
  have hset : Setup k read ⟨a, n, ⟨0, n - 1, 1⟩, s⟩ x :=
    ⟨ho, by omega, hn, le_rfl, ⟨le_rfl, by norm_num⟩, by simp, by norm_num, hline⟩
  intro hl r
  refine correlates_short hset ?_ ?_ rfl rfl ?_ hl r
  · intro p
    by_cases h : ∃ i : Int, 0 ≤ i ∧ i < n ∧ p = a + i * s
    · obtain ⟨i, h0, h1, rfl⟩ := h
      exact .inl ⟨_, hline i h0 h1⟩
    · exact .inr (honly p fun i h0 h1 he => h ⟨i, h0, h1, he⟩)
  · refine honly _ fun i h0 h1 he => ?_
    simp only at he
    have : s * ((n : Int) - i) = 0 := by linarith
    rcases mul_eq_zero.1 this with h | h <;> omega
  · intro m hm
    rw [iter_eq]
    exact hfit m (by simp only at hm ⊢; omega)

example : Undefined ⟨[1, 2, 3, 4, 5, 6], 2⟩ exampleRead (full 10 4 2) (full 1 4 3) (List.replicate 11 (0 : Int)) :=
  (C47_exact_partial (by decide) (by norm_num) (by decide) (by norm_num) exampleRead_line (by decide) exampleRead_only
    (by decide) exampleFits).2 (by decide)

/-- A kernel which is longer than the line is not always an issue. -/
example : Correct ⟨[1, 2, 3, 4, 5], 2⟩ exampleRead (full 10 4 2) (full 1 4 3) (fun i => i + 5)
    (List.replicate 11 (0 : Int)) :=
  (C47_exact_partial (by decide) (by norm_num) (by decide) (by norm_num) exampleRead_line (by decide) exampleRead_only
    (by decide) exampleFits).1 (by decide)

/-- C47 is false: a kernel of length 3 over a line of length 1. -/
theorem C47_violated : ¬ C47_Statement := by
  intro h
  have hl : Line (fun p => if p = 0 then .ok 7 else .error .ub) 0 1 1 (fun _ => (7 : Int)) := by
    intro i h0 h1
    simp only
    rw [if_pos (by omega)]
  have ho : Only (fun p => if p = 0 then .ok (7 : Int) else .error .ub) 0 1 1 := by
    intro p hp
    simp only
    rw [if_neg]
    intro h
    exact hp 0 (by omega) (by omega) (by omega)
  have hf : Fits (full 0 1 1) (full 0 1 1) [(0 : Int)] := by
    rw [full_eq (by omega) (by norm_num)]
    intro m hm
    simp at *
    omega
  obtain ⟨res, _, h1⟩ := h ⟨[1, 1, 1], 1⟩ _ 1 0 1 0 1 _ _ (by decide) (by decide) (by decide) (by norm_num) (by norm_num) hl
    (by decide) hf
  have h2 := (C47_exact_partial (k := ⟨[1, 1, 1], 1⟩) (by decide) (by norm_num) (by decide) (by norm_num) hl (by decide) ho
    (by decide) hf).2 (by decide)
  have h3 := (h1 _).1 ((h2 _).2 rfl)
  cases h3

/-- The origin is not checked: if it is farther than the end of the kernel, the behaviour is undefined for any line. -/
theorem C47_origin_after {k : LineKernel α} {read : Int → Res α} {inn out : DataSamples} {data : List α}
    (h : inn.sampling.front + k.values.length < k.origin) : Undefined k read inn out data := by
  have hb : backwardBody k read inn out (start k inn out data) = .error .ub := by
    unfold backwardBody innerProduct
    rw [if_pos (by simp only [start]; omega)]
    rfl
  have hc : (start k inn out data).i < k.origin := by simp only [start]; omega
  intro r
  constructor
  · rintro ⟨r1, h1, h2⟩
    cases h1 with
    | done h => exact absurd hc h
    | fail _ h =>
      rw [hb] at h
      cases h
      exact h2
    | next _ h _ => rw [hb] at h; cases h
  · rintro rfl
    exact ⟨_, .fail hc hb, rfl⟩

example : Undefined ⟨[1, 2, 3], 4⟩ exampleRead (full 10 4 2) (full 1 4 3) (List.replicate 11 (0 : Int)) :=
  C47_origin_after (by rw [full_eq (by omega) (by norm_num)]; decide)

/-! ## C48 -/

/-- C48: the values of the correlation at the samples are written, and nothing else. -/
def C48_Statement : Prop :=
  ∀ (k : LineKernel Int) (read : Int → Res Int) (inn out : DataSamples) (x : Int → Int) (data : List Int),
    0 ≤ k.origin → k.origin < k.values.length → k.values.length ≤ inn.size → inn.size < 2 ^ 62 →
    0 ≤ inn.sampling.front → inn.sampling.front ≤ inn.sampling.back → inn.sampling.back < inn.size →
    1 ≤ inn.sampling.step → inn.sampling.step < 2 ^ 62 →
    Line read inn.data inn.stride inn.size x → out.sampling.step * out.stride ≠ 0 → Fits inn out data →
    Correct k read inn out x data

/-- The exact domain of validity, when there is nothing else than the line in the input memory, and when the first element
after the samples in the output is outside of the memory: the first sample which is skipped, of index `next`, shall not be
processed by the first two loops, the bound of the second loop shall not wrap around, and no sample shall be between the
bound of the second loop and that of the samples for which the kernel is cropped.
Missing: the other cases, for which C48 is false. -/
theorem C48_exact_partial {k : LineKernel α} {read : Int → Res α} {inn out : DataSamples} {x : Int → α} {data : List α}
    (ho : 0 ≤ k.origin ∧ k.origin < k.values.length) (hK : k.values.length ≤ inn.size) (hn : inn.size < 2 ^ 62)
    (hf : 0 ≤ inn.sampling.front) (hfb : inn.sampling.front ≤ inn.sampling.back) (hb : inn.sampling.back < inn.size)
    (hst : 1 ≤ inn.sampling.step ∧ inn.sampling.step < 2 ^ 62)
    (hline : Line read inn.data inn.stride inn.size x) (hs : inn.stride ≠ 0) (honly : Only read inn.data inn.stride inn.size)
    (hne : out.sampling.step * out.stride ≠ 0) (hfit : Fits inn out data)
    {count : Nat} (hc : ∀ m : Nat, m < count ↔ inn.sampling.front + inn.sampling.step * m ≤ inn.sampling.back)
    (hend : out.data + (out.sampling.front + out.sampling.step * count) * out.stride < 0 ∨
      data.length ≤ out.data + (out.sampling.front + out.sampling.step * count) * out.stride)
    {next bound : Int} (hnext : next = inn.sampling.front + inn.sampling.step * count)
    (hbound : bound = inn.size - (k.values.length - 1 - k.origin) - inn.sampling.step)
    (P : Prop) (hP : P ↔ k.origin ≤ next ∧ 0 ≤ bound ∧ bound < next ∧
      ∀ m : Nat, m < count → k.origin ≤ inn.sampling.front + inn.sampling.step * m →
        bound < inn.sampling.front + inn.sampling.step * m →
        inn.size - (k.values.length - 1 - k.origin) - 1 ≤ inn.sampling.front + inn.sampling.step * m) :
    (P → Correct k read inn out x data) ∧ (¬ P → Undefined k read inn out data) := by
  have hset : Setup k read inn x := ⟨ho, by omega, by omega, hf, ⟨hst.1, by omega⟩, hb, by omega, hline⟩
  have hout : ∀ m, m < count → 0 ≤ out.iter m ∧ out.iter m < data.length := by
    intro m hm
    rw [iter_eq]
    exact hfit m ((hc m).1 hm)
  have hend' : out.iter count < 0 ∨ (data.length : Int) ≤ out.iter count := by rw [iter_eq]; exact hend
  have hc' : ∀ m : Nat, m < count ↔ sample inn m ≤ inn.sampling.back := hc
  have hnext' : next = sample inn count := hnext
  have hbound' : bound = inn.size - k.fwd - inn.sampling.step := hbound
  have hread : ∀ p, (∃ x, read p = .ok x) ∨ read p = .error .ub := by
    intro p
    by_cases h : ∃ i : Int, 0 ≤ i ∧ i < inn.size ∧ p = inn.data + i * inn.stride
    · obtain ⟨i, h0, h1, rfl⟩ := h
      exact .inl ⟨_, hline i h0 h1⟩
    · exact .inr (honly p fun i h0 h1 he => h ⟨i, h0, h1, he⟩)
  have hendr : read (inn.data + inn.stride * inn.size) = .error .ub := by
    refine honly _ fun i h0 h1 he => ?_
    have : inn.stride * ((inn.size : Int) - i) = 0 := by linarith
    rcases mul_eq_zero.1 this with h | h <;> omega
  -- What holds if the first loop does not go too far
  have hback : k.origin ≤ next → ∀ m, sample inn m < k.origin →
      sample inn m + k.fwd < inn.size ∧ sample inn m ≤ inn.sampling.back := by
    intro h1 m hm
    refine ⟨by unfold fwd; omega, (hc' m).1 ?_⟩
    by_contra hlt
    have := sample_mono hst.1 (show count ≤ m by omega)
    omega
  have hcen : bound < next → ∀ m, k.origin ≤ sample inn m → sample inn m ≤ inn.size - k.fwd - inn.sampling.step →
      sample inn m ≤ inn.sampling.back := by
    intro h1 m _ hm
    refine (hc' m).1 ?_
    by_contra hlt
    have := sample_mono hst.1 (show count ≤ m by omega)
    omega
  constructor
  · intro hp
    obtain ⟨h1, h2, h3, h4⟩ := hP.1 hp
    refine correct_of_safe hset ⟨hback h1, by omega, hcen h3, ?_⟩ hfit hne
    intro m h5 h6 h7
    exact h4 m ((hc' m).2 h7) h5 (by rw [hbound']; exact h6)
  · intro hp r
    rw [hP] at hp
    by_cases h1 : k.origin ≤ next
    · by_cases h2 : 0 ≤ bound
      · by_cases h3 : bound < next
        · have h4 : ∃ m, m < count ∧ k.origin ≤ sample inn m ∧ bound < sample inn m ∧
              sample inn m < inn.size - k.fwd - 1 := by
            by_contra hno
            refine hp ⟨h1, h2, h3, fun m hm h5 h6 => ?_⟩
            by_contra h7
            exact hno ⟨m, hm, h5, h6, by unfold fwd sample; omega⟩
          obtain ⟨m, hm, h5, h6, h7⟩ := h4
          exact correlates_overread hset hread (hback h1) (by omega) (hcen h3) hc' hout h5 (by omega) ((hc' m).1 hm) h7 r
        · exact correlates_overrun hset (hback h1) (by omega) hc' hout (by omega) hend' r
      · exact correlates_wrap hset hread hendr hK hc' hout (by omega) (by omega) (by omega) hend' r
    · exact correlates_backrun hset hread hK hout (by omega) hend' r

/-- A sufficient condition: the step is at most 2, and the samples go as far as the last elements of the line for which the
kernel is not cropped.
Missing: the other samples, for which C48 is false. -/
theorem C48_partial {k : LineKernel α} {read : Int → Res α} {inn out : DataSamples} {x : Int → α} {data : List α}
    (ho : 0 ≤ k.origin ∧ k.origin < k.values.length) (hK : k.values.length < inn.size) (hn : inn.size < 2 ^ 63)
    (hf : 0 ≤ inn.sampling.front) (hb : inn.sampling.back < inn.size) (hfb : inn.sampling.front ≤ inn.sampling.back)
    (hst : inn.sampling.step = 1 ∨ inn.sampling.step = 2)
    (hob : k.origin ≤ inn.sampling.back + 1)
    (hback : inn.size - (k.values.length - 1 - k.origin) - inn.sampling.step ≤ inn.sampling.back)
    (hline : Line read inn.data inn.stride inn.size x)
    (hne : out.sampling.step * out.stride ≠ 0) (hfit : Fits inn out data) :
    Correct k read inn out x data := by
  refine correct_of_safe ⟨ho, by omega, by omega, hf, ⟨by omega, by omega⟩, hb, by omega, hline⟩
    ⟨?_, ?_, ?_, ?_⟩ hfit hne
  · intro m hm
    unfold fwd
    omega
  · unfold fwd
    omega
  · intro m _ hm
    unfold fwd at hm
    omega
  · intro m _ hm _
    unfold fwd at *
    omega

/-- Every other element of the line of 4 elements, from the second one. -/
example : Correct ⟨[1, 0, -1], 1⟩ exampleRead ⟨10, 4, ⟨1, 3, 2⟩, 2⟩ ⟨0, 4, ⟨0, 3, 1⟩, 1⟩ (fun i => i + 5)
    [0, (0 : Int)] := by
  refine C48_partial (by decide) (by decide) (by norm_num) (by decide) (by decide) (by decide) (by decide) (by decide)
    (by decide) exampleRead_line (by decide) ?_
  intro m hm
  simp only [List.length_cons, List.length_nil] at *
  omega

theorem exampleCount : ∀ m : Nat, m < 1 ↔ (0 : Int) + 1 * m ≤ 0 := by intro m; omega

/-- The first element only: the others are written too. -/
theorem exampleOverrun : Undefined ⟨[1], 0⟩ exampleRead ⟨10, 4, ⟨0, 0, 1⟩, 2⟩ ⟨0, 1, ⟨0, 0, 1⟩, 1⟩ [(0 : Int)] := by
  have hfit : Fits ⟨10, 4, ⟨0, 0, 1⟩, 2⟩ ⟨0, 1, ⟨0, 0, 1⟩, 1⟩ [(0 : Int)] := by
    intro m hm
    simp only [List.length_cons, List.length_nil] at *
    omega
  refine (C48_exact_partial (by decide) (by decide) (by norm_num) (by decide) (by decide) (by decide) (by norm_num)
    exampleRead_line (by decide) exampleRead_only (by decide) hfit (count := 1) exampleCount (by simp) rfl rfl _
    Iff.rfl).2 ?_
  rintro ⟨_, _, h, _⟩
  revert h
  decide

/-- C48 is false: the back of the samples is ignored by the first two loops. -/
theorem C48_violated : ¬ C48_Statement := by
  intro h
  have hfit : Fits ⟨10, 4, ⟨0, 0, 1⟩, 2⟩ ⟨0, 1, ⟨0, 0, 1⟩, 1⟩ [(0 : Int)] := by
    intro m hm
    simp only [List.length_cons, List.length_nil] at *
    omega
  obtain ⟨res, _, h1⟩ := h ⟨[1], 0⟩ _ ⟨10, 4, ⟨0, 0, 1⟩, 2⟩ ⟨0, 1, ⟨0, 0, 1⟩, 1⟩ _ [0] (by decide) (by decide) (by decide)
    (by norm_num) (by decide) (by decide) (by decide) (by decide) (by norm_num) exampleRead_line (by decide) hfit
  have h3 := (h1 _).1 ((exampleOverrun _).2 rfl)
  cases h3

/-- C48 is false for all the samples of a line, too: with step 3, the kernel is read out of bounds. -/
theorem C48_step_violated : ¬ ∀ (k : LineKernel Int) (read : Int → Res Int) (inn out : DataSamples) (x : Int → Int)
    (data : List Int), 0 ≤ k.origin → k.origin < k.values.length → k.values.length ≤ inn.size → inn.size < 2 ^ 62 →
    0 ≤ inn.sampling.front → inn.sampling.front < inn.size → inn.sampling.back = inn.size - 1 →
    1 ≤ inn.sampling.step → inn.sampling.step < 2 ^ 62 →
    Line read inn.data inn.stride inn.size x → out.sampling.step * out.stride ≠ 0 → Fits inn out data →
    Correct k read inn out x data := by
  intro h
  have hfit : Fits ⟨10, 4, ⟨2, 3, 3⟩, 2⟩ ⟨0, 1, ⟨0, 0, 1⟩, 1⟩ [(0 : Int)] := by
    intro m hm
    simp only [List.length_cons, List.length_nil] at *
    omega
  have hc : ∀ m : Nat, m < 1 ↔ (2 : Int) + 3 * m ≤ 3 := by intro m; omega
  obtain ⟨res, _, h1⟩ := h ⟨[1, 2], 1⟩ _ ⟨10, 4, ⟨2, 3, 3⟩, 2⟩ ⟨0, 1, ⟨0, 0, 1⟩, 1⟩ _ [0] (by decide) (by decide) (by decide)
    (by norm_num) (by decide) (by decide) (by decide) (by decide) (by norm_num) exampleRead_line (by decide) hfit
  have h2 := (C48_exact_partial (k := ⟨[1, 2], 1⟩) (by decide) (by decide) (by norm_num) (by decide) (by decide)
    (by decide) (by norm_num) exampleRead_line (by decide) exampleRead_only (by decide) hfit (count := 1) hc (by simp) rfl rfl
    _ Iff.rfl).2 (by
      rintro ⟨_, _, _, h⟩
      have := h 0 (by decide) (by decide) (by decide)
      revert this
      decide)
  have h3 := (h1 _).1 ((h2 _).2 rfl)
  cases h3

end LineKernel

/-! ## C58 -/

namespace Segment

/-- C58: the segment from a front and a size, and the window of a line kernel. -/
def C58_Statement : Prop :=
  (∀ (front : Int) (size : Nat), IsI64 front → 1 ≤ size → IsI64 (front + size - 1) →
    fromSize front size = ⟨front, front + size - 1⟩ ∧ (fromSize front size).size = size) ∧
  (∀ k : LineKernel Int, 0 ≤ k.origin → k.origin < k.values.length → k.values.length < 2 ^ 63 →
    k.window = ⟨-k.origin, k.values.length - 1 - k.origin⟩)

theorem i64_of {x y : Int} (h : IsI64 y) (hxy : x % 2 ^ 64 = y % 2 ^ 64) : i64 x = y := by
  unfold i64
  unfold IsI64 at h
  rw [hxy]
  split_ifs <;> omega

/-- What `fromSize` gives: the back is `size - front - 1`. -/
theorem C58_exact {front : Int} {size : Nat} (h : IsI64 (size - front - 1)) :
    fromSize front size = ⟨front, size - front - 1⟩ := by
  unfold fromSize
  congr 1
  refine i64_of h ?_
  unfold u64
  omega

/-- It is right if, and only if, the front is zero.
Missing: other fronts, for which C58 is false. -/
theorem C58_partial {front : Int} {size : Nat} (h : IsI64 (size - front - 1)) (hs : size < 2 ^ 63) (hf : IsI64 front) :
    (fromSize front size = ⟨front, front + size - 1⟩ ↔ front = 0) ∧
    ((fromSize front size).size = size ↔ front = 0 ∨ front = -2 ^ 63) := by
  rw [C58_exact h]
  unfold IsI64 at *
  constructor
  · simp only [mk.injEq, true_and]
    omega
  · unfold Segment.size u64
    simp only
    omega

/-- The window of a line kernel, which is right if, and only if, the origin is zero. -/
theorem C58_window {k : LineKernel Int} (h0 : 0 ≤ k.origin) (h1 : k.origin < k.values.length)
    (h2 : k.values.length < 2 ^ 62) :
    k.window = ⟨-k.origin, k.values.length - 1 + k.origin⟩ ∧
    (k.window = ⟨-k.origin, k.values.length - 1 - k.origin⟩ ↔ k.origin = 0) := by
  have e : k.window = ⟨-k.origin, k.values.length - 1 + k.origin⟩ := by
    unfold LineKernel.window
    rw [C58_exact (by unfold IsI64; omega)]
    congr 1
    omega
  refine ⟨e, ?_⟩
  rw [e]
  simp only [mk.injEq, true_and]
  omega

example : fromSize 2 10 = ⟨2, 7⟩ := C58_exact (by unfold IsI64; norm_num)
example : (⟨[1, 2, 3], 1⟩ : LineKernel Int).window = ⟨-1, 3⟩ := (C58_window (by decide) (by decide) (by norm_num)).1

theorem C58_violated : ¬ C58_Statement := by
  rintro ⟨h, _⟩
  have h1 := (h 2 10 (by unfold IsI64; norm_num) (by decide) (by unfold IsI64; norm_num)).1
  revert h1
  decide

/-- The second part is false as well. -/
theorem C58_window_violated : ¬ ∀ k : LineKernel Int, 0 ≤ k.origin → k.origin < k.values.length →
    k.values.length < 2 ^ 63 → k.window = ⟨-k.origin, k.values.length - 1 - k.origin⟩ := by
  intro h
  have h1 := h ⟨[1, 2, 3], 1⟩ (by decide) (by decide) (by norm_num)
  revert h1
  decide

end Segment

/-! ## C88 -/

namespace LineKernel

/-- C88: a line kernel from values only is centered. -/
def C88_Statement : Prop :=
  ∀ (values : List Int) (k : LineKernel Int), Centered values k → k.values = values ∧ k.origin = (values.length / 2 : Nat)

/-- The origin may be either the center or the first value, as the compiler likes. -/
theorem C88_origins {α : Type} (values : List α) (o : Int) :
    (∃ k, Centered values k ∧ k.values = values ∧ k.origin = o) ↔ o = 0 ∨ o = (values.length / 2 : Nat) := by
  constructor
  · rintro ⟨k, rfl | rfl, _, rfl⟩
    · exact .inr rfl
    · exact .inl rfl
  · rintro (rfl | rfl)
    · exact ⟨_, .inr rfl, rfl, rfl⟩
    · exact ⟨_, .inl rfl, rfl, rfl⟩

/-- The kernel is centered whatever the compiler if, and only if, there is at most one value.
Missing: the other kernels, for which C88 is false. -/
theorem C88_exact_partial {α : Type} (values : List α) :
    (∀ k, Centered values k → k.values = values ∧ k.origin = (values.length / 2 : Nat)) ↔ values.length ≤ 1 := by
  constructor
  · intro h
    have := (h ⟨values, 0⟩ (.inr rfl)).2
    simp only at this
    omega
  · rintro h k (rfl | rfl)
    · exact ⟨rfl, rfl⟩
    · refine ⟨rfl, ?_⟩
      simp only
      omega

/-- What it means for correlation: the neutral kernel gives either the input, or the input shifted by one. -/
theorem C88_neutral {α : Type} [Semiring α] {n : Nat} {x : Int → α} {i : Int} (h0 : 1 ≤ i) (h1 : i + 2 < n) (y : α) :
    (∃ k, Centered [0, 1, 0] k ∧ lineCorrelation k.values k.origin n x i = y) ↔ y = x i ∨ y = x (i + 1) := by
  have e1 : lineCorrelation [0, 1, 0] 1 n x i = x i := by
    rw [C46_bulk (by omega) (by simp; omega)]
    simp [List.range_succ]
  have e1 : lineCorrelation [0, 1, 0] (([0, 1, 0] : List α).length / 2 : Nat) n x i = x i := by
    rw [show (([0, 1, 0] : List α).length / 2 : Nat) = 1 by simp]
    exact e1
  have e2 : lineCorrelation [0, 1, 0] 0 n x i = x (i + 1) := by
    rw [C46_bulk (by omega) (by simp; omega)]
    simp [List.range_succ]
  constructor
  · rintro ⟨k, rfl | rfl, rfl⟩
    · exact .inl e1
    · exact .inr e2
  · rintro (rfl | rfl)
    · exact ⟨_, .inl rfl, e1⟩
    · exact ⟨_, .inr rfl, e2⟩

/-- C88 is false. -/
theorem C88_violated : ¬ C88_Statement := fun h =>
  absurd ((C88_exact_partial [1, 2, 3]).1 (h [1, 2, 3])) (by decide)

end LineKernel

end Litl
