import Verif.Model.LineKernel
import Verif.Spec.LineKernel
import Verif.Lemmas.Arithmetic
import Verif.Lemmas.View
import Verif.Lemmas.Kernel
import Mathlib.Algebra.BigOperators.Group.List.Lemmas
import Mathlib.Tactic.Ring
import Mathlib.Tactic.Linarith

/-!
# Lemmas about line kernels
-/

namespace Litl

open Spec
open Container (ok_bind)

/-! ## Loops -/

theorem While.unique {σ : Type _} {cond : σ → Prop} {body : σ → Res σ} {s : σ} {r r' : Res σ}
    (h : While cond body s r) (h' : While cond body s r') : r = r' := by
  induction h with
  | done hc =>
    cases h' with
    | done => rfl
    | fail hc' => exact absurd hc' hc
    | next hc' => exact absurd hc' hc
  | fail hc hb =>
    cases h' with
    | done hc' => exact absurd hc hc'
    | fail _ hb' => rw [hb] at hb'; simpa using hb'
    | next _ hb' => rw [hb] at hb'; simp at hb'
  | next hc hb _ ih =>
    cases h' with
    | done hc' => exact absurd hc hc'
    | fail _ hb' => rw [hb] at hb'; simp at hb'
    | next _ hb' ht =>
      rw [hb] at hb'
      simp only [Except.ok.injEq] at hb'
      subst hb'
      exact ih ht

/-- The loop which goes through given states. -/
theorem While.seq {σ : Type _} {cond : σ → Prop} {body : σ → Res σ} (S : Nat → σ) {a b : Nat} (hab : a ≤ b)
    (hstep : ∀ m, a ≤ m → m < b → cond (S m) ∧ body (S m) = .ok (S (m + 1))) {r : Res σ}
    (hend : While cond body (S b) r) : While cond body (S a) r := by
  obtain ⟨n, rfl⟩ := Nat.exists_eq_add_of_le hab
  induction n generalizing a with
  | zero => exact hend
  | succ n ih =>
    obtain ⟨h1, h2⟩ := hstep a le_rfl (by omega)
    refine .next h1 h2 (ih (by omega) (fun m hm hm' => hstep m (by omega) (by omega)) ?_)
    rw [show a + 1 + n = a + (n + 1) by omega]
    exact hend

variable {α : Type} [Zero α] [Add α] [Mul α]

/-! ## Sums -/

theorem foldlM_ub {β : Type} {n : Nat} {body : β → Nat → Res β}
    (h : ∀ s i, i < n → (∃ s', body s i = .ok s') ∨ body s i = .error .ub)
    {t : Nat} (ht : t < n) (hf : ∀ s, body s t = .error .ub) (s : β) :
    (List.range n).foldlM body s = .error .ub := by
  have key : ∀ l : List Nat, (∀ i ∈ l, i < n) → t ∈ l → ∀ s, l.foldlM body s = .error .ub := by
    intro l
    induction l with
    | nil => intro _ h; simp at h
    | cons i l ih =>
      intro hl hm s
      rw [List.foldlM_cons]
      rcases h s i (hl i (by simp)) with ⟨s', hs'⟩ | hs'
      · rw [hs', ok_bind]
        refine ih (fun j hj => hl j (by simp [hj])) ?_ s'
        rcases List.mem_cons.1 hm with rfl | hm
        · rw [hf] at hs'; simp at hs'
        · exact hm
      · rw [hs']; rfl
  exact key _ (fun i hi => List.mem_range.1 hi) (List.mem_range.2 ht) s

namespace LineKernel

theorem innerProduct_eq {values : List α} {first last : Int} {read : Int → Res α} {stride it : Int} {x : Nat → α}
    (h0 : 0 ≤ first) (h1 : first ≤ last) (h2 : last ≤ values.length)
    (hr : ∀ t : Nat, (t : Int) < last - first → read (it + stride * t) = .ok (x t)) :
    innerProduct values first last read stride it =
      .ok ((List.range (last - first).toNat).foldl (fun s (t : Nat) => s + values.getD (first.toNat + t) 0 * x t) 0) := by
  unfold innerProduct
  rw [if_neg (by omega)]
  · refine foldlM_fold (fun s i hi => ?_) 0
    have hi := List.mem_range.1 hi
    rw [readAt_getD (by omega) (by omega), ok_bind, hr i (by omega), ok_bind,
      show (first + (i : Int)).toNat = first.toNat + i by omega]
    rfl

/-- Reading the kernel or the line out of bounds. -/
theorem innerProduct_ub {values : List α} {first last : Int} {read : Int → Res α} {stride it : Int}
    (h0 : 0 ≤ first) (hr : ∀ a, (∃ x, read a = .ok x) ∨ read a = .error .ub)
    {t : Nat} (ht : (t : Int) < last - first)
    (hf : (values.length : Int) ≤ first + t ∨ read (it + stride * t) = .error .ub) :
    innerProduct values first last read stride it = .error .ub := by
  unfold innerProduct
  rw [if_neg (by omega)]
  have hk : ∀ a, 0 ≤ a → (∃ x, readAt values a = .ok x) ∨ readAt values a = .error .ub := by
    intro a ha
    by_cases h : a < values.length
    · exact .inl ⟨_, readAt_ok ha h⟩
    · right
      unfold readAt
      rw [if_neg (by omega), List.getElem?_eq_none (by omega)]
  refine foldlM_ub (t := t) ?_ (by omega) ?_ 0
  · intro s i _
    rcases hk (first + i) (by omega) with ⟨x, hx⟩ | hx
    · rcases hr (it + stride * i) with ⟨y, hy⟩ | hy
      · left
        exact ⟨s + x * y, by rw [hx, ok_bind, hy, ok_bind]; rfl⟩
      · right
        rw [hx, ok_bind, hy]; rfl
    · right
      rw [hx]; rfl
  · intro s
    rcases hf with hf | hf
    · have : readAt values (first + t) = .error .ub := by
        unfold readAt
        rw [if_neg (by omega), List.getElem?_eq_none (by omega)]
      rw [this]; rfl
    · rcases hk (first + t) (by omega) with ⟨x, hx⟩ | hx
      · rw [hx, ok_bind, hf]; rfl
      · rw [hx]; rfl

end LineKernel

theorem lineFold_eq_range {kernel : List α} {origin : Int} {n : Nat} {x : Int → α} {i : Int} {a m : Nat}
    (h : a + m ≤ kernel.length) (hlow : ∀ j : Nat, j < a → i + j - origin < 0)
    (hhigh : ∀ j : Nat, a + m ≤ j → j < kernel.length → n ≤ i + j - origin)
    (hin : ∀ t : Nat, t < m → 0 ≤ i + (a + t) - origin ∧ i + (a + t) - origin < n) :
    lineFold kernel origin n x i =
      (List.range m).foldl (fun s (t : Nat) => s + kernel.getD (a + t) 0 * x (i + (a + t) - origin)) 0 := by
  unfold lineFold
  obtain ⟨c, hc⟩ := Nat.exists_eq_add_of_le h
  have e : List.range kernel.length = List.range a ++ (List.range m).map (a + ·) ++
      (List.range c).map (a + m + ·) := by
    rw [hc, List.range_add, List.range_add]
  rw [e, List.filter_append, List.filter_append]
  have h1 : (List.range a).filter (fun j : Nat => decide (0 ≤ i + j - origin ∧ i + j - origin < n)) = [] := by
    rw [List.filter_eq_nil_iff]
    intro j hj
    have := hlow j (List.mem_range.1 hj)
    simp only [decide_eq_true_eq]
    omega
  have h2 : ((List.range c).map (a + m + ·)).filter (fun j : Nat => decide (0 ≤ i + j - origin ∧ i + j - origin < n)) = [] := by
    rw [List.filter_eq_nil_iff]
    intro j hj
    obtain ⟨t, ht, rfl⟩ := List.mem_map.1 hj
    have := hhigh (a + m + t) (by omega) (by have := List.mem_range.1 ht; omega)
    simp only [decide_eq_true_eq]
    omega
  have h3 : ((List.range m).map (a + ·)).filter (fun j : Nat => decide (0 ≤ i + j - origin ∧ i + j - origin < n)) =
      (List.range m).map (a + ·) := by
    rw [List.filter_eq_self]
    intro j hj
    obtain ⟨t, ht, rfl⟩ := List.mem_map.1 hj
    have := hin t (List.mem_range.1 ht)
    simp only [decide_eq_true_eq]
    push_cast
    exact this
  rw [h1, h2, h3, List.nil_append, List.append_nil, List.foldl_map]
  push_cast
  rfl

section Sums

variable {α : Type} [Semiring α]

theorem lineFold_eq (kernel : List α) (origin : Int) (n : Nat) (x : Int → α) (i : Int) :
    lineFold kernel origin n x i = lineCorrelation kernel origin n x i := by
  unfold lineFold lineCorrelation
  rw [Kernel.foldl_add_eq, zero_add]
  generalize List.range kernel.length = l
  induction l with
  | nil => rfl
  | cons j l ih =>
    rw [List.filter_cons, List.map_cons, List.sum_cons]
    by_cases h : 0 ≤ i + (j : Int) - origin ∧ i + (j : Int) - origin < n
    · rw [if_pos (by simpa using h), if_pos h, List.map_cons, List.sum_cons, ih]
    · rw [if_neg (by simpa using h), if_neg h, ih, zero_add]

theorem lineCorrelation_eq {kernel : List α} {origin : Int} {n : Nat} {x : Int → α} {i : Int} {a m : Nat}
    (h : a + m ≤ kernel.length) (hlow : ∀ j : Nat, j < a → i + j - origin < 0)
    (hhigh : ∀ j : Nat, a + m ≤ j → j < kernel.length → n ≤ i + j - origin)
    (hin : ∀ t : Nat, t < m → 0 ≤ i + (a + t) - origin ∧ i + (a + t) - origin < n) :
    lineCorrelation kernel origin n x i =
      ((List.range m).map fun t : Nat => kernel.getD (a + t) 0 * x (i + (a + t) - origin)).sum := by
  unfold lineCorrelation
  obtain ⟨c, hc⟩ := Nat.exists_eq_add_of_le h
  have e : List.range kernel.length = List.range a ++ (List.range m).map (a + ·) ++
      (List.range c).map (a + m + ·) := by
    rw [hc, List.range_add, List.range_add]
  rw [e, List.map_append, List.map_append, List.sum_append, List.sum_append]
  have hz : ∀ l : List Nat, (∀ j ∈ l, ¬ (0 ≤ i + (j : Int) - origin ∧ i + (j : Int) - origin < n)) →
      (l.map fun j : Nat => if 0 ≤ i + (j : Int) - origin ∧ i + (j : Int) - origin < n
        then kernel.getD j 0 * x (i + j - origin) else 0).sum = 0 := by
    intro l hl
    induction l with
    | nil => rfl
    | cons j l ih =>
      rw [List.map_cons, List.sum_cons, if_neg (hl j (by simp)), ih fun j' hj' => hl j' (by simp [hj'])]
      simp
  rw [hz (List.range a), hz ((List.range c).map (a + m + ·)), zero_add, add_zero, List.map_map]
  · congr 1
    refine List.map_congr_left fun t ht => ?_
    have := hin t (List.mem_range.1 ht)
    simp only [Function.comp_apply]
    push_cast
    rw [if_pos this]
  · intro j hj
    obtain ⟨t, ht, rfl⟩ := List.mem_map.1 hj
    have := hhigh (a + m + t) (by omega) (by have := List.mem_range.1 ht; omega)
    omega
  · intro j hj
    have := hlow j (List.mem_range.1 hj)
    omega

end Sums

/-! ## Machine integers -/

theorem u64_id {x : Int} (h0 : 0 ≤ x) (h1 : x < 2 ^ 64) : u64 x = x := Int.emod_eq_of_lt h0 h1

theorem i64_id {x : Int} (h0 : 0 ≤ x) (h1 : x < 2 ^ 63) : i64 x = x := by
  have : x % 2 ^ 64 = x := Int.emod_eq_of_lt h0 (by omega)
  unfold i64
  rw [this, if_pos h1]

namespace LineKernel

/-- The number of values after the origin. -/
def fwd (k : LineKernel α) : Int := k.values.length - 1 - k.origin

/-- What the kernel, the input and the sizes shall satisfy. -/
structure Setup (k : LineKernel α) (read : Int → Res α) (inn : DataSamples) (x : Int → α) : Prop where
  origin : 0 ≤ k.origin ∧ k.origin < k.values.length
  ksize : k.values.length < 2 ^ 63
  size : inn.size < 2 ^ 63
  front : 0 ≤ inn.sampling.front
  step : 1 ≤ inn.sampling.step ∧ inn.sampling.step < 2 ^ 63
  back : inn.sampling.back < inn.size
  front_lt : inn.sampling.front < 2 ^ 63
  line : ∀ i : Int, 0 ≤ i → i < inn.size → read (inn.data + i * inn.stride) = .ok (x i)

/-- The index of a sample. -/
def sample (inn : DataSamples) (m : Nat) : Int := inn.sampling.front + inn.sampling.step * m

/-- The output after some iterations. -/
def written (out : DataSamples) (data : List α) (val : Nat → α) (m : Nat) : List α :=
  (List.range m).foldl (fun d (j : Nat) => d.set (out.iter j).toNat (val j)) data

/-- The state after some iterations. -/
def stateAt (k : LineKernel α) (inn out : DataSamples) (data : List α) (x : Int → α) (m : Nat) : State α :=
  ⟨sample inn m, inn.data + (sample inn m - k.origin) * inn.stride, out.iter m,
    written out data (fun j => lineFold k.values k.origin inn.size x (sample inn j)) m⟩

omit [Zero α] [Add α] [Mul α] in
theorem length_written (out : DataSamples) (data : List α) (val : Nat → α) (m : Nat) :
    (written out data val m).length = data.length := by
  induction m with
  | zero => rfl
  | succ m ih =>
    unfold written at ih ⊢
    rw [List.range_succ, List.foldl_append, List.foldl_cons, List.foldl_nil, List.length_set, ih]

theorem put_eq {k : LineKernel α} {inn out : DataSamples} {data : List α} {x : Int → α} {m : Nat}
    (h0 : 0 ≤ out.iter m) (h1 : out.iter m < data.length) :
    put inn out (stateAt k inn out data x m) (lineFold k.values k.origin inn.size x (sample inn m)) =
      .ok (stateAt k inn out data x (m + 1)) := by
  unfold put
  have hw : writeAt (stateAt k inn out data x m).out (stateAt k inn out data x m).outIt
      (lineFold k.values k.origin inn.size x (sample inn m)) =
      .ok (stateAt k inn out data x (m + 1)).out := by
    simp only [stateAt]
    rw [writeAt_ok h0 (by rw [length_written]; exact h1)]
    unfold written
    rw [List.range_succ, List.foldl_append, List.foldl_cons, List.foldl_nil]
  rw [hw, ok_bind]
  show Except.ok _ = _
  congr 1
  simp only [stateAt, State.mk.injEq, sample, DataSamples.advance, DataSamples.iter]
  push_cast
  refine ⟨by ring, by ring, by ring, trivial⟩

omit [Zero α] [Add α] [Mul α] in
theorem forward_eq {k : LineKernel α} {read : Int → Res α} {inn : DataSamples} {x : Int → α}
    (h : Setup k read inn x) : k.forward = k.fwd := by
  have h1 := h.origin
  have h2 := h.ksize
  unfold forward fwd
  rw [u64_id (x := k.origin) (by omega) (by omega), u64_id (x := _ - k.origin) (by omega) (by omega),
    u64_id (by omega) (by omega)]
  omega

theorem backward_step {k : LineKernel α} {read : Int → Res α} {inn out : DataSamples} {data : List α} {x : Int → α}
    (h : Setup k read inn x) {m : Nat} (h0 : 0 ≤ out.iter m) (h1 : out.iter m < data.length)
    (hi : sample inn m < k.origin) (hf : sample inn m + k.fwd < inn.size) :
    backwardBody k read inn out (stateAt k inn out data x m) = .ok (stateAt k inn out data x (m + 1)) := by
  have h2 := h.origin
  have hs : 0 ≤ sample inn m := by
    have := h.front
    have := Int.mul_nonneg (show 0 ≤ inn.sampling.step by have := h.step; omega) (Int.natCast_nonneg m)
    unfold sample
    omega
  unfold fwd at hf
  unfold backwardBody
  have e : (stateAt k inn out data x m).i = sample inn m := rfl
  rw [e, innerProduct_eq (x := fun t : Nat => x t) (by omega) (by omega) (by omega) (by
    intro t ht
    rw [show inn.data + inn.stride * (t : Int) = inn.data + (t : Int) * inn.stride by ring]
    exact h.line _ (by omega) (by omega)), ok_bind, ← put_eq h0 h1]
  congr 1
  rw [lineFold_eq_range (a := (k.origin - sample inn m).toNat)
    (m := (k.values.length - (k.origin - sample inn m)).toNat)]
  · refine Kernel.foldl_congr_left fun s t _ => ?_
    congr 3
    omega
  · omega
  · intro j hj; omega
  · intro j hj hj'; omega
  · intro t ht; omega

theorem central_step {k : LineKernel α} {read : Int → Res α} {inn out : DataSamples} {data : List α} {x : Int → α}
    (h : Setup k read inn x) {m : Nat} (h0 : 0 ≤ out.iter m) (h1 : out.iter m < data.length)
    (hi : k.origin ≤ sample inn m) (hf : sample inn m + k.fwd < inn.size) :
    centralBody k read inn out (stateAt k inn out data x m) = .ok (stateAt k inn out data x (m + 1)) := by
  have h2 := h.origin
  unfold fwd at hf
  unfold centralBody
  have e : (stateAt k inn out data x m).inIt = inn.data + (sample inn m - k.origin) * inn.stride := rfl
  rw [e, innerProduct_eq (x := fun t : Nat => x (sample inn m + t - k.origin)) (by omega) (by omega) (by omega) (by
    intro t ht
    rw [show inn.data + (sample inn m - k.origin) * inn.stride + inn.stride * (t : Int) =
      inn.data + (sample inn m + t - k.origin) * inn.stride by ring]
    exact h.line (sample inn m + t - k.origin) (by omega) (by omega)), ok_bind, ← put_eq h0 h1]
  congr 1
  rw [lineFold_eq_range (a := 0) (m := k.values.length)]
  · simp
  · omega
  · intro j hj; omega
  · intro j hj hj'; omega
  · intro t ht; omega

theorem forward_step {k : LineKernel α} {read : Int → Res α} {inn out : DataSamples} {data : List α} {x : Int → α}
    (h : Setup k read inn x) {m : Nat} (h0 : 0 ≤ out.iter m) (h1 : out.iter m < data.length)
    (hi : k.origin ≤ sample inn m) (hl : sample inn m < inn.size) (hf : inn.size - k.fwd - 1 ≤ sample inn m) :
    forwardBody k read inn out (stateAt k inn out data x m) = .ok (stateAt k inn out data x (m + 1)) := by
  have h2 := h.origin
  have h3 := h.size
  unfold fwd at hf
  unfold forwardBody
  have e : (stateAt k inn out data x m).inIt = inn.data + (sample inn m - k.origin) * inn.stride := rfl
  have e' : (stateAt k inn out data x m).i = sample inn m := rfl
  have hu : i64 (u64 (inn.size - u64 (sample inn m))) = inn.size - sample inn m := by
    rw [u64_id (x := sample inn m) (by omega) (by omega), u64_id (by omega) (by omega), i64_id (by omega) (by omega)]
  rw [e, e', hu, innerProduct_eq (x := fun t : Nat => x (sample inn m + t - k.origin)) (by omega) (by omega) (by omega)
    (by
      intro t ht
      rw [show inn.data + (sample inn m - k.origin) * inn.stride + inn.stride * (t : Int) =
        inn.data + (sample inn m + t - k.origin) * inn.stride by ring]
      exact h.line (sample inn m + t - k.origin) (by omega) (by omega)), ok_bind, ← put_eq h0 h1]
  congr 1
  rw [lineFold_eq_range (a := 0) (m := (k.origin + (inn.size - sample inn m) - 0).toNat)]
  · simp
  · omega
  · intro j hj; omega
  · intro j hj hj'; omega
  · intro t ht; omega

theorem start_eq {k : LineKernel α} {inn out : DataSamples} {data : List α} {x : Int → α} :
    start k inn out data = stateAt k inn out data x 0 := by
  simp only [start, stateAt, sample, DataSamples.mk', DataSamples.advance, DataSamples.iter, written,
    State.mk.injEq]
  refine ⟨by simp, by push_cast; ring, by simp, rfl⟩

theorem sample_mono {inn : DataSamples} (h : 1 ≤ inn.sampling.step) {a b : Nat} (hab : a ≤ b) :
    sample inn a ≤ sample inn b := by
  unfold sample
  have : inn.sampling.step * (a : Int) ≤ inn.sampling.step * (b : Int) :=
    mul_le_mul_of_nonneg_left (by omega) (by omega)
  omega

theorem sample_ge {inn : DataSamples} (h : 1 ≤ inn.sampling.step) (m : Nat) : inn.sampling.front + m ≤ sample inn m := by
  unfold sample
  have : 1 * (m : Int) ≤ inn.sampling.step * (m : Int) := mul_le_mul_of_nonneg_right h (by omega)
  omega

theorem sample_succ (inn : DataSamples) (m : Nat) : sample inn (m + 1) = sample inn m + inn.sampling.step := by
  unfold sample
  push_cast
  ring

/-- Each index is processed once, in the right loop. -/
structure Safe (k : LineKernel α) (inn : DataSamples) : Prop where
  backward : ∀ m, sample inn m < k.origin → sample inn m + k.fwd < inn.size ∧ sample inn m ≤ inn.sampling.back
  wrap : k.fwd + inn.sampling.step ≤ inn.size
  central : ∀ m, k.origin ≤ sample inn m → sample inn m ≤ inn.size - k.fwd - inn.sampling.step →
    sample inn m ≤ inn.sampling.back
  forward : ∀ m, k.origin ≤ sample inn m → inn.size - k.fwd - inn.sampling.step < sample inn m →
    sample inn m ≤ inn.sampling.back → inn.size - k.fwd - 1 ≤ sample inn m

/-- The first two loops. -/
theorem correlates_prefix {k : LineKernel α} {read : Int → Res α} {inn out : DataSamples} {data : List α} {x : Int → α}
    (h : Setup k read inn x)
    (hsb : ∀ m, sample inn m < k.origin → sample inn m + k.fwd < inn.size ∧ sample inn m ≤ inn.sampling.back)
    (hsw : k.fwd + inn.sampling.step ≤ inn.size)
    (hsc : ∀ m, k.origin ≤ sample inn m → sample inn m ≤ inn.size - k.fwd - inn.sampling.step →
      sample inn m ≤ inn.sampling.back)
    {count : Nat} (hc : ∀ m, m < count ↔ sample inn m ≤ inn.sampling.back)
    (hout : ∀ m, m < count → 0 ≤ out.iter m ∧ out.iter m < data.length) :
    ∃ A B, B ≤ count ∧ k.origin ≤ sample inn B ∧ inn.size - k.fwd - inn.sampling.step < sample inn B ∧
      (∀ m, m < B → sample inn m < k.origin ∨ sample inn m ≤ inn.size - k.fwd - inn.sampling.step) ∧
      While (fun s => s.i < k.origin) (backwardBody k read inn out) (start k inn out data)
        (.ok (stateAt k inn out data x A)) ∧
      While (CentralCond k inn) (centralBody k read inn out) (stateAt k inn out data x A)
        (.ok (stateAt k inn out data x B)) := by
  have hst := h.step
  have ho := h.origin
  have hA : ∃ m, ¬ sample inn m < k.origin := ⟨k.origin.toNat, by
    have := sample_ge hst.1 k.origin.toNat
    have := h.front
    omega⟩
  classical
  obtain ⟨A, hA1, hA2⟩ : ∃ A, ¬ sample inn A < k.origin ∧ ∀ m, m < A → sample inn m < k.origin :=
    ⟨Nat.find hA, Nat.find_spec hA, fun m hm => by simpa using Nat.find_min hA hm⟩
  have hB : ∃ m, A ≤ m ∧ ¬ sample inn m ≤ inn.size - k.fwd - inn.sampling.step := ⟨A + inn.size, by omega, by
    have := sample_ge hst.1 (A + inn.size)
    have := h.front
    unfold fwd
    omega⟩
  obtain ⟨B, ⟨hAB, hB1⟩, hB2⟩ : ∃ B, (A ≤ B ∧ ¬ sample inn B ≤ inn.size - k.fwd - inn.sampling.step) ∧
      ∀ m, m < B → A ≤ m → sample inn m ≤ inn.size - k.fwd - inn.sampling.step :=
    ⟨Nat.find hB, Nat.find_spec hB, fun m hm hAm => by
      have := Nat.find_min hB hm
      by_contra hgt
      exact this ⟨hAm, hgt⟩⟩
  have hge : ∀ m, A ≤ m → k.origin ≤ sample inn m := fun m hm => by
    have := sample_mono hst.1 hm
    omega
  have hBc : ∀ m, m < B → m < count := by
    intro m hm
    rw [hc]
    by_cases hmA : m < A
    · exact (hsb m (hA2 m hmA)).2
    · exact hsc m (hge m (by omega)) (hB2 m hm (by omega))
  have hBle : B ≤ count := by
    rcases Nat.eq_zero_or_pos B with h0 | h0
    · omega
    · have := hBc (B - 1) (by omega)
      omega
  have hnn : ∀ m, 0 ≤ sample inn m := fun m => by
    have := sample_ge hst.1 m
    have := h.front
    omega
  have hlt : ∀ m, m ≤ B → sample inn m < 2 ^ 64 := by
    intro m hm
    rcases Nat.eq_zero_or_pos m with rfl | h0
    · have := h.front_lt
      simp only [sample]
      simp
      omega
    · have h1 := (hc (m - 1)).1 (hBc (m - 1) (by omega))
      have h2 := sample_succ inn (m - 1)
      rw [show m - 1 + 1 = m by omega] at h2
      have := h.back
      have := h.size
      omega
  have hcond : ∀ m, m ≤ B → (CentralCond k inn (stateAt k inn out data x m) ↔
      sample inn m ≤ inn.size - k.fwd - inn.sampling.step) := by
    intro m hm
    have hw := hsw
    have hsz := h.size
    have hfw : 0 ≤ k.fwd := by unfold fwd; omega
    unfold CentralCond
    rw [forward_eq h, u64_id (x := (stateAt k inn out data x m).i) (hnn m) (hlt m hm),
      u64_id (x := inn.sampling.step) (by omega) (by omega), u64_id (x := inn.size - k.fwd) (by omega) (by omega),
      u64_id (by omega) (by omega)]
    exact Iff.rfl
  have w1 : While (fun s => s.i < k.origin) (backwardBody k read inn out) (start k inn out data)
      (.ok (stateAt k inn out data x A)) := by
    rw [start_eq (x := x)]
    refine While.seq (stateAt k inn out data x) (Nat.zero_le A) (fun m _ hm => ?_) (.done hA1)
    have h1 := hout m (hBc m (by omega))
    exact ⟨hA2 m hm, backward_step h h1.1 h1.2 (hA2 m hm) (hsb m (hA2 m hm)).1⟩
  have w2 : While (CentralCond k inn) (centralBody k read inn out) (stateAt k inn out data x A)
      (.ok (stateAt k inn out data x B)) := by
    refine While.seq (stateAt k inn out data x) hAB (fun m hm hm' => ?_) (.done fun hh => hB1 ((hcond B le_rfl).1 hh))
    have h1 := hout m (hBc m (by omega))
    have h2 := hB2 m hm' hm
    exact ⟨(hcond m (by omega)).2 h2, central_step h h1.1 h1.2 (hge m hm) (by omega)⟩
  exact ⟨A, B, hBle, hge B hAB, by omega, fun m hm => by
    by_cases hmA : m < A
    · exact .inl (hA2 m hmA)
    · exact .inr (hB2 m hm (by omega)), w1, w2⟩

theorem correlates_ok {k : LineKernel α} {read : Int → Res α} {inn out : DataSamples} {data : List α} {x : Int → α}
    (h : Setup k read inn x) (hs : Safe k inn) {count : Nat} (hc : ∀ m, m < count ↔ sample inn m ≤ inn.sampling.back)
    (hout : ∀ m, m < count → 0 ≤ out.iter m ∧ out.iter m < data.length) (res : Res (List α)) :
    Correlates k read inn out data res ↔ res =
      .ok (written out data (fun j => lineFold k.values k.origin inn.size x (sample inn j)) count) := by
  have hst := h.step
  obtain ⟨A, B, hBle, hge, hB1, _, w1, w2⟩ := correlates_prefix h hs.backward hs.wrap hs.central hc hout
  have w3 : While (fun s => s.i ≤ inn.sampling.back) (forwardBody k read inn out) (stateAt k inn out data x B)
      (.ok (stateAt k inn out data x count)) := by
    refine While.seq (stateAt k inn out data x) hBle (fun m hm hm' => ?_) (.done fun hh => ?_)
    · have h1 := hout m hm'
      have h2 := (hc m).1 hm'
      have h3 := sample_mono hst.1 hm
      refine ⟨h2, forward_step h h1.1 h1.2 (hge.trans h3) (by have := h.back; omega) ?_⟩
      exact hs.forward m (hge.trans h3) (by omega) h2
    · have := (hc count).2 hh
      omega
  unfold Correlates
  constructor
  · rintro ⟨r1, g1, g⟩
    obtain rfl := While.unique g1 w1
    obtain ⟨r2, g2, g⟩ := g
    obtain rfl := While.unique g2 w2
    obtain ⟨r3, g3, g⟩ := g
    obtain rfl := While.unique g3 w3
    exact g
  · rintro rfl
    exact ⟨_, w1, _, w2, _, w3, rfl⟩

/-- The kernel is read out of bounds in the third loop. -/
theorem correlates_overread {k : LineKernel α} {read : Int → Res α} {inn out : DataSamples} {data : List α}
    {x : Int → α} (h : Setup k read inn x) (hread : ∀ a, (∃ x, read a = .ok x) ∨ read a = .error .ub)
    (hsb : ∀ m, sample inn m < k.origin → sample inn m + k.fwd < inn.size ∧ sample inn m ≤ inn.sampling.back)
    (hsw : k.fwd + inn.sampling.step ≤ inn.size)
    (hsc : ∀ m, k.origin ≤ sample inn m → sample inn m ≤ inn.size - k.fwd - inn.sampling.step →
      sample inn m ≤ inn.sampling.back)
    {count : Nat} (hc : ∀ m, m < count ↔ sample inn m ≤ inn.sampling.back)
    (hout : ∀ m, m < count → 0 ≤ out.iter m ∧ out.iter m < data.length)
    {m : Nat} (h1 : k.origin ≤ sample inn m) (h2 : inn.size - k.fwd - inn.sampling.step < sample inn m)
    (h3 : sample inn m ≤ inn.sampling.back) (h4 : sample inn m < inn.size - k.fwd - 1) (res : Res (List α)) :
    Correlates k read inn out data res ↔ res = .error .ub := by
  have hst := h.step
  have ho := h.origin
  have hsz := h.size
  obtain ⟨A, B, hBle, hge, hB1, hB2, w1, w2⟩ := correlates_prefix h hsb hsw hsc hc hout
  have hBm : B = m := by
    have h5 : B ≤ m := by
      by_contra hlt
      rcases hB2 m (by omega) with h6 | h6 <;> omega
    by_contra hne
    have h6 := sample_mono hst.1 (show B + 1 ≤ m by omega)
    rw [sample_succ] at h6
    omega
  subst hBm
  have w3 : While (fun s => s.i ≤ inn.sampling.back) (forwardBody k read inn out) (stateAt k inn out data x B)
      (.error .ub) := by
    refine .fail h3 ?_
    unfold forwardBody
    have e : (stateAt k inn out data x B).i = sample inn B := rfl
    have hu : i64 (u64 (inn.size - u64 (sample inn B))) = inn.size - sample inn B := by
      unfold fwd at h4
      rw [u64_id (x := sample inn B) (by omega) (by omega), u64_id (by omega) (by omega),
        i64_id (by omega) (by omega)]
    rw [e, hu, innerProduct_ub le_rfl hread (t := k.values.length) (by unfold fwd at h4; omega) (.inl (by omega))]
    rfl
  unfold Correlates
  constructor
  · rintro ⟨r1, g1, g⟩
    obtain rfl := While.unique g1 w1
    obtain ⟨r2, g2, g⟩ := g
    obtain rfl := While.unique g2 w2
    obtain ⟨r3, g3, g⟩ := g
    obtain rfl := While.unique g3 w3
    exact g
  · rintro rfl
    exact ⟨_, w1, _, w2, _, w3, rfl⟩

omit [Zero α] [Add α] [Mul α] in
theorem put_ub {inn out : DataSamples} {s : State α} {v : α} (h : s.outIt < 0 ∨ (s.out.length : Int) ≤ s.outIt) :
    put inn out s v = .error .ub := by
  have : writeAt s.out s.outIt v = .error .ub := by
    unfold writeAt
    by_cases h0 : s.outIt < 0
    · rw [if_pos h0]
    · rw [if_neg h0, if_neg (by omega)]
  unfold put
  rw [this]
  rfl

/-- The second loop goes beyond the back of the samples. -/
theorem correlates_overrun {k : LineKernel α} {read : Int → Res α} {inn out : DataSamples} {data : List α}
    {x : Int → α} (h : Setup k read inn x)
    (hsb : ∀ m, sample inn m < k.origin → sample inn m + k.fwd < inn.size ∧ sample inn m ≤ inn.sampling.back)
    (hsw : k.fwd + inn.sampling.step ≤ inn.size)
    {count : Nat} (hc : ∀ m, m < count ↔ sample inn m ≤ inn.sampling.back)
    (hout : ∀ m, m < count → 0 ≤ out.iter m ∧ out.iter m < data.length)
    (h1 : sample inn count ≤ inn.size - k.fwd - inn.sampling.step)
    (h2 : out.iter count < 0 ∨ (data.length : Int) ≤ out.iter count) (res : Res (List α)) :
    Correlates k read inn out data res ↔ res = .error .ub := by
  have hst := h.step
  have ho := h.origin
  have hsz := h.size
  classical
  have hA : ∃ m, ¬ sample inn m < k.origin := ⟨k.origin.toNat, by
    have := sample_ge hst.1 k.origin.toNat
    have := h.front
    omega⟩
  obtain ⟨A, hA1, hA2⟩ : ∃ A, ¬ sample inn A < k.origin ∧ ∀ m, m < A → sample inn m < k.origin :=
    ⟨Nat.find hA, Nat.find_spec hA, fun m hm => by simpa using Nat.find_min hA hm⟩
  have hAc : A ≤ count := by
    rcases Nat.eq_zero_or_pos A with h0 | h0
    · omega
    · have := (hc (A - 1)).2 (hsb (A - 1) (hA2 _ (by omega))).2
      omega
  have hnn : ∀ m, 0 ≤ sample inn m := fun m => by
    have := sample_ge hst.1 m
    have := h.front
    omega
  have hfw : 0 ≤ k.fwd := by unfold fwd; omega
  have hle : ∀ m, m ≤ count → sample inn m ≤ inn.size - k.fwd - inn.sampling.step := fun m hm => by
    have := sample_mono hst.1 hm
    omega
  have hge : ∀ m, A ≤ m → k.origin ≤ sample inn m := fun m hm => by
    have := sample_mono hst.1 hm
    omega
  have hcond : ∀ m, m ≤ count → CentralCond k inn (stateAt k inn out data x m) := by
    intro m hm
    have h3 := hle m hm
    unfold CentralCond
    rw [forward_eq h, u64_id (x := (stateAt k inn out data x m).i) (hnn m)
      (show sample inn m < 2 ^ 64 by omega),
      u64_id (x := inn.sampling.step) (by omega) (by omega), u64_id (x := inn.size - k.fwd) (by omega) (by omega),
      u64_id (by omega) (by omega)]
    exact h3
  have w1 : While (fun s => s.i < k.origin) (backwardBody k read inn out) (start k inn out data)
      (.ok (stateAt k inn out data x A)) := by
    rw [start_eq (x := x)]
    refine While.seq (stateAt k inn out data x) (Nat.zero_le A) (fun m _ hm => ?_) (.done hA1)
    have h1 := hout m (by omega)
    exact ⟨hA2 m hm, backward_step h h1.1 h1.2 (hA2 m hm) (hsb m (hA2 m hm)).1⟩
  have w2 : While (CentralCond k inn) (centralBody k read inn out) (stateAt k inn out data x A) (.error .ub) := by
    refine While.seq (stateAt k inn out data x) hAc (fun m hm hm' => ?_) (.fail (hcond _ le_rfl) ?_)
    · have h3 := hout m (by omega)
      have h4 := hle m (by omega)
      exact ⟨hcond m (by omega), central_step h h3.1 h3.2 (hge m hm) (by omega)⟩
    · unfold centralBody
      have e : (stateAt k inn out data x count).inIt = inn.data + (sample inn count - k.origin) * inn.stride := rfl
      have h5 := hge count hAc
      rw [e, innerProduct_eq (x := fun t : Nat => x (sample inn count + t - k.origin)) (by omega) (by omega) le_rfl (by
        intro t ht
        rw [show inn.data + (sample inn count - k.origin) * inn.stride + inn.stride * (t : Int) =
          inn.data + (sample inn count + t - k.origin) * inn.stride by ring]
        unfold fwd at h1
        exact h.line (sample inn count + t - k.origin) (by omega) (by omega)), ok_bind]
      refine put_ub ?_
      simp only [stateAt, length_written]
      exact h2
  unfold Correlates
  constructor
  · rintro ⟨r1, g1, g⟩
    obtain rfl := While.unique g1 w1
    obtain ⟨r2, g2, g⟩ := g
    obtain rfl := While.unique g2 w2
    exact g
  · rintro rfl
    exact ⟨_, w1, _, w2, rfl⟩

theorem innerProduct_cases {values : List α} {first last : Int} {read : Int → Res α} {stride it : Int}
    (h0 : 0 ≤ first) (h1 : first ≤ last) (h2 : last ≤ values.length)
    (hr : ∀ a, (∃ x, read a = .ok x) ∨ read a = .error .ub) :
    (∃ v, innerProduct values first last read stride it = .ok v) ∨
      innerProduct values first last read stride it = .error .ub := by
  by_cases h : ∃ t : Nat, (t : Int) < last - first ∧ read (it + stride * t) = .error .ub
  · obtain ⟨t, ht, he⟩ := h
    exact .inr (innerProduct_ub h0 hr ht (.inr he))
  · left
    have h' : ∀ t : Nat, ∃ v, (t : Int) < last - first → read (it + stride * t) = .ok v := by
      intro t
      rcases hr (it + stride * t) with ⟨v, hv⟩ | hv
      · exact ⟨v, fun _ => hv⟩
      · exact ⟨0, fun ht => absurd ⟨t, ht, hv⟩ h⟩
    choose v hv using h'
    exact ⟨_, innerProduct_eq h0 h1 h2 hv⟩

/-- The first loop goes beyond the back of the samples. -/
theorem correlates_backrun {k : LineKernel α} {read : Int → Res α} {inn out : DataSamples} {data : List α}
    {x : Int → α} (h : Setup k read inn x) (hread : ∀ a, (∃ x, read a = .ok x) ∨ read a = .error .ub)
    (hK : k.values.length ≤ inn.size)
    {count : Nat} (hout : ∀ m, m < count → 0 ≤ out.iter m ∧ out.iter m < data.length)
    (h1 : sample inn count < k.origin)
    (h2 : out.iter count < 0 ∨ (data.length : Int) ≤ out.iter count) (res : Res (List α)) :
    Correlates k read inn out data res ↔ res = .error .ub := by
  have hst := h.step
  have ho := h.origin
  have hnn : 0 ≤ sample inn count := by
    have := sample_ge hst.1 count
    have := h.front
    omega
  have w1 : While (fun s => s.i < k.origin) (backwardBody k read inn out) (start k inn out data) (.error .ub) := by
    rw [start_eq (x := x)]
    refine While.seq (stateAt k inn out data x) (Nat.zero_le count) (fun m _ hm => ?_) (.fail h1 ?_)
    · have h3 := hout m hm
      have h4 := sample_mono hst.1 hm.le
      have h5 : sample inn m < k.origin := by omega
      exact ⟨h5, backward_step h h3.1 h3.2 h5 (by unfold fwd; omega)⟩
    · unfold backwardBody
      have e : (stateAt k inn out data x count).i = sample inn count := rfl
      rw [e]
      rcases innerProduct_cases (values := k.values) (first := k.origin - sample inn count)
        (last := k.values.length) (stride := inn.stride) (it := inn.data) (by omega) (by omega) le_rfl hread with
        ⟨v, hv⟩ | hv
      · rw [hv, ok_bind]
        refine put_ub ?_
        simp only [stateAt, length_written]
        exact h2
      · rw [hv]
        rfl
  unfold Correlates
  constructor
  · rintro ⟨r1, g1, g⟩
    obtain rfl := While.unique g1 w1
    exact g
  · rintro rfl
    exact ⟨_, w1, rfl⟩

/-- The bound of the second loop wraps around. -/
theorem correlates_wrap {k : LineKernel α} {read : Int → Res α} {inn out : DataSamples} {data : List α}
    {x : Int → α} (h : Setup k read inn x) (hread : ∀ a, (∃ x, read a = .ok x) ∨ read a = .error .ub)
    (hend : read (inn.data + inn.stride * inn.size) = .error .ub)
    (hK : k.values.length ≤ inn.size)
    {count : Nat} (hc : ∀ m, m < count ↔ sample inn m ≤ inn.sampling.back)
    (hout : ∀ m, m < count → 0 ≤ out.iter m ∧ out.iter m < data.length)
    (h1 : k.origin ≤ sample inn count) (hw : (inn.size : Int) < k.fwd + inn.sampling.step)
    (hmax : inn.sampling.back + inn.sampling.step < 2 ^ 63)
    (h2 : out.iter count < 0 ∨ (data.length : Int) ≤ out.iter count) (res : Res (List α)) :
    Correlates k read inn out data res ↔ res = .error .ub := by
  have hst := h.step
  have ho := h.origin
  have hsz := h.size
  have hks := h.ksize
  have hfr := h.front_lt
  have hnn : ∀ m, 0 ≤ sample inn m := fun m => by
    have := sample_ge hst.1 m
    have := h.front
    omega
  have hle : ∀ m, m ≤ count → sample inn m < 2 ^ 63 := by
    intro m hm
    rcases Nat.eq_zero_or_pos m with h0 | h0
    · subst h0
      unfold sample
      simpa using hfr
    · have h3 := (hc (m - 1)).1 (by omega)
      have h4 := sample_succ inn (m - 1)
      rw [show m - 1 + 1 = m by omega] at h4
      omega
  have hcond : ∀ m, m ≤ count → CentralCond k inn (stateAt k inn out data x m) := by
    intro m hm
    have h3 := hle m hm
    have h4 := hnn m
    unfold CentralCond
    rw [forward_eq h, u64_id (x := (stateAt k inn out data x m).i) (hnn m)
      (show sample inn m < 2 ^ 64 by omega),
      u64_id (x := inn.sampling.step) (by omega) (by omega)]
    show sample inn m ≤ _
    unfold fwd at *
    rw [u64_id (x := inn.size - _) (by omega) (by omega)]
    unfold u64
    omega
  classical
  have hA : ∃ m, ¬ sample inn m < k.origin := ⟨count, by omega⟩
  obtain ⟨A, hA1, hA2⟩ : ∃ A, ¬ sample inn A < k.origin ∧ ∀ m, m < A → sample inn m < k.origin :=
    ⟨Nat.find hA, Nat.find_spec hA, fun m hm => by simpa using Nat.find_min hA hm⟩
  have hAc : A ≤ count := by
    by_contra hlt
    have := hA2 count (by omega)
    omega
  have hge : ∀ m, A ≤ m → k.origin ≤ sample inn m := fun m hm => by
    have := sample_mono hst.1 hm
    omega
  have hB : ∃ m, A ≤ m ∧ (m = count ∨ inn.size ≤ sample inn m + k.fwd) := ⟨count, hAc, .inl rfl⟩
  obtain ⟨B, ⟨hAB, hB1⟩, hB2⟩ : ∃ B, (A ≤ B ∧ (B = count ∨ inn.size ≤ sample inn B + k.fwd)) ∧
      ∀ m, m < B → ¬ (A ≤ m ∧ (m = count ∨ inn.size ≤ sample inn m + k.fwd)) :=
    ⟨Nat.find hB, Nat.find_spec hB, fun m hm => Nat.find_min hB hm⟩
  have hBc : B ≤ count := by
    by_contra hlt
    exact hB2 count (by omega) ⟨hAc, .inl rfl⟩
  have w1 : While (fun s => s.i < k.origin) (backwardBody k read inn out) (start k inn out data)
      (.ok (stateAt k inn out data x A)) := by
    rw [start_eq (x := x)]
    refine While.seq (stateAt k inn out data x) (Nat.zero_le A) (fun m _ hm => ?_) (.done hA1)
    have h1 := hout m (by omega)
    have h5 := hA2 m hm
    exact ⟨h5, backward_step h h1.1 h1.2 h5 (by unfold fwd; omega)⟩
  have w2 : While (CentralCond k inn) (centralBody k read inn out) (stateAt k inn out data x A) (.error .ub) := by
    refine While.seq (stateAt k inn out data x) hAB (fun m hm hm' => ?_) (.fail (hcond _ hBc) ?_)
    · have h3 := hout m (by omega)
      have h4 := hB2 m hm'
      exact ⟨hcond m (by omega), central_step h h3.1 h3.2 (hge m hm) (by
        by_contra h5
        exact h4 ⟨hm, .inr (by omega)⟩)⟩
    · unfold centralBody
      have e : (stateAt k inn out data x B).inIt = inn.data + (sample inn B - k.origin) * inn.stride := rfl
      rw [e]
      by_cases hBe : B = count
      · subst hBe
        rcases innerProduct_cases (values := k.values) (first := 0) (last := k.values.length) (stride := inn.stride)
          (it := inn.data + (sample inn B - k.origin) * inn.stride) le_rfl (by omega) le_rfl hread with
          ⟨v, hv⟩ | hv
        · rw [hv, ok_bind]
          refine put_ub ?_
          simp only [stateAt, length_written]
          exact h2
        · rw [hv]
          rfl
      · have h5 : inn.size ≤ sample inn B + k.fwd := hB1.resolve_left hBe
        have h6 := (hc B).1 (by omega)
        have h7 := h.back
        have h8 := hnn B
        unfold fwd at h5
        rw [innerProduct_ub le_rfl hread (t := (inn.size + k.origin - sample inn B).toNat) (by omega) (.inr (by
          rw [← hend]
          congr 1
          have : ((inn.size + k.origin - sample inn B).toNat : Int) = inn.size + k.origin - sample inn B := by omega
          rw [this]
          ring))]
        rfl
  unfold Correlates
  constructor
  · rintro ⟨r1, g1, g⟩
    obtain rfl := While.unique g1 w1
    obtain ⟨r2, g2, g⟩ := g
    obtain rfl := While.unique g2 w2
    exact g
  · rintro rfl
    exact ⟨_, w1, _, w2, rfl⟩

/-- The input is read out of bounds: in the first loop, or in the second loop if the origin is that of the kernel. -/
theorem correlates_short {k : LineKernel α} {read : Int → Res α} {inn out : DataSamples} {data : List α}
    {x : Int → α} (h : Setup k read inn x) (hread : ∀ a, (∃ x, read a = .ok x) ∨ read a = .error .ub)
    (hend : read (inn.data + inn.stride * inn.size) = .error .ub)
    (hf : inn.sampling.front = 0) (hstep : inn.sampling.step = 1)
    (hout : ∀ m : Nat, m < inn.size → 0 ≤ out.iter m ∧ out.iter m < data.length)
    (hshort : (inn.size : Int) < k.fwd + max k.origin 1) (res : Res (List α)) :
    Correlates k read inn out data res ↔ res = .error .ub := by
  have ho := h.origin
  have hsz := h.size
  have hfw : 0 ≤ k.fwd := by unfold fwd; omega
  have hsm : ∀ m : Nat, sample inn m = m := by intro m; simp [sample, hf, hstep]
  by_cases h0 : k.origin = 0
  · have w1 : While (fun s => s.i < k.origin) (backwardBody k read inn out) (start k inn out data)
        (.ok (stateAt k inn out data x 0)) := by
      rw [start_eq (x := x)]
      refine .done ?_
      show ¬ sample inn 0 < k.origin
      rw [hsm]
      omega
    have w2 : While (CentralCond k inn) (centralBody k read inn out) (stateAt k inn out data x 0) (.error .ub) := by
      refine .fail ?_ ?_
      · unfold CentralCond
        have e : (stateAt k inn out data x 0).i = 0 := hsm 0
        rw [e]
        exact Int.emod_nonneg _ (by decide)
      · unfold centralBody
        have e : (stateAt k inn out data x 0).inIt = inn.data := by
          show inn.data + (sample inn 0 - k.origin) * inn.stride = _
          rw [hsm, h0]
          simp
        rw [e, innerProduct_ub le_rfl hread (t := inn.size) (by unfold fwd at hshort; omega) (.inr hend)]
        rfl
    unfold Correlates
    constructor
    · rintro ⟨r1, g1, g⟩
      obtain rfl := While.unique g1 w1
      obtain ⟨r2, g2, g⟩ := g
      obtain rfl := While.unique g2 w2
      exact g
    · rintro rfl
      exact ⟨_, w1, _, w2, rfl⟩
  · have w1 : While (fun s => s.i < k.origin) (backwardBody k read inn out) (start k inn out data) (.error .ub) := by
      rw [start_eq (x := x)]
      refine While.seq (stateAt k inn out data x) (Nat.zero_le (inn.size - k.fwd).toNat) (fun m _ hm => ?_)
        (.fail ?_ ?_)
      · have h1 := hout m (by omega)
        have h2 : sample inn m < k.origin := by rw [hsm]; omega
        exact ⟨h2, backward_step h h1.1 h1.2 h2 (by rw [hsm]; omega)⟩
      · show sample inn _ < k.origin
        rw [hsm]
        omega
      · unfold backwardBody
        have e : (stateAt k inn out data x (inn.size - k.fwd).toNat).i = (inn.size - k.fwd).toNat := hsm _
        rw [e, innerProduct_ub (by omega) hread (t := inn.size) (by unfold fwd at *; omega) (.inr hend)]
        rfl
    unfold Correlates
    constructor
    · rintro ⟨r1, g1, g⟩
      obtain rfl := While.unique g1 w1
      exact g
    · rintro rfl
      exact ⟨_, w1, rfl⟩

omit [Zero α] [Add α] [Mul α] in
theorem written_spec {out : DataSamples} {data : List α} {val : Nat → α} {count : Nat}
    (hne : out.sampling.step * out.stride ≠ 0)
    (hout : ∀ m, m < count → 0 ≤ out.iter m ∧ out.iter m < data.length) :
    (∀ m, m < count → (written out data val count)[(out.iter m).toNat]? = some (val m)) ∧
    (∀ a : Nat, (∀ m, m < count → out.iter m ≠ a) → (written out data val count)[a]? = data[a]?) := by
  induction count with
  | zero => exact ⟨fun m hm => absurd hm (by omega), fun a _ => rfl⟩
  | succ n ih =>
    obtain ⟨h1, h2⟩ := ih fun m hm => hout m (by omega)
    have e : written out data val (n + 1) = (written out data val n).set (out.iter n).toNat (val n) := by
      unfold written
      rw [List.range_succ, List.foldl_append, List.foldl_cons, List.foldl_nil]
    have hn := hout n (by omega)
    rw [e]
    constructor
    · intro m hm
      by_cases hmn : m = n
      · subst hmn
        rw [List.getElem?_set_self (by rw [length_written]; omega)]
      · rw [List.getElem?_set_ne, h1 m (by omega)]
        intro he
        have hm' := hout m (by omega)
        have : out.iter n = out.iter m := by omega
        unfold DataSamples.iter at this
        have h3 : out.sampling.step * out.stride * ((n : Int) - m) = 0 := by linarith
        rcases mul_eq_zero.1 h3 with h4 | h4
        · exact hne h4
        · omega
    · intro a ha
      rw [List.getElem?_set_ne, h2 a fun m hm => ha m (by omega)]
      intro he
      exact ha n (by omega) (by omega)

end LineKernel

end Litl
