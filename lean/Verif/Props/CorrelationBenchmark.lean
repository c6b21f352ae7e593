import Verif.Model.CorrelationBenchmark
import Verif.Props.Printf
import Verif.Props.LineKernelShort
import Verif.Props.SeparableKernel

/-!
# The correlation benchmark (C129)
-/

namespace Litl.CorrelationBenchmark

open Spec SeparableKernel BoxIterator

/-- The raster of zeros. -/
def zeros (side : Int) : Raster Int := ⟨[side, side, side, side], List.replicate (side ^ 4).toNat 0⟩

/-- C129: with any side, the benchmark terminates and the correlation of the raster of zeros is that raster. -/
def C129_Statement : Prop := ∀ side : Int, 1 ≤ side → side ^ 4 < 2 ^ 63 → ∀ r, Main side r ↔ r = .ok (zeros side)

theorem prod_shape (side : Int) : (shape side).prod = side ^ 4 := by
  simp only [shape, List.prod_cons, List.prod_nil]
  ring

theorem pos_shape {side : Int} (h : 1 ≤ side) : Pos (shape side) := by
  intro x hx
  simp only [shape, List.mem_cons, List.not_mem_nil, or_false, or_self] at hx
  omega

theorem ofShape_zeros {side : Int} (h : 1 ≤ side) (hm : side ^ 4 < 2 ^ 63) :
    Raster.ofShape (0 : Int) (shape side) = .ok (zeros side) := by
  rw [ofShape_ok (by simp [shape]) (pos_shape h) (by rw [prod_shape]; exact hm), prod_shape]
  rfl

theorem outerSum_null : ∀ {ks : List (List Int × Int)} {p : List Int}, outerSum ks (fun _ => 0) p = 0 := by
  intro ks
  induction ks with
  | nil => intro p; cases p <;> rfl
  | cons κ ks ih =>
    intro p
    cases p with
    | nil => rfl
    | cons x p =>
      unfold outerSum
      apply List.sum_eq_zero
      intro y hy
      obtain ⟨j, -, rfl⟩ := List.mem_map.1 hy
      rw [ih, mul_zero]

theorem printable (x : Int) : Conversion.i.Accepts (Argument.ofInteger .int x) := by
  rw [Argument.ofInteger]
  exact .inl (by decide)

/-- The kernel of the program, for given kernels along axes 0 and 1. -/
theorem kernel_lookup (d a : LineKernel Int) : WellFormed ((along d [0]).combine (along a [1])) ∧
    ∀ i, ((along d [0]).combine (along a [1])).kernels.lookup i =
      if i = 0 then some d else if i = 1 then some a else none := by
  obtain ⟨h1, h2⟩ := C49_combine (C49_along d [0]).1 (C49_along a [1]).1
  refine ⟨h1, fun i => ?_⟩
  rw [h2, (C49_along d [0]).2, (C49_along a [1]).2]
  by_cases h : i = 0
  · simp [h]
  · by_cases h' : i = 1 <;> simp [h, h']

/-- What is computed if the raster is large enough along axes 0 and 1. -/
theorem correlates_zeros {side : Int} (h : 1 ≤ side) (hm : side ^ 4 < 2 ^ 63) {d a : LineKernel Int}
    (hd : (0 ≤ d.origin ∧ d.origin < d.values.length) ∧ d.values.length < 2 ^ 63 ∧
      d.values.length - 1 - d.origin + max d.origin 1 ≤ side)
    (ha : (0 ≤ a.origin ∧ a.origin < a.values.length) ∧ a.values.length < 2 ^ 63 ∧
      a.values.length - 1 - a.origin + max a.origin 1 ≤ side) (r : Res (Raster Int)) :
    ((along d [0]).combine (along a [1])).CorrelatesPrinted (Argument.ofInteger .int) (zeros side) r ↔
      r = .ok (zeros side) := by
  have h4 : 0 < side ^ 4 := by positivity
  obtain ⟨hwf, hlook⟩ := kernel_lookup d a
  have hlen : ((zeros side).data.length : Int) = (zeros side).shape.prod := by
    have := prod_shape side
    simp only [shape] at this
    simp only [zeros, List.length_replicate, this]
    omega
  obtain ⟨⟨sh, out⟩, hsh, ho, h1, h2⟩ := correlates_value (k := (along d [0]).combine (along a [1])) (input := zeros side)
    (f := fun _ => 0) hwf (by simp [combine, along]) (pos_shape h)
    (by have := prod_shape side; simp only [shape] at this; simp only [zeros, this]; exact hm)
    (by
      intro i κ hκ
      rw [hlook] at hκ
      by_cases h0 : i = 0
      · subst h0
        simp only [if_true, Option.some.injEq] at hκ
        subst hκ
        exact ⟨by simp [zeros], hd.1, hd.2.1, by simpa [zeros] using hd.2.2⟩
      · by_cases h1 : i = 1
        · subst h1
          simp only [one_ne_zero, if_false, if_true, Option.some.injEq] at hκ
          subst hκ
          exact ⟨by simp [zeros], ha.1, ha.2.1, by simpa [zeros] using ha.2.2⟩
        · simp [h0, h1] at hκ)
    hlen
    ⟨fun p hp => by
      rw [get_eq hlen hp]
      simp only [value, zeros, Except.ok.injEq]
      simp [List.getD_eq_getElem?_getD, List.getElem?_replicate]
      split <;> rfl, fun _ _ => rfl⟩
  simp only at hsh
  subst hsh
  rw [C119_separable_partial printable, h1]
  have : out = (zeros side).data := by
    refine data_ext (shape := (zeros side).shape) (pos_shape h) ho hlen fun p hp => ?_
    rw [h2 p hp, outerSum_null]
    simp only [value, zeros]
    simp [List.getD_eq_getElem?_getD, List.getElem?_replicate]
    split <;> rfl
  rw [this]

theorem main_iff {side : Int} (h : 1 ≤ side) (hm : side ^ 4 < 2 ^ 63) (r : Res (Raster Int)) :
    Main side r ↔ ∃ d a, LineKernel.Centered [1, 0, -1] d ∧ LineKernel.Centered [1, 2, 1] a ∧
      ((along d [0]).combine (along a [1])).CorrelatesPrinted (Argument.ofInteger .int) (zeros side) r := by
  unfold Main
  rw [ofShape_zeros h hm]
  constructor
  · rintro ⟨k, ⟨d, a, hd, ha, rfl⟩, hr⟩
    exact ⟨d, a, hd, ha, hr⟩
  · rintro ⟨d, a, hd, ha, hr⟩
    exact ⟨_, ⟨d, a, hd, ha, rfl⟩, hr⟩

/-- **C129**: from 3 pixels along each axis on, the benchmark terminates, whatever the origins of the kernels.
Missing: rasters with one or two pixels along each axis (`C129_one`, `C129_two`). -/
theorem C129_partial {side : Int} (h : 3 ≤ side) (hm : side ^ 4 < 2 ^ 63) (r : Res (Raster Int)) :
    Main side r ↔ r = .ok (zeros side) := by
  have hc : ∀ {l : List Int} {k : LineKernel Int}, l.length = 3 → LineKernel.Centered l k →
      (0 ≤ k.origin ∧ k.origin < k.values.length) ∧ k.values.length < 2 ^ 63 ∧
        k.values.length - 1 - k.origin + max k.origin 1 ≤ side := by
    rintro l k hl (rfl | rfl)
    · simp only [hl]
      norm_num
      omega
    · simp only [hl]
      norm_num
      omega
  rw [main_iff (by omega) hm]
  constructor
  · rintro ⟨d, a, hd, ha, hr⟩
    exact (correlates_zeros (by omega) hm (hc rfl hd) (hc rfl ha) r).1 hr
  · intro hr
    exact ⟨_, _, .inl rfl, .inl rfl, (correlates_zeros (by omega) hm (hc rfl (.inl rfl)) (hc rfl (.inl rfl)) r).2 hr⟩

/-- The default side. -/
example (r : Res (Raster Int)) : Main 100 r ↔ r = .ok (zeros 100) := C129_partial (by norm_num) (by norm_num) r

/-- **C129**: with one pixel, the behavior is undefined, whatever the origins of the kernels. -/
theorem C129_one (r : Res (Raster Int)) : Main 1 r ↔ r = .error .ub := by
  have hline : LineKernel.Line (readAt [(0 : Int)]) 0 1 1 (fun _ => 0) := by
    intro i h0 h1
    obtain rfl : i = 0 := by omega
    rfl
  have honly : LineKernel.Only (readAt [(0 : Int)]) 0 1 1 := by
    intro p hp
    have : p ≠ 0 := fun e => hp 0 le_rfl (by norm_num) (by omega)
    exact readAt_ub (by
      simp only [List.length_cons, List.length_nil]
      omega)
  have hfit : LineKernel.Fits (LineKernel.full 0 1 1) (LineKernel.full 0 1 1) [(0 : Int)] := by
    rw [LineKernel.full_eq le_rfl (by norm_num)]
    intro m hm
    simp at *
    omega
  have hz : zeros 1 = ⟨[1, 1, 1, 1], [0]⟩ := rfl
  have hvis : Visits ((zeros 1).domain.project 0) [[0, 0, 0, 0]] :=
    visits_enum (b := ⟨[0, 0, 0, 0], [0, 0, 0, 0]⟩) (by simp) (by simp)
  have hund : ∀ {l : List Int} {k : LineKernel Int}, l.length = 3 → LineKernel.Centered l k →
      LineKernel.Undefined k (readAt [(0 : Int)]) (line [1, 1, 1, 1] 0 [0, 0, 0, 0]) (line [1, 1, 1, 1] 0 [0, 0, 0, 0])
        [(0 : Int)] := by
    rintro l k hl hk
    refine (LineKernel.C47_exact_partial (k := k) (n := 1) (a := 0) (s := 1) (b := 0) (t := 1) ?_ ?_ le_rfl (by norm_num)
      hline (by decide) honly (by decide) hfit).2 ?_ <;> rcases hk with rfl | rfl <;> simp [hl]
  rw [main_iff le_rfl (by norm_num)]
  have halong : ∀ {d a : LineKernel Int}, LineKernel.Centered [1, 0, -1] d → ∀ r,
      Along ((along d [0]).combine (along a [1])).kernels 0 (zeros 1) r ↔ r = .error .ub := by
    intro d a hd r
    have hmap : mapAt ((along d [0]).combine (along a [1])).kernels 0 = .ok d := by
      unfold mapAt
      rw [(kernel_lookup d a).2]
      rfl
    have hL : ∀ r, Lines ((along d [0]).combine (along a [1])).kernels [1, 1, 1, 1] 0 [0] [[0, 0, 0, 0]] [(0 : Int)] r ↔
        r = .error .ub := by
      intro r
      constructor
      · intro h
        cases h with
        | missing h => rw [hmap] at h; cases h
        | fail h h' =>
          rw [hmap] at h
          cases h
          exact (hund rfl hd _).1 h'
        | next h h' =>
          rw [hmap] at h
          cases h
          have := (hund rfl hd _).1 h'
          cases this
      · rintro rfl
        exact .fail hmap ((hund rfl hd _).2 rfl)
    have ho : Raster.ofShape (0 : Int) (zeros 1).shape = .ok (zeros 1) := ofShape_zeros le_rfl (by norm_num)
    unfold Along
    rw [ho]
    constructor
    · rintro ⟨ps, hps, r', hr', rfl⟩
      have : ps = [[0, 0, 0, 0]] := LoopTrace.unique hps hvis
      subst this
      have := (hL r').1 hr'
      subst this
      rfl
    · rintro rfl
      exact ⟨_, hvis, _, (hL _).2 rfl, rfl⟩
  constructor
  · rintro ⟨d, a, hd, ha, hr⟩
    unfold SeparableKernel.CorrelatesPrinted at hr
    change AlongSeqPrinted _ _ [0, 1] _ _ at hr
    cases hr with
    | fail h => exact (halong hd _).1 h
    | next h => have := (halong hd _).1 h; cases this
  · rintro rfl
    exact ⟨_, _, .inl rfl, .inl rfl, .fail ((halong (.inl rfl) _).2 rfl)⟩

/-- **C129**: with two pixels along each axis, the outcome depends on the order in which the compiler evaluates the arguments of
the constructor of line kernels, see C88: either the raster of zeros, or undefined behavior. -/
theorem C129_two (r : Res (Raster Int)) : Main 2 r ↔ r = .ok (zeros 2) ∨ r = .error .ub := by
  rw [main_iff (by norm_num) (by norm_num)]
  have hmap : ∀ d a : LineKernel Int, mapAt ((along d [0]).combine (along a [1])).kernels 0 = .ok d ∧
      mapAt ((along d [0]).combine (along a [1])).kernels 1 = .ok a := by
    intro d a
    unfold mapAt
    rw [(kernel_lookup d a).2, (kernel_lookup d a).2]
    exact ⟨rfl, rfl⟩
  have hin : ((zeros 2).data.length : Int) = (zeros 2).shape.prod := by simp [zeros]
  have hprod : (zeros 2).shape.prod < 2 ^ 62 := by norm_num [zeros]
  have hpos : Pos (zeros 2).shape := pos_shape (by norm_num)
  -- The derivation
  have hfirst : ∀ (l : List Int) (a : LineKernel Int), l.length = 3 → ∀ r,
      ((along ⟨l, 0⟩ [0]).combine (along a [1])).CorrelatesPrinted (Argument.ofInteger .int) (zeros 2) r ↔ r = .error .ub := by
    intro l a hl r
    rw [C119_separable_partial printable]
    exact C49_short (κ := ⟨l, 0⟩) (axes := [1]) rfl hpos hprod (by simp [zeros]) (hmap _ a).1 (by simp [hl])
      (by simp [hl]) (by simp [hl, zeros]) hin r
  -- The averaging
  have hsecond : ∀ r, ((along ⟨[1, 0, -1], 1⟩ [0]).combine (along ⟨[1, 2, 1], 0⟩ [1])).CorrelatesPrinted
      (Argument.ofInteger .int) (zeros 2) r ↔ r = .error .ub := by
    intro r
    rw [C119_separable_partial printable]
    obtain ⟨⟨sh, tmp⟩, h1, h2, h3, -⟩ := along_spec (input := zeros 2) hpos (by omega) (by simp [zeros])
      (hmap ⟨[1, 0, -1], 1⟩ ⟨[1, 2, 1], 0⟩).1 ⟨by decide, by norm_num, by simp [zeros]⟩ hin
    simp only at h1
    subst h1
    have h4 := C49_pass_short (input := ⟨(zeros 2).shape, tmp⟩) hpos hprod (by simp [zeros])
      (hmap ⟨[1, 0, -1], 1⟩ ⟨[1, 2, 1], 0⟩).2 (by decide) (by norm_num) (by simp [zeros]) h2
    have h5 : ∀ r, AlongSeq ((along ⟨[1, 0, -1], 1⟩ [0]).combine (along ⟨[1, 2, 1], 0⟩ [1])).kernels [1]
        ⟨(zeros 2).shape, tmp⟩ r ↔ r = .error .ub := by
      intro r
      constructor
      · intro h
        cases h with
        | fail h => exact (h4 _).1 h
        | next h => have := (h4 _).1 h; cases this
      · rintro rfl
        exact .fail ((h4 _).2 rfl)
    change AlongSeq _ [0, 1] _ _ ↔ _
    constructor
    · intro h
      cases h with
      | fail h => have := (h3 _).1 h; cases this
      | next h h' =>
        have := (h3 _).1 h
        cases this
        rw [(h5 _).1 h']
        rfl
    · rintro rfl
      exact .next ((h3 _).2 rfl) ((h5 _).2 rfl)
  have hok := correlates_zeros (side := 2) (d := ⟨[1, 0, -1], 1⟩) (a := ⟨[1, 2, 1], 1⟩) (by norm_num) (by norm_num)
    (by simp) (by simp) r
  constructor
  · rintro ⟨d, a, hd, ha, hr⟩
    rcases hd with rfl | rfl
    · rcases ha with rfl | rfl
      · exact .inl (hok.1 hr)
      · exact .inr ((hsecond r).1 hr)
    · exact .inr ((hfirst _ a rfl r).1 hr)
  · rintro (h | h)
    · exact ⟨_, _, .inl rfl, .inl rfl, hok.2 h⟩
    · exact ⟨_, _, .inr rfl, .inl rfl, (hfirst _ _ rfl r).2 h⟩

/-- **C129**: a raster which is too large for the memory is an exception (the overflow of the size itself being that of C79). -/
theorem C129_large {side : Int} (hm : 2 ^ 63 ≤ side ^ 4) (hm' : side ^ 4 < 2 ^ 64) (r : Res (Raster Int)) :
    Main side r ↔ r = .error .stdError := by
  have h : Raster.ofShape (0 : Int) (shape side) = .error .stdError := by
    unfold Raster.ofShape
    rw [shapeSize_eq (by simp [shape]), prod_shape, u64_id (by omega) (by omega)]
    exact if_pos hm
  unfold Main
  rw [h]

example (r : Res (Raster Int)) : Main 60000 r ↔ r = .error .stdError := C129_large (by norm_num) (by norm_num) r

/-- **C129** does not hold. -/
theorem C129_violated : ¬ C129_Statement := by
  intro h
  have := (h 1 le_rfl (by norm_num) (.error .ub)).1 ((C129_one _).2 rfl)
  cases this

end Litl.CorrelationBenchmark
