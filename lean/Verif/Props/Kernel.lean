import Verif.Lemmas.Kernel
import Verif.Props.Interpolation

/-!
# Correlation by an ND kernel (C45)
-/

namespace Litl

open Spec
open Container (ok_bind)

variable {α : Type}

namespace Kernel

/-- `o` is the one and only outcome of the correlation: it terminates, nothing is accessed out of bounds. -/
def Returns [Zero α] [Add α] [Mul α] (k : Kernel α) (input : Raster α) (extrapolator : Position → Res α) (out o : List α) : Prop :=
  ∀ res, Correlates k input extrapolator out res ↔ res = .ok o

variable [Semiring α]

/-- No extrapolation is needed at `p`: the window centered at `p` is in the domain. -/
def Inside (k : Kernel α) (shape p : Position) : Prop :=
  ∀ j, InBox k.window.front k.window.back j → InShape shape (List.zipWith (· + ·) p j)

/-- The pixel at `p` is the correlation. -/
def Correct (k : Kernel α) (shape : Position) (F : Position → α) (o : List α) (p : Position) : Prop :=
  ∃ x, o[(offset shape p).toNat]? = some x ∧ IsCorrelation k.values k.window.front k.window.back F p x

/-- `p` is the first pixel which does not need extrapolation in its row, and there is such a row before. -/
def RowStart (k : Kernel α) (p : Position) : Prop :=
  p.getD 0 0 = - k.window.front.getD 0 0 ∧ p ≠ k.window.front.map fun x => -x

/-- The window is that of a 1D or 2D kernel: a single position along the other axes. -/
def Flat (k : Kernel α) : Prop := k.window.front.drop 2 = k.window.back.drop 2

/-- **C45**, in full: whatever the dimension, shape, kernel, and origin in the window, with a total extrapolator.
`F` is the extrapolated raster. -/
def C45_Statement : Prop :=
  ∀ (k : Kernel Int) (input : Raster Int) (extrapolator : Position → Res Int) (F : Position → Int) (out : List Int),
    Suitable k input extrapolator F out → OriginInside k →
    ∃ o, Correlates k input extrapolator out (.ok o) ∧
      ∀ p, InShape input.shape p → Correct k input.shape F o p

omit [Semiring α] in
theorem inside_iff {k : Kernel α} {input : Raster α} {p : Position}
    (hfl : k.window.front.length = input.shape.length) (hbl : k.window.back.length = input.shape.length)
    (hle : List.Forall₂ (· ≤ ·) k.window.front k.window.back) (hp : p.length = input.shape.length) :
    Inside k input.shape p ↔
      InBox (input.domain.shrink k.window).front (input.domain.shrink k.window).back p := by
  constructor
  · intro h
    have h0 := forall₂_iff_getD.1 hle
    have h1 := forall₂_iff_getD.1 (h k.window.front ⟨forall₂_iff_getD.2 ⟨rfl, fun _ _ => le_rfl⟩, hle⟩)
    have h2 := forall₂_iff_getD.1 (h k.window.back ⟨hle, forall₂_iff_getD.2 ⟨rfl, fun _ _ => le_rfl⟩⟩)
    refine (mem_inner hfl hbl).2 ⟨hp, fun i hi => ?_⟩
    have h3 := h1.2 i (by simpa [hp, hfl] using hi)
    have h4 := h2.2 i (by simpa [hp, hbl] using hi)
    have e1 := getD_add (u := p) (v := k.window.front) (i := i) (by omega)
    have e2 := getD_add (u := p) (v := k.window.back) (i := i) (by omega)
    unfold Position.add at e1 e2
    rw [e1] at h3
    rw [e2] at h4
    omega
  · intro h j hj
    obtain ⟨h1, h2⟩ := inner_inShape hfl hbl h hle
    exact inShape_add h1 h2 hp hfl hbl hj

omit [Semiring α] in
theorem inner_front {k : Kernel α} {input : Raster α} (hfl : k.window.front.length = input.shape.length) :
    (input.domain.shrink k.window).front = k.window.front.map fun x => -x := by
  have hdom : input.domain = Raster.domainOf input.shape.length input.shape := rfl
  rw [hdom, domainOf_fixed]
  apply List.ext_getElem
  · simp [Box.shrink, Position.sub, hfl]
  · intro i h1 h2
    simp [Box.shrink, Position.sub]

theorem correct_corr {k : Kernel α} {shape : Position} {F : Position → α} {o : List α} {p : Position}
    (hl : k.window.front.length = k.window.back.length) (hp : InShape shape p)
    (h : o[(index shape p).toNat]? = some (corr k F p)) : Correct k shape F o p := by
  refine ⟨_, by rw [← index_eq_offset hp.length_eq]; exact h, isCorrelation_enum hl rfl⟩

/-- Where extrapolation is needed, the output is the correlation, whatever the dimension.
Missing: the other pixels. -/
theorem C45_edges_partial {k : Kernel α} {input : Raster α} {extrapolator : Position → Res α} {F : Position → α}
    {out : List α} (h : Suitable k input extrapolator F out) (ho : OriginInside k)
    (hw : WindowFits k input.shape) :
    ∃ o, Returns k input extrapolator out o ∧ o.length = out.length ∧
      ∀ p, InShape input.shape p → ¬ Inside k input.shape p → Correct k input.shape F o p := by
  obtain ⟨o, h1, h2, h3, _⟩ := correlates_spec h ho hw
  refine ⟨o, h1, h2, fun p hp hnot => correct_corr h.nonempty.length_eq hp (h3 p hp fun hi => hnot ?_)⟩
  exact (inside_iff h.front_length h.back_length h.nonempty hp.length_eq).2 hi

/-- Where no extrapolation is needed, and except for row starts, the output is the weighted sum of as many pixels as
kernel values: those of the first `window.length(0)` pixels of consecutive rows of the data, starting at the front of
the window.  For deep kernels (3D and more), these are not all in the window. -/
theorem C45_exact {k : Kernel α} {input : Raster α} {extrapolator : Position → Res α} {F : Position → α}
    {out : List α} (h : Suitable k input extrapolator F out) (ho : OriginInside k)
    (hw : WindowFits k input.shape) :
    ∃ o, Returns k input extrapolator out o ∧ ∀ p, Inside k input.shape p → InShape input.shape p → ¬ RowStart k p →
      o[(offset input.shape p).toNat]? = some
        ((List.range (enum k.window.front.tail k.window.back.tail).length).map fun j : Nat =>
          ((List.range (k.window.back.getD 0 0 - k.window.front.getD 0 0 + 1).toNat).map fun i : Nat =>
            k.values.getD (j * (k.window.back.getD 0 0 - k.window.front.getD 0 0 + 1).toNat + i) 0 *
            input.data.getD (offset input.shape p + offset input.shape k.window.front +
              j * input.shape.getD 0 0 + i).toNat 0).sum).sum := by
  obtain ⟨o, h1, h2, _, h4, _⟩ := correlates_spec h ho hw
  refine ⟨o, h1, fun p hin hp hnot => ?_⟩
  have hpos : 0 < k.window.front.length := by
    have := h.front_length
    have : input.shape.length ≠ 0 := by simpa using h.dim
    omega
  have e0 : k.window.shape.getD 0 0 = k.window.back.getD 0 0 - k.window.front.getD 0 0 + 1 := by
    have hl := h.nonempty.length_eq
    unfold Box.shape
    rw [getD_addScalar (by rw [length_sub (by omega)]; omega), getD_sub (by omega)]
  have := h4 p ((inside_iff h.front_length h.back_length h.nonempty hp.length_eq).1 hin) (by
    rw [inner_front h.front_length]
    intro e
    by_contra hne
    refine hnot ⟨?_, hne⟩
    rw [e]
    simp [List.getD_eq_getElem?_getD, hpos])
  rw [e0, index_eq_offset hp.length_eq, index_eq_offset h.front_length] at this
  exact this

/-- For 1D and 2D kernels (on rasters of any dimension), the output is the correlation except for row starts: the first
pixel which does not need extrapolation in each row but the first one.
Missing: row starts, see `C45_row_start`, and kernels which are neither 1D nor 2D, see `C45_exact`. -/
theorem C45_flat_partial {k : Kernel α} {input : Raster α} {extrapolator : Position → Res α} {F : Position → α}
    {out : List α} (h : Suitable k input extrapolator F out) (ho : OriginInside k)
    (hw : WindowFits k input.shape) (hflat : Flat k) :
    ∃ o, Returns k input extrapolator out o ∧ o.length = out.length ∧
      ∀ p, InShape input.shape p → ¬ (Inside k input.shape p ∧ RowStart k p) → Correct k input.shape F o p := by
  obtain ⟨o, h1, h2, h3, h4, _⟩ := correlates_spec h ho hw
  refine ⟨o, h1, h2, fun p hp hnot => ?_⟩
  by_cases hin : Inside k input.shape p
  · have hin' := (inside_iff h.front_length h.back_length h.nonempty hp.length_eq).1 hin
    have hpos : 0 < k.window.front.length := by
      have := h.front_length
      have : input.shape.length ≠ 0 := by simpa using h.dim
      omega
    have hx := h4 p hin' (by
      rw [inner_front h.front_length]
      intro e
      by_contra hne
      refine hnot ⟨hin, ?_, hne⟩
      rw [e]
      simp [List.getD_eq_getElem?_getD, hpos])
    rw [index_eq_offset hp.length_eq] at hx
    refine ⟨_, hx, ?_⟩
    have hc := rowsContiguous_of_flat h.nonempty.length_eq h.front_length hflat
    have hF := getD_of_inside h.inside
    obtain ⟨hf, hb⟩ := inner_inShape h.front_length h.back_length hin' h.nonempty
    have hle := h.nonempty
    have hfl := h.front_length
    have hdim := h.dim
    have hpl := hp.length_eq
    have hpo := index_eq_offset hp.length_eq
    revert hc hF hf hb hle hfl hdim hpl hpo
    rcases k with ⟨values, ⟨f, b⟩⟩
    rcases input with ⟨s, data⟩
    simp only [Box.shape]
    intro hc hF hf hb hle hfl hdim hpl hpo
    rw [← hpo]
    rcases s with _ | ⟨s0, ss⟩
    · exact absurd rfl hdim
    rcases f with _ | ⟨f0, fs⟩
    · simp at hfl
    rcases b with _ | ⟨b0, bs⟩
    · cases hle
    rcases p with _ | ⟨x, q⟩
    · simp at hpl
    exact rawSum_correlation hle hf hb (by simpa using hpl) (by simpa using hfl) hF hc
  · exact correct_corr h.nonempty.length_eq hp
      (h3 p hp fun hi => hin ((inside_iff h.front_length h.back_length h.nonempty hp.length_eq).2 hi))

/-- In 1D, the output is the correlation.  Missing: other dimensions; kernels which do not fit, see
`C45_1d_iff` in Verif/Props/KernelLarge.lean. -/
theorem C45_1d_partial {k : Kernel α} {input : Raster α} {extrapolator : Position → Res α} {F : Position → α}
    {out : List α} (h : Suitable k input extrapolator F out) (ho : OriginInside k)
    (hw : WindowFits k input.shape) (hd : input.shape.length = 1) :
    ∃ o, Returns k input extrapolator out o ∧ o.length = out.length ∧
      ∀ p, InShape input.shape p → Correct k input.shape F o p := by
  have hfl := h.front_length
  have hbl := h.back_length
  obtain ⟨o, h1, h2, h3⟩ := C45_flat_partial h ho hw (by
    unfold Flat
    rw [List.drop_eq_nil_of_le (by omega), List.drop_eq_nil_of_le (by omega)])
  refine ⟨o, h1, h2, fun p hp => h3 p hp ?_⟩
  rintro ⟨_, e, hne⟩
  refine hne ?_
  obtain ⟨x, hx⟩ := List.length_eq_one_iff.1 (hp.length_eq.trans hd)
  obtain ⟨y, hy⟩ := List.length_eq_one_iff.1 (hfl.trans hd)
  rw [hx, hy] at e ⊢
  simpa using e

theorem enum_line (a b : Int) : enum [a] [b] = (ints a b).map fun y => [y] := by
  simp [enum]

theorem enum_column (x a b : Int) : enum [x, a] [x, b] = (ints a b).map fun y => [x, y] := by
  have hx : ints x x = [x] := by simp [ints]
  rw [show enum [x, a] [x, b] = (enum [a] [b]).flatMap fun q => (ints x x).map (· :: q) from rfl, enum_line, hx]
  induction ints a b with
  | nil => rfl
  | cons c l ih =>
    rw [List.map_cons, List.flatMap_cons, ih]
    rfl

/-- In 2D, at row starts, the output is the sum of the same products, but of the pixels which are `window.length(0) - 1`
before in the data, which are those of the previous row. -/
theorem C45_row_start_2d {k : Kernel α} {input : Raster α} {extrapolator : Position → Res α} {F : Position → α}
    {out : List α} (h : Suitable k input extrapolator F out) (ho : OriginInside k)
    (hw : WindowFits k input.shape) {f0 f1 b0 b1 w h' : Int} (hwin : k.window = ⟨[f0, f1], [b0, b1]⟩)
    (hs : input.shape = [w, h']) :
    ∃ o, Returns k input extrapolator out o ∧
      ∀ y, Inside k input.shape [-f0, y] → -f1 < y →
      o[(offset input.shape [-f0, y]).toNat]? = some
        ((List.range (b1 - f1 + 1).toNat).map fun j : Nat =>
          ((List.range (b0 - f0 + 1).toNat).map fun i : Nat =>
            k.values.getD (j * (b0 - f0 + 1).toNat + i) 0 *
            input.data.getD ((y + f1 + j) * w + i - (b0 - f0)).toNat 0).sum).sum := by
  obtain ⟨o, h1, _, _, _, h5⟩ := correlates_spec h ho hw
  refine ⟨o, h1, fun y hin hy => ?_⟩
  have hin' := (inside_iff h.front_length h.back_length h.nonempty (by simp [hs])).1 hin
  have hmem := (mem_inner (p := [-f0, y]) h.front_length h.back_length).1 hin'
  have hdom : input.domain = Raster.domainOf input.shape.length input.shape := rfl
  rw [hdom, domainOf_fixed, hwin, hs] at h5
  rw [hwin, hs] at hmem
  have hm0 := hmem.2 0 (by simp)
  have hm1 := hmem.2 1 (by simp)
  simp only [List.getD_cons_zero, List.getD_cons_succ] at hm0 hm1
  simp only [Box.shrink, Box.project, Box.shape, Position.sub, Position.addScalar, List.length_cons, List.length_nil,
    List.replicate, List.zipWith_cons_cons, List.zipWith_nil_left, List.map_cons, List.map_nil, List.getD_cons_zero,
    List.set_cons_zero, List.tail_cons] at h5
  rw [enum_column, enum_line] at h5
  have hget : ∀ i : Nat, (i : Int) < h' - b1 + f1 →
      ((ints (0 - f1) (h' - 1 - b1)).map fun y => [0 - f0, y])[i]? = some [0 - f0, 0 - f1 + i] := by
    intro i hi
    rw [ints_eq_map, List.map_map, List.getElem?_map, List.getElem?_range (by omega)]
    rfl
  have key := h5 _ _ (y + f1 - 1).toNat (hget _ (by omega)) (hget _ (by omega)) (by
    refine ⟨.cons (by omega) (.cons (by omega) .nil), .cons (by omega) (.cons (by omega) .nil)⟩)
  rw [show (0 : Int) - f0 = -f0 by omega, show (0 : Int) - f1 + ((y + f1 - 1).toNat + 1 : Nat) = y by omega,
    show (0 : Int) - f1 + ((y + f1 - 1).toNat : Nat) = y - 1 by omega] at key
  rw [hs, ← index_eq_offset (s := [w, h']) (p := [-f0, y]) rfl, key]
  have hlen : (List.map (fun y => [y]) (ints f1 b1)).length = (b1 - f1 + 1).toNat := by
    rw [ints_eq_map]; simp
  rw [hlen]
  unfold rawSum
  congr 4
  funext j
  congr 3
  funext i
  congr 2
  simp only [index]
  ring_nf

/-- In 2D, the output of kernels of width 1 is the correlation.  Missing: other kernels. -/
theorem C45_column_partial {k : Kernel α} {input : Raster α} {extrapolator : Position → Res α} {F : Position → α}
    {out : List α} (h : Suitable k input extrapolator F out) (ho : OriginInside k)
    (hw : WindowFits k input.shape) {f1 b1 w h' : Int} (hwin : k.window = ⟨[0, f1], [0, b1]⟩)
    (hs : input.shape = [w, h']) :
    ∃ o, Returns k input extrapolator out o ∧ o.length = out.length ∧
      ∀ p, InShape input.shape p → Correct k input.shape F o p := by
  obtain ⟨o, h1, h2, h3⟩ := C45_flat_partial h ho hw (by simp [Flat, hwin])
  obtain ⟨o', h1', h4⟩ := C45_row_start_2d h ho hw hwin hs
  have e : o' = o := by
    have := (h1 _).1 ((h1' _).2 rfl)
    simpa using this
  subst e
  refine ⟨o', h1, h2, fun p hp => ?_⟩
  by_cases hst : Inside k input.shape p ∧ RowStart k p
  swap
  · exact h3 p hp hst
  obtain ⟨hin, e0, hne⟩ := hst
  have hpl := hp.length_eq
  rw [hs] at hpl
  obtain ⟨x, y, rfl⟩ : ∃ x y, p = [x, y] := List.length_eq_two.1 hpl
  rw [hwin] at e0 hne
  simp only [List.getD_cons_zero, List.map_cons, List.map_nil] at e0 hne
  subst e0
  have hin' := (inside_iff h.front_length h.back_length h.nonempty hp.length_eq).1 hin
  have hmem := (mem_inner (p := [-0, y]) h.front_length h.back_length).1 hin'
  rw [hwin, hs] at hmem
  have hm1 := hmem.2 1 (by simp)
  simp only [List.getD_cons_zero, List.getD_cons_succ] at hm1
  have hy : -f1 < y := by
    have : y ≠ -f1 := fun e => hne (by rw [e])
    omega
  refine ⟨_, h4 y hin hy, ?_⟩
  obtain ⟨hf, hb⟩ := inner_inShape h.front_length h.back_length hin' h.nonempty
  have hc := rowsContiguous_of_flat (s := input.shape) h.nonempty.length_eq h.front_length (by simp [hwin])
  have hF := getD_of_inside h.inside
  have hle := h.nonempty
  rw [hwin, hs] at hf hb hc
  rw [hs] at hF
  rw [hwin] at hle ⊢
  have key := rawSum_correlation (values := k.values) hle hf hb rfl rfl hF hc
  convert key using 1
  have hlen : (enum [f1] [b1]).length = (b1 - f1 + 1).toNat := by
    rw [enum_line, ints_eq_map]; simp
  rw [hlen]
  unfold rawSum
  congr 3
  funext j
  congr 3
  funext i
  congr 2
  simp only [index]
  ring_nf

/-- The loop of `correlateWithoutExtrapolation` does not end when the kernel is too large: when along some axis but the
first one, it is at least two pixels longer than the raster, unless it is exactly one pixel longer along some axis. -/
theorem C45_too_large {k : Kernel α} {input : Raster α} {extrapolator : Position → Res α} {out : List α}
    (hfl : k.window.front.length = input.shape.length) (hbl : k.window.back.length = input.shape.length)
    (hne : ∀ i, i < input.shape.length →
      k.window.back.getD i 0 - k.window.front.getD i 0 ≠ input.shape.getD i 0)
    {i : Nat} (hi0 : 0 < i) (hi : i < input.shape.length)
    (hlt : input.shape.getD i 0 < k.window.back.getD i 0 - k.window.front.getD i 0) :
    ¬ ∃ res, Correlates k input extrapolator out res := by
  have hdom : input.domain = Raster.domainOf input.shape.length input.shape := rfl
  have hg : ∀ j, j < input.shape.length →
      (input.domain.shrink k.window).front.getD j 0 = - k.window.front.getD j 0 ∧
      (input.domain.shrink k.window).back.getD j 0 = input.shape.getD j 0 - 1 - k.window.back.getD j 0 := by
    intro j hj
    simp only [Box.shrink, hdom, domainOf_fixed]
    rw [getD_sub (by simp [hfl]), getD_sub (by simp [hbl])]
    simp [List.getD_eq_getElem?_getD, hj]
  have hif : (input.domain.shrink k.window).front.length = input.shape.length := by
    simp [Box.shrink, hdom, domainOf_fixed, Position.sub, hfl]
  have hib : (input.domain.shrink k.window).back.length = input.shape.length := by
    simp [Box.shrink, hdom, domainOf_fixed, Position.sub, hbl]
  have hsize : (input.domain.shrink k.window).size ≠ 0 := by
    have hne' : (input.domain.shrink k.window).front ≠ [] := by
      intro e; rw [e] at hif; simp at hif; omega
    rw [Box.size, shapeSize_eq (Box.shape_ne_nil (by omega) hne')]
    intro h0
    obtain ⟨j, hj, e⟩ := List.mem_iff_getElem.1 (List.prod_eq_zero_iff.1 h0)
    have hj' : j < input.shape.length := by
      simp [Box.shape, Position.sub, Position.addScalar, hif, hib] at hj
      exact hj
    have h1 : (Box.shape (input.domain.shrink k.window)).getD j 0 = 0 := by
      simp [List.getD_eq_getElem?_getD, hj, e]
    unfold Box.shape at h1
    rw [getD_addScalar (by rw [length_sub (by omega)]; omega), getD_sub (by omega), (hg j hj').1, (hg j hj').2] at h1
    exact hne j hj' (by omega)
  have hinner : ∀ res, ¬ Inner k input (input.domain.shrink k.window) out res := by
    rintro res (⟨h0, _⟩ | ⟨_, rows, hr, _⟩)
    · exact hsize h0
    · refine BoxIterator.no_trace_of_empty (b := (input.domain.shrink k.window).project 0) ?_ ?_ ?_ hr
      · intro e
        simp only [Box.project] at e
        rw [e] at hif
        simp at hif
        omega
      · intro hle
        have h1 := (forall₂_iff_getD.1 hle).2 i (by simp only [Box.project]; omega)
        simp only [Box.project] at h1
        have e : ((input.domain.shrink k.window).back.set 0 ((input.domain.shrink k.window).front.getD 0 0)).getD i 0 =
            (input.domain.shrink k.window).back.getD i 0 := by
          simp only [List.getD_eq_getElem?_getD, List.getElem?_set_ne (show 0 ≠ i by omega)]
        rw [e, (hg i hi).1, (hg i hi).2] at h1
        omega
      · exact forall₂_iff_getD.2 ⟨rfl, fun _ _ => le_rfl⟩
  rintro ⟨res, ⟨e, he, _⟩ | ⟨o, he, _⟩⟩
  · exact hinner _ he
  · exact hinner _ he

/-- Whatever the extrapolation method, provided that it is that of the raster in the domain and that it is total. -/
theorem suitable_of {k : Kernel α} {input : Raster α} {extrapolator : Position → Res α} {out : List α}
    (dim : input.shape ≠ []) (pos : Pos input.shape) (hfl : k.window.front.length = input.shape.length)
    (hle : List.Forall₂ (· ≤ ·) k.window.front k.window.back)
    (hv : (k.values.length : Int) = pixelCount k.window.shape)
    (hd : (input.data.length : Int) = pixelCount input.shape) (ho : (out.length : Int) = pixelCount input.shape)
    (hin : ∀ q, InShape input.shape q → extrapolator q = input.get q)
    (htot : ∀ q, q.length = input.shape.length → ∃ v, extrapolator q = .ok v) :
    Suitable k input extrapolator (fun q => (extrapolator q).toOption.getD 0) out := by
  have hx : ∀ q, q.length = input.shape.length → extrapolator q = .ok ((extrapolator q).toOption.getD 0) := by
    intro q hq
    obtain ⟨v, hv⟩ := htot q hq
    rw [hv]
    rfl
  exact ⟨dim, pos, hfl, hle.length_eq ▸ hfl, hle, hv, hd, ho, fun q hq => by rw [← hin q hq]; exact hx q hq.length_eq,
    hx⟩

/-- The extrapolation methods of the library meet the hypotheses of the theorems above. -/
theorem C45_extrapolation_methods {k : Kernel α} {input : Raster α} {out : List α} (c : α)
    (dim : input.shape ≠ []) (pos : Pos input.shape) (hfl : k.window.front.length = input.shape.length)
    (hle : List.Forall₂ (· ≤ ·) k.window.front k.window.back)
    (hv : (k.values.length : Int) = pixelCount k.window.shape)
    (hd : (input.data.length : Int) = pixelCount input.shape) (ho : (out.length : Int) = pixelCount input.shape) :
    Suitable k input (constantAt c input) (fun q => (constantAt c input q).toOption.getD 0) out ∧
    Suitable k input (nearestAt input) (fun q => (nearestAt input q).toOption.getD 0) out ∧
    Suitable k input (periodicAt input) (fun q => (periodicAt input q).toOption.getD 0) out := by
  refine ⟨suitable_of dim pos hfl hle hv hd ho ?_ ?_, suitable_of dim pos hfl hle hv hd ho ?_ ?_,
    suitable_of dim pos hfl hle hv hd ho ?_ ?_⟩
  · exact fun q hq => (C41_constant c input q hq.length_eq).1 hq
  · exact fun q hq => C41_constant_defined c input q hd hq
  · intro q hq
    obtain ⟨q', v, _, h2, _, h4, _⟩ := C41_nearest input q hd pos hq.length_eq
    rw [h2, h4 hq]
  · intro q hq
    obtain ⟨q', v, _, h2, h3, _⟩ := C41_nearest input q hd pos hq
    exact ⟨v, h2.trans h3⟩
  · intro q hq
    obtain ⟨q', v, _, h2, _, h4, _⟩ := C41_periodic input q hd pos hq.length_eq
    rw [h2, h4 hq]
  · intro q hq
    obtain ⟨q', v, _, h2, h3, _⟩ := C41_periodic input q hd pos hq
    exact ⟨v, h2.trans h3⟩

omit [Semiring α] in
theorem write_overrun {ι : Type _} {idx : ι → Int} {c : ι → α} {step : List α → ι → Res (List α)} (l : List ι)
    (hstep : ∀ o, ∀ x ∈ l, step o x = writeAt o (idx x) (c x)) (out : List α)
    (hl : ∃ x ∈ l, (out.length : Int) ≤ idx x) : l.foldlM step out = .error .ub := by
  induction l generalizing out with
  | nil => simp at hl
  | cons x l ih =>
    rw [List.foldlM_cons, hstep out x (by simp)]
    unfold writeAt
    split
    · rfl
    · split
      · rename_i h1 h2
        rw [ok_bind]
        refine ih (fun o y hy => hstep o y (by simp [hy])) _ ?_
        obtain ⟨y, hy, hle⟩ := hl
        rcases List.mem_cons.1 hy with rfl | hy
        · omega
        · exact ⟨y, hy, by simpa using hle⟩
      · rfl

/-- In 1D, the output is accessed out of bounds when the kernel is too large: longer than the raster by two pixels, with
an origin which is farther than the length of the raster. -/
theorem C45_1d_overrun {k : Kernel α} {input : Raster α} {extrapolator : Position → Res α} {F : Position → α}
    {out : List α} (h : Suitable k input extrapolator F out) {f b n : Int} (hwin : k.window = ⟨[f], [b]⟩)
    (hs : input.shape = [n]) (hlarge : n < b - f) (horigin : n < -f) (res : Res (List α)) :
    Correlates k input extrapolator out res ↔ res = .error .ub := by
  have hn : 0 < n := h.pos n (by simp [hs])
  have hdom : input.domain = Raster.domainOf input.shape.length input.shape := rfl
  have hinner : input.domain.shrink k.window = ⟨[-f], [n - 1 - b]⟩ := by
    rw [hdom, domainOf_fixed, hs, hwin]
    simp [Box.shrink, Position.sub]
  have hsur : (Box.surround ⟨[-f], [n - 1 - b]⟩ k.window) = ⟨[0], [-f - 1]⟩ ::
      (if 0 < b then [⟨[n - b], [n - 1]⟩] else []) := by
    rw [hwin]
    simp [Box.surround, Box.dimension, Box.surroundStep, show f < 0 by omega]
    split <;> simp
    omega
  have hI : ∀ r, Inner k input ⟨[-f], [n - 1 - b]⟩ out r ↔ r = .ok out := by
    intro r
    have hsize : (Box.mk [-f] [n - 1 - b]).size ≠ 0 := by
      rw [Box.size, shapeSize_eq (by simp [Box.shape, Position.sub, Position.addScalar])]
      simp only [Box.shape, Position.sub, Position.addScalar, List.zipWith_cons_cons, List.zipWith_nil_left,
        List.map_cons, List.map_nil, List.prod_cons, List.prod_nil]
      omega
    have hv : BoxIterator.Visits ((Box.mk [-f] [n - 1 - b]).project 0) [[-f]] := by
      have := BoxIterator.visits_enum (b := (Box.mk [-f] [n - 1 - b]).project 0) (by simp [Box.project])
        (by simp [Box.project])
      simpa [Box.project, enum_line, ints] using this
    have hr : innerRows k input ⟨[-f], [n - 1 - b]⟩ [[-f]] out = .ok out := by
      have h0 : (n - 1 - b + f + 1).toNat = 0 := by omega
      simp [innerRows, Box.shape, Position.sub, Position.addScalar, hwin, rowStep, h0,
        show ¬ (b - f + 1 = 0) by omega]
      rfl
    unfold Inner
    constructor
    · rintro (⟨h0, _⟩ | ⟨_, l, hl, rfl⟩)
      · exact absurd h0 hsize
      · rw [LoopTrace.unique hl hv]
        exact hr
    · rintro rfl
      exact .inr ⟨hsize, _, hv, hr.symm⟩
  have hO : ∀ r, Outer k extrapolator input.shape ⟨[0], [-f - 1]⟩ out r ↔ r = .error .ub := by
    intro r
    have hsize : (Box.mk [0] [-f - 1]).size ≠ 0 := by
      rw [Box.size, shapeSize_eq (by simp [Box.shape, Position.sub, Position.addScalar])]
      simp only [Box.shape, Position.sub, Position.addScalar, List.zipWith_cons_cons, List.zipWith_nil_left,
        List.map_cons, List.map_nil, List.prod_cons, List.prod_nil]
      omega
    have hle : List.Forall₂ (· ≤ ·) (Box.mk [0] [-f - 1]).front (Box.mk [0] [-f - 1]).back :=
      .cons (by omega) .nil
    have hv := BoxIterator.visits_enum (b := ⟨[0], [-f - 1]⟩) (by simp) hle
    have hmem : ∀ p ∈ enum [0] [-f - 1], p.length = input.shape.length := fun p hp => by
      rw [enum_length_of_mem (f := [0]) (b := [-f - 1]) rfl hp, hs]
      rfl
    have hws : List.Forall₂ (fun p w => BoxIterator.Visits (k.window.shift p) w) (enum [0] [-f - 1])
        ((enum [0] [-f - 1]).map fun p => enum (k.window.shift p).front (k.window.shift p).back) := by
      rw [List.forall₂_map_right_iff, List.forall₂_same]
      intro p hp
      obtain ⟨x, rfl⟩ := List.length_eq_one_iff.1 ((hmem p hp).trans (by rw [hs]; rfl))
      refine BoxIterator.visits_enum ?_ ?_
      · simp [hwin, Box.shift, Position.add]
      · rw [hwin]
        exact .cons (by simp only; omega) .nil
    have hzip : (enum [0] [-f - 1]).zip
        ((enum [0] [-f - 1]).map fun p => enum (k.window.shift p).front (k.window.shift p).back) =
        (enum [0] [-f - 1]).map fun p => (p, enum (k.window.shift p).front (k.window.shift p).back) := by
      generalize enum [0] [-f - 1] = l
      induction l with
      | nil => rfl
      | cons a l ih => simp [ih]
    have hres : ((enum [0] [-f - 1]).zip ((enum [0] [-f - 1]).map fun p =>
        enum (k.window.shift p).front (k.window.shift p).back)).foldlM (outerStep k extrapolator input.shape) out =
        .error .ub := by
      rw [hzip]
      refine write_overrun (idx := fun pw => index input.shape pw.1) (c := fun pw => corrFold k F pw.1) _ ?_ _ ?_
      · intro o pw hpw
        obtain ⟨p, hp, rfl⟩ := List.mem_map.1 hpw
        exact outerStep_eq h.prepared o p (hmem p hp)
      · refine ⟨_, List.mem_map.2 ⟨[n], (mem_enum (f := [0]) (b := [-f - 1]) rfl).2 ⟨.cons (by omega) .nil, .cons (by omega) .nil⟩, rfl⟩, ?_⟩
        have := h.out
        rw [hs] at this ⊢
        simp [pixelCount] at this
        simp [index, this]
    unfold Outer
    constructor
    · rintro (⟨h0, _⟩ | ⟨_, l, ws, g1, g2, rfl⟩)
      · exact absurd h0 hsize
      · have e1 := LoopTrace.unique g1 hv
        subst e1
        have e2 := forall₂_visits_unique g2 hws
        subst e2
        exact hres
    · rintro rfl
      exact .inr ⟨hsize, _, _, hv, hws, hres.symm⟩
  unfold Correlates
  simp only [hinner, hsur, hI]
  constructor
  · rintro (⟨e, he, rfl⟩ | ⟨o, he, hr⟩)
    · simp at he
    · simp only [Except.ok.injEq] at he
      subst he
      cases hr with
      | fail hf => exact (hO _).1 hf
      | next hf _ =>
        have := (hO _).1 hf
        simp at this
  · rintro rfl
    exact .inr ⟨out, rfl, .fail ((hO _).2 rfl)⟩

/-- The first pixel which does not need extrapolation in the second row is wrong, here for a kernel of two values. -/
theorem C45_violated : ¬ C45_Statement := by
  intro h
  have hS : Suitable (α := Int) ⟨[1, 1], ⟨[0, 0], [1, 0]⟩⟩ ⟨[2, 2], [0, 1, 2, 3]⟩ (constantAt 0 ⟨[2, 2], [0, 1, 2, 3]⟩)
      (fun q => (constantAt (0 : Int) ⟨[2, 2], [0, 1, 2, 3]⟩ q).toOption.getD 0) [0, 0, 0, 0] :=
    (C45_extrapolation_methods (k := ⟨[1, 1], ⟨[0, 0], [1, 0]⟩⟩) 0 (by simp) (by simp [Pos]) rfl (by simp) (by decide)
      (by decide) (by decide)).1
  have hO : OriginInside (α := Int) ⟨[1, 1], ⟨[0, 0], [1, 0]⟩⟩ := by constructor <;> simp
  have hin : Inside (α := Int) ⟨[1, 1], ⟨[0, 0], [1, 0]⟩⟩ [2, 2] [-0, 1] :=
    (inside_iff (k := ⟨[1, 1], ⟨[0, 0], [1, 0]⟩⟩) (input := ⟨[2, 2], [0, 1, 2, 3]⟩) (p := [-0, 1]) rfl rfl (by simp) rfl).2
      ⟨by decide, by decide⟩
  obtain ⟨o, ho, hp⟩ := h _ _ _ _ _ hS hO
  obtain ⟨o', ho', hx⟩ := C45_row_start_2d hS hO (by
    intro i hi
    match i, hi with
    | 0, _ => decide
    | 1, _ => decide) rfl rfl
  have e : o' = o := by
    have := (ho' _).1 ho
    simpa using this.symm
  subst e
  have h1 := hx 1 hin (by decide)
  obtain ⟨x, h2, h3⟩ := hp [0, 1] (by simp [InShape])
  have h4 := h3 [[0, 0], [1, 0]] (by decide) (by
    intro p
    rw [← mem_enum (f := [0, 0]) (b := [1, 0]) rfl]
    have : enum [0, 0] [1, 0] = [[0, 0], [1, 0]] := by decide
    rw [this])
  have h5 := h1.symm.trans h2
  rw [h4] at h5
  exact absurd h5 (by decide)

/-- Kernels which are neither 1D nor 2D are wrong elsewhere, too: here, the rows of the kernel are not multiplied by the
rows of the window. -/
theorem C45_deep_violated :
    ¬ ∀ (k : Kernel Int) (input : Raster Int) (extrapolator : Position → Res Int) (F : Position → Int) (out : List Int),
      Suitable k input extrapolator F out → OriginInside k → WindowFits k input.shape →
      ∃ o, Correlates k input extrapolator out (.ok o) ∧
        ∀ p, InShape input.shape p → ¬ RowStart k p → Correct k input.shape F o p := by
  intro h
  have hS : Suitable (α := Int) ⟨[1, 1, 1, 1], ⟨[0, 0, 0], [0, 1, 1]⟩⟩ ⟨[1, 3, 2], [0, 1, 2, 3, 4, 5]⟩
      (constantAt 0 ⟨[1, 3, 2], [0, 1, 2, 3, 4, 5]⟩)
      (fun q => (constantAt (0 : Int) ⟨[1, 3, 2], [0, 1, 2, 3, 4, 5]⟩ q).toOption.getD 0) [0, 0, 0, 0, 0, 0] :=
    (C45_extrapolation_methods (k := ⟨[1, 1, 1, 1], ⟨[0, 0, 0], [0, 1, 1]⟩⟩) 0 (by simp) (by simp [Pos]) rfl (by simp)
      (by decide) (by decide) (by decide)).1
  have hO : OriginInside (α := Int) ⟨[1, 1, 1, 1], ⟨[0, 0, 0], [0, 1, 1]⟩⟩ := by constructor <;> simp
  have hW : WindowFits (α := Int) ⟨[1, 1, 1, 1], ⟨[0, 0, 0], [0, 1, 1]⟩⟩ [1, 3, 2] := by
    intro i hi
    match i, hi with
    | 0, _ => decide
    | 1, _ => decide
    | 2, _ => decide
  have hin : Inside (α := Int) ⟨[1, 1, 1, 1], ⟨[0, 0, 0], [0, 1, 1]⟩⟩ [1, 3, 2] [0, 0, 0] :=
    (inside_iff (k := ⟨[1, 1, 1, 1], ⟨[0, 0, 0], [0, 1, 1]⟩⟩) (input := ⟨[1, 3, 2], [0, 1, 2, 3, 4, 5]⟩)
      (p := [0, 0, 0]) rfl rfl (by simp) rfl).2 ⟨by decide, by decide⟩
  have hst : ¬ RowStart (α := Int) ⟨[1, 1, 1, 1], ⟨[0, 0, 0], [0, 1, 1]⟩⟩ [0, 0, 0] := fun h => h.2 (by decide)
  have hsh : InShape [1, 3, 2] [0, 0, 0] := by simp [InShape]
  obtain ⟨o, ho, hp⟩ := h _ _ _ _ _ hS hO hW
  obtain ⟨o', ho', hx⟩ := C45_exact hS hO hW
  have e : o' = o := by
    have := (ho' _).1 ho
    simpa using this.symm
  subst e
  have h1 := hx [0, 0, 0] hin hsh hst
  obtain ⟨x, h2, h3⟩ := hp [0, 0, 0] hsh hst
  have h4 := h3 [[0, 0, 0], [0, 1, 0], [0, 0, 1], [0, 1, 1]] (by decide) (by
    intro p
    rw [← mem_enum (f := [0, 0, 0]) (b := [0, 1, 1]) rfl]
    have : enum [0, 0, 0] [0, 1, 1] = [[0, 0, 0], [0, 1, 0], [0, 0, 1], [0, 1, 1]] := by decide
    rw [this])
  have h5 := h1.symm.trans h2
  rw [h4] at h5
  exact absurd h5 (by decide)

omit [Semiring α] in
/-- A kernel made of a raster has the values of the raster, and its window has the shape of the raster and is such that
the given position is at the origin.  The origin is in the window if and only if the position is in the raster. -/
theorem C45_kernelize (r : Raster α) (origin : Position) (hd : r.shape ≠ [])
    (hr : (r.data.length : Int) = pixelCount r.shape) (hl : origin.length = r.shape.length) :
    ∃ k, kernelizeAt r origin = .ok k ∧ k.values = r.data ∧ k.window.shape = r.shape ∧
      (∀ i, i < r.shape.length → k.window.front.getD i 0 = - origin.getD i 0 ∧
        k.window.back.getD i 0 = r.shape.getD i 0 - 1 - origin.getD i 0) ∧
      (OriginInside k ↔ InShape r.shape origin) := by
  have hdom : r.domain = Raster.domainOf r.shape.length r.shape := rfl
  have hdl : r.domain.front.length = r.shape.length ∧ r.domain.back.length = r.shape.length := by
    rw [hdom, domainOf_fixed]; simp
  have hg : ∀ i, i < r.shape.length → (r.domain.unshift origin).front.getD i 0 = - origin.getD i 0 ∧
      (r.domain.unshift origin).back.getD i 0 = r.shape.getD i 0 - 1 - origin.getD i 0 := by
    intro i hi
    simp only [Box.unshift]
    rw [getD_sub (by omega), getD_sub (by omega), hdom, domainOf_fixed]
    simp [List.getD_eq_getElem?_getD, hi]
  have hfl : (r.domain.unshift origin).front.length = r.shape.length := by
    simp only [Box.unshift]; rw [length_sub (by omega)]; exact hdl.1
  have hbl : (r.domain.unshift origin).back.length = r.shape.length := by
    simp only [Box.unshift]; rw [length_sub (by omega)]; exact hdl.2
  have hsh : (r.domain.unshift origin).shape = r.shape := by
    apply List.ext_getElem
    · simp [Box.shape, Position.sub, Position.addScalar, hfl, hbl]
    · intro i h1 h2
      have h3 := hg i h2
      simp only [List.getD_eq_getElem?_getD, List.getElem?_eq_getElem h2,
        List.getElem?_eq_getElem (show i < (r.domain.unshift origin).front.length by omega),
        List.getElem?_eq_getElem (show i < (r.domain.unshift origin).back.length by omega), Option.getD_some] at h3
      simp only [Box.shape, Position.sub, Position.addScalar, List.getElem_map, List.getElem_zipWith]
      omega
  have hsize : (r.domain.unshift origin).size = r.data.length := by
    rw [Box.size, hsh, shapeSize_eq hd, hr]
    rfl
  refine ⟨⟨r.data, r.domain.unshift origin⟩, ?_, rfl, hsh, hg, ?_⟩
  · unfold kernelizeAt kernelize
    rw [hsize, if_neg (by omega), if_neg (by omega)]
    simp
  · constructor
    · rintro ⟨h1, h2⟩
      refine forall₂_iff_getD.2 ⟨hl, fun i hi => ?_⟩
      have hi' : i < r.shape.length := by omega
      have h3 := hg i hi'
      have h4 := h1 ((r.domain.unshift origin).front.getD i 0) (by
        rw [List.getD_eq_getElem?_getD, List.getElem?_eq_getElem (by omega)]
        exact List.getElem_mem _)
      have h5 := h2 ((r.domain.unshift origin).back.getD i 0) (by
        rw [List.getD_eq_getElem?_getD, List.getElem?_eq_getElem (by omega)]
        exact List.getElem_mem _)
      omega
    · intro h
      have h0 := (forall₂_iff_getD.1 h).2
      constructor
      · intro x hx
        obtain ⟨i, hi, rfl⟩ := List.mem_iff_getElem.1 hx
        have hi' : i < r.shape.length := by
          have : i < (r.domain.unshift origin).front.length := hi
          omega
        have h3 := (hg i hi').1
        have h4 := h0 i (by omega)
        rw [List.getD_eq_getElem?_getD, List.getElem?_eq_getElem (by omega)] at h3
        simp only [Option.getD_some] at h3
        simp only
        omega
      · intro x hx
        obtain ⟨i, hi, rfl⟩ := List.mem_iff_getElem.1 hx
        have hi' : i < r.shape.length := by
          have : i < (r.domain.unshift origin).back.length := hi
          omega
        have h3 := (hg i hi').2
        have h4 := h0 i (by omega)
        rw [List.getD_eq_getElem?_getD, List.getElem?_eq_getElem (by omega)] at h3
        simp only [Option.getD_some] at h3
        simp only
        omega

omit [Semiring α] in
/-- The window of a kernel with centered origin: the origin is always inside, and even lengths have one more value before
the origin than after. -/
theorem C45_kernelize_centered (r : Raster α) (hs : Pos r.shape) (hd : r.shape ≠ [])
    (hr : (r.data.length : Int) = pixelCount r.shape) :
    ∃ k, kernelizeCentered r = .ok k ∧ k.values = r.data ∧ k.window.shape = r.shape ∧ OriginInside k ∧
      ∀ i, i < r.shape.length → k.window.front.getD i 0 = - (r.shape.getD i 0 / 2) ∧
        k.window.back.getD i 0 = (r.shape.getD i 0 - 1) / 2 := by
  obtain ⟨k, h1, h2, h3, h4, h5⟩ := C45_kernelize r (r.shape.map fun s => s.tdiv 2) hd hr (by simp)
  have hp : ∀ i, i < r.shape.length → 0 < r.shape.getD i 0 := by
    intro i hi
    rw [List.getD_eq_getElem?_getD, List.getElem?_eq_getElem hi]
    exact hs _ (List.getElem_mem _)
  have hm : ∀ i, i < r.shape.length → (r.shape.map fun s => s.tdiv 2).getD i 0 = r.shape.getD i 0 / 2 := by
    intro i hi
    have h0 := hp i hi
    rw [List.getD_eq_getElem?_getD, List.getElem?_eq_getElem hi] at h0
    simp only [Option.getD_some] at h0
    simp only [List.getD_eq_getElem?_getD, List.getElem?_map, List.getElem?_eq_getElem hi, Option.map_some,
      Option.getD_some]
    exact Int.tdiv_eq_ediv_of_nonneg (by omega)
  refine ⟨k, h1, h2, h3, h5.2 ?_, fun i hi => ?_⟩
  · refine forall₂_iff_getD.2 ⟨by simp, fun i hi => ?_⟩
    have hi' : i < r.shape.length := by simpa using hi
    rw [hm i hi']
    have := hp i hi'
    omega
  · have := h4 i hi
    rw [hm i hi] at this
    omega

/-! ### Cases -/

/-- A centered 3 x 3 kernel and a raster of shape 4 x 4. -/
example : Suitable (α := Int) ⟨[1, 2, 3, 4, 5, 6, 7, 8, 9], ⟨[-1, -1], [1, 1]⟩⟩
      ⟨[4, 4], [0, 1, 2, 3, 4, 5, 6, 7, 8, 9, 10, 11, 12, 13, 14, 15]⟩
      (constantAt 0 ⟨[4, 4], [0, 1, 2, 3, 4, 5, 6, 7, 8, 9, 10, 11, 12, 13, 14, 15]⟩)
      (fun q => (constantAt (0 : Int) ⟨[4, 4], [0, 1, 2, 3, 4, 5, 6, 7, 8, 9, 10, 11, 12, 13, 14, 15]⟩ q).toOption.getD 0)
      (List.replicate 16 0) ∧
    OriginInside (α := Int) ⟨[1, 2, 3, 4, 5, 6, 7, 8, 9], ⟨[-1, -1], [1, 1]⟩⟩ ∧
    WindowFits (α := Int) ⟨[1, 2, 3, 4, 5, 6, 7, 8, 9], ⟨[-1, -1], [1, 1]⟩⟩ [4, 4] ∧
    Flat (α := Int) ⟨[1, 2, 3, 4, 5, 6, 7, 8, 9], ⟨[-1, -1], [1, 1]⟩⟩ := by
  refine ⟨(C45_extrapolation_methods (k := ⟨[1, 2, 3, 4, 5, 6, 7, 8, 9], ⟨[-1, -1], [1, 1]⟩⟩) 0 (by simp)
      (by simp [Pos]) rfl (by simp) (by decide) (by decide) (by decide)).1, ?_, ?_, rfl⟩
  · constructor <;> simp
  · intro i hi
    match i, hi with
    | 0, _ => decide
    | 1, _ => decide

/-- 1D: a kernel of length 3 and a raster of length 4, then a kernel of radius 2 and a single pixel. -/
example : WindowFits (α := Int) ⟨[1, 2, 3], ⟨[-1], [1]⟩⟩ [4] ∧
    ((1 : Int) < 2 - (-2) ∧ (1 : Int) < -(-2)) := by
  refine ⟨?_, by decide⟩
  intro i hi
  match i, hi with
  | 0, _ => decide

/-- 2D: a column kernel. -/
example : WindowFits (α := Int) ⟨[1, 2, 3], ⟨[0, -1], [0, 1]⟩⟩ [4, 3] := by
  intro i hi
  match i, hi with
  | 0, _ => decide
  | 1, _ => decide

/-- A 5 x 5 kernel does not terminate on a 3 x 3 raster. -/
example (out : List Int) : ¬ ∃ res, Correlates (α := Int) ⟨List.replicate 25 1, ⟨[-2, -2], [2, 2]⟩⟩
    ⟨[3, 3], List.replicate 9 1⟩ (fun _ => .ok 0) out res :=
  C45_too_large (i := 1) rfl rfl (by
    intro i hi
    match i, hi with
    | 0, _ => decide
    | 1, _ => decide) (by decide) (by decide) (by decide)

/-- Centered kernels of lengths 3 and 4. -/
example : kernelizeCentered (⟨[3, 4], List.replicate 12 1⟩ : Raster Int) =
    .ok ⟨List.replicate 12 1, ⟨[-1, -2], [1, 1]⟩⟩ := by decide

end Kernel

end Litl
