import Verif.Props.Kernel

/-!
# C45: correlation of lines by kernels of any length

In 1D, the outcome of the correlation is determined for all kernels whose window contains the origin, including those which
are longer than the raster.
-/

namespace Litl

open Spec
open Container (ok_bind)

variable {α : Type}

namespace Kernel

/-! ## Lemmas -/

theorem write_outside {ι : Type _} {idx : ι → Int} {c : ι → α} {step : List α → ι → Res (List α)} (l : List ι)
    (hstep : ∀ o, ∀ x ∈ l, step o x = writeAt o (idx x) (c x)) (out : List α)
    (hl : ∃ x ∈ l, idx x < 0 ∨ (out.length : Int) ≤ idx x) : l.foldlM step out = .error .ub := by
  induction l generalizing out with
  | nil => simp at hl
  | cons x l ih =>
    rw [List.foldlM_cons, hstep out x (by simp)]
    unfold writeAt
    split
    · rfl
    · split
      · rename_i h1 h2
        rw [ok_bind]
        refine ih (fun o y hy => hstep o y (by simp [hy])) _ ?_
        obtain ⟨y, hy, hle⟩ := hl
        rcases List.mem_cons.1 hy with rfl | hy
        · omega
        · exact ⟨y, hy, by simpa using hle⟩
      · rfl

theorem size_line (a c : Int) : (Box.mk [a] [c]).size = c - a + 1 := by
  rw [Box.size, shapeSize_eq (by simp [Box.shape, Position.sub, Position.addScalar])]
  simp [Box.shape, Position.sub, Position.addScalar]

variable [Semiring α]

/-- The region without extrapolation has a negative length: nothing is done. -/
theorem inner_line_skip {k : Kernel α} {input : Raster α} {f b n : Int} (hwin : k.window = ⟨[f], [b]⟩)
    (hlarge : n < b - f) (hn : 0 ≤ n) (out : List α) (r : Res (List α)) :
    Inner k input ⟨[-f], [n - 1 - b]⟩ out r ↔ r = .ok out := by
  have hsize : (Box.mk [-f] [n - 1 - b]).size ≠ 0 := by
    rw [size_line]
    omega
  have hv : BoxIterator.Visits ((Box.mk [-f] [n - 1 - b]).project 0) [[-f]] := by
    have := BoxIterator.visits_enum (b := (Box.mk [-f] [n - 1 - b]).project 0) (by simp [Box.project])
      (by simp [Box.project])
    simpa [Box.project, enum_line, ints] using this
  have hr : innerRows k input ⟨[-f], [n - 1 - b]⟩ [[-f]] out = .ok out := by
    have h0 : (n - 1 - b + f + 1).toNat = 0 := by omega
    simp [innerRows, Box.shape, Position.sub, Position.addScalar, hwin, rowStep, h0,
      show ¬ (b - f + 1 = 0) by omega]
    rfl
  unfold Inner
  constructor
  · rintro (⟨h0, _⟩ | ⟨_, l, hl, rfl⟩)
    · exact absurd h0 hsize
    · rw [LoopTrace.unique hl hv]
      exact hr
  · rintro rfl
    exact .inr ⟨hsize, _, hv, hr.symm⟩

/-- A region with extrapolation which is not in the raster is written out of bounds. -/
theorem outer_line_outside {k : Kernel α} {input : Raster α} {extrapolator : Position → Res α} {F : Position → α}
    {out : List α} (h : Suitable k input extrapolator F out) {f b n a c : Int} (hwin : k.window = ⟨[f], [b]⟩)
    (hs : input.shape = [n]) (hac : a ≤ c) (hout : a < 0 ∨ n ≤ c) (o : List α) (ho : o.length = out.length)
    (r : Res (List α)) : Outer k extrapolator input.shape ⟨[a], [c]⟩ o r ↔ r = .error .ub := by
  have hfb : f ≤ b := by
    have := h.nonempty
    rw [hwin] at this
    simpa using this
  have hsize : (Box.mk [a] [c]).size ≠ 0 := by
    rw [size_line]
    omega
  have hle : List.Forall₂ (· ≤ ·) (Box.mk [a] [c]).front (Box.mk [a] [c]).back := .cons hac .nil
  have hv := BoxIterator.visits_enum (b := ⟨[a], [c]⟩) (by simp) hle
  have hmem : ∀ p ∈ enum [a] [c], p.length = input.shape.length := fun p hp => by
    rw [enum_length_of_mem (f := [a]) (b := [c]) rfl hp, hs]
    rfl
  have hws : List.Forall₂ (fun p w => BoxIterator.Visits (k.window.shift p) w) (enum [a] [c])
      ((enum [a] [c]).map fun p => enum (k.window.shift p).front (k.window.shift p).back) := by
    rw [List.forall₂_map_right_iff, List.forall₂_same]
    intro p hp
    obtain ⟨x, rfl⟩ := List.length_eq_one_iff.1 ((hmem p hp).trans (by rw [hs]; rfl))
    refine BoxIterator.visits_enum ?_ ?_
    · simp [hwin, Box.shift, Position.add]
    · rw [hwin]
      exact .cons (by simp only; omega) .nil
  have hzip : (enum [a] [c]).zip
      ((enum [a] [c]).map fun p => enum (k.window.shift p).front (k.window.shift p).back) =
      (enum [a] [c]).map fun p => (p, enum (k.window.shift p).front (k.window.shift p).back) := by
    generalize enum [a] [c] = l
    induction l with
    | nil => rfl
    | cons a l ih => simp [ih]
  have hres : ((enum [a] [c]).zip ((enum [a] [c]).map fun p =>
      enum (k.window.shift p).front (k.window.shift p).back)).foldlM (outerStep k extrapolator input.shape) o =
      .error .ub := by
    rw [hzip]
    refine write_outside (idx := fun pw => index input.shape pw.1) (c := fun pw => corrFold k F pw.1) _ ?_ _ ?_
    · intro o pw hpw
      obtain ⟨p, hp, rfl⟩ := List.mem_map.1 hpw
      exact outerStep_eq h.prepared o p (hmem p hp)
    · have e := h.out
      rw [hs] at e
      simp [pixelCount] at e
      rcases hout with ha | hc
      · refine ⟨_, List.mem_map.2 ⟨[a], (mem_enum (f := [a]) (b := [c]) rfl).2
          ⟨.cons le_rfl .nil, .cons hac .nil⟩, rfl⟩, .inl ?_⟩
        rw [hs]
        simpa [index] using ha
      · refine ⟨_, List.mem_map.2 ⟨[c], (mem_enum (f := [a]) (b := [c]) rfl).2
          ⟨.cons hac .nil, .cons le_rfl .nil⟩, rfl⟩, .inr ?_⟩
        rw [hs]
        simp [index]
        omega
  unfold Outer
  constructor
  · rintro (⟨h0, _⟩ | ⟨_, l, ws, g1, g2, rfl⟩)
    · exact absurd h0 hsize
    · have e1 := LoopTrace.unique g1 hv
      subst e1
      have e2 := forall₂_visits_unique g2 hws
      subst e2
      exact hres
  · rintro rfl
    exact .inr ⟨hsize, _, _, hv, hws, hres.symm⟩

omit [Semiring α] in
theorem inner_line {k : Kernel α} {input : Raster α} {f b n : Int} (hwin : k.window = ⟨[f], [b]⟩)
    (hs : input.shape = [n]) : input.domain.shrink k.window = ⟨[-f], [n - 1 - b]⟩ := by
  have hdom : input.domain = Raster.domainOf input.shape.length input.shape := rfl
  rw [hdom, domainOf_fixed, hs, hwin]
  simp [Box.shrink, Position.sub]

theorem surround_line (f b n : Int) : Box.surround ⟨[-f], [n - 1 - b]⟩ ⟨[f], [b]⟩ =
    (if f < 0 then [⟨[0], [-f - 1]⟩] else []) ++ (if 0 < b then [⟨[n - b], [n - 1]⟩] else []) := by
  by_cases h1 : f < 0 <;> by_cases h2 : 0 < b <;>
    simp [Box.surround, Box.dimension, Box.surroundStep, h1, h2] <;> omega

/-- The correlation, when the kernel is longer than the raster. -/
theorem correlates_line_large {k : Kernel α} {input : Raster α} {extrapolator : Position → Res α} {out : List α}
    {f b n : Int} (hwin : k.window = ⟨[f], [b]⟩) (hs : input.shape = [n]) (hlarge : n < b - f) (hn : 0 ≤ n)
    (res : Res (List α)) :
    Correlates k input extrapolator out res ↔ Outers k extrapolator input.shape
      ((if f < 0 then [⟨[0], [-f - 1]⟩] else []) ++ (if 0 < b then [⟨[n - b], [n - 1]⟩] else [])) out res := by
  unfold Correlates
  rw [inner_line hwin hs]
  simp only [inner_line_skip hwin hlarge hn]
  rw [hwin, surround_line]
  constructor
  · rintro (⟨e, he, rfl⟩ | ⟨o, he, hr⟩)
    · simp at he
    · simp only [Except.ok.injEq] at he
      subst he
      exact hr
  · intro h
    exact .inr ⟨out, rfl, h⟩

theorem fits_line {a c : Int} (h : a ≤ c + 1) : Fits 1 1 ⟨[a], [c]⟩ := by
  refine ⟨rfl, rfl, fun j hj => ?_⟩
  obtain rfl : j = 0 := by omega
  simpa using h

theorem inBox_line {a c x : Int} : InBox [a] [c] [x] ↔ a ≤ x ∧ x ≤ c := by simp [InBox]

/-! ## Theorems -/

/-- **C45**: in 1D, the output is the correlation, whatever the length of the kernel, if neither side of the window is
longer than the raster.
Missing: the other windows (`C45_1d_outside`), and other dimensions. -/
theorem C45_1d_large_partial {k : Kernel α} {input : Raster α} {extrapolator : Position → Res α} {F : Position → α}
    {out : List α} (h : Suitable k input extrapolator F out) {f b n : Int} (hwin : k.window = ⟨[f], [b]⟩)
    (hs : input.shape = [n]) (hf : f ≤ 0) (hb : 0 ≤ b) (hfn : -f ≤ n) (hbn : b ≤ n) :
    ∃ o, Returns k input extrapolator out o ∧ o.length = out.length ∧
      ∀ p, InShape input.shape p → Correct k input.shape F o p := by
  have hn : 0 < n := h.pos n (by simp [hs])
  by_cases hlarge : n < b - f
  · have hin : ∀ c ∈ ((if f < 0 then [(⟨[0], [-f - 1]⟩ : Box)] else []) ++ (if 0 < b then [⟨[n - b], [n - 1]⟩] else [])),
        Fits input.shape.length 1 c ∧ ∀ p, InBox c.front c.back p → InShape input.shape p := by
      have key : ∀ a c : Int, 0 ≤ a → c ≤ n - 1 → ∀ p, InBox [a] [c] p → InShape input.shape p := by
        intro a c ha hc p hp
        obtain ⟨x, rfl⟩ := List.length_eq_one_iff.1 (hp.1.length_eq.symm.trans rfl)
        rw [inBox_line] at hp
        rw [hs]
        exact .cons ⟨by omega, by omega⟩ .nil
      intro c hc
      rw [List.mem_append] at hc
      rw [hs]
      rw [hs] at key
      rcases hc with hc | hc
      · split at hc
        · obtain rfl := List.mem_singleton.1 hc
          exact ⟨fits_line (by omega), key _ _ (by omega) (by omega)⟩
        · simp at hc
      · split at hc
        · obtain rfl := List.mem_singleton.1 hc
          exact ⟨fits_line (by omega), key _ _ (by omega) (by omega)⟩
        · simp at hc
    obtain ⟨o, h1, h2, h3, -⟩ := outers_spec h.prepared _ (fun c hc => (hin c hc).1) (fun c hc => (hin c hc).2) out rfl
    refine ⟨o, fun res => by rw [correlates_line_large hwin hs hlarge hn.le]; exact h1 res, h2, fun p hp => ?_⟩
    refine correct_corr h.nonempty.length_eq hp ?_
    rw [← corrFold_eq]
    obtain ⟨x, rfl⟩ := List.length_eq_one_iff.1 (hp.length_eq.trans (by rw [hs]; rfl))
    have hx : 0 ≤ x ∧ x < n := by
      rw [hs] at hp
      simpa [InShape] using hp
    by_cases hx1 : x ≤ -f - 1
    · refine h3 ⟨[0], [-f - 1]⟩ ?_ [x] (inBox_line.2 ⟨hx.1, hx1⟩)
      rw [if_pos (by omega)]
      simp
    · refine h3 ⟨[n - b], [n - 1]⟩ ?_ [x] (inBox_line.2 ⟨by omega, by omega⟩)
      rw [if_pos (show 0 < b by omega)]
      simp
  · refine C45_1d_partial h ⟨by simpa [hwin] using hf, by simpa [hwin] using hb⟩ ?_ (by simp [hs])
    intro i hi
    obtain rfl : i = 0 := by simpa [hs] using hi
    simp [hwin, hs]
    omega

/-- **C45**, negative: in 1D, if a side of the window is longer than the raster, then the output is accessed out of
bounds. -/
theorem C45_1d_outside {k : Kernel α} {input : Raster α} {extrapolator : Position → Res α} {F : Position → α}
    {out : List α} (h : Suitable k input extrapolator F out) {f b n : Int} (hwin : k.window = ⟨[f], [b]⟩)
    (hs : input.shape = [n]) (hf : f ≤ 0) (hb : 0 ≤ b) (hout : n < -f ∨ n < b) (res : Res (List α)) :
    Correlates k input extrapolator out res ↔ res = .error .ub := by
  have hn : 0 < n := h.pos n (by simp [hs])
  by_cases hfn : n < -f
  · exact C45_1d_overrun h hwin hs (by omega) hfn res
  have hbn : n < b := by omega
  rw [correlates_line_large hwin hs (by omega) hn.le, if_pos (show 0 < b by omega)]
  have hO := outer_line_outside h hwin hs (a := n - b) (c := n - 1) (by omega) (.inl (by omega))
  by_cases hf0 : f < 0
  · rw [if_pos hf0]
    obtain ⟨o, h1, h2, -⟩ := outer_spec h.prepared (c := ⟨[0], [-f - 1]⟩) (by rw [hs]; exact fits_line (by omega)) (by
      intro p hp
      obtain ⟨x, rfl⟩ := List.length_eq_one_iff.1 (hp.1.length_eq.symm.trans rfl)
      rw [inBox_line] at hp
      rw [hs]
      exact .cons ⟨by omega, by omega⟩ .nil) out rfl
    constructor
    · intro hr
      cases hr with
      | fail hf => have := (h1 _).1 hf; simp at this
      | next hf hr =>
        have := (h1 _).1 hf
        simp only [Except.ok.injEq] at this
        subst this
        cases hr with
        | fail hf => exact (hO _ h2 _).1 hf
        | next hf _ => have := (hO _ h2 _).1 hf; simp at this
    · rintro rfl
      exact .next ((h1 _).2 rfl) (.fail ((hO _ h2 _).2 rfl))
  · rw [if_neg hf0]
    constructor
    · intro hr
      cases hr with
      | fail hf => exact (hO _ rfl _).1 hf
      | next hf _ => have := (hO _ rfl _).1 hf; simp at this
    · rintro rfl
      exact .fail ((hO _ rfl _).2 rfl)

/-- **C45**, exact in 1D: the correlation is right if and only if neither side of the window is longer than the
raster. -/
theorem C45_1d_iff {k : Kernel α} {input : Raster α} {extrapolator : Position → Res α} {F : Position → α}
    {out : List α} (h : Suitable k input extrapolator F out) {f b n : Int} (hwin : k.window = ⟨[f], [b]⟩)
    (hs : input.shape = [n]) (hf : f ≤ 0) (hb : 0 ≤ b) :
    (∃ o, Correlates k input extrapolator out (.ok o) ∧ ∀ p, InShape input.shape p → Correct k input.shape F o p) ↔
      -f ≤ n ∧ b ≤ n := by
  constructor
  · rintro ⟨o, ho, -⟩
    by_contra hout
    have := (C45_1d_outside h hwin hs hf hb (by omega) _).1 ho
    cases this
  · rintro ⟨h1, h2⟩
    obtain ⟨o, ho, -, hc⟩ := C45_1d_large_partial h hwin hs hf hb h1 h2
    exact ⟨o, (ho _).2 rfl, hc⟩

/-! ## Non-vacuity -/

/-- A kernel of five values on a raster of two pixels. -/
example : Suitable (α := Int) ⟨[1, 2, 3, 4, 5], ⟨[-2], [2]⟩⟩ ⟨[2], [7, 8]⟩ (constantAt 0 ⟨[2], [7, 8]⟩)
    (fun q => (constantAt (0 : Int) ⟨[2], [7, 8]⟩ q).toOption.getD 0) [0, 0] :=
  (C45_extrapolation_methods (k := ⟨[1, 2, 3, 4, 5], ⟨[-2], [2]⟩⟩) 0 (by simp) (by simp [Pos]) rfl (by simp) (by decide)
    (by decide) (by decide)).1

/-- A kernel of four values, three of which are after the origin, on the same raster. -/
example : Suitable (α := Int) ⟨[1, 2, 3, 4], ⟨[0], [3]⟩⟩ ⟨[2], [7, 8]⟩ (constantAt 0 ⟨[2], [7, 8]⟩)
    (fun q => (constantAt (0 : Int) ⟨[2], [7, 8]⟩ q).toOption.getD 0) [0, 0] ∧ (2 : Int) < 3 :=
  ⟨(C45_extrapolation_methods (k := ⟨[1, 2, 3, 4], ⟨[0], [3]⟩⟩) 0 (by simp) (by simp [Pos]) rfl (by simp) (by decide)
    (by decide) (by decide)).1, by decide⟩

end Kernel

end Litl
