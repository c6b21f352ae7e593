import Verif.Props.Kernel
import Verif.Props.Regions

/-!
# ND kernels: what is computed at the starts of rows

See LitlTransforms/LitlTransforms/Kernel.h:117: `inIt` is updated at the end of an iteration, such that it is that of the
end of the previous row when a row starts.
-/

namespace Litl

namespace Kernel

open Spec

variable {α : Type _} [Semiring α]

/-- `q` is the first pixel which does not need extrapolation in the row which is right before that of `p`, among those
with such pixels. -/
def PreviousRow (k : Kernel α) (shape q p : Position) : Prop :=
  (Inside k shape q ∧ InShape shape q ∧ q.getD 0 0 = p.getD 0 0 ∧ StorageLt q p) ∧
  ∀ r, Inside k shape r → InShape shape r → r.getD 0 0 = p.getD 0 0 → StorageLt q r → ¬ StorageLt r p

/-- At row starts, whatever the dimension, the output is the sum of the same products, but of the pixels which follow the
window of the previous row, as many pixels after as there are pixels which do not need extrapolation in a row. -/
theorem C45_row_start {k : Kernel α} {input : Raster α} {extrapolator : Position → Res α} {F : Position → α}
    {out : List α} (h : Suitable k input extrapolator F out) (ho : OriginInside k)
    (hw : WindowFits k input.shape) :
    ∃ o, Returns k input extrapolator out o ∧ ∀ p, Inside k input.shape p → InShape input.shape p → RowStart k p →
      (∃ q, PreviousRow k input.shape q p) ∧ ∀ q, PreviousRow k input.shape q p →
      o[(offset input.shape p).toNat]? = some
        ((List.range (enum k.window.front.tail k.window.back.tail).length).map fun j : Nat =>
          ((List.range (k.window.back.getD 0 0 - k.window.front.getD 0 0 + 1).toNat).map fun i : Nat =>
            k.values.getD (j * (k.window.back.getD 0 0 - k.window.front.getD 0 0 + 1).toNat + i) 0 *
            input.data.getD (offset input.shape q + (input.shape.getD 0 0 - (k.window.back.getD 0 0 - k.window.front.getD 0 0)) +
              offset input.shape k.window.front + j * input.shape.getD 0 0 + i).toNat 0).sum).sum := by
  obtain ⟨o, h1, h2, _, _, h5⟩ := correlates_spec h ho hw
  have hdom : input.domain = Raster.domainOf input.shape.length input.shape := rfl
  have hpos : 0 < input.shape.length := List.length_pos_iff.2 h.dim
  have hfl := h.front_length
  have hbl := h.back_length
  have fl : (input.domain.shrink k.window).front.length = input.shape.length := by
    rw [inner_front hfl, List.length_map, hfl]
  have bl : (input.domain.shrink k.window).back.length = input.shape.length := by
    rw [hdom, domainOf_fixed]; simp [Box.shrink, Position.sub, hbl]
  refine ⟨o, h1, fun p hin hp hst => ?_⟩
  have hpb := (inside_iff hfl hbl h.nonempty hp.length_eq).1 hin
  have hrow : ∀ r, r ∈ enum (input.domain.shrink k.window).front ((input.domain.shrink k.window).project 0).back ↔
      Inside k input.shape r ∧ InShape input.shape r ∧ r.getD 0 0 = - k.window.front.getD 0 0 := by
    intro r
    have hset : ∀ i, ((input.domain.shrink k.window).project 0).back.getD i 0 =
        if i = 0 then - k.window.front.getD 0 0 else (input.domain.shrink k.window).back.getD i 0 := by
      intro i
      simp only [Box.project]
      split
      · subst i
        rw [inner_front hfl]
        simp [List.getD_eq_getElem?_getD, hfl, hpos, bl]
      · rename_i hne
        simp [List.getD_eq_getElem?_getD, List.getElem?_set_ne (Ne.symm hne)]
    have hf0 : (input.domain.shrink k.window).front.getD 0 0 = - k.window.front.getD 0 0 := by
      rw [inner_front hfl]; simp [List.getD_eq_getElem?_getD, hfl, hpos]
    rw [mem_enum (by simp [Box.project, fl, bl]), inBox_iff]
    constructor
    · rintro ⟨⟨e1, e2⟩, e3⟩
      have hr : r.length = input.shape.length := by omega
      have h0 := e3 0 (by omega)
      rw [hset, if_pos rfl, hf0] at h0
      have hin : InBox (input.domain.shrink k.window).front (input.domain.shrink k.window).back r := by
        rw [inBox_iff]
        refine ⟨⟨e1, by omega⟩, fun i hi => ?_⟩
        have := e3 i hi
        rw [hset] at this
        split at this
        · subst i
          refine ⟨this.1, ?_⟩
          have := (inBox_iff.1 hpb).2 0 (by have := hp.length_eq; omega)
          omega
        · exact this
      have hsh : InShape input.shape r := by
        have := (mem_inner (p := r) hfl hbl).1 hin
        refine forall₂_iff_getD.2 ⟨hr, fun i hi => ?_⟩
        have h3 := this.2 i (by omega)
        have h4 := ho.1 (k.window.front.getD i 0) (by
          rw [List.getD_eq_getElem?_getD, List.getElem?_eq_getElem (by omega)]; exact List.getElem_mem _)
        have h5 := ho.2 (k.window.back.getD i 0) (by
          rw [List.getD_eq_getElem?_getD, List.getElem?_eq_getElem (by omega)]; exact List.getElem_mem _)
        omega
      exact ⟨(inside_iff hfl hbl h.nonempty hr).2 hin, hsh, by omega⟩
    · rintro ⟨hin, hs, h0⟩
      have hb := inBox_iff.1 ((inside_iff hfl hbl h.nonempty hs.length_eq).1 hin)
      refine ⟨⟨hb.1.1, by simp [Box.project, bl, hs.length_eq]⟩, fun i hi => ?_⟩
      rw [hset]
      refine ⟨(hb.2 i hi).1, ?_⟩
      split
      · subst i; omega
      · exact (hb.2 i hi).2
  have hpr := (hrow p).2 ⟨hin, hp, hst.1⟩
  obtain ⟨n, hn⟩ := List.mem_iff_getElem?.1 hpr
  have hpw := pairwise_enum (f := (input.domain.shrink k.window).front) (b := ((input.domain.shrink k.window).project 0).back)
  have hnp := List.pairwise_iff_getElem.1 hpw
  obtain ⟨hn1, hn2⟩ := List.getElem?_eq_some_iff.1 hn
  obtain ⟨m, rfl⟩ : ∃ m, n = m + 1 := by
    refine ⟨n - 1, ?_⟩
    rcases Nat.eq_zero_or_pos n with e | e
    · subst e
      exfalso
      have hle : List.Forall₂ (· ≤ ·) (input.domain.shrink k.window).front ((input.domain.shrink k.window).project 0).back := by
        have hb := inBox_iff.1 ((mem_enum (by simp [Box.project, fl, bl])).1 hpr)
        exact forall₂_iff_getD.2 ⟨by omega, fun i hi => by have := hb.2 i (by omega); omega⟩
      rw [enum_head hle, inner_front hfl] at hn
      exact hst.2 (by simpa using hn.symm)
    · omega
  have hlt : m < (enum (input.domain.shrink k.window).front ((input.domain.shrink k.window).project 0).back).length := by omega
  constructor
  · have hq := (hrow _).1 (List.getElem_mem hlt)
    refine ⟨_, ⟨hq.1, hq.2.1, by rw [hq.2.2, hst.1], ?_⟩, fun r hr1 hr2 hr3 hr4 hr5 => ?_⟩
    · have := hnp m (m + 1) hlt hn1 (by omega)
      rwa [hn2] at this
    · obtain ⟨i, hi, e⟩ := List.mem_iff_getElem.1 ((hrow r).2 ⟨hr1, hr2, hr3.trans hst.1⟩)
      subst e
      rcases Nat.lt_or_ge m i with hmi | hmi
      · rcases Nat.lt_or_ge (m + 1) i with hmi' | hmi'
        · have := hnp (m + 1) i hn1 hi hmi'
          rw [hn2] at this
          exact StorageLt.asymm this hr5
        · have : i = m + 1 := by omega
          subst this
          rw [hn2] at hr5
          exact storageLt_irrefl _ hr5
      · rcases Nat.lt_or_ge i m with hmi' | hmi'
        · exact StorageLt.asymm (hnp i m hi hlt hmi') hr4
        · have : i = m := by omega
          subst this
          exact storageLt_irrefl _ hr4
  · rintro q ⟨⟨hq1, hq2, hq3, hq4⟩, hq5⟩
    obtain ⟨i, hi, e⟩ := List.mem_iff_getElem.1 ((hrow q).2 ⟨hq1, hq2, hq3.trans hst.1⟩)
    have him : i = m := by
      rcases Nat.lt_trichotomy i m with hmi | hmi | hmi
      · exfalso
        have hq := (hrow _).1 (List.getElem_mem hlt)
        refine hq5 _ hq.1 hq.2.1 (hq.2.2.trans hst.1.symm) ?_ ?_
        · rw [← e]; exact hnp i m hi hlt hmi
        · have := hnp m (m + 1) hlt hn1 (by omega)
          rwa [hn2] at this
      · exact hmi
      · exfalso
        rcases Nat.lt_or_ge (m + 1) i with hmi' | hmi'
        · have := hnp (m + 1) i hn1 hi hmi'
          rw [hn2, e] at this
          exact StorageLt.asymm this hq4
        · have : i = m + 1 := by omega
          subst this
          rw [hn2] at e
          subst e
          exact storageLt_irrefl _ hq4
    subst him
    have key := h5 q p i (by rw [List.getElem?_eq_getElem hlt, e]) hn hpb
    have e0 : k.window.shape.getD 0 0 = k.window.back.getD 0 0 - k.window.front.getD 0 0 + 1 := by
      unfold Box.shape
      rw [getD_addScalar (by rw [length_sub (by omega)]; omega), getD_sub (by omega)]
    have e1 : (input.domain.shrink k.window).shape.getD 0 0 =
        input.shape.getD 0 0 - (k.window.back.getD 0 0 - k.window.front.getD 0 0) := by
      unfold Box.shape
      rw [getD_addScalar (by rw [length_sub (by omega)]; omega), getD_sub (by omega), hdom, domainOf_fixed]
      simp only [Box.shrink]
      rw [getD_sub (by simp [hbl]), getD_sub (by simp [hfl])]
      simp [List.getD_eq_getElem?_getD, hpos]
      omega
    rw [e0, e1, index_eq_offset hp.length_eq, index_eq_offset hq2.length_eq, index_eq_offset hfl] at key
    exact key

/-- Example for `C45_row_start`: a 3D raster, a row start of which the previous row is in the previous plane. -/
example : ∃ (k : Kernel Int) (input : Raster Int) (F : Position → Int) (out : List Int) (p : Position),
    Suitable k input (constantAt 0 input) F out ∧ OriginInside k ∧ WindowFits k input.shape ∧ Inside k input.shape p ∧
    InShape input.shape p ∧ RowStart k p := by
  have hS : Suitable (α := Int) ⟨[1, 1], ⟨[0, 0, 0], [1, 0, 0]⟩⟩ ⟨[2, 2, 2], [0, 1, 2, 3, 4, 5, 6, 7]⟩
      (constantAt 0 ⟨[2, 2, 2], [0, 1, 2, 3, 4, 5, 6, 7]⟩)
      (fun q => (constantAt (0 : Int) ⟨[2, 2, 2], [0, 1, 2, 3, 4, 5, 6, 7]⟩ q).toOption.getD 0) [0, 0, 0, 0, 0, 0, 0, 0] :=
    (C45_extrapolation_methods (k := ⟨[1, 1], ⟨[0, 0, 0], [1, 0, 0]⟩⟩) 0 (by simp) (by simp [Pos]) rfl (by simp) (by decide)
      (by decide) (by decide)).1
  refine ⟨_, _, _, _, [0, 0, 1], hS, by constructor <;> simp, ?_, ?_, ?_, ?_⟩
  · intro i hi
    match i, hi with
    | 0, _ => decide
    | 1, _ => decide
    | 2, _ => decide
  · exact (inside_iff (k := ⟨[1, 1], ⟨[0, 0, 0], [1, 0, 0]⟩⟩) (input := ⟨[2, 2, 2], [0, 1, 2, 3, 4, 5, 6, 7]⟩) (p := [0, 0, 1])
      rfl rfl (by simp) rfl).2 ⟨by decide, by decide⟩
  · simp [InShape]
  · simp [RowStart]

end Kernel

end Litl
