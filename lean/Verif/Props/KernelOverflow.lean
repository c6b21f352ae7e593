import Verif.Lemmas.KernelOverflow
import Verif.Props.Kernel

/-!
# C108: the correlation by an ND kernel does not overflow
-/

namespace Litl

open Spec

namespace Checked

variable {α : Type}

/-- `o` is the one and only outcome of the correlation on machine integers. -/
def Returns [Zero α] [Add α] [Mul α] (k : Kernel α) (input : Raster α) (extrapolator : Position → Res α) (out o : List α) :
    Prop :=
  ∀ res, Checked.Correlates k input extrapolator out res ↔ res = .ok o

section

variable [Zero α] [Add α] [Mul α]

/-- **C108**: whatever the sizes, when the correlation on machine integers ends without overflow, its output is that on
unbounded integers. -/
theorem C108_sound {k : Kernel α} {input : Raster α} {extrapolator : Position → Res α} {out o : List α}
    (hd : input.shape ≠ []) (hf : k.window.front.length = input.shape.length) (hb : k.window.back.length = input.shape.length)
    (h : Checked.Correlates k input extrapolator out (.ok o)) : Kernel.Correlates k input extrapolator out (.ok o) := by
  have hn : 0 < input.shape.length := List.length_pos_iff.2 hd
  rcases h with ⟨e, _, h⟩ | ⟨inner, outers, h1, h2⟩
  · cases h
  · obtain ⟨rfl, rfl⟩ := correlationBoxes_inv h1
    rcases h2 with ⟨e, _, h⟩ | ⟨out', h2, h3⟩
    · cases h
    · refine .inr ⟨out', ?_, outersCorrelate_inv h3⟩
      have hl : ((Raster.domainOf input.shape.length input.shape).shrink k.window).front.length = input.shape.length ∧
          ((Raster.domainOf input.shape.length input.shape).shrink k.window).back.length = input.shape.length := by
        simp [Box.shrink, domainOf_fixed, Position.sub, hf, hb]
      rcases h2 with ⟨e, _, h⟩ | ⟨h4, h5⟩ | ⟨n, rows, h4, h5, h6, h7⟩
      · cases h
      · exact .inl ⟨(boxSize_inv h4).symm, h5⟩
      · refine .inr ⟨?_, rows, C79_loop_sound h6, ?_⟩
        · intro e
          exact h5 ((boxSize_inv h4).trans e)
        · exact (innerRows_inv (by omega) (by omega) (by omega) (by omega) h7.symm).symm

/-- **C108**, partial: the correlation on machine integers is that on unbounded integers, with any values, extrapolation
method and output, provided that the windows at the pixels are in the range of `Index`.
Missing: windows which are out of this range, for which the correlation overflows, see `C108_overflow`; windows which are more
than one pixel longer than the raster, see `C45_too_large`, or which do not contain the origin. -/
theorem C108_outcomes_partial {k : Kernel α} {input : Raster α} (h : Bounded k input.shape) (hr : WindowBounded k input.shape)
    (extrapolator : Position → Res α) (out : List α) (res : Res (List α)) :
    Checked.Correlates k input extrapolator out res ↔ Kernel.Correlates k input extrapolator out res := by
  have hboxes := correlationBoxes_ok h
  have hinner := fun r => innerCorrelates_iff (k := k) (input := input) h (out := out) (inner_within h) r
  have houters := fun o r => outersCorrelate_iff h hr (extrapolator := extrapolator) (surround_ok h).2 (out := o) r
  have hdom : input.domain = Raster.domainOf input.shape.length input.shape := rfl
  unfold Checked.Correlates Kernel.Correlates
  rw [hboxes, hdom]
  dsimp only
  constructor
  · rintro (⟨e, he, _⟩ | ⟨inner, outers, he, h1⟩)
    · cases he
    · cases he
      rcases h1 with ⟨e, h1, h2⟩ | ⟨o, h1, h2⟩
      · exact .inl ⟨e, (hinner _).1 h1, h2⟩
      · exact .inr ⟨o, (hinner _).1 h1, (houters _ _).1 h2⟩
  · intro h1
    refine .inr ⟨_, _, rfl, ?_⟩
    rcases h1 with ⟨e, h1, h2⟩ | ⟨o, h1, h2⟩
    · exact .inl ⟨e, (hinner _).2 h1, h2⟩
    · exact .inr ⟨o, (hinner _).2 h1, (houters _ _).2 h2⟩

/-- **C108**, partial: there is no overflow if the number of pixels is less than 2^62, which is always the case of values of at
least 2 bytes: the size in bytes of an array is a value of type `std::ptrdiff_t`.
Missing: see `C108_outcomes_partial`. -/
theorem C108_memory_partial {k : Kernel α} {input : Raster α} (h : Bounded k input.shape) (hm : 2 * pixelCount input.shape < 2 ^ 63)
    (extrapolator : Position → Res α) (out : List α) (res : Res (List α)) :
    Checked.Correlates k input extrapolator out res ↔ Kernel.Correlates k input extrapolator out res := by
  refine C108_outcomes_partial h (fun i hi => ?_) extrapolator out res
  have hax := h.axis hi
  have : input.shape.getD i 0 ≤ pixelCount input.shape := by
    refine length_le_prod h.pos ?_
    have e : input.shape.getD i 0 = input.shape[i] := by simp [List.getD_eq_getElem?_getD, hi]
    rw [e]
    exact List.getElem_mem hi
  omega

/-- A correlation without overflow has shifted the window to each pixel which needs extrapolation. -/
theorem outersCorrelate_shifts {k : Kernel α} {extrapolator : Position → Res α} {s : Position} (hd : s ≠ []) {boxes : List Box}
    {out o : List α} (h : OutersCorrelate k extrapolator s boxes out (.ok o)) (hl : ∀ c ∈ boxes, c.front.length = s.length ∧
      c.back.length = s.length) {c : Box} (hc : c ∈ boxes) {p : Position} (hp : InBox c.front c.back p) :
    ∃ w, VisitsWindow k.window p w := by
  have hn : s.length ≠ 0 := by simpa using hd
  generalize hr : (Except.ok o : Res (List α)) = r at h
  induction h with
  | done => cases hc
  | fail _ => cases hr
  | @next b bs out out' res h1 _ ih =>
    rcases List.mem_cons.1 hc with rfl | hc
    · obtain ⟨l1, l2⟩ := hl c (by simp)
      rcases h1 with ⟨e, _, h⟩ | ⟨h1, _⟩ | ⟨n, l, ws, h1, h2, h3, h4, _⟩
      · cases h
      · exact absurd hp (Kernel.empty_of_size hn l1 l2 (boxSize_inv h1).symm p)
      · have hne : c.front ≠ [] := by
          intro e
          rw [e] at l1
          exact hn l1.symm
        have hm : p ∈ l := (((visits_box_iff _ hne l).1 (C79_loop_sound h3)).2.2 p).2 hp
        obtain ⟨i, hi, e⟩ := List.mem_iff_getElem.1 hm
        rw [List.forall₂_iff_get] at h4
        have := h4.2 i hi (by rw [← h4.1]; exact hi)
        rw [List.get_eq_getElem, e] at this
        exact ⟨_, this⟩
    · exact ih (fun d hd => hl d (by simp [hd])) hc hr

/-- **C108**: when the window at the last pixel of an axis goes past the values of type `Index`, the correlation does not end
without overflow, whatever the values and the extrapolation method. -/
theorem C108_overflow {k : Kernel α} {input : Raster α} (h : Bounded k input.shape) {i : Nat} (hi : i < input.shape.length)
    (ho : 2 ^ 63 ≤ input.shape.getD i 0 - 1 + k.window.back.getD i 0) (extrapolator : Position → Res α) (out o : List α) :
    ¬ Checked.Correlates k input extrapolator out (.ok o) := by
  rintro (⟨e, _, hc⟩ | ⟨inner, outers, h1, h2⟩)
  · cases hc
  · obtain ⟨rfl, rfl⟩ := correlationBoxes_inv h1
    rcases h2 with ⟨e, _, hc⟩ | ⟨out', _, h3⟩
    · cases hc
    · have hfl := h.front_length
      have hbl := h.back_length
      obtain ⟨l1, l2⟩ := inner_length h
      have hw := inner_within h
      have hlast : InShape input.shape (input.shape.map (· - 1)) := by
        refine forall₂_iff_getD.2 ⟨by simp, fun j hj => ?_⟩
        have hj' : j < input.shape.length := by simpa using hj
        have := h.axis hj'
        simp [List.getD_eq_getElem?_getD, hj'] at this ⊢
        omega
      have hgi : (input.shape.map (· - 1)).getD i 0 = input.shape.getD i 0 - 1 := by
        simp [List.getD_eq_getElem?_getD, hi]
      have hnot : ¬ InBox ((Raster.domainOf input.shape.length input.shape).shrink k.window).front
          ((Raster.domainOf input.shape.length input.shape).shrink k.window).back (input.shape.map (· - 1)) := by
        intro hin
        have := ((Kernel.mem_inner hfl hbl).1 hin).2 i hi
        have := h.axis hi
        omega
      obtain ⟨hpart, _⟩ := surround_part (d := 1) (by omega) ((Raster.domainOf input.shape.length input.shape).shrink k.window)
        k.window (by omega) (by omega) (by omega) (by intro j hj; exact hw.fits.2.2 j (by omega)) h.origin.1 h.origin.2
      have hgrow : ((Raster.domainOf input.shape.length input.shape).shrink k.window).grow k.window =
          Raster.domainOf input.shape.length input.shape := by
        refine (C10_grow_shrink _ k.window input.shape ?_ ?_ ?_ ?_).2.1
        all_goals
          rw [domainOf_fixed]
          simp [hfl, hbl]
      rw [hgrow] at hpart
      have hdom : InBox (Raster.domainOf input.shape.length input.shape).front
          (Raster.domainOf input.shape.length input.shape).back (input.shape.map (· - 1)) := by
        rw [domainOf_fixed]
        exact inBox_domain.2 hlast
      obtain ⟨c, hc, hpc⟩ := ((hpart.cover _).1 hdom).resolve_left hnot
      obtain ⟨w, b, hs, _⟩ := outersCorrelate_shifts h.dim h3
        (fun d hd => ⟨((surround_ok h).2 d hd).fits.1, ((surround_ok h).2 d hd).fits.2.1⟩) hc hpc
      rw [Checked.shift] at hs
      obtain ⟨_, _, hs⟩ := bind_inv hs
      obtain ⟨_, hz, _⟩ := bind_inv hs
      have hrange := ((zip_inv hz).2 i (by omega) (by simpa using hi)).2
      rw [hgi] at hrange
      omega

end

section

variable [Semiring α]

/-- **C108**, partial: for 1D and 2D kernels, the correlation on machine integers ends and is right, except for row starts.
Missing: row starts and deep kernels, as in `C45_flat_partial`; rasters of at least 2^62 pixels. -/
theorem C108_flat_partial {k : Kernel α} {input : Raster α} {extrapolator : Position → Res α} {F : Position → α}
    {out : List α} (h : Kernel.Suitable k input extrapolator F out) (ho : Kernel.OriginInside k)
    (hw : Kernel.WindowFits k input.shape) (hflat : Kernel.Flat k) (hm : 2 * pixelCount input.shape < 2 ^ 63)
    (hk : pixelCount k.window.shape < 2 ^ 63) :
    ∃ o, Checked.Returns k input extrapolator out o ∧ o.length = out.length ∧
      ∀ p, InShape input.shape p → ¬ (Kernel.Inside k input.shape p ∧ Kernel.RowStart k p) →
        Kernel.Correct k input.shape F o p := by
  have hc : pixelCount input.shape < 2 ^ 63 := by
    have : 0 < pixelCount input.shape := prod_pos h.pos
    omega
  have hb : Bounded k input.shape :=
    ⟨h.dim, h.pos, hc, h.front_length, h.back_length, h.nonempty, hk, ho, hw⟩
  obtain ⟨o, h1, h2, h3⟩ := Kernel.C45_flat_partial h ho hw hflat
  exact ⟨o, fun res => (C108_memory_partial hb hm extrapolator out res).trans (h1 res), h2, h3⟩

end

/-- **C108**, in full: the correlation on machine integers ends without overflow as soon as the numbers of pixels and of kernel
values are values of type `Index`, the window being at most one pixel longer than the raster and containing the origin. -/
def C108_Statement : Prop :=
  ∀ (k : Kernel Int) (input : Raster Int) (extrapolator : Position → Res Int) (F : Position → Int) (out : List Int),
    Kernel.Suitable k input extrapolator F out → Kernel.OriginInside k → Kernel.WindowFits k input.shape →
    pixelCount input.shape < 2 ^ 63 → pixelCount k.window.shape < 2 ^ 63 →
    ∃ o, Checked.Correlates k input extrapolator out (.ok o)

theorem huge_suitable (n : Nat) (hn : 0 < n) : Kernel.Suitable (α := Int) ⟨List.replicate n 0, ⟨[0], [(n : Int) - 1]⟩⟩
    ⟨[(n : Int)], List.replicate n 0⟩ (fun _ => .ok 0) (fun _ => 0) (List.replicate n 0) := by
  refine ⟨by simp, by simp [Pos, hn], rfl, rfl, by simp; omega, by simp [Box.shape, Position.sub, Position.addScalar, pixelCount],
    by simp [pixelCount], by simp [pixelCount], fun q hq => ?_, fun q _ => rfl⟩
  obtain ⟨x, rfl⟩ : ∃ x, q = [x] := List.length_eq_one_iff.1 hq.length_eq
  have hx : 0 ≤ x ∧ x < n := by simpa [InShape] using hq
  show readAt _ _ = _
  rw [readAt_eq_ok]
  refine ⟨by simpa [Litl.index] using hx.1, ?_⟩
  simp only [Litl.index]
  rw [List.getElem?_replicate, if_pos (by omega)]

/-- **C108** is violated, e.g. by the line of 2^62 + 1 pixels and the kernel of same length whose origin is its first
position. -/
theorem C108_violated : ¬ C108_Statement := by
  intro h
  have hS := huge_suitable (2 ^ 62 + 1) (by omega)
  have hO : Kernel.OriginInside (α := Int) ⟨List.replicate (2 ^ 62 + 1) 0, ⟨[0], [((2 ^ 62 + 1 : Nat) : Int) - 1]⟩⟩ := by
    constructor <;> simp
  have hW : Kernel.WindowFits (α := Int) ⟨List.replicate (2 ^ 62 + 1) 0, ⟨[0], [((2 ^ 62 + 1 : Nat) : Int) - 1]⟩⟩
      [((2 ^ 62 + 1 : Nat) : Int)] := by
    intro i hi
    have : i = 0 := by simpa using hi
    subst this
    simp
  have hc : pixelCount [((2 ^ 62 + 1 : Nat) : Int)] < 2 ^ 63 := by simp [pixelCount]
  have hk : pixelCount (Box.shape ⟨[0], [((2 ^ 62 + 1 : Nat) : Int) - 1]⟩) < 2 ^ 63 := by
    simp [Box.shape, Position.sub, Position.addScalar, pixelCount]
  obtain ⟨o, ho⟩ := h _ _ _ _ _ hS hO hW hc hk
  exact C108_overflow ⟨hS.dim, hS.pos, hc, hS.front_length, hS.back_length, hS.nonempty, hk, hO, hW⟩ (i := 0) (by simp) (by simp)
    _ _ _ ho

/-- Non-vacuity: the 3x3 kernel at the pixels of a raster of shape (4, 3). -/
example : Bounded (α := Int) ⟨List.replicate 9 1, ⟨[-1, -1], [1, 1]⟩⟩ [4, 3] ∧
    WindowBounded (α := Int) ⟨List.replicate 9 1, ⟨[-1, -1], [1, 1]⟩⟩ [4, 3] ∧ 2 * pixelCount [4, 3] < 2 ^ 63 := by
  refine ⟨⟨by simp, by simp [Pos], by decide, rfl, rfl, by simp, by decide, ⟨by simp, by simp⟩, ?_⟩, ?_, by decide⟩
  · intro i hi
    match i, hi with
    | 0, _ => decide
    | 1, _ => decide
  · intro i hi
    match i, hi with
    | 0, _ => decide
    | 1, _ => decide

/-- Non-vacuity: the hypotheses of `C108_flat_partial`, with nearest-neighbor extrapolation. -/
example : Kernel.Suitable (α := Int) ⟨[1, 1], ⟨[0, 0], [1, 0]⟩⟩ ⟨[2, 2], [0, 1, 2, 3]⟩ (nearestAt ⟨[2, 2], [0, 1, 2, 3]⟩)
      (fun q => (nearestAt (⟨[2, 2], [0, 1, 2, 3]⟩ : Raster Int) q).toOption.getD 0) [0, 0, 0, 0] ∧
    Kernel.Flat (α := Int) ⟨[1, 1], ⟨[0, 0], [1, 0]⟩⟩ :=
  ⟨(Kernel.C45_extrapolation_methods (k := ⟨[1, 1], ⟨[0, 0], [1, 0]⟩⟩) 0 (by simp) (by simp [Pos]) rfl (by simp) (by decide)
      (by decide) (by decide)).2.1, rfl⟩

/-- Non-vacuity: a kernel and a raster which satisfy the hypotheses of `C108_overflow`. -/
example : Bounded (α := Int) ⟨List.replicate (2 ^ 62 + 1) 0, ⟨[0], [2 ^ 62]⟩⟩ [2 ^ 62 + 1] ∧
    2 ^ 63 ≤ (2 ^ 62 + 1 : Int) - 1 + 2 ^ 62 := by
  refine ⟨⟨by simp, by simp [Pos], by simp [pixelCount], rfl, rfl, by simp, ?_, ⟨by simp, by simp⟩, ?_⟩, by omega⟩
  · simp [Box.shape, Position.sub, Position.addScalar, pixelCount]
  · intro i hi
    have : i = 0 := by simpa using hi
    subst this
    simp

end Checked

end Litl
