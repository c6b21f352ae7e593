import Verif.Props.KernelLarge

namespace Litl

open Spec
open Container (ok_bind)

variable {α : Type}

namespace Kernel

/-! ## Kernels which are wider than the raster -/

theorem surroundStep_prefix (m c : Box) (o : List Box) (i : Nat) :
    Box.surroundStep m (c, o) i = ((Box.surroundStep m (c, []) i).1, o ++ (Box.surroundStep m (c, []) i).2) := by
  by_cases h1 : m.front.getD i 0 < 0 <;> by_cases h2 : m.back.getD i 0 > 0 <;>
    simp only [Box.surroundStep, h1, h2, if_true, if_false, List.nil_append, List.append_assoc, List.append_nil]

theorem surround_prefix (m : Box) (l : List Nat) (c : Box) (o : List Box) :
    l.foldl (Box.surroundStep m) (c, o) =
      ((l.foldl (Box.surroundStep m) (c, [])).1, o ++ (l.foldl (Box.surroundStep m) (c, [])).2) := by
  induction l generalizing c o with
  | nil => simp
  | cons i l ih =>
    rw [List.foldl_cons, List.foldl_cons, surroundStep_prefix m c o, ih,
      ih (Box.surroundStep m (c, []) i).1 (Box.surroundStep m (c, []) i).2]
    simp

theorem surroundStep_congr {f f' b b' : Int} {fs bs : List Int} (st : Box × List Box) (i : Nat) :
    Box.surroundStep ⟨f :: fs, b :: bs⟩ st (i + 1) = Box.surroundStep ⟨f' :: fs, b' :: bs⟩ st (i + 1) := by
  simp [Box.surroundStep]

/-- The boxes along the first axis, and then those along the other ones. -/
theorem surround_cons {x y f b : Int} {xs ys fs bs : List Int} (hf : f ≤ 0) (hb : 0 ≤ b) :
    Box.surround ⟨x :: xs, y :: ys⟩ ⟨f :: fs, b :: bs⟩ =
      ((if f < 0 then [⟨(x + f) :: xs, (x - 1) :: ys⟩] else []) ++
        (if 0 < b then [⟨(y + 1) :: xs, (y + b) :: ys⟩] else [])) ++
      Box.surround ⟨(x + f) :: xs, (y + b) :: ys⟩ ⟨0 :: fs, 0 :: bs⟩ := by
  have e0 : Box.surroundStep ⟨f :: fs, b :: bs⟩ (⟨x :: xs, y :: ys⟩, []) 0 =
      (⟨(x + f) :: xs, (y + b) :: ys⟩, (if f < 0 then [⟨(x + f) :: xs, (x - 1) :: ys⟩] else []) ++
        (if 0 < b then [⟨(y + 1) :: xs, (y + b) :: ys⟩] else [])) := by
    by_cases h1 : f < 0 <;> by_cases h2 : 0 < b
    · simp [Box.surroundStep, h1, h2]
    · obtain rfl : b = 0 := by omega
      simp [Box.surroundStep, h1]
    · obtain rfl : f = 0 := by omega
      simp [Box.surroundStep, h2]
    · obtain rfl : f = 0 := by omega
      obtain rfl : b = 0 := by omega
      simp [Box.surroundStep]
  have e1 : Box.surroundStep ⟨0 :: fs, 0 :: bs⟩ (⟨(x + f) :: xs, (y + b) :: ys⟩, []) 0 =
      (⟨(x + f) :: xs, (y + b) :: ys⟩, []) := by
    simp [Box.surroundStep]
  unfold Box.surround Box.dimension
  simp only [List.length_cons, List.range_succ_eq_map, List.foldl_cons, List.foldl_map]
  rw [e0, e1]
  have : (fun (st : Box × List Box) (i : Nat) => Box.surroundStep ⟨f :: fs, b :: bs⟩ st (Nat.succ i)) =
      fun st i => Box.surroundStep ⟨0 :: fs, 0 :: bs⟩ st (Nat.succ i) := by
    funext st i
    exact surroundStep_congr st i
  rw [this, ← List.foldl_map (f := Nat.succ) (g := Box.surroundStep ⟨0 :: fs, 0 :: bs⟩),
    ← List.foldl_map (f := Nat.succ) (g := Box.surroundStep ⟨0 :: fs, 0 :: bs⟩), surround_prefix]

variable [Semiring α]

/-- Rows of non-positive length are left. -/
theorem rows_skip (values : List α) (kWidth kRowCount : Int) (input : List α) (inWidth distance boxWidth : Int)
    (shape : Position) (hw : boxWidth ≤ 0) (rows : List Position) (out : List α) (i : Int) :
    rows.foldlM (rowStep values kWidth kRowCount input inWidth distance boxWidth shape) (out, i) = .ok (out, i) := by
  have h0 : boxWidth.toNat = 0 := by omega
  induction rows with
  | nil => rfl
  | cons p rows ih =>
    rw [List.foldlM_cons]
    simpa [rowStep, h0, bind, Except.bind, pure, Except.pure] using ih

/-- **C45**: in any dimension, the output is the correlation everywhere, including at row starts and for deep kernels, if the
kernel is at least two pixels wider than the raster along the first axis, since then all of the pixels are extrapolated.
Missing: windows with a side which is wider than the raster, or which are longer than the raster along other axes, see
`C45_too_large`. -/
theorem C45_wide_partial {k : Kernel α} {input : Raster α} {extrapolator : Position → Res α} {F : Position → α}
    {out : List α} (h : Suitable k input extrapolator F out) {f b n : Int} {fs bs ns : List Int}
    (hwin : k.window = ⟨f :: fs, b :: bs⟩) (hs : input.shape = n :: ns) (ho : OriginInside k) (hwide : n < b - f)
    (hfn : -f ≤ n) (hbn : b ≤ n) (hw : ∀ i, i < ns.length → bs.getD i 0 - fs.getD i 0 ≤ ns.getD i 0) :
    ∃ o, Returns k input extrapolator out o ∧ o.length = out.length ∧
      ∀ p, InShape input.shape p → Correct k input.shape F o p := by
  have hf : f ≤ 0 := ho.1 f (by simp [hwin])
  have hb : 0 ≤ b := ho.2 b (by simp [hwin])
  have hfs : ∀ x ∈ fs, x ≤ 0 := fun x hx => ho.1 x (by simp [hwin, hx])
  have hbs : ∀ x ∈ bs, 0 ≤ x := fun x hx => ho.2 x (by simp [hwin, hx])
  have hn : 0 < n := h.pos n (by simp [hs])
  have hfl : fs.length = ns.length := by simpa [hwin, hs] using h.front_length
  have hbl : bs.length = ns.length := by simpa [hwin, hs] using h.back_length
  -- Boxes
  obtain ⟨xs, hxs⟩ : ∃ xs, xs = fs.map fun x : Int => -x := ⟨_, rfl⟩
  obtain ⟨ys, hys⟩ : ∃ ys, ys = List.zipWith (fun s b : Int => s - 1 - b) ns bs := ⟨_, rfl⟩
  have hxl : xs.length = ns.length := by simp [hxs, hfl]
  have hyl : ys.length = ns.length := by simp [hys, hbl]
  have hxi : ∀ i, i < ns.length → xs.getD i 0 = -fs.getD i 0 := by
    intro i hi
    simp [hxs, List.getD_eq_getElem?_getD, hfl, hi]
  have hyi : ∀ i, i < ns.length → ys.getD i 0 = ns.getD i 0 - 1 - bs.getD i 0 := by
    intro i hi
    simp [hys, List.getD_eq_getElem?_getD, hbl, hi]
  have hinner : input.domain.shrink k.window = ⟨-f :: xs, (n - 1 - b) :: ys⟩ := by
    have hdom : input.domain = Raster.domainOf input.shape.length input.shape := rfl
    rw [hdom, domainOf_fixed, hs, hwin, hxs, hys]
    simp only [Box.shrink, Position.sub, List.length_cons, List.replicate_succ, List.map_cons, List.zipWith_cons_cons]
    refine congrArg₂ Box.mk (congrArg₂ _ (by ring) ?_) (congrArg₂ _ rfl ?_)
    · apply List.ext_getElem (by simp [hfl])
      intro i h1 h2
      simp
    · rw [List.zipWith_map_left]
  have hfits : ∀ x y : Int, x ≤ y + 1 → Fits input.shape.length 1 ⟨x :: xs, y :: ys⟩ := by
    intro x y hxy
    refine ⟨by simp [hs, hxl], by simp [hs, hyl], fun j hj => ?_⟩
    cases j with
    | zero => simpa using hxy
    | succ j =>
      have hj' : j < ns.length := by simpa [hs] using hj
      have := hw j hj'
      have e1 := hxi j hj'
      have e2 := hyi j hj'
      simp only [List.getD_cons_succ]
      omega
  have hcur : Part 1 ⟨(0 : Int) :: xs, (n - 1) :: ys⟩ ⟨0 :: ns.map fun _ => 0, (n - 1) :: ns.map (· - 1)⟩
      (Box.surround ⟨0 :: xs, (n - 1) :: ys⟩ ⟨0 :: fs, 0 :: bs⟩) := by
    obtain ⟨hp, -⟩ := surround_part (d := 1) (by omega) ⟨0 :: xs, (n - 1) :: ys⟩ ⟨0 :: fs, 0 :: bs⟩
      (by simp [hxl, hyl]) (by simp [hxl, hfl]) (by simp [hxl, hbl])
      (fun j hj => (hfits 0 (n - 1) (by omega)).2.2 j (by simpa [hs, hxl] using hj))
      (by simpa using hfs) (by simpa using hbs)
    have e : (Box.mk (0 :: xs) ((n - 1) :: ys)).grow ⟨0 :: fs, 0 :: bs⟩ =
        ⟨0 :: ns.map fun _ => 0, (n - 1) :: ns.map (· - 1)⟩ := by
      simp only [Box.grow, Position.add, List.zipWith_cons_cons, add_zero]
      refine congrArg₂ Box.mk (congrArg₂ _ rfl ?_) (congrArg₂ _ rfl ?_)
      · apply List.ext_getElem (by simp [hfl, hxl])
        intro i h1 h2
        simp [hxs]
      · apply List.ext_getElem (by simp [hbl, hyl])
        intro i h1 h2
        simp [hys]
    rwa [e] at hp
  have hdomain : ∀ p, InBox (0 :: ns.map fun _ => 0) ((n - 1) :: ns.map (· - 1)) p ↔ InShape input.shape p := by
    intro p
    rw [hs, ← inBox_domain]
    simp only [List.length_cons, List.replicate_succ, List.map_cons, List.map_const']
  have hlist : (input.domain.shrink k.window).surround k.window =
      ((if f < 0 then [⟨0 :: xs, (-f - 1) :: ys⟩] else []) ++ (if 0 < b then [⟨(n - b) :: xs, (n - 1) :: ys⟩] else [])) ++
        Box.surround ⟨0 :: xs, (n - 1) :: ys⟩ ⟨0 :: fs, 0 :: bs⟩ := by
    rw [hinner, hwin, surround_cons hf hb]
    simp only [neg_add_cancel, sub_add_cancel, show n - 1 - b + 1 = n - b by ring]
  -- Without extrapolation
  have hI : ∀ r, Inner k input (input.domain.shrink k.window) out r ↔ r = .ok out := by
    intro r
    rw [hinner]
    unfold Inner
    by_cases hsize : (Box.mk (-f :: xs) ((n - 1 - b) :: ys)).size = 0
    · simp [hsize]
    · have hpos : ∀ i, i < ns.length → xs.getD i 0 ≤ ys.getD i 0 := by
        intro i hi
        have h1 := hxi i hi
        have h2 := hyi i hi
        have h3 := hw i hi
        by_contra hlt
        apply hsize
        rw [Box.size, shapeSize_eq (by simp [Box.shape, Position.sub, Position.addScalar])]
        apply List.prod_eq_zero
        refine List.mem_iff_getElem.2 ⟨i + 1, by simp [Box.shape, Position.sub, Position.addScalar]; omega, ?_⟩
        have e1 : xs.getD i 0 = xs[i] := by simp [List.getD_eq_getElem?_getD, hxl, hi]
        have e2 : ys.getD i 0 = ys[i] := by simp [List.getD_eq_getElem?_getD, hyl, hi]
        simp only [Box.shape, Position.sub, Position.addScalar, List.zipWith_cons_cons, List.map_cons,
          List.getElem_cons_succ, List.getElem_map, List.getElem_zipWith]
        omega
      have hproj : (Box.mk (-f :: xs) ((n - 1 - b) :: ys)).project 0 = ⟨-f :: xs, -f :: ys⟩ := by simp [Box.project]
      have hv : BoxIterator.Visits ((Box.mk (-f :: xs) ((n - 1 - b) :: ys)).project 0) (enum (-f :: xs) (-f :: ys)) := by
        rw [hproj]
        refine BoxIterator.visits_enum (b := ⟨-f :: xs, -f :: ys⟩) (by simp) (.cons le_rfl ?_)
        exact forall₂_iff_getD.2 ⟨by omega, fun i hi => hpos i (by omega)⟩
      have hr : ∀ rows, innerRows k input ⟨-f :: xs, (n - 1 - b) :: ys⟩ rows out = .ok out := by
        intro rows
        unfold innerRows
        have h1 : (k.window.shape.getD 0 0) ≠ 0 := by
          simp [hwin, Box.shape, Position.sub, Position.addScalar]
          omega
        have h2 : (Box.mk (-f :: xs) ((n - 1 - b) :: ys)).shape.getD 0 0 ≤ 0 := by
          simp [Box.shape, Position.sub, Position.addScalar]
          omega
        simp only [if_neg h1]
        rw [rows_skip _ _ _ _ _ _ _ _ h2]
        rfl
      constructor
      · rintro (⟨h0, _⟩ | ⟨_, l, hl, rfl⟩)
        · exact absurd h0 hsize
        · exact hr l
      · rintro rfl
        exact .inr ⟨hsize, _, hv, (hr _).symm⟩
  -- With extrapolation
  have hsub : ∀ x y : Int, 0 ≤ x → y ≤ n - 1 → ∀ p, InBox (x :: xs) (y :: ys) p → InShape input.shape p := by
    intro x y hx hy p hp
    refine (hdomain p).1 ((hcur.cover p).2 (.inl ?_))
    cases p with
    | nil => cases hp.1
    | cons q qs =>
      obtain ⟨h1, h2⟩ := hp
      obtain ⟨h3, h4⟩ := List.forall₂_cons.1 h1
      obtain ⟨h5, h6⟩ := List.forall₂_cons.1 h2
      exact ⟨.cons (by omega) h4, .cons (by omega) h6⟩
  have hall : ∀ c ∈ (input.domain.shrink k.window).surround k.window, Fits input.shape.length 1 c ∧
      ∀ p, InBox c.front c.back p → InShape input.shape p := by
    intro c hc
    rw [hlist, List.mem_append, List.mem_append] at hc
    rcases hc with (hc | hc) | hc
    · split at hc
      · obtain rfl := List.mem_singleton.1 hc
        exact ⟨hfits _ _ (by omega), hsub _ _ (by omega) (by omega)⟩
      · simp at hc
    · split at hc
      · obtain rfl := List.mem_singleton.1 hc
        exact ⟨hfits _ _ (by omega), hsub _ _ (by omega) (by omega)⟩
      · simp at hc
    · refine ⟨?_, fun p hp => (hdomain p).1 ((hcur.cover p).2 (.inr ⟨c, hc, hp⟩))⟩
      have := hcur.fits c hc
      simpa [hs, hxl] using this
  obtain ⟨o, h1, h2, h3, -⟩ := outers_spec h.prepared _ (fun c hc => (hall c hc).1) (fun c hc => (hall c hc).2) out rfl
  refine ⟨o, fun res => ?_, h2, fun p hp => ?_⟩
  · rw [← h1 res]
    unfold Correlates
    simp only [hI]
    constructor
    · rintro (⟨e, he, rfl⟩ | ⟨o, he, hr⟩)
      · simp at he
      · simp only [Except.ok.injEq] at he
        subst he
        exact hr
    · intro h
      exact .inr ⟨out, rfl, h⟩
  · refine correct_corr h.nonempty.length_eq hp ?_
    rw [← corrFold_eq]
    have hmem : ∃ c ∈ (input.domain.shrink k.window).surround k.window, InBox c.front c.back p := by
      rw [hlist]
      rcases (hcur.cover p).1 ((hdomain p).2 hp) with hin | ⟨c, hc, hpc⟩
      · cases p with
        | nil => cases hin.1
        | cons q qs =>
          obtain ⟨h1, h2⟩ := hin
          obtain ⟨h3, h4⟩ := List.forall₂_cons.1 h1
          obtain ⟨h5, h6⟩ := List.forall₂_cons.1 h2
          by_cases hq : q ≤ -f - 1
          · refine ⟨⟨0 :: xs, (-f - 1) :: ys⟩, ?_, .cons h3 h4, .cons hq h6⟩
            rw [if_pos (show f < 0 by omega)]
            simp
          · refine ⟨⟨(n - b) :: xs, (n - 1) :: ys⟩, ?_, .cons (by omega) h4, .cons h5 h6⟩
            rw [if_pos (show 0 < b by omega)]
            simp
      · exact ⟨c, by simp [hc], hpc⟩
    obtain ⟨c, hc, hpc⟩ := hmem
    exact h3 c hc p hpc

/-- A kernel of five columns and two rows, on a raster of two columns and three rows. -/
example : ∃ o, Returns (α := Int) ⟨[1, 2, 3, 4, 5, 6, 7, 8, 9, 10], ⟨[-2, 0], [2, 1]⟩⟩ ⟨[2, 3], [1, 2, 3, 4, 5, 6]⟩
    (constantAt 0 ⟨[2, 3], [1, 2, 3, 4, 5, 6]⟩) [0, 0, 0, 0, 0, 0] o ∧ o.length = 6 ∧
    ∀ p, InShape [2, 3] p → Correct ⟨[1, 2, 3, 4, 5, 6, 7, 8, 9, 10], ⟨[-2, 0], [2, 1]⟩⟩ [2, 3]
      (fun q => (constantAt (0 : Int) ⟨[2, 3], [1, 2, 3, 4, 5, 6]⟩ q).toOption.getD 0) o p :=
  C45_wide_partial (C45_extrapolation_methods (k := ⟨[1, 2, 3, 4, 5, 6, 7, 8, 9, 10], ⟨[-2, 0], [2, 1]⟩⟩) 0 (by simp)
    (by simp [Pos]) rfl (by simp) (by decide) (by decide) (by decide)).1 rfl rfl
    ⟨by decide, by decide⟩ (by decide) (by decide) (by decide) (by decide)

end Kernel

end Litl
