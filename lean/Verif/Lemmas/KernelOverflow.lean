import Verif.Model.KernelOverflow
import Verif.Lemmas.Kernel
import Verif.Props.Overflow

/-!
# Lemmas about the correlation on machine integers
-/

namespace Litl

open Spec

namespace Checked

/-! ## Element-wise operations -/

theorem bind_ok {β γ : Type _} (x : β) (f : β → Res γ) : (Except.ok x >>= f : Res γ) = f x := rfl

/-- A sequence of operations succeeds when each one does. -/
theorem bind_inv {β γ : Type _} {a : Res β} {f : β → Res γ} {y : γ} (h : a >>= f = .ok y) :
    ∃ x, a = .ok x ∧ f x = .ok y := by
  cases a with
  | error e => cases h
  | ok x => exact ⟨x, rfl, h⟩

theorem zip_ok {op : Int → Int → Int} : ∀ {u v : Position}, u.length = v.length →
    (∀ i, i < u.length → IsI64 (op (u.getD i 0) (v.getD i 0))) → Checked.zip op u v = .ok (List.zipWith op u v) := by
  intro u
  induction u with
  | nil => intro v _ _; cases v <;> rfl
  | cons x u ih =>
    intro v hl h
    cases v with
    | nil => simp at hl
    | cons y v =>
      have h0 := h 0 (by simp)
      have hr := ih (v := v) (by simpa using hl) (fun i hi => by
        have := h (i + 1) (by simpa using hi)
        simpa using this)
      simp only [List.getD_cons_zero] at h0
      rw [Checked.zip, ck_ok h0, hr]
      rfl

theorem zip_inv {op : Int → Int → Int} : ∀ {u v w : Position}, Checked.zip op u v = .ok w →
    w = List.zipWith op u v ∧ ∀ i, i < u.length → i < v.length → IsI64 (op (u.getD i 0) (v.getD i 0)) := by
  intro u
  induction u with
  | nil => intro v w h; cases v <;> cases h <;> exact ⟨rfl, by simp⟩
  | cons x u ih =>
    intro v w h
    cases v with
    | nil => cases h; exact ⟨rfl, by simp⟩
    | cons y v =>
      rw [Checked.zip] at h
      obtain ⟨z, hz, h⟩ := bind_inv h
      obtain ⟨t, ht, h⟩ := bind_inv h
      cases h
      obtain ⟨h1, rfl⟩ := ck_inv hz
      obtain ⟨rfl, h2⟩ := ih ht
      refine ⟨rfl, fun i hi hi' => ?_⟩
      cases i with
      | zero => simpa using h1
      | succ i => simpa using h2 i (by simpa using hi) (by simpa using hi')

theorem map_ok {op : Int → Int} : ∀ {u : Position}, (∀ i, i < u.length → IsI64 (op (u.getD i 0))) →
    Checked.map op u = .ok (u.map op) := by
  intro u
  induction u with
  | nil => intro _; rfl
  | cons x u ih =>
    intro h
    have h0 := h 0 (by simp)
    have hr := ih (fun i hi => by simpa using h (i + 1) (by simpa using hi))
    simp only [List.getD_cons_zero] at h0
    rw [Checked.map, ck_ok h0, hr]
    rfl

theorem map_inv {op : Int → Int} : ∀ {u w : Position}, Checked.map op u = .ok w → w = u.map op := by
  intro u
  induction u with
  | nil => intro w h; cases h; rfl
  | cons x u ih =>
    intro w h
    rw [Checked.map] at h
    obtain ⟨z, hz, h⟩ := bind_inv h
    obtain ⟨t, ht, h⟩ := bind_inv h
    cases h
    obtain ⟨_, rfl⟩ := ck_inv hz
    rw [ih ht]
    rfl

/-! ## What is computed without overflow is right -/

theorem index_inv : ∀ {s p : Position} {k : Int}, Checked.index s p = .ok k → k = Litl.index s p := by
  intro s
  induction s with
  | nil => intro p k h; cases p <;> cases h <;> rfl
  | cons n s ih =>
    intro p k h
    rcases p with _ | ⟨x, p⟩
    · cases s <;> cases h <;> rfl
    · rcases s with _ | ⟨m, s⟩
      · rcases p with _ | ⟨y, p⟩
        · cases h; rfl
        · rw [Checked.index] at h
          · obtain ⟨r, hr, h⟩ := bind_inv h
            obtain ⟨z, hz, h⟩ := bind_inv h
            obtain ⟨_, rfl⟩ := ck_inv hz
            obtain ⟨_, rfl⟩ := ck_inv h
            rw [ih hr, Litl.index]
            simp
          · simp
      · rw [Checked.index] at h
        · obtain ⟨r, hr, h⟩ := bind_inv h
          obtain ⟨z, hz, h⟩ := bind_inv h
          obtain ⟨_, rfl⟩ := ck_inv hz
          obtain ⟨_, rfl⟩ := ck_inv h
          rw [ih hr, Litl.index]
          simp
        · simp

theorem boxShape_inv {b : Box} {s : Position} (h : Checked.boxShape b = .ok s) : s = b.shape := by
  rw [Checked.boxShape] at h
  obtain ⟨d, hd, h⟩ := bind_inv h
  rw [map_inv h, (zip_inv hd).1]
  rfl

theorem boxSize_inv {b : Box} {n : Int} (h : Checked.boxSize b = .ok n) : n = b.size := by
  rw [Checked.boxSize] at h
  obtain ⟨s, hs, h⟩ := bind_inv h
  rw [← C79_size_refines h, boxShape_inv hs]
  rfl

theorem boxLength_inv {b : Box} {n : Int} (hl : b.front.length = b.back.length) (hd : 0 < b.front.length)
    (h : Checked.boxLength b 0 = .ok n) : n = b.shape.getD 0 0 := by
  rw [Checked.boxLength] at h
  obtain ⟨d, hd', h⟩ := bind_inv h
  obtain ⟨_, rfl⟩ := ck_inv hd'
  obtain ⟨_, rfl⟩ := ck_inv h
  unfold Box.shape
  rw [getD_addScalar (by rw [length_sub (by omega)]; omega), getD_sub (by omega)]

theorem fromShape_inv {f s : Position} {b : Box} (h : Checked.fromShape f s = .ok b) : b = Box.fromShape f s := by
  rw [Checked.fromShape] at h
  obtain ⟨d, hd, h⟩ := bind_inv h
  obtain ⟨e, he, h⟩ := bind_inv h
  cases h
  rw [map_inv he, (zip_inv hd).1]
  rfl

theorem shrink_inv {b m c : Box} (h : Checked.shrink b m = .ok c) : c = b.shrink m := by
  rw [Checked.shrink] at h
  obtain ⟨d, hd, h⟩ := bind_inv h
  obtain ⟨e, he, h⟩ := bind_inv h
  cases h
  rw [(zip_inv he).1, (zip_inv hd).1]
  rfl

theorem shift_inv {b c : Box} {v : Position} (h : Checked.shift b v = .ok c) : c = b.shift v := by
  rw [Checked.shift] at h
  obtain ⟨d, hd, h⟩ := bind_inv h
  obtain ⟨e, he, h⟩ := bind_inv h
  cases h
  rw [(zip_inv he).1, (zip_inv hd).1]
  rfl

theorem surroundStep_inv {m : Box} {st st' : Box × List Box} {i : Nat} (h : Checked.surroundStep m st i = .ok st') :
    st' = Box.surroundStep m st i := by
  rw [Checked.surroundStep] at h
  obtain ⟨s1, h1, h⟩ := bind_inv h
  unfold Checked.surroundFront at h1
  unfold Checked.surroundBack at h
  unfold Box.surroundStep
  have e1 : s1 = if m.front.getD i 0 < 0 then
      (⟨st.1.front.set i (st.1.front.getD i 0 + m.front.getD i 0), st.1.back⟩,
        st.2 ++ [⟨st.1.front.set i (st.1.front.getD i 0 + m.front.getD i 0),
          st.1.back.set i (st.1.front.getD i 0 - 1)⟩]) else st := by
    split at h1
    · next hf =>
      rw [if_pos hf]
      obtain ⟨z, hz, h1⟩ := bind_inv h1
      obtain ⟨y, hy, h1⟩ := bind_inv h1
      obtain ⟨_, rfl⟩ := ck_inv hz
      obtain ⟨_, rfl⟩ := ck_inv hy
      cases h1
      rfl
    · next hf => rw [if_neg hf]; cases h1; rfl
  dsimp only
  rw [← e1]
  split at h
  · next hb =>
    rw [if_pos hb]
    obtain ⟨z, hz, h⟩ := bind_inv h
    obtain ⟨y, hy, h⟩ := bind_inv h
    obtain ⟨_, rfl⟩ := ck_inv hz
    obtain ⟨_, rfl⟩ := ck_inv hy
    cases h
    rfl
  · next hb => rw [if_neg hb]; cases h; rfl

/-- A loop whose steps are right is right. -/
theorem foldlM_inv {β ι : Type _} {f : β → ι → Res β} {g : β → ι → Res β} {l : List ι}
    (hfg : ∀ s, ∀ x ∈ l, ∀ t, f s x = .ok t → g s x = .ok t) {s t : β} (h : l.foldlM f s = .ok t) : l.foldlM g s = .ok t := by
  induction l generalizing s with
  | nil => exact h
  | cons x l ih =>
    rw [List.foldlM_cons] at h ⊢
    obtain ⟨u, hu, h⟩ := bind_inv h
    rw [hfg s x (by simp) u hu]
    exact ih (fun s y hy => hfg s y (by simp [hy])) h

theorem foldlM_congr_steps {β ι : Type _} {f g : β → ι → Res β} {l : List ι} (hfg : ∀ s, ∀ x ∈ l, f s x = g s x) (s : β) :
    l.foldlM f s = l.foldlM g s := by
  induction l generalizing s with
  | nil => rfl
  | cons x l ih =>
    rw [List.foldlM_cons, List.foldlM_cons, hfg s x (by simp)]
    congr 1
    funext t
    exact ih (fun s y hy => hfg s y (by simp [hy])) t

theorem foldlM_pure {β ι : Type _} (g : β → ι → β) (l : List ι) (s : β) :
    l.foldlM (fun s x => (.ok (g s x) : Res β)) s = .ok (l.foldl g s) := by
  induction l generalizing s with
  | nil => rfl
  | cons x l ih => rw [List.foldlM_cons, bind_ok, ih]; rfl

theorem surround_inv {b m : Box} {l : List Box} (h : Checked.surround b m = .ok l) : l = b.surround m := by
  rw [Checked.surround] at h
  obtain ⟨st, hs, h⟩ := bind_inv h
  have := foldlM_inv (g := fun s i => .ok (Box.surroundStep m s i)) (fun s i _ t ht => by rw [surroundStep_inv ht]) hs
  rw [foldlM_pure] at this
  cases this
  cases h
  rfl

variable {α : Type _} [Zero α] [Add α] [Mul α]

theorem rowStep_inv {values : List α} {kWidth kRowCount : Int} {input : List α} {inWidth distance boxWidth : Int}
    {shape : Position} {st t : List α × Int} {p : Position}
    (h : Checked.rowStep values kWidth kRowCount input inWidth distance boxWidth shape st p = .ok t) :
    Kernel.rowStep values kWidth kRowCount input inWidth distance boxWidth shape st p = .ok t := by
  rw [Checked.rowStep] at h
  obtain ⟨o, ho, h⟩ := bind_inv h
  rw [Kernel.rowStep, ← index_inv ho]
  exact h

theorem innerRows_inv {k : Kernel α} {input : Raster α} {box : Box} {rows : List Position} {out o : List α}
    (hl : box.front.length = box.back.length) (hd : 0 < box.front.length)
    (hkl : k.window.front.length = k.window.back.length) (hkd : 0 < k.window.front.length)
    (h : Checked.innerRows k input box rows out = .ok o) : Kernel.innerRows k input box rows out = .ok o := by
  rw [Checked.innerRows] at h
  obtain ⟨bw, hbw, h⟩ := bind_inv h
  obtain ⟨kw, hkw, h⟩ := bind_inv h
  obtain ⟨ks, hks, h⟩ := bind_inv h
  rw [boxLength_inv hl hd hbw, boxLength_inv hkl hkd hkw, boxSize_inv hks] at h
  unfold Kernel.innerRows
  dsimp only
  split at h
  · cases h
  · next h0 =>
    rw [if_neg h0]
    obtain ⟨rc, hrc, h⟩ := bind_inv h
    obtain ⟨di, hdi, h⟩ := bind_inv h
    obtain ⟨r, hr, h⟩ := bind_inv h
    rw [(ck_inv hrc).2, index_inv hdi] at hr
    rw [foldlM_inv (fun s p _ t ht => rowStep_inv ht) hr]
    exact h

theorem outerStep_inv {k : Kernel α} {extrapolator : Position → Res α} {shape : Position} {out o : List α}
    {pw : Position × List Position} (h : Checked.outerStep k extrapolator shape out pw = .ok o) :
    Kernel.outerStep k extrapolator shape out pw = .ok o := by
  rw [Checked.outerStep] at h
  obtain ⟨b, hb, h⟩ := bind_inv h
  rw [Kernel.outerStep, hb, bind_ok]
  split at h
  · cases h
  · next h0 =>
    rw [if_neg h0]
    obtain ⟨i, hi, h⟩ := bind_inv h
    rw [← index_inv hi]
    exact h

theorem visitsWindow_inv {window : Box} {p : Position} {w : List Position} (h : VisitsWindow window p w) :
    BoxIterator.Visits (window.shift p) w := by
  obtain ⟨b, hb, hv⟩ := h
  rw [← shift_inv hb]
  exact C79_loop_sound hv

theorem outerCorrelates_inv {k : Kernel α} {extrapolator : Position → Res α} {shape : Position} {box : Box} {out o : List α}
    (h : OuterCorrelates k extrapolator shape box out (.ok o)) : Kernel.Outer k extrapolator shape box out (.ok o) := by
  rcases h with ⟨e, _, h⟩ | ⟨h1, h2⟩ | ⟨n, l, ws, h1, h2, h3, h4, h5⟩
  · cases h
  · exact .inl ⟨(boxSize_inv h1).symm, h2⟩
  · refine .inr ⟨?_, l, ws, C79_loop_sound h3, h4.imp fun p w => visitsWindow_inv, ?_⟩
    · rw [← boxSize_inv h1]; exact h2
    · exact (foldlM_inv (fun s pw _ t ht => outerStep_inv ht) h5.symm).symm

theorem outersCorrelate_inv {k : Kernel α} {extrapolator : Position → Res α} {shape : Position} {bs : List Box} {out o : List α}
    (h : OutersCorrelate k extrapolator shape bs out (.ok o)) : Kernel.Outers k extrapolator shape bs out (.ok o) := by
  generalize hr : (Except.ok o : Res (List α)) = r at h
  induction h with
  | done => exact .done
  | fail _ => cases hr
  | next h1 _ ih => exact .next (outerCorrelates_inv h1) (ih hr)

omit [Zero α] [Add α] [Mul α] in
theorem correlationBoxes_inv {k : Kernel α} {shape : Position} {inner : Box} {outers : List Box}
    (h : correlationBoxes k shape = .ok (inner, outers)) :
    inner = (Raster.domainOf shape.length shape).shrink k.window ∧ outers = inner.surround k.window := by
  rw [correlationBoxes] at h
  obtain ⟨d, hd, h⟩ := bind_inv h
  obtain ⟨i, hi, h⟩ := bind_inv h
  obtain ⟨o, ho, h⟩ := bind_inv h
  cases h
  refine ⟨?_, surround_inv ho⟩
  rw [shrink_inv hi, fromShape_inv hd]
  rfl

/-! ## Boxes in a raster -/

/-- The bounds of a possibly empty box are in the domain of a raster of shape `s`. -/
structure Within (s : Position) (c : Box) : Prop where
  fits : Fits s.length 1 c
  front : ∀ j, j < s.length → 0 ≤ c.front.getD j 0
  back : ∀ j, j < s.length → c.back.getD j 0 < s.getD j 0

theorem getD_lt {s : Position} (hs : Pos s) (hc : pixelCount s < 2 ^ 63) {j : Nat} (hj : j < s.length) :
    0 < s.getD j 0 ∧ s.getD j 0 < 2 ^ 63 := by
  have e : s.getD j 0 = s[j] := by simp [List.getD_eq_getElem?_getD, hj]
  rw [e]
  exact ⟨hs _ (List.getElem_mem hj), lt_of_le_of_lt (length_le_prod hs (List.getElem_mem hj)) hc⟩

/-- The partial products of smaller lengths are smaller. -/
theorem take_prod_le : ∀ {l s : List Int}, List.Forall₂ (fun n m => 0 ≤ n ∧ n ≤ m) l s → ∀ k,
    0 ≤ (l.take k).prod ∧ (l.take k).prod ≤ (s.take k).prod := by
  intro l s h
  induction h with
  | nil => intro k; simp
  | @cons n m l s h0 _ ih =>
    intro k
    cases k with
    | zero => simp
    | succ k =>
      obtain ⟨h1, h2⟩ := ih k
      simp only [List.take_succ_cons, List.prod_cons]
      exact ⟨mul_nonneg h0.1 h1, mul_le_mul h0.2 h2 h1 (le_trans h0.1 h0.2)⟩

theorem boxSize_ok {s : Position} (hd : s ≠ []) (hs : Pos s) (hc : pixelCount s < 2 ^ 63) {c : Box} (h : Within s c) :
    Checked.boxSize c = .ok c.size := by
  obtain ⟨⟨h1, h2, h3⟩, h4, h5⟩ := h
  have hn : s.length ≠ 0 := by simpa using hd
  have hl : c.back.length = c.front.length := by omega
  have e1 : Checked.zip (· - ·) c.back c.front = .ok (c.back.sub c.front) := by
    refine zip_ok hl fun i hi => ?_
    have := h3 i (by omega)
    have := h4 i (by omega)
    have := h5 i (by omega)
    have := getD_lt hs hc (j := i) (by omega)
    exact ⟨by omega, by omega⟩
  have e2 : Checked.map (· + 1) (c.back.sub c.front) = .ok c.shape := by
    refine map_ok fun i hi => ?_
    rw [length_sub hl] at hi
    rw [getD_sub hl]
    have := h3 i (by omega)
    have := h4 i (by omega)
    have := h5 i (by omega)
    have := getD_lt hs hc (j := i) (by omega)
    exact ⟨by omega, by omega⟩
  have hsl : c.shape.length = s.length := by
    rw [Box.shape, length_addScalar, length_sub hl]; omega
  have hle : List.Forall₂ (fun n m => 0 ≤ n ∧ n ≤ m) c.shape s := by
    refine forall₂_iff_getD.2 ⟨hsl, fun i hi => ?_⟩
    have hi' : i < s.length := by omega
    unfold Box.shape
    rw [getD_addScalar (by rw [length_sub hl]; omega), getD_sub hl]
    have := h3 i (by omega)
    have := h4 i (by omega)
    have := h5 i (by omega)
    constructor <;> omega
  have hne : c.shape ≠ [] := by
    intro e
    rw [e] at hsl
    exact hn hsl.symm
  have e3 : Checked.shapeSize c.shape = .ok (pixelCount c.shape) := by
    rw [C79_size_iff _ hne]
    refine ⟨rfl, fun k _ _ => ?_⟩
    obtain ⟨g1, g2⟩ := take_prod_le hle k
    exact isI64_of_nonneg g1 (lt_of_le_of_lt g2 (take_bounds hs hc k).2)
  rw [Checked.boxSize, Checked.boxShape, e1, bind_ok, e2, bind_ok, e3, Box.size, shapeSize_eq hne]
  rfl

theorem boxLength_ok {s : Position} (hd : s ≠ []) (hs : Pos s) (hc : pixelCount s < 2 ^ 63) {c : Box} (h : Within s c) :
    Checked.boxLength c 0 = .ok (c.shape.getD 0 0) := by
  obtain ⟨⟨h1, h2, h3⟩, h4, h5⟩ := h
  have hn : 0 < s.length := List.length_pos_iff.2 hd
  have a1 := h3 0 hn
  have a2 := h4 0 hn
  have a3 := h5 0 hn
  have a4 := getD_lt hs hc hn
  unfold Box.shape
  rw [getD_addScalar (by rw [length_sub (by omega)]; omega), getD_sub (by omega), Checked.boxLength, ck_ok ⟨by omega, by omega⟩,
    bind_ok, ck_ok ⟨by omega, by omega⟩]

theorem mem_getD {l : Position} {x : Int} (h : x ∈ l) : ∃ i, i < l.length ∧ l.getD i 0 = x := by
  obtain ⟨i, hi, e⟩ := List.mem_iff_getElem.1 h
  exact ⟨i, hi, by simp [List.getD_eq_getElem?_getD, hi, e]⟩

theorem visits_ok {b : Box} (hf : b.front ≠ []) (hb : Inner b) (l : List Position) :
    Checked.Visits b l ↔ BoxIterator.Visits b l := ⟨C79_loop_sound, C79_loop_partial hf hb⟩

theorem Within.inner {s : Position} (hs : Pos s) (hc : pixelCount s < 2 ^ 63) {c : Box} (h : Within s c) : Inner c := by
  obtain ⟨⟨h1, h2, h3⟩, h4, h5⟩ := h
  constructor
  · intro x hx
    obtain ⟨i, hi, rfl⟩ := mem_getD hx
    have := h3 i (by omega)
    have := h4 i (by omega)
    have := h5 i (by omega)
    have := getD_lt hs hc (j := i) (by omega)
    omega
  · intro x hx
    obtain ⟨i, hi, rfl⟩ := mem_getD hx
    have := h3 i (by omega)
    have := h4 i (by omega)
    have := h5 i (by omega)
    have := getD_lt hs hc (j := i) (by omega)
    omega

theorem Within.mem {s : Position} {c : Box} (h : Within s c) {p : Position} (hp : InBox c.front c.back p) : InShape s p := by
  obtain ⟨⟨h1, h2, h3⟩, h4, h5⟩ := h
  obtain ⟨⟨g1, g2⟩, g3⟩ := inBox_iff.1 hp
  refine forall₂_iff_getD.2 ⟨by omega, fun i hi => ?_⟩
  have := g3 i hi
  have := h4 i (by omega)
  have := h5 i (by omega)
  constructor <;> omega

theorem getD_set_zero {l : Position} {x : Int} {i : Nat} (hi : i < l.length) :
    (l.set 0 x).getD i 0 = if i = 0 then x else l.getD i 0 := by
  by_cases h0 : i = 0
  · subst h0; simp [List.getD_eq_getElem?_getD, hi]
  · rw [if_neg h0]
    simp only [List.getD_eq_getElem?_getD, List.getElem?_set_ne (Ne.symm h0)]

/-- The hyperplane of a box which is not empty. -/
theorem Within.project {s : Position} {c : Box} (h : Within s c) (hle : List.Forall₂ (· ≤ ·) c.front c.back) :
    Within s (c.project 0) := by
  obtain ⟨⟨h1, h2, h3⟩, h4, h5⟩ := h
  obtain ⟨g1, g2⟩ := forall₂_iff_getD.1 hle
  refine ⟨⟨h1, by simp only [Box.project, List.length_set]; exact h2, fun j hj => ?_⟩, h4, fun j hj => ?_⟩
  · simp only [Box.project]
    rw [getD_set_zero (by omega)]
    have := h3 j hj
    split
    · next h0 => subst h0; omega
    · exact this
  · simp only [Box.project]
    rw [getD_set_zero (by omega)]
    have := h5 j hj
    have := g2 j (by omega)
    split
    · next h0 => subst h0; omega
    · omega

theorem fst_self {f b : Position} (hle : List.Forall₂ (· ≤ ·) f b) : InBox f b f :=
  ⟨forall₂_iff_getD.2 ⟨rfl, fun _ _ => le_rfl⟩, hle⟩

/-! ## Surrounding boxes -/

/-- What is required of the kernel and of the shape of the input. -/
structure Bounded (k : Kernel α) (s : Position) : Prop where
  dim : s ≠ []
  pos : Pos s
  count : pixelCount s < 2 ^ 63
  front_length : k.window.front.length = s.length
  back_length : k.window.back.length = s.length
  nonempty : List.Forall₂ (· ≤ ·) k.window.front k.window.back
  kernelCount : pixelCount k.window.shape < 2 ^ 63
  origin : Kernel.OriginInside k
  window : Kernel.WindowFits k s

section

omit [Zero α] [Add α] [Mul α]

theorem Bounded.axis {k : Kernel α} {s : Position} (h : Bounded k s) {i : Nat} (hi : i < s.length) :
    0 < s.getD i 0 ∧ s.getD i 0 < 2 ^ 63 ∧ k.window.front.getD i 0 ≤ 0 ∧ 0 ≤ k.window.back.getD i 0 ∧
      k.window.back.getD i 0 - k.window.front.getD i 0 ≤ s.getD i 0 := by
  have hif : i < k.window.front.length := by rw [h.front_length]; exact hi
  have hib : i < k.window.back.length := by rw [h.back_length]; exact hi
  obtain ⟨h1, h2⟩ := getD_lt h.pos h.count hi
  have e1 : k.window.front.getD i 0 = k.window.front[i] := by
    simp [List.getD_eq_getElem?_getD, List.getElem?_eq_getElem hif]
  have e2 : k.window.back.getD i 0 = k.window.back[i] := by
    simp [List.getD_eq_getElem?_getD, List.getElem?_eq_getElem hib]
  exact ⟨h1, h2, by rw [e1]; exact h.origin.1 _ (List.getElem_mem hif), by rw [e2]; exact h.origin.2 _ (List.getElem_mem hib),
    h.window i hi⟩

/-- The inner box of the correlation. -/
theorem inner_getD {k : Kernel α} {s : Position} (h : Bounded k s) {i : Nat} (hi : i < s.length) :
    ((Raster.domainOf s.length s).shrink k.window).front.getD i 0 = - k.window.front.getD i 0 ∧
    ((Raster.domainOf s.length s).shrink k.window).back.getD i 0 = s.getD i 0 - 1 - k.window.back.getD i 0 := by
  have hfl := h.front_length
  have hbl := h.back_length
  simp only [Box.shrink, domainOf_fixed]
  rw [getD_sub (by simp [hfl]), getD_sub (by simp [hbl])]
  simp [List.getD_eq_getElem?_getD, hi]

theorem inner_length {k : Kernel α} {s : Position} (h : Bounded k s) :
    ((Raster.domainOf s.length s).shrink k.window).front.length = s.length ∧
    ((Raster.domainOf s.length s).shrink k.window).back.length = s.length := by
  have hfl := h.front_length
  have hbl := h.back_length
  simp [Box.shrink, domainOf_fixed, Position.sub, hfl, hbl]

theorem inner_within {k : Kernel α} {s : Position} (h : Bounded k s) :
    Within s ((Raster.domainOf s.length s).shrink k.window) := by
  obtain ⟨h1, h2⟩ := inner_length h
  refine ⟨⟨h1, h2, fun j hj => ?_⟩, fun j hj => ?_, fun j hj => ?_⟩
  all_goals
    have := h.axis hj
    have := inner_getD h hj
    omega

theorem getD_set {l : Position} {x : Int} {i j : Nat} (hj : j < l.length) :
    (l.set i x).getD j 0 = if j = i then x else l.getD j 0 := by
  by_cases h0 : j = i
  · subst h0; simp [List.getD_eq_getElem?_getD, hj]
  · rw [if_neg h0]
    simp only [List.getD_eq_getElem?_getD, List.getElem?_set_ne (Ne.symm h0)]

/-- One iteration of `surround`: no overflow, and the new boxes are in the domain. -/
theorem surroundStep_ok {k : Kernel α} {s : Position} (h : Bounded k s) {i : Nat} (hi : i < s.length) {st : Box × List Box}
    (hinv : SurInv 1 ((Raster.domainOf s.length s).shrink k.window) k.window i st) (hin : ∀ c ∈ st.2, Within s c) :
    Checked.surroundStep k.window st i = .ok (Box.surroundStep k.window st i) ∧
      ∀ c ∈ (Box.surroundStep k.window st i).2, Within s c := by
  obtain ⟨hl1, hl2⟩ := inner_length h
  have hf := hinv.front
  have hb := hinv.back
  have lf := hinv.lf
  have lb := hinv.lb
  rw [hl1] at hf hb lf lb
  obtain ⟨a1, a2, a3, a4, a5⟩ := h.axis hi
  obtain ⟨g1, g2⟩ := inner_getD h hi
  have hfi := hf i hi
  have hbi := hb i hi
  rw [if_neg (lt_irrefl i), g1] at hfi
  rw [if_neg (lt_irrefl i), g2] at hbi
  have hcoord : ∀ j, j < s.length → 0 ≤ st.1.front.getD j 0 ∧ st.1.back.getD j 0 < s.getD j 0 ∧
      st.1.front.getD j 0 ≤ st.1.back.getD j 0 + 1 := by
    intro j hj
    obtain ⟨b1, b2, b3, b4, b5⟩ := h.axis hj
    obtain ⟨c1, c2⟩ := inner_getD h hj
    have d1 := hf j hj
    have d2 := hb j hj
    rw [c1] at d1
    rw [c2] at d2
    split at d1
    · next hji => rw [if_pos hji] at d2; omega
    · next hji => rw [if_neg hji] at d2; omega
  have key : ∀ st' : Box × List Box, st'.1.front.length = s.length → st'.1.back.length = s.length →
      st'.1.back.getD i 0 = s.getD i 0 - 1 - k.window.back.getD i 0 → 0 ≤ st'.1.front.getD i 0 →
      (∀ j, j < s.length → 0 ≤ st'.1.front.getD j 0 ∧ st'.1.back.getD j 0 < s.getD j 0 ∧
        st'.1.front.getD j 0 ≤ st'.1.back.getD j 0 + 1) → (∀ c ∈ st'.2, Within s c) →
      Checked.surroundBack k.window st' i = .ok (if k.window.back.getD i 0 > 0 then
        (⟨st'.1.front, st'.1.back.set i (st'.1.back.getD i 0 + k.window.back.getD i 0)⟩,
          st'.2 ++ [⟨st'.1.front.set i (st'.1.back.getD i 0 + 1),
            st'.1.back.set i (st'.1.back.getD i 0 + k.window.back.getD i 0)⟩]) else st') ∧
      ∀ c ∈ (if k.window.back.getD i 0 > 0 then
        ((⟨st'.1.front, st'.1.back.set i (st'.1.back.getD i 0 + k.window.back.getD i 0)⟩ : Box),
          st'.2 ++ [(⟨st'.1.front.set i (st'.1.back.getD i 0 + 1),
            st'.1.back.set i (st'.1.back.getD i 0 + k.window.back.getD i 0)⟩ : Box)]) else st').2, Within s c := by
    intro st' l1 l2 hback _ hco hw
    unfold Checked.surroundBack
    by_cases hb0 : k.window.back.getD i 0 > 0
    · rw [if_pos hb0, if_pos hb0, ck_ok ⟨by omega, by omega⟩, bind_ok, ck_ok ⟨by omega, by omega⟩, bind_ok]
      refine ⟨rfl, fun c hc => ?_⟩
      rcases List.mem_append.1 hc with hc | hc
      · exact hw c hc
      · rw [List.mem_singleton.1 hc]
        refine ⟨⟨by simp [l1], by simp [l2], fun j hj => ?_⟩, fun j hj => ?_, fun j hj => ?_⟩
        · rw [getD_set (by omega), getD_set (by omega)]
          have := hco j hj
          split <;> omega
        · rw [getD_set (by omega)]
          have := hco j hj
          split <;> omega
        · rw [getD_set (by omega)]
          have := hco j hj
          split
          · next e => subst e; omega
          · omega
    · rw [if_neg hb0, if_neg hb0]
      exact ⟨rfl, hw⟩
  unfold Checked.surroundStep Checked.surroundFront Box.surroundStep
  dsimp only
  by_cases hf0 : k.window.front.getD i 0 < 0
  · rw [if_pos hf0, if_pos hf0, ck_ok ⟨by omega, by omega⟩, bind_ok, ck_ok ⟨by omega, by omega⟩, bind_ok]
    refine key (⟨st.1.front.set i (st.1.front.getD i 0 + k.window.front.getD i 0), st.1.back⟩,
      st.2 ++ [⟨st.1.front.set i (st.1.front.getD i 0 + k.window.front.getD i 0),
        st.1.back.set i (st.1.front.getD i 0 - 1)⟩]) (by simp [lf]) lb (by simp only; omega) ?_ ?_ ?_
    · dsimp only
      rw [getD_set (by omega), if_pos rfl]
      omega
    · intro j hj
      dsimp only
      rw [getD_set (by omega)]
      have := hcoord j hj
      split
      · next e => subst e; omega
      · exact this
    · intro c hc
      rcases List.mem_append.1 hc with hc | hc
      · exact hin c hc
      · rw [List.mem_singleton.1 hc]
        refine ⟨⟨by simp [lf], by simp [lb], fun j hj => ?_⟩, fun j hj => ?_, fun j hj => ?_⟩
        · rw [getD_set (by omega), getD_set (by omega)]
          have := hcoord j hj
          split <;> omega
        · rw [getD_set (by omega)]
          have := hcoord j hj
          split <;> omega
        · rw [getD_set (by omega)]
          have := hcoord j hj
          split
          · next e => subst e; omega
          · omega
  · rw [if_neg hf0, if_neg hf0, bind_ok]
    exact key st lf lb (by omega) (by omega) hcoord hin

theorem surround_ok {k : Kernel α} {s : Position} (h : Bounded k s) :
    Checked.surround ((Raster.domainOf s.length s).shrink k.window) k.window =
      .ok (((Raster.domainOf s.length s).shrink k.window).surround k.window) ∧
    ∀ c ∈ ((Raster.domainOf s.length s).shrink k.window).surround k.window, Within s c := by
  obtain ⟨hl1, hl2⟩ := inner_length h
  have hw := inner_within h
  have hinv := surInv_foldl (d := 1) (by omega) (b := (Raster.domainOf s.length s).shrink k.window) (m := k.window)
    (by omega) (by intro j hj; exact hw.fits.2.2 j (by omega)) (by intro j hj; exact (h.axis (by omega)).2.2.1)
    (by intro j hj; exact (h.axis (by omega)).2.2.2.1)
  have key : ∀ i, i ≤ s.length →
      (List.range i).foldlM (Checked.surroundStep k.window) ((Raster.domainOf s.length s).shrink k.window, []) =
        .ok ((List.range i).foldl (Box.surroundStep k.window) ((Raster.domainOf s.length s).shrink k.window, [])) ∧
      ∀ c ∈ ((List.range i).foldl (Box.surroundStep k.window) ((Raster.domainOf s.length s).shrink k.window, [])).2,
        Within s c := by
    intro i
    induction i with
    | zero => intro _; exact ⟨rfl, by simp⟩
    | succ i ih =>
      intro hi
      obtain ⟨h1, h2⟩ := ih (by omega)
      obtain ⟨h3, h4⟩ := surroundStep_ok h (by omega) (hinv i (by omega)) h2
      rw [List.range_succ, List.foldlM_append, List.foldl_append, h1, bind_ok]
      refine ⟨?_, h4⟩
      rw [List.foldlM_cons, h3]
      rfl
  obtain ⟨h1, h2⟩ := key s.length le_rfl
  have e : ((Raster.domainOf s.length s).shrink k.window).dimension = s.length := hl1
  unfold Checked.surround Box.surround
  rw [e, h1]
  exact ⟨rfl, h2⟩

theorem correlationBoxes_ok {k : Kernel α} {s : Position} (h : Bounded k s) :
    correlationBoxes k s = .ok ((Raster.domainOf s.length s).shrink k.window,
      ((Raster.domainOf s.length s).shrink k.window).surround k.window) := by
  have hd : Checked.fromShape (Position.zero s.length) s = .ok (Raster.domainOf s.length s) := by
    refine C79_domain fun n hn => ?_
    exact ⟨le_of_lt (h.pos n hn), lt_of_le_of_lt (length_le_prod h.pos hn) h.count⟩
  have hfl := h.front_length
  have hbl := h.back_length
  have hs : Checked.shrink (Raster.domainOf s.length s) k.window = .ok ((Raster.domainOf s.length s).shrink k.window) := by
    have e1 : Checked.zip (· - ·) (Raster.domainOf s.length s).front k.window.front =
        .ok ((Raster.domainOf s.length s).front.sub k.window.front) := by
      refine zip_ok (by rw [domainOf_fixed]; simp [hfl]) fun i hi => ?_
      have hi' : i < s.length := by rw [domainOf_fixed] at hi; simpa using hi
      have := h.axis hi'
      have := (inner_getD h hi').1
      rw [Box.shrink] at this
      dsimp only at this
      rw [getD_sub (by rw [domainOf_fixed]; simp [hfl])] at this
      exact ⟨by omega, by omega⟩
    have e2 : Checked.zip (· - ·) (Raster.domainOf s.length s).back k.window.back =
        .ok ((Raster.domainOf s.length s).back.sub k.window.back) := by
      refine zip_ok (by rw [domainOf_fixed]; simp [hbl]) fun i hi => ?_
      have hi' : i < s.length := by rw [domainOf_fixed] at hi; simpa using hi
      have := h.axis hi'
      have := (inner_getD h hi').2
      rw [Box.shrink] at this
      dsimp only at this
      rw [getD_sub (by rw [domainOf_fixed]; simp [hbl])] at this
      exact ⟨by omega, by omega⟩
    rw [Checked.shrink, e1, bind_ok, e2]
    rfl
  rw [correlationBoxes, hd, bind_ok, hs, bind_ok, (surround_ok h).1]
  rfl

end

/-! ## Correlation -/

theorem innerCorrelates_iff {k : Kernel α} {input : Raster α} (h : Bounded k input.shape) {out : List α}
    {box : Box} (hbox : Within input.shape box) (res : Res (List α)) :
    InnerCorrelates k input box out res ↔ Kernel.Inner k input box out res := by
  have hn : input.shape.length ≠ 0 := by simpa using h.dim
  have hsize := boxSize_ok h.dim h.pos h.count hbox
  have hrows : box.size ≠ 0 → ∀ rows, (Checked.Visits (box.project 0) rows ↔ BoxIterator.Visits (box.project 0) rows) ∧
      (BoxIterator.Visits (box.project 0) rows → Checked.innerRows k input box rows out = Kernel.innerRows k input box rows out) := by
    intro h0 rows
    have hle := Kernel.nonempty_of_size hn hbox.fits h0
    have hproj := hbox.project hle
    have hne : (box.project 0).front ≠ [] := by
      intro e
      have := hbox.fits.1
      simp only [Box.project] at e
      rw [e] at this
      exact hn this.symm
    refine ⟨visits_ok hne (hproj.inner h.pos h.count) rows, fun hv => ?_⟩
    have hin : ∀ p ∈ rows, InShape input.shape p := fun p hp =>
      hproj.mem ((((visits_box_iff _ hne rows).1 hv).2.2 p).1 hp)
    have hkw : Checked.boxLength k.window 0 = .ok (k.window.shape.getD 0 0) ∧ 0 < k.window.shape.getD 0 0 := by
      have hp : 0 < input.shape.length := by omega
      have hax := h.axis hp
      have hfl := h.front_length
      have hbl := h.back_length
      have hnon := (forall₂_iff_getD.1 h.nonempty).2 0 (by omega)
      -- the length is at most the number of values
      have hps : Pos k.window.shape := by
        intro n hmem
        obtain ⟨i, hi, rfl⟩ := mem_getD hmem
        unfold Box.shape at hi ⊢
        rw [length_addScalar, length_sub (by omega)] at hi
        rw [getD_addScalar (by rw [length_sub (by omega)]; omega), getD_sub (by omega)]
        have := (forall₂_iff_getD.1 h.nonempty).2 i (by omega)
        omega
      have hlt := getD_lt hps h.kernelCount (j := 0) (by
        unfold Box.shape; rw [length_addScalar, length_sub (by omega)]; omega)
      have e : k.window.shape.getD 0 0 = k.window.back.getD 0 0 - k.window.front.getD 0 0 + 1 := by
        unfold Box.shape
        rw [getD_addScalar (by rw [length_sub (by omega)]; omega), getD_sub (by omega)]
      refine ⟨?_, hlt.1⟩
      rw [e] at hlt ⊢
      rw [Checked.boxLength, ck_ok ⟨by omega, by omega⟩, bind_ok, ck_ok ⟨by omega, by omega⟩]
    have hkf : k.window.front ≠ [] := by
      intro e
      have := h.front_length
      rw [e] at this
      exact hn this.symm
    have hks : Checked.boxSize k.window = .ok k.window.size := C79_box_size hkf h.nonempty h.kernelCount
    have hsz : 0 ≤ k.window.size ∧ k.window.size < 2 ^ 63 := by
      have e : k.window.size = pixelCount k.window.shape := by
        rw [Box.size, shapeSize_eq (Box.shape_ne_nil (by rw [h.front_length, h.back_length]) hkf)]; rfl
      rw [e]
      refine ⟨?_, h.kernelCount⟩
      refine le_of_lt (prod_pos ?_)
      exact (forall₂_le_iff (by rw [h.front_length, h.back_length])).1 h.nonempty
    have hq : IsI64 (k.window.size.tdiv (k.window.shape.getD 0 0)) := by
      have h1 : 0 ≤ k.window.size.tdiv (k.window.shape.getD 0 0) := Int.tdiv_nonneg hsz.1 (le_of_lt hkw.2)
      have h2 : k.window.size.tdiv (k.window.shape.getD 0 0) ≤ k.window.size := by
        rw [Int.tdiv_eq_ediv_of_nonneg hsz.1]
        exact Int.ediv_le_self _ hsz.1
      exact ⟨by omega, by omega⟩
    have hdist : Checked.index input.shape box.front = .ok (Litl.index input.shape box.front) :=
      C79_index (hbox.mem (fst_self hle)) h.count
    unfold Checked.innerRows Kernel.innerRows
    rw [boxLength_ok h.dim h.pos h.count hbox, bind_ok]
    dsimp only
    rw [hkw.1, bind_ok, hks, bind_ok]
    rw [if_neg (by have := hkw.2; omega), if_neg (by have := hkw.2; omega), ck_ok hq, bind_ok, hdist, bind_ok]
    rw [foldlM_congr_steps (g := Kernel.rowStep k.values (k.window.shape.getD 0 0)
      (k.window.size.tdiv (k.window.shape.getD 0 0)) input.data (input.shape.getD 0 0)
      (Litl.index input.shape box.front) (box.shape.getD 0 0) input.shape)]
    intro st p hp
    rw [Checked.rowStep, C79_index (hin p hp) h.count, bind_ok]
    rfl
  unfold InnerCorrelates Kernel.Inner
  rw [hsize]
  constructor
  · rintro (⟨e, he, _⟩ | ⟨h1, h2⟩ | ⟨n, rows, h1, h2, h3, h4⟩)
    · cases he
    · exact .inl ⟨by simpa using h1, h2⟩
    · have e : box.size = n := by simpa using h1
      subst e
      obtain ⟨g1, g2⟩ := hrows h2 rows
      exact .inr ⟨h2, rows, g1.1 h3, by rw [h4]; exact g2 (g1.1 h3)⟩
  · rintro (⟨h1, h2⟩ | ⟨h2, rows, h3, h4⟩)
    · exact .inr (.inl ⟨by rw [h1], h2⟩)
    · obtain ⟨g1, g2⟩ := hrows h2 rows
      exact .inr (.inr ⟨_, rows, rfl, h2, g1.2 h3, by rw [h4]; exact (g2 h3).symm⟩)

/-- The windows at the pixels are in the range of `Index`. -/
def WindowBounded (k : Kernel α) (s : Position) : Prop := ∀ i, i < s.length → s.getD i 0 + k.window.back.getD i 0 < 2 ^ 63

omit [Zero α] [Add α] [Mul α] in
theorem visitsWindow_iff {k : Kernel α} {s : Position} (h : Bounded k s) (hr : WindowBounded k s) {p : Position}
    (hp : InShape s p) (w : List Position) : VisitsWindow k.window p w ↔ BoxIterator.Visits (k.window.shift p) w := by
  have hn : s.length ≠ 0 := by simpa using h.dim
  have hfl := h.front_length
  have hbl := h.back_length
  obtain ⟨hpl, hpi⟩ := forall₂_iff_getD.1 hp
  have hax : ∀ i, i < s.length → -2 ^ 63 < k.window.front.getD i 0 + p.getD i 0 ∧
      k.window.front.getD i 0 + p.getD i 0 ≤ k.window.back.getD i 0 + p.getD i 0 ∧
      k.window.back.getD i 0 + p.getD i 0 < 2 ^ 63 - 1 := by
    intro i hi
    have := h.axis hi
    have := hr i hi
    have := hpi i (by omega)
    omega
  have e : Checked.shift k.window p = .ok (k.window.shift p) := by
    have e1 : Checked.zip (· + ·) k.window.front p = .ok (k.window.front.add p) := by
      refine zip_ok (by omega) fun i hi => ?_
      have := hax i (by omega)
      exact ⟨by omega, by omega⟩
    have e2 : Checked.zip (· + ·) k.window.back p = .ok (k.window.back.add p) := by
      refine zip_ok (by omega) fun i hi => ?_
      have := hax i (by omega)
      exact ⟨by omega, by omega⟩
    rw [Checked.shift, e1, bind_ok, e2]
    rfl
  have hb : Inner (k.window.shift p) := by
    constructor
    · intro x hx
      obtain ⟨i, hi, rfl⟩ := mem_getD hx
      simp only [Box.shift] at hi ⊢
      rw [length_add (by omega)] at hi
      rw [getD_add (by omega)]
      have := hax i (by omega)
      omega
    · intro x hx
      obtain ⟨i, hi, rfl⟩ := mem_getD hx
      simp only [Box.shift] at hi ⊢
      rw [length_add (by omega)] at hi
      rw [getD_add (by omega)]
      have := hax i (by omega)
      omega
  have hne : (k.window.shift p).front ≠ [] := by
    intro e
    have e' := congrArg List.length e
    simp only [Box.shift] at e'
    rw [length_add (by omega)] at e'
    simp at e'
    rw [e'] at hfl
    simp at hfl
    omega
  constructor
  · exact visitsWindow_inv
  · intro hv
    exact ⟨_, e, (visits_ok hne hb w).2 hv⟩

theorem outerCorrelates_iff {k : Kernel α} {s : Position} (h : Bounded k s) (hr : WindowBounded k s)
    {extrapolator : Position → Res α} {out : List α} {box : Box} (hbox : Within s box) (res : Res (List α)) :
    OuterCorrelates k extrapolator s box out res ↔ Kernel.Outer k extrapolator s box out res := by
  have hn : s.length ≠ 0 := by simpa using h.dim
  have hsize := boxSize_ok h.dim h.pos h.count hbox
  have hne : box.front ≠ [] := by
    intro e
    have := hbox.fits.1
    rw [e] at this
    exact hn this.symm
  have hvis : ∀ l, Checked.Visits box l ↔ BoxIterator.Visits box l := visits_ok hne (hbox.inner h.pos h.count)
  have hin : ∀ l, BoxIterator.Visits box l → ∀ p ∈ l, InShape s p := fun l hv p hp =>
    hbox.mem ((((visits_box_iff _ hne l).1 hv).2.2 p).1 hp)
  have hwin : ∀ l ws, (∀ p ∈ l, InShape s p) → (List.Forall₂ (VisitsWindow k.window) l ws ↔
      List.Forall₂ (fun p w => BoxIterator.Visits (k.window.shift p) w) l ws) := by
    intro l
    induction l with
    | nil => intro ws _; cases ws <;> simp
    | cons p l ih =>
      intro ws hp
      cases ws with
      | nil => simp
      | cons w ws =>
        rw [List.forall₂_cons, List.forall₂_cons, visitsWindow_iff h hr (hp p (by simp)),
          ih ws (fun q hq => hp q (by simp [hq]))]
  have hfold : ∀ (l : List Position) (ws : List (List Position)), (∀ p ∈ l, InShape s p) →
      (l.zip ws).foldlM (Checked.outerStep k extrapolator s) out = (l.zip ws).foldlM (Kernel.outerStep k extrapolator s) out := by
    intro l ws hp
    refine foldlM_congr_steps (fun o pw hpw => ?_) out
    have := hp pw.1 (List.of_mem_zip (a := pw.1) (b := pw.2) hpw).1
    unfold Checked.outerStep Kernel.outerStep
    rw [C79_index this h.count]
    rfl
  unfold OuterCorrelates Kernel.Outer
  rw [hsize]
  constructor
  · rintro (⟨e, he, _⟩ | ⟨h1, h2⟩ | ⟨n, l, ws, h1, h2, h3, h4, h5⟩)
    · cases he
    · exact .inl ⟨by simpa using h1, h2⟩
    · have e : box.size = n := by simpa using h1
      subst e
      have hl := hin l ((hvis l).1 h3)
      exact .inr ⟨h2, l, ws, (hvis l).1 h3, (hwin l ws hl).1 h4, by rw [h5]; exact hfold l ws hl⟩
  · rintro (⟨h1, h2⟩ | ⟨h2, l, ws, h3, h4, h5⟩)
    · exact .inr (.inl ⟨by rw [h1], h2⟩)
    · have hl := hin l h3
      exact .inr (.inr ⟨_, l, ws, rfl, h2, (hvis l).2 h3, (hwin l ws hl).2 h4, by rw [h5]; exact (hfold l ws hl).symm⟩)

theorem outersCorrelate_iff {k : Kernel α} {s : Position} (h : Bounded k s) (hr : WindowBounded k s)
    {extrapolator : Position → Res α} {boxes : List Box} (hbox : ∀ c ∈ boxes, Within s c) {out : List α} (res : Res (List α)) :
    OutersCorrelate k extrapolator s boxes out res ↔ Kernel.Outers k extrapolator s boxes out res := by
  constructor
  · intro ho
    induction ho with
    | done => exact .done
    | @fail b bs out e hf => exact .fail ((outerCorrelates_iff h hr (hbox b (by simp)) _).1 hf)
    | @next b bs out out' res hf _ ih =>
      exact .next ((outerCorrelates_iff h hr (hbox b (by simp)) _).1 hf) (ih (fun c hc => hbox c (by simp [hc])))
  · intro ho
    induction ho with
    | done => exact .done
    | @fail b bs out e hf => exact .fail ((outerCorrelates_iff h hr (hbox b (by simp)) _).2 hf)
    | @next b bs out out' res hf _ ih =>
      exact .next ((outerCorrelates_iff h hr (hbox b (by simp)) _).2 hf) (ih (fun c hc => hbox c (by simp [hc])))

end Checked

end Litl
