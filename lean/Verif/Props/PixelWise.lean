import Verif.Lemmas.Arithmetic
import Verif.Lemmas.DftLayout
import Verif.Lemmas.Index
import Verif.Model.PixelWise
import Mathlib.Tactic.Linarith
import Mathlib.Tactic.Ring

/-!
# C117: pixel-wise operations combine the pixels at the same position
-/

namespace Litl

open Spec
open Container (ok_bind)

variable {α : Type}

/-- The raster has as many pixels as its shape tells. -/
def Raster.Sized (r : Raster α) : Prop := (r.data.length : Int) = pixelCount r.shape

/-- The full property: whatever the shapes, combining rasters is an error, or combines the pixels at the same position. -/
def C117_Statement : Prop :=
  ∀ (op : Int → Int → Int) (a b : Raster Int), Pos a.shape → Pos b.shape → a.Sized → b.Sized → a.shape.length = b.shape.length →
    (∃ e, Raster.binary op a b = .error e ∧ e ≠ .ub) ∨
    ∃ r, Raster.binary op a b = .ok r ∧ ∀ p x y, InShape a.shape p → InShape b.shape p →
      a.get p = .ok x → b.get p = .ok y → r.get p = .ok (op x y)

/-! ## What is combined -/

/-- The pixels which have the same index are combined, whatever the shapes, if there are enough of them. -/
theorem C117_binary (op : α → α → α) {a b : Raster α} (h : a.data.length ≤ b.data.length) :
    ∃ r, Raster.binary op a b = .ok r ∧ r.shape = a.shape ∧ r.data.length = a.data.length ∧
      ∀ p q x y, index a.shape p = index b.shape q → a.get p = .ok x → b.get q = .ok y → r.get p = .ok (op x y) := by
  refine ⟨⟨a.shape, List.zipWith op a.data b.data⟩, ?_, rfl, ?_, ?_⟩
  · rw [Raster.binary, Container.vectorOp_eq op _ _ h]
    rfl
  · rw [List.length_zipWith, min_eq_left h]
  · intro p q x y hi hx hy
    simp only [Raster.get] at hx hy ⊢
    rw [← hi] at hy
    rw [readAt_eq_ok] at hx hy ⊢
    refine ⟨hx.1, ?_⟩
    rw [List.getElem?_zipWith, hx.2, hy.2]

/-- Otherwise, memory is read after the pixels of `b`. -/
theorem C117_undefined (op : α → α → α) {a b : Raster α} (h : b.data.length < a.data.length) :
    Raster.binary op a b = .error .ub := by
  rw [Raster.binary, Container.vectorOp_ub op _ _ h]
  rfl

theorem mapM_eq_map {β γ : Type} {f : β → Res γ} {g : β → γ} {l : List β} (h : ∀ x ∈ l, f x = .ok (g x)) :
    l.mapM f = .ok (l.map g) := by
  induction l with
  | nil => rfl
  | cons x l ih =>
    rw [List.mapM_cons, h x (List.mem_cons_self ..), ok_bind, ih fun y hy => h y (List.mem_cons_of_mem _ hy)]
    rfl

/-- `generate` combines the pixels of the arguments which have the same index as that of the output. -/
theorem C117_generate [Inhabited α] (f : List α → α) {out : Raster α} {args : List (Raster α)}
    (h : ∀ a ∈ args, out.data.length ≤ a.data.length) :
    ∃ r, Raster.generate f out args = .ok r ∧ r.shape = out.shape ∧ r.data.length = out.data.length ∧
      ∀ p (qs : List Position) (xs : List α), 0 ≤ index out.shape p → index out.shape p < out.data.length →
        List.Forall₂ (fun a (qx : Position × α) => index a.shape qx.1 = index out.shape p ∧ a.get qx.1 = .ok qx.2) args
          (qs.zip xs) → qs.length = xs.length → r.get p = .ok (f xs) := by
  have hr : ∀ i ∈ List.range out.data.length, (do
      let xs ← args.mapM fun a => readAt a.data (i : Int)
      return f xs : Res α) = .ok (f (args.map fun a => a.data.getD i default)) := by
    intro i hi
    have hi := List.mem_range.1 hi
    rw [mapM_eq_map (g := fun a => a.data.getD i default)]
    · rfl
    · intro a ha
      have := h a ha
      rw [readAt_ok (by omega) (by omega)]
      simp [List.getD_eq_getElem?_getD, List.getElem?_eq_getElem (show i < a.data.length by omega)]
  refine ⟨⟨out.shape, (List.range out.data.length).map fun i => f (args.map fun a => a.data.getD i default)⟩, ?_, rfl, by simp, ?_⟩
  · rw [Raster.generate, mapM_eq_map hr]
    rfl
  · intro p qs xs h0 h1 hf hl
    simp only [Raster.get]
    rw [readAt_eq_ok]
    refine ⟨h0, ?_⟩
    rw [List.getElem?_map, List.getElem?_range (by omega)]
    simp only [Option.map_some, Option.some.injEq]
    congr 1
    clear hr h
    induction args generalizing qs xs with
    | nil =>
      cases hz : qs.zip xs with
      | nil =>
        have : (qs.zip xs).length = 0 := by rw [hz]; rfl
        rw [List.length_zip, hl, min_self] at this
        rw [List.length_eq_zero_iff.1 this]
        rfl
      | cons x l => rw [hz] at hf; cases hf
    | cons a args ih =>
      cases qs with
      | nil => simp at hf
      | cons q qs =>
        cases xs with
        | nil => simp at hl
        | cons x xs =>
          rw [List.zip_cons_cons, List.forall₂_cons] at hf
          obtain ⟨⟨e, hx⟩, hf⟩ := hf
          simp only [Raster.get, e] at hx
          rw [readAt_eq_ok] at hx
          rw [List.map_cons, ih qs xs hf (by simpa using hl), List.getD_eq_getElem?_getD, hx.2]
          rfl

/-! ## When this is the same position -/

/-- The shape `t` continues the shape `s` in memory: the lengths are the same along all axes below the last one along which `s`
has several pixels, and those of `t` are not lower along the others. -/
def Spec.Continues : List Int → List Int → Prop
  | [], [] => True
  | s :: ss, t :: ts => s ≤ t ∧ ((∃ x ∈ ss, 1 < x) → s = t) ∧ Continues ss ts
  | _, _ => False

theorem index_ones : ∀ {s p : List Int}, InShape s p → (∀ x ∈ s, x ≤ 1) → ∀ {t : List Int}, t.length = s.length → index t p = 0 := by
  intro s p h
  induction h with
  | nil =>
    intro _ t ht
    obtain rfl : t = [] := List.length_eq_zero_iff.1 (by simpa using ht)
    rfl
  | @cons x a ps ss hx h ih =>
    intro hs t ht
    cases t with
    | nil => simp at ht
    | cons b ts =>
      have hl : ts.length = ss.length := by simpa using ht
      have h1 := hs a (List.mem_cons_self ..)
      rw [index_cons (by rw [hl, h.length_eq]), ih (fun y hy => hs y (List.mem_cons_of_mem _ hy)) hl]
      omega

theorem index_continues : ∀ {s t p : List Int}, Continues s t → InShape s p → InShape t p ∧ index s p = index t p
  | [], [], p, _, h => by cases h; exact ⟨inShape_nil, rfl⟩
  | [], _ :: _, _, h, _ => h.elim
  | _ :: _, [], _, h, _ => h.elim
  | s :: ss, t :: ts, p, h, hp => by
    obtain ⟨h1, h2, h3⟩ := h
    cases p with
    | nil => cases hp
    | cons x p =>
      obtain ⟨hx, hp⟩ := inShape_cons.1 hp
      obtain ⟨i1, i2⟩ := index_continues h3 hp
      refine ⟨inShape_cons.2 ⟨⟨hx.1, by omega⟩, i1⟩, ?_⟩
      have l1 := List.Forall₂.length_eq hp
      have l2 := List.Forall₂.length_eq i1
      rw [index_cons l1, index_cons l2]
      by_cases hc : ∃ x ∈ ss, 1 < x
      · rw [h2 hc, i2]
      · push Not at hc
        rw [← i2, index_ones hp hc rfl]
        ring

theorem inShape_last : ∀ {s : List Int}, Pos s → InShape s (s.map (· - 1))
  | [], _ => inShape_nil
  | s :: ss, h => by
    have := h s (List.mem_cons_self ..)
    exact inShape_cons.2 ⟨⟨by show 0 ≤ s - 1; omega, by show s - 1 < s; omega⟩, inShape_last fun x hx => h x (List.mem_cons_of_mem _ hx)⟩

theorem inShape_zero : ∀ {s : List Int}, Pos s → InShape s (s.map fun _ => 0)
  | [], _ => inShape_nil
  | s :: ss, h => by
    have := h s (List.mem_cons_self ..)
    exact inShape_cons.2 ⟨⟨le_rfl, this⟩, inShape_zero fun x hx => h x (List.mem_cons_of_mem _ hx)⟩

theorem one_lt_prod : ∀ {s : List Int}, Pos s → (∃ x ∈ s, 1 < x) → 1 < s.prod
  | [], _, h => by simp at h
  | s :: ss, hp, h => by
    have h0 := hp s (List.mem_cons_self ..)
    have hpos : 0 < ss.prod := prod_pos_int fun x hx => hp x (List.mem_cons_of_mem _ hx)
    rw [List.prod_cons]
    obtain ⟨x, hx, h1⟩ := h
    rcases List.mem_cons.1 hx with rfl | hx
    · nlinarith
    · have := one_lt_prod (s := ss) (fun x hx => hp x (List.mem_cons_of_mem _ hx)) ⟨x, hx, h1⟩
      nlinarith

theorem continues_of_index : ∀ {s t : List Int}, Pos s → Pos t → s.length = t.length →
    (∀ p, InShape s p → InShape t p ∧ index s p = index t p) → Continues s t
  | [], [], _, _, _, _ => trivial
  | [], _ :: _, _, _, hl, _ => by simp at hl
  | _ :: _, [], _, _, hl, _ => by simp at hl
  | s :: ss, t :: ts, hs, ht, hl, h => by
    have hs0 := hs s (List.mem_cons_self ..)
    have ht0 := ht t (List.mem_cons_self ..)
    have hss : Pos ss := fun x hx => hs x (List.mem_cons_of_mem _ hx)
    have hts : Pos ts := fun x hx => ht x (List.mem_cons_of_mem _ hx)
    have hst : s ≤ t := by
      have := (h _ (inShape_last hs)).1
      rw [List.map_cons, inShape_cons] at this
      omega
    have key : ∀ ps, InShape ss ps → InShape ts ps ∧ s * index ss ps = t * index ts ps := by
      intro ps hps
      obtain ⟨h1, h2⟩ := h (0 :: ps) (inShape_cons.2 ⟨⟨le_rfl, hs0⟩, hps⟩)
      have h1 := (inShape_cons.1 h1).2
      rw [index_cons (List.Forall₂.length_eq hps), index_cons (List.Forall₂.length_eq h1)] at h2
      exact ⟨h1, by linarith⟩
    have heq : (∃ x ∈ ss, 1 < x) → s = t := by
      intro hx
      have h1 := one_lt_prod hss hx
      obtain ⟨u1, u2⟩ := unravel_spec (k := 1) (fun x hx => (hss x hx).le) (by norm_num) h1
      obtain ⟨k1, k2⟩ := key _ u1
      have k3 := (index_bounds k1).1
      rw [u2] at k2
      have : 1 ≤ index ts (unravel ss 1) := by
        by_contra hc
        have : index ts (unravel ss 1) = 0 := by omega
        rw [this] at k2
        omega
      nlinarith
    refine ⟨hst, heq, continues_of_index hss hts (by simpa using hl) fun ps hps => ?_⟩
    obtain ⟨k1, k2⟩ := key ps hps
    refine ⟨k1, ?_⟩
    by_cases hx : ∃ x ∈ ss, 1 < x
    · rw [heq hx] at k2
      exact mul_left_cancel₀ ht0.ne' k2
    · push Not at hx
      rw [index_ones hps hx rfl]
      refine (index_ones hps hx ?_).symm
      rw [← List.Forall₂.length_eq hps, ← List.Forall₂.length_eq k1]

theorem get_of_inShape {a : Raster α} (h : a.Sized) {p : Position} (hp : InShape a.shape p) : ∃ x, a.get p = .ok x := by
  have := index_bounds hp
  unfold Raster.Sized pixelCount at h
  exact ⟨_, readAt_ok this.1 (by omega)⟩

theorem sized_le {s t : List Int} (hs : Pos s) (h : Continues s t) : pixelCount s ≤ pixelCount t := by
  obtain ⟨h1, h2⟩ := index_continues h (inShape_last hs)
  have h3 := (index_bounds h1).2
  have h4 : index s (s.map (· - 1)) = s.prod - 1 := by
    clear h1 h2 h3 h
    induction s with
    | nil => rfl
    | cons x s ih =>
      rw [List.map_cons, index_cons (by simp), ih fun y hy => hs y (List.mem_cons_of_mem _ hy), List.prod_cons]
      ring
  unfold pixelCount
  omega

/-- **C117**: given shapes, the pixels at the same position are combined, whatever the pixels and the operator, if, and only if,
the second shape continues the first one. -/
theorem C117_iff {s t : Position} (hs : Pos s) (ht : Pos t) (hl : s.length = t.length) :
    (∀ (op : Int → Int → Int) (a b : Raster Int), a.shape = s → b.shape = t → a.Sized → b.Sized →
      ∃ r, Raster.binary op a b = .ok r ∧ r.shape = s ∧
        ∀ p, InShape s p → InShape t p ∧ ∃ x y, a.get p = .ok x ∧ b.get p = .ok y ∧ r.get p = .ok (op x y)) ↔
    Continues s t := by
  constructor
  · intro h
    have hn : 0 ≤ pixelCount t := (prod_pos_int ht).le
    have hm : 0 ≤ pixelCount s := (prod_pos_int hs).le
    obtain ⟨r, h1, h2, h3⟩ := h (fun _ y => y) ⟨s, List.replicate (pixelCount s).toNat 0⟩
      ⟨t, (List.range (pixelCount t).toNat).map fun (i : Nat) => (i : Int)⟩ rfl rfl
      (by simp [Raster.Sized, hm]) (by simp [Raster.Sized, hn])
    refine continues_of_index hs ht hl fun p hp => ?_
    obtain ⟨h4, x, y, hx, hy, hr⟩ := h3 p hp
    refine ⟨h4, ?_⟩
    have hle : (pixelCount s).toNat ≤ (pixelCount t).toNat := by
      by_contra hc
      rw [C117_undefined _ (by simpa using hc)] at h1
      cases h1
    have hb := index_bounds hp
    have hbt := index_bounds h4
    obtain ⟨r', g1, g2, g3, g4⟩ := C117_binary (fun (_ : Int) y => y) (a := ⟨s, List.replicate (pixelCount s).toNat 0⟩)
      (b := ⟨t, (List.range (pixelCount t).toNat).map fun (i : Nat) => (i : Int)⟩) (by simpa using hle)
    rw [g1] at h1
    obtain rfl := Except.ok.inj h1
    have hT : index s p < t.prod := by
      unfold pixelCount at hle
      omega
    obtain ⟨u1, u2⟩ := unravel_spec (k := index s p) (fun x hx => (ht x hx).le) hb.1 hT
    have get_t : ∀ q, InShape t q → (⟨t, (List.range (pixelCount t).toNat).map fun (i : Nat) => (i : Int)⟩ : Raster Int).get q = .ok (index t q) := by
      intro q hq
      have hq := index_bounds hq
      simp only [Raster.get, readAt_eq_ok]
      refine ⟨hq.1, ?_⟩
      unfold pixelCount
      rw [List.getElem?_map, List.getElem?_range (by omega)]
      simp [hq.1]
    have := g4 p (unravel t (index s p)) x _ u2.symm hx (get_t _ u1)
    rw [hr] at this
    rw [get_t p h4] at hy
    have e1 := Except.ok.inj this
    have e2 := Except.ok.inj hy
    rw [u2] at e1
    omega
  · intro h op a b ha hb hsa hsb
    have hle : a.data.length ≤ b.data.length := by
      have := sized_le hs h
      unfold Raster.Sized at hsa hsb
      rw [ha] at hsa
      rw [hb] at hsb
      omega
    obtain ⟨r, h1, h2, _, h4⟩ := C117_binary op hle
    refine ⟨r, h1, by rw [h2, ha], fun p hp => ?_⟩
    obtain ⟨i1, i2⟩ := index_continues h hp
    obtain ⟨x, hx⟩ := get_of_inShape hsa (ha ▸ hp)
    obtain ⟨y, hy⟩ := get_of_inShape hsb (hb ▸ i1)
    exact ⟨i1, x, y, hx, hy, h4 p p x y (by rw [ha, hb, i2]) hx hy⟩

/-- The property for rasters of the same shape.

Missing: different shapes, see `C117_iff` and `C117_violated`. -/
theorem C117_partial (op : α → α → α) {a b : Raster α} (ha : a.Sized) (hb : b.Sized) (h : a.shape = b.shape) :
    ∃ r, Raster.binary op a b = .ok r ∧ r.shape = a.shape ∧ r.Sized ∧
      ∀ p, InShape a.shape p → ∃ x y, a.get p = .ok x ∧ b.get p = .ok y ∧ r.get p = .ok (op x y) := by
  have hd : a.data.length = b.data.length := by
    unfold Raster.Sized at ha hb
    rw [h] at ha
    omega
  obtain ⟨r, h1, h2, h3, h4⟩ := C117_binary op hd.le
  refine ⟨r, h1, h2, by unfold Raster.Sized; rw [h2, h3]; exact ha, fun p hp => ?_⟩
  obtain ⟨x, hx⟩ := get_of_inShape ha hp
  obtain ⟨y, hy⟩ := get_of_inShape hb (h ▸ hp)
  exact ⟨x, y, hx, hy, h4 p p x y (by rw [h]) hx hy⟩

/-- So does `generate` for any number of arguments.

Missing: different shapes, see `C117_generate`. -/
theorem C117_generate_partial [Inhabited α] (f : List α → α) {out : Raster α} {args : List (Raster α)} (ho : out.Sized)
    (h : ∀ a ∈ args, a.Sized ∧ a.shape = out.shape) :
    ∃ r, Raster.generate f out args = .ok r ∧ r.shape = out.shape ∧
      ∀ p, InShape out.shape p → ∃ xs, List.Forall₂ (fun a x => a.get p = .ok x) args xs ∧ r.get p = .ok (f xs) := by
  obtain ⟨r, h1, h2, _, h4⟩ := C117_generate f (out := out) (args := args) fun a ha => by
    obtain ⟨h1, h2⟩ := h a ha
    unfold Raster.Sized at h1 ho
    rw [h2] at h1
    omega
  refine ⟨r, h1, h2, fun p hp => ?_⟩
  have hx : ∃ xs, List.Forall₂ (fun (a : Raster α) x => a.get p = .ok x) args xs := by
    clear h1 h4
    induction args with
    | nil => exact ⟨[], .nil⟩
    | cons a args ih =>
      obtain ⟨xs, hxs⟩ := ih fun b hb => h b (List.mem_cons_of_mem _ hb)
      obtain ⟨g1, g2⟩ := h a (List.mem_cons_self ..)
      obtain ⟨x, hx⟩ := get_of_inShape g1 (g2 ▸ hp)
      exact ⟨x :: xs, .cons hx hxs⟩
  obtain ⟨xs, hxs⟩ := hx
  refine ⟨xs, hxs, ?_⟩
  have hb := index_bounds hp
  refine h4 p (xs.map fun _ => p) xs hb.1 (by unfold Raster.Sized pixelCount at ho; omega) ?_ (by simp)
  clear h1 h4
  induction hxs with
  | nil => exact .nil
  | @cons a x args xs hx hxs ih =>
    rw [List.map_cons, List.zip_cons_cons]
    exact .cons ⟨by rw [(h a (List.mem_cons_self ..)).2], hx⟩ (ih fun b hb => h b (List.mem_cons_of_mem _ hb))

/-- And `apply`, where the first parameter is the pixel itself.

Missing: different shapes, see `C117_generate`. -/
theorem C117_apply_partial [Inhabited α] (f : List α → α) {out : Raster α} {args : List (Raster α)} (ho : out.Sized)
    (h : ∀ a ∈ args, a.Sized ∧ a.shape = out.shape) :
    ∃ r, Raster.apply f out args = .ok r ∧ r.shape = out.shape ∧
      ∀ p, InShape out.shape p → ∃ x xs, out.get p = .ok x ∧ List.Forall₂ (fun a x => a.get p = .ok x) args xs ∧
        r.get p = .ok (f (x :: xs)) := by
  obtain ⟨r, h1, h2, h3⟩ := C117_generate_partial f (out := out) (args := out :: args) ho fun a ha => by
    rcases List.mem_cons.1 ha with rfl | ha
    · exact ⟨ho, rfl⟩
    · exact h a ha
  refine ⟨r, h1, h2, fun p hp => ?_⟩
  obtain ⟨xs, hx, hr⟩ := h3 p hp
  cases hx with
  | cons hx hxs => exact ⟨_, _, hx, hxs, hr⟩

/-- Whatever the shapes and the number of arguments, memory is read after the pixels of an argument which has too few. -/
theorem C117_generate_undefined (f : List α → α) {out : Raster α} {args : List (Raster α)}
    (h : ∃ a ∈ args, a.data.length < out.data.length) : Raster.generate f out args = .error .ub := by
  have reads : ∀ (i : Nat) (l : List (Raster α)), (l.mapM fun a => readAt a.data (i : Int)) = .error .ub ∨
      ((∃ xs, (l.mapM fun a => readAt a.data (i : Int)) = .ok xs) ∧ ∀ a ∈ l, i < a.data.length) := by
    intro i l
    induction l with
    | nil => exact .inr ⟨⟨[], rfl⟩, by simp⟩
    | cons a l ih =>
      rw [List.mapM_cons]
      by_cases hi : i < a.data.length
      · obtain ⟨x, hx⟩ : ∃ x, readAt a.data (i : Int) = .ok x := ⟨_, readAt_ok (by omega) (by omega)⟩
        rw [hx, ok_bind]
        rcases ih with e | ⟨⟨xs, e⟩, hl⟩
        · left; rw [e]; rfl
        · right
          refine ⟨⟨x :: xs, by rw [e]; rfl⟩, fun b hb => ?_⟩
          rcases List.mem_cons.1 hb with rfl | hb
          · exact hi
          · exact hl b hb
      · left
        rw [readAt_ub (by omega)]
        rfl
  have all : ∀ l : List Nat, (∃ i ∈ l, ∃ a ∈ args, a.data.length ≤ i) → (l.mapM fun (i : Nat) => (do
      let xs ← args.mapM fun a => readAt a.data (i : Int)
      return f xs : Res α)) = .error .ub := by
    intro l
    induction l with
    | nil => simp
    | cons i l ih =>
      intro hl
      rw [List.mapM_cons]
      rcases reads i args with e | ⟨⟨xs, e⟩, hi⟩
      · rw [e]; rfl
      · obtain ⟨j, hj, a, ha, hja⟩ := hl
        rcases List.mem_cons.1 hj with rfl | hj
        · have := hi a ha
          omega
        · rw [e, ok_bind, ih ⟨j, hj, a, ha, hja⟩]
          rfl
  obtain ⟨a, ha, hlt⟩ := h
  rw [Raster.generate, all _ ⟨a.data.length, List.mem_range.2 hlt, a, ha, le_rfl⟩]
  rfl

theorem C117_violated : ¬ C117_Statement := by
  intro h
  have hp : Pos [2, 3] := by intro x hx; simp at hx; omega
  have hp' : Pos [3, 2] := by intro x hx; simp at hx; omega
  rcases h (fun _ y => y) ⟨[2, 3], [0, 1, 2, 3, 4, 5]⟩ ⟨[3, 2], [0, 1, 2, 3, 4, 5]⟩ hp hp' rfl rfl rfl with ⟨e, he, _⟩ | ⟨r, hr, h⟩
  · cases he
  · have e : Raster.binary (fun (_ : Int) y => y) ⟨[2, 3], [0, 1, 2, 3, 4, 5]⟩ ⟨[3, 2], [0, 1, 2, 3, 4, 5]⟩ =
      .ok ⟨[2, 3], [0, 1, 2, 3, 4, 5]⟩ := rfl
    rw [e] at hr
    obtain rfl := Except.ok.inj hr
    have h1 : InShape [2, 3] [0, 1] := inShape_cons.2 ⟨by omega, inShape_cons.2 ⟨by omega, inShape_nil⟩⟩
    have h2 : InShape [3, 2] [0, 1] := inShape_cons.2 ⟨by omega, inShape_cons.2 ⟨by omega, inShape_nil⟩⟩
    have := h [0, 1] 2 3 h1 h2 rfl rfl
    have e2 : (⟨[2, 3], [0, 1, 2, 3, 4, 5]⟩ : Raster Int).get [0, 1] = .ok 2 := rfl
    rw [e2] at this
    have := Except.ok.inj this
    omega

/-- The operands of different shapes do not commute: the shape is that of the left one. -/
theorem C117_not_commutative (op : α → α → α) {a b r r' : Raster α} (h : Raster.binary op a b = .ok r)
    (h' : Raster.binary op b a = .ok r') : r.shape = a.shape ∧ r'.shape = b.shape ∧ a.data.length = b.data.length := by
  have h1 : a.data.length ≤ b.data.length := by
    by_contra hc
    rw [C117_undefined op (by omega)] at h
    cases h
  have h2 : b.data.length ≤ a.data.length := by
    by_contra hc
    rw [C117_undefined op (by omega)] at h'
    cases h'
  obtain ⟨_, e1, s1, _⟩ := C117_binary op h1
  obtain ⟨_, e2, s2, _⟩ := C117_binary op h2
  rw [e1] at h
  rw [e2] at h'
  obtain rfl := Except.ok.inj h
  obtain rfl := Except.ok.inj h'
  exact ⟨s1, s2, by omega⟩

/-! ## Examples -/

-- The last axis may be longer, or the following ones if it is of length 1.
example : Continues [4, 3, 2] [4, 3, 5] ∧ Continues [4, 3, 1] [4, 7, 5] ∧ ¬ Continues [4, 3, 2] [4, 4, 2] := by
  refine ⟨by simp [Continues], by simp [Continues], by simp [Continues]⟩

-- Two rasters of the same shape.
example : (⟨[2, 2], [1, 2, 3, 4]⟩ : Raster Int).Sized ∧
    Raster.binary (· * ·) ⟨[2, 2], [1, 2, 3, 4]⟩ (⟨[2, 2], [5, 6, 7, 8]⟩ : Raster Int) = .ok ⟨[2, 2], [5, 12, 21, 32]⟩ :=
  ⟨rfl, rfl⟩

-- `generate` with three arguments.
example : Raster.generate List.sum ⟨[2], [0, 0]⟩ [⟨[2], [1, 2]⟩, ⟨[2], [3, 4]⟩, (⟨[2], [5, 6]⟩ : Raster Int)] =
    .ok ⟨[2], [9, 12]⟩ := rfl

end Litl
