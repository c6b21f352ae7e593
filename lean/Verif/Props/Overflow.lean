import Verif.Model.Overflow
import Verif.Props.Regions
import Verif.Props.Access
import Verif.Props.Index

/-!
# C79: index computations do not overflow
-/

namespace Litl

open Spec

namespace Checked

theorem ck_ok {x : Int} (h : IsI64 x) : ck x = .ok x := by simp [ck, h]

theorem ck_ub {x : Int} (h : ¬ IsI64 x) : ck x = .error .ub := by simp [ck, h]

theorem ck_inv {x y : Int} (h : ck x = .ok y) : IsI64 x ∧ y = x := by
  unfold ck at h
  split at h
  · next hx => cases h; exact ⟨hx, rfl⟩
  · cases h

theorem isI64_of_nonneg {x : Int} (h : 0 ≤ x) (h' : x < 2 ^ 63) : IsI64 x := ⟨by omega, h'⟩

/-! ## Raw indices -/

theorem pos_of_inShape {s p : List Int} (h : InShape s p) : Pos s := by
  intro n hn
  induction h with
  | nil => cases hn
  | cons hx _ ih =>
    rcases List.mem_cons.1 hn with rfl | hn
    · omega
    · exact ih hn

theorem prod_pos {s : List Int} (h : Pos s) : 0 < s.prod := by
  induction s with
  | nil => simp
  | cons n s ih =>
    rw [List.prod_cons]
    exact mul_pos (h n (by simp)) (ih (fun m hm => h m (by simp [hm])))

/-- The number of pixels of the first axes is at most that of all. -/
theorem prod_le_append {s t : List Int} (hs : Pos s) (ht : Pos t) : s.prod ≤ (s ++ t).prod := by
  rw [List.prod_append]
  have h1 := prod_pos hs
  have h2 := prod_pos ht
  nlinarith

theorem prod_tail_le {n : Int} {s : List Int} (h : Pos (n :: s)) : s.prod ≤ (n :: s).prod := by
  rw [List.prod_cons]
  have h1 : 0 < n := h n (by simp)
  have h2 := prod_pos (s := s) (fun m hm => h m (by simp [hm]))
  nlinarith

theorem length_le_prod {n : Int} {s : List Int} (h : Pos s) (hn : n ∈ s) : n ≤ s.prod := by
  induction s with
  | nil => cases hn
  | cons m s ih =>
    have h1 : 0 < m := h m (by simp)
    have h2 : Pos s := fun k hk => h k (by simp [hk])
    rcases List.mem_cons.1 hn with rfl | hn
    · rw [List.prod_cons]
      have := prod_pos h2
      nlinarith
    · exact le_trans (ih h2 hn) (prod_tail_le h)

/-- **C79**: the raw index of a pixel is computed without overflow, in any raster whose number of pixels is a value of
type `Index`. -/
theorem C79_index {s p : Position} (h : InShape s p) (hc : pixelCount s < 2 ^ 63) :
    Checked.index s p = .ok (Litl.index s p) := by
  induction s generalizing p with
  | nil => cases h; rfl
  | cons n s ih =>
    cases p with
    | nil => cases h
    | cons x p =>
      obtain ⟨hx, hp⟩ := inShape_cons.1 h
      have hb := index_bounds h
      rw [index_cons hp.length_eq] at hb
      have htail : pixelCount s < 2 ^ 63 := lt_of_le_of_lt (prod_tail_le (pos_of_inShape h)) hc
      have h0 := (index_bounds hp).1
      have hm : 0 ≤ n * Litl.index s p := mul_nonneg (by omega) h0
      unfold pixelCount at hc
      have hrec := ih hp htail
      cases s with
      | nil => cases hp; rfl
      | cons m s =>
        rw [Checked.index, hrec, index_cons hp.length_eq]
        · simp only [bind, Except.bind]
          rw [ck_ok (isI64_of_nonneg hm (by omega))]
          exact ck_ok (isI64_of_nonneg (by omega) (by omega))
        · intro y _
          cases y

theorem indexLoop_append (a : List (Int × Int)) (x n : Int) (acc : Int) :
    indexLoop (a ++ [(x, n)]) acc = (indexLoop a acc).bind fun r => (ck (n * r)).bind fun m => ck (x + m) := by
  induction a generalizing acc with
  | nil =>
    simp only [List.nil_append, indexLoop, bind, Except.bind]
    cases ck (n * acc) with
    | error e => rfl
    | ok m =>
      dsimp only
      cases ck (x + m) <;> rfl
  | cons i a ih =>
    obtain ⟨y, k⟩ := i
    simp only [List.cons_append, indexLoop, bind, Except.bind]
    cases ck (k * acc) with
    | error e => rfl
    | ok m =>
      dsimp only
      cases ck (y + m) with
      | error e => rfl
      | ok r => exact ih r

/-- **C79**: the same in variable dimension. -/
theorem C79_index_variable {s p : Position} (h : InShape s p) (hc : pixelCount s < 2 ^ 63) :
    Checked.indexVariable s p = .ok (Litl.index s p) := by
  have key : ∀ {s p : Position}, InShape s p → pixelCount s < 2 ^ 63 →
      indexLoop (List.zip p.reverse s.reverse) 0 = .ok (Litl.index s p) := by
    intro s
    induction s with
    | nil => intro p h _; cases h; rfl
    | cons n s ih =>
      intro p h hc
      cases p with
      | nil => cases h
      | cons x p =>
        obtain ⟨hx, hp⟩ := inShape_cons.1 h
        have hb := index_bounds h
        rw [index_cons hp.length_eq] at hb ⊢
        have htail : pixelCount s < 2 ^ 63 := lt_of_le_of_lt (prod_tail_le (pos_of_inShape h)) hc
        have hm : 0 ≤ n * Litl.index s p := mul_nonneg (by omega) (index_bounds hp).1
        unfold pixelCount at hc
        rw [List.reverse_cons, List.reverse_cons, List.zip_append (by simp [hp.length_eq]), List.zip_cons_cons, List.zip_nil_left,
          indexLoop_append, ih hp htail]
        simp only [Except.bind]
        rw [ck_ok (isI64_of_nonneg hm (by omega))]
        exact ck_ok (isI64_of_nonneg (by omega) (by omega))
  rw [Checked.indexVariable, if_neg (by simpa using h.length_eq), key h hc]

/-! ## Sizes and strides -/

/-- Products which start from an accumulated value. -/
theorem product_iff (s : List Int) (acc : Int) (r : Int) : product s acc = .ok r ↔
    r = acc * s.prod ∧ ∀ k, 0 < k → k ≤ s.length → IsI64 (acc * (s.take k).prod) := by
  induction s generalizing acc with
  | nil =>
    simp only [product, List.length_nil, List.prod_nil, mul_one]
    constructor
    · intro h; cases h; exact ⟨rfl, fun k h1 h2 => by omega⟩
    · rintro ⟨rfl, _⟩; rfl
  | cons n s ih =>
    rw [product]
    by_cases hn : IsI64 (acc * n)
    · rw [ck_ok hn]
      simp only [bind, Except.bind]
      rw [ih, List.prod_cons, mul_assoc]
      refine and_congr_right (fun _ => ?_)
      constructor
      · intro h k h1 h2
        obtain ⟨k, rfl⟩ := Nat.exists_eq_succ_of_ne_zero (by omega : k ≠ 0)
        rw [Nat.succ_eq_add_one, List.take_succ_cons, List.prod_cons, ← mul_assoc]
        rcases Nat.eq_zero_or_pos k with rfl | hk
        · simpa using hn
        · exact h k hk (by simpa using h2)
      · intro h k h1 h2
        have := h (k + 1) (by omega) (by simpa using h2)
        rwa [List.take_succ_cons, List.prod_cons, ← mul_assoc] at this
    · rw [ck_ub hn]
      simp only [bind, Except.bind]
      constructor
      · intro h; cases h
      · rintro ⟨_, h⟩
        have := h 1 (by omega) (by simp)
        simp at this
        exact absurd this hn

/-- **C79**: the exact condition under which the number of pixels of a shape is computed without overflow: the
numbers of pixels of the first axes are values of type `Index`. -/
theorem C79_size_iff (s : Position) (h : s ≠ []) (r : Int) : Checked.shapeSize s = .ok r ↔
    r = pixelCount s ∧ ∀ k, 0 < k → k ≤ s.length → IsI64 (pixelCount (s.take k)) := by
  have hl : s.length ≠ 0 := by simpa using h
  rw [Checked.shapeSize, if_neg hl, Checked.shapeStride, List.take_length, product_iff]
  simp [pixelCount]

/-- **C79**: when the number of pixels is computed, it is the same as on unbounded integers, for any shape, be it of
dimension 0. -/
theorem C79_size_refines {s : Position} {r : Int} (h : Checked.shapeSize s = .ok r) : Litl.shapeSize s = r := by
  rcases s with _ | ⟨a, s⟩
  · cases h; rfl
  · have h1 := ((C79_size_iff (a :: s) (by simp) r).1 h).1
    rw [h1, shapeSize_eq (by simp)]
    simp [pixelCount]

example : Checked.shapeSize [] = .ok 0 := rfl

/-- The number of pixels of the first axes of a shape of positive lengths. -/
theorem take_bounds {s : Position} (hs : Pos s) (hc : pixelCount s < 2 ^ 63) (k : Nat) :
    0 < (s.take k).prod ∧ (s.take k).prod < 2 ^ 63 := by
  have h1 : Pos (s.take k) := fun n hn => hs n (List.mem_of_mem_take hn)
  have h2 : Pos (s.drop k) := fun n hn => hs n (List.mem_of_mem_drop hn)
  have h3 := prod_le_append h1 h2
  rw [List.take_append_drop] at h3
  exact ⟨prod_pos h1, lt_of_le_of_lt h3 hc⟩

/-- **C79**, partial: the number of pixels and the strides are computed without overflow if the lengths are positive and the
number of pixels is a value of type `Index`.
Missing: shapes with an axis of length 0, for which the product of the other lengths may overflow; see `C79_size_iff`. -/
theorem C79_size_partial {s : Position} (h : s ≠ []) (hs : Pos s) (hc : pixelCount s < 2 ^ 63) :
    Checked.shapeSize s = .ok (pixelCount s) ∧
    ∀ axis, Checked.shapeStride s axis = .ok (pixelCount (s.take axis)) := by
  constructor
  · rw [C79_size_iff s h]
    exact ⟨rfl, fun k _ _ => isI64_of_nonneg (le_of_lt (take_bounds hs hc k).1) (take_bounds hs hc k).2⟩
  · intro axis
    rw [Checked.shapeStride, product_iff]
    refine ⟨by simp [pixelCount], fun k _ _ => ?_⟩
    rw [one_mul, List.take_take]
    exact isI64_of_nonneg (le_of_lt (take_bounds hs hc _).1) (take_bounds hs hc _).2

/-! ## Checked access -/

/-- **C79**: the bounds and coordinates of `at()` are computed without overflow, whatever the position. -/
theorem C79_bounded_pos {s : Position} (hs : ∀ n ∈ s, 0 ≤ n ∧ n < 2 ^ 63) (p : Position) :
    Checked.boundedPos s p = Raster.boundedPos s p := by
  induction s generalizing p with
  | nil => cases p <;> rfl
  | cons n s ih =>
    cases p with
    | nil => rfl
    | cons x p =>
      have hn := hs n (by simp)
      rw [Checked.boundedPos, Raster.boundedPos, ck_ok ⟨by omega, by omega⟩, ck_ok ⟨by omega, by omega⟩]
      simp only [bind, Except.bind]
      split
      · rfl
      · next hx =>
        rw [ih (fun m hm => hs m (by simp [hm]))]
        by_cases h0 : x < 0
        · rw [if_pos h0, if_pos h0, ck_ok ⟨by omega, by omega⟩]
        · rw [if_neg h0, if_neg h0]

/-- **C79**: `at(position)` does not overflow, whatever the position. -/
theorem C79_at {α : Type _} (r : Raster α) (hs : ∀ n ∈ r.shape, 0 ≤ n ∧ n < 2 ^ 63) (hc : pixelCount r.shape < 2 ^ 63)
    (p : Position) (hl : p.length = r.shape.length) : Checked.at r p = r.at p := by
  unfold Checked.at Raster.at
  rw [C79_bounded_pos hs]
  rcases boundedPos_spec r.shape p hl with ⟨_, h2, h3⟩ | ⟨_, h2⟩
  · rw [h2]
    simp only [bind, Except.bind]
    rw [C79_index h3 hc]
    rfl
  · rw [h2]; rfl

/-! ## Boxes -/

/-- **C79**: the domain of a raster is computed without overflow. -/
theorem C79_domain {s : Position} (hs : ∀ n ∈ s, 0 ≤ n ∧ n < 2 ^ 63) :
    Checked.fromShape (Position.zero s.length) s = .ok (Raster.domainOf s.length s) := by
  have key : ∀ s : Position, (∀ n ∈ s, 0 ≤ n ∧ n < 2 ^ 63) →
      Checked.zip (· + ·) (List.replicate s.length 0) s = .ok s ∧ Checked.map (· - 1) s = .ok (s.map (· - 1)) := by
    intro s
    induction s with
    | nil => intro _; exact ⟨rfl, rfl⟩
    | cons n s ih =>
      intro hs
      have hn := hs n (by simp)
      obtain ⟨h1, h2⟩ := ih (fun m hm => hs m (by simp [hm]))
      rw [List.length_cons, List.replicate_succ, Checked.zip, Checked.map, h1, h2, zero_add, ck_ok ⟨by omega, by omega⟩,
        ck_ok ⟨by omega, by omega⟩]
      exact ⟨rfl, rfl⟩
  have hz : List.zipWith (· + ·) (List.replicate s.length 0) s = s := by
    clear hs key
    induction s with
    | nil => rfl
    | cons n s ih => simp [List.replicate_succ, ih]
  obtain ⟨h1, h2⟩ := key s hs
  simp only [Checked.fromShape, Raster.domainOf, Box.fromShape, Position.zero, Int.natAbs_natCast, Position.add,
    Position.subScalar, h1, h2, hz, bind, Except.bind]
  rfl

/-- **C79**: the size of a box is computed without overflow if its number of positions is a value of type `Index`,
whatever its bounds. -/
theorem C79_box_size {b : Box} (hf : b.front ≠ []) (h : List.Forall₂ (· ≤ ·) b.front b.back)
    (hc : pixelCount b.shape < 2 ^ 63) : Checked.boxSize b = .ok b.size := by
  obtain ⟨f, k⟩ := b
  have hpos : ∀ {f k : List Int}, List.Forall₂ (· ≤ ·) f k → Pos (Box.shape ⟨f, k⟩) := by
    intro f k h
    induction h with
    | nil => intro n hn; simp [Box.shape, Position.sub, Position.addScalar] at hn
    | cons hx _ ih =>
      intro n hn
      simp only [Box.shape, Position.sub, Position.addScalar, List.zipWith_cons_cons, List.map_cons, List.mem_cons] at hn
      rcases hn with rfl | hn
      · omega
      · exact ih n hn
  have hs := hpos h
  have hlen : ∀ n ∈ Box.shape ⟨f, k⟩, 0 < n ∧ n < 2 ^ 63 := fun n hn =>
    ⟨hs n hn, lt_of_le_of_lt (length_le_prod hs hn) hc⟩
  have key : ∀ {f k : List Int}, List.Forall₂ (· ≤ ·) f k → (∀ n ∈ Box.shape ⟨f, k⟩, 0 < n ∧ n < 2 ^ 63) →
      Checked.zip (· - ·) k f = .ok (Position.sub k f) ∧
      Checked.map (· + 1) (Position.sub k f) = .ok (Box.shape ⟨f, k⟩) := by
    intro f k h
    induction h with
    | nil => intro _; exact ⟨rfl, rfl⟩
    | @cons x y f k hx h ih =>
      intro hn
      have h0 := hn (y - x + 1) (by simp [Box.shape, Position.sub, Position.addScalar])
      obtain ⟨h1, h2⟩ := ih (fun n hm => hn n (by
        simp only [Box.shape, Position.sub, Position.addScalar, List.zipWith_cons_cons, List.map_cons, List.mem_cons] at hm ⊢
        exact .inr hm))
      simp only [Position.sub, List.zipWith_cons_cons, Checked.zip, Checked.map] at h1 h2 ⊢
      rw [h1, h2, ck_ok ⟨by omega, by omega⟩, ck_ok ⟨by omega, by omega⟩]
      exact ⟨rfl, rfl⟩
  obtain ⟨h1, h2⟩ := key h hlen
  have hne : Box.shape ⟨f, k⟩ ≠ [] := Box.shape_ne_nil (b := ⟨f, k⟩) h.length_eq hf
  simp only [Checked.boxSize, Checked.boxShape, h1, h2, bind, Except.bind]
  rw [(C79_size_partial hne hs hc).1, Box.size, shapeSize_eq hne]
  rfl

/-! ## Loops -/

/-- The bounds of a box whose loop does not overflow: values of type `Index`, such that the position before the front
and those past the back are too. -/
def Inner (b : Box) : Prop := (∀ x ∈ b.front, -2 ^ 63 < x ∧ x < 2 ^ 63) ∧ ∀ x ∈ b.back, -2 ^ 63 ≤ x ∧ x < 2 ^ 63 - 1

theorem carry_ok {f b : Position} : ∀ {x : Int} {c : Position}, List.Forall₂ (· ≤ ·) f.tail c → List.Forall₂ (· ≤ ·) c b.tail →
    (∀ y ∈ f, -2 ^ 63 ≤ y) → (∀ y ∈ b, y < 2 ^ 63 - 1) →
    Checked.carry f b (x :: c) = .ok (BoxIterator.carry f b (x :: c)) := by
  induction f generalizing b with
  | nil => intro x c _ _ _ _; cases c <;> rfl
  | cons f0 f ih =>
    intro x c h1 h2 h3 h4
    cases b with
    | nil => cases c <;> rfl
    | cons b0 b =>
      cases c with
      | nil => rfl
      | cons y c =>
        rw [Checked.carry, BoxIterator.carry]
        obtain ⟨f1, f', rfl, hy1, hc1⟩ : ∃ f1 f', f = f1 :: f' ∧ f1 ≤ y ∧ List.Forall₂ (· ≤ ·) f' c := by
          simp only [List.tail_cons] at h1
          cases h1 with
          | cons a d => exact ⟨_, _, rfl, a, d⟩
        obtain ⟨b1, b', rfl, hy2, hc2⟩ : ∃ b1 b', b = b1 :: b' ∧ y ≤ b1 ∧ List.Forall₂ (· ≤ ·) c b' := by
          simp only [List.tail_cons] at h2
          cases h2 with
          | cons a d => exact ⟨_, _, rfl, a, d⟩
        have h3' : ∀ z ∈ f1 :: f', -2 ^ 63 ≤ z := fun z hz => h3 z (by simp only [List.mem_cons] at hz ⊢; exact .inr hz)
        have h4' : ∀ z ∈ b1 :: b', z < 2 ^ 63 - 1 := fun z hz => h4 z (by simp only [List.mem_cons] at hz ⊢; exact .inr hz)
        have e1 := h3' f1 (by simp)
        have e2 := h4' b1 (by simp)
        split
        · rw [ck_ok ⟨by omega, by omega⟩]
          simp only [bind, Except.bind]
          rw [ih (b := b1 :: b') hc1 hc2 h3' h4']
          rfl
        · rw [ih (b := b1 :: b') hc1 hc2 h3' h4']
          rfl

theorem decHead_ok {f : Position} (h : ∀ x ∈ f, -2 ^ 63 < x ∧ x < 2 ^ 63) :
    Checked.decHead f = .ok (BoxIterator.decHead f) := by
  cases f with
  | nil => rfl
  | cons x f =>
    have := h x (by simp)
    rw [Checked.decHead, ck_ok ⟨by omega, by omega⟩]
    rfl

theorem next_ok {b : Box} (hb : Inner b) {c : Position} (hc : InBox b.front b.back c) :
    Checked.next b c = .ok (BoxIterator.next b c) := by
  unfold Checked.next BoxIterator.next
  split
  · exact decHead_ok hb.1
  · cases c with
    | nil =>
      obtain ⟨f, k⟩ := b
      obtain ⟨h1, h2⟩ := hc
      cases h1; cases h2
      rfl
    | cons x c =>
      obtain ⟨f, k⟩ := b
      obtain ⟨h1, h2⟩ := hc
      obtain ⟨h3, h4⟩ := hb
      simp only at h1 h2 h3 h4
      cases h1 with
      | @cons f0 _ f _ a1 d1 =>
        cases h2 with
        | @cons _ b0 _ k a2 d2 =>
          have e1 := h3 f0 (by simp)
          have e2 := h4 b0 (by simp)
          rw [Checked.incHead, ck_ok ⟨by omega, by omega⟩]
          simp only [bind, Except.bind, pure, Except.pure]
          exact carry_ok d1 d2 (fun y hy => le_of_lt (h3 y hy).1) (fun y hy => (h4 y hy).2)

theorem loop_ok {b : Box} {stop c : Position} {l : List Position} (h : Litl.LoopTrace (BoxIterator.next b) stop c l)
    (hin : ∀ p ∈ l, Checked.next b p = .ok (BoxIterator.next b p)) : Checked.LoopTrace (Checked.next b) stop c l := by
  induction h with
  | done => exact .done
  | @next c l hc _ ih => exact .next hc (hin c (by simp)) (ih (fun p hp => hin p (by simp [hp])))

/-- **C79**, partial: the loop over a box does not overflow if the position before the front and those past the back are made
of values of type `Index`; it visits the positions of the box.
Missing: boxes with a front coordinate `-2^63` or a back coordinate `2^63 - 1`; see `C79_loop_front` and
`C79_loop_back`. -/
theorem C79_loop_partial {b : Box} (hf : b.front ≠ []) (hb : Inner b) {l : List Position} (h : BoxIterator.Visits b l) :
    Checked.Visits b l := by
  have hin : ∀ p ∈ l, InBox b.front b.back p := fun p hp => (((visits_box_iff b hf l).1 h).2.2 p).1 hp
  exact ⟨_, decHead_ok hb.1, loop_ok h (fun p hp => next_ok hb (hin p hp))⟩

/-- **C79**: the loop over the domain of a raster does not overflow; it visits the positions of the raster, in storage
order. -/
theorem C79_domain_loop {s : Position} (h : s ≠ []) (hs : ∀ n ∈ s, 0 < n ∧ n < 2 ^ 63) :
    ∃ b l, Checked.fromShape (Position.zero s.length) s = .ok b ∧ Checked.Visits b l ∧ (l.length : Int) = pixelCount s ∧
      ∀ k (hk : k < l.length), InShape s l[k] ∧ Litl.index s l[k] = k := by
  obtain ⟨l, h1, h2, h3⟩ := C03_domain_storage_order s h (fun n hn => (hs n hn).1)
  refine ⟨_, l, C79_domain (fun n hn => ⟨le_of_lt (hs n hn).1, (hs n hn).2⟩), ?_, by rw [h2, shapeSize_eq h]; rfl, h3⟩
  refine C79_loop_partial ?_ ?_ h1
  · rw [domainOf_fixed]; simpa using h
  · rw [domainOf_fixed]
    constructor
    · intro x hx
      simp only [List.mem_replicate] at hx
      omega
    · intro x hx
      simp only [List.mem_map] at hx
      obtain ⟨n, hn, rfl⟩ := hx
      have := hs n hn
      omega

/-- What is computed without overflow is right. -/
theorem carry_sound : ∀ {f b c d : Position}, Checked.carry f b c = .ok d → d = BoxIterator.carry f b c := by
  intro f
  induction f with
  | nil => intro b c d h; cases h; cases c <;> rfl
  | cons f0 f ih =>
    intro b c d h
    cases b with
    | nil => cases h; rfl
    | cons b0 b =>
      rcases c with _ | ⟨x, _ | ⟨y, c⟩⟩
      · cases h; rfl
      · cases h; rfl
      · rw [Checked.carry] at h
        rw [BoxIterator.carry]
        split at h
        · next hx =>
          rw [if_pos hx]
          cases hy : ck (y + 1) with
          | error e => simp [hy, bind, Except.bind] at h
          | ok z =>
            obtain ⟨_, rfl⟩ := ck_inv hy
            cases hr : Checked.carry f b ((y + 1) :: c) with
            | error e => simp [hy, hr, bind, Except.bind] at h
            | ok ds =>
              simp [hy, hr, bind, Except.bind, pure, Except.pure] at h
              rw [← h, ih hr]
        · next hx =>
          rw [if_neg hx]
          cases hr : Checked.carry f b (y :: c) with
          | error e => simp [hr, bind, Except.bind] at h
          | ok ds =>
            simp [hr, bind, Except.bind, pure, Except.pure] at h
            rw [← h, ih hr]

theorem decHead_sound {f d : Position} (h : Checked.decHead f = .ok d) : d = BoxIterator.decHead f := by
  cases f with
  | nil => cases h; rfl
  | cons x f =>
    rw [Checked.decHead] at h
    cases hy : ck (x - 1) with
    | error e => simp [hy, bind, Except.bind] at h
    | ok z =>
      obtain ⟨_, rfl⟩ := ck_inv hy
      simp [hy, bind, Except.bind, pure, Except.pure] at h
      exact h.symm

theorem next_sound {b : Box} {c d : Position} (h : Checked.next b c = .ok d) : d = BoxIterator.next b c := by
  unfold Checked.next at h
  unfold BoxIterator.next
  split at h
  · next hc => rw [if_pos hc]; exact decHead_sound h
  · next hc =>
    rw [if_neg hc]
    cases c with
    | nil => exact carry_sound h
    | cons x c =>
      rw [Checked.incHead] at h
      cases hy : ck (x + 1) with
      | error e => simp [hy, bind, Except.bind] at h
      | ok z =>
        obtain ⟨_, rfl⟩ := ck_inv hy
        simp only [hy, bind, Except.bind, pure, Except.pure] at h
        exact carry_sound h

theorem loop_sound {b : Box} {stop c : Position} {l : List Position} (h : Checked.LoopTrace (Checked.next b) stop c l) :
    Litl.LoopTrace (BoxIterator.next b) stop c l ∧ ∀ p ∈ l, ∃ d, Checked.next b p = .ok d := by
  induction h with
  | done => exact ⟨.done, by simp⟩
  | @next c d l hc hd _ ih =>
    refine ⟨.next hc ?_, ?_⟩
    · rw [← next_sound hd]; exact ih.1
    · intro p hp
      rcases List.mem_cons.1 hp with rfl | hp
      · exact ⟨d, hd⟩
      · exact ih.2 p hp

/-- **C79**: a loop without overflow is that on unbounded integers. -/
theorem C79_loop_sound {b : Box} {l : List Position} (h : Checked.Visits b l) : BoxIterator.Visits b l := by
  obtain ⟨stop, h1, h2⟩ := h
  cases decHead_sound h1
  exact (loop_sound h2).1

/-- **C79**: the loop over a box of front coordinate `-2^63` along axis 0 overflows, in the end position. -/
theorem C79_loop_front {f b : Position} (l : List Position) : ¬ Checked.Visits ⟨(-2 ^ 63) :: f, b⟩ l := by
  rintro ⟨stop, h1, _⟩
  rw [Checked.decHead, ck_ub (by unfold IsI64; omega)] at h1
  simp [bind, Except.bind] at h1

/-- **C79**: the loop over a box of back coordinate `2^63 - 1` along axis 0 overflows, if the box has several
positions along other axes. -/
theorem C79_loop_back {x : Int} {f b : Position} (hx : x ≤ 2 ^ 63 - 1) (h : List.Forall₂ (· ≤ ·) f b) (hne : f ≠ b)
    (l : List Position) : ¬ Checked.Visits ⟨x :: f, (2 ^ 63 - 1) :: b⟩ l := by
  intro hv
  have hu := C79_loop_sound hv
  obtain ⟨stop, _, h2⟩ := hv
  have hm : ((2 ^ 63 - 1 : Int) :: f) ∈ l := by
    refine (((visits_box_iff _ (by simp) l).1 hu).2.2 _).2 ⟨?_, ?_⟩
    · exact .cons hx (BoxIterator.le_refl_forall₂ f)
    · exact .cons le_rfl h
  obtain ⟨d, hd⟩ := (loop_sound h2).2 _ hm
  rw [Checked.next, if_neg (by simpa using hne), Checked.incHead, ck_ub (by unfold IsI64; omega)] at hd
  simp [bind, Except.bind] at hd

/-- **C79**, full statement: with values of type `Index`, the numbers of pixels, the raw indices and the loops over boxes
are computed without overflow as soon as the number of pixels is a value of type `Index`. -/
def C79_Statement : Prop :=
  (∀ s : Position, s ≠ [] → (∀ n ∈ s, 0 ≤ n ∧ n < 2 ^ 63) → pixelCount s < 2 ^ 63 →
    Checked.shapeSize s = .ok (pixelCount s)) ∧
  (∀ s p : Position, InShape s p → pixelCount s < 2 ^ 63 →
    Checked.index s p = .ok (Litl.index s p) ∧ Checked.indexVariable s p = .ok (Litl.index s p)) ∧
  (∀ b : Box, b.front ≠ [] → (∀ x ∈ b.front ++ b.back, IsI64 x) → pixelCount b.shape < 2 ^ 63 →
    ∀ l, BoxIterator.Visits b l → Checked.Visits b l)

/-- **C79** is violated, e.g. by the raster of shape (2^32, 2^32, 0), which has no pixel. -/
theorem C79_violated : ¬ C79_Statement := by
  intro h
  have h1 := h.1 [2 ^ 32, 2 ^ 32, 0] (by simp) (by simp) (by simp [pixelCount])
  rw [C79_size_iff _ (by simp)] at h1
  have := (h1.2 2 (by omega) (by simp)).2
  simp [pixelCount] at this

/-- Non-vacuity: a pixel of a raster of 2^62 pixels. -/
example : InShape [2 ^ 31, 2 ^ 31] [5, 7] ∧ pixelCount [2 ^ 31, 2 ^ 31] < 2 ^ 63 ∧
    Checked.index [2 ^ 31, 2 ^ 31] [5, 7] = .ok (5 + 2 ^ 31 * 7) := by
  have h : InShape [2 ^ 31, 2 ^ 31] [5, 7] := by simp [InShape]
  have hc : pixelCount [2 ^ 31, 2 ^ 31] < 2 ^ 63 := by simp [pixelCount]
  exact ⟨h, hc, C79_index h hc⟩

/-- Non-vacuity: a box which satisfies the hypotheses of `C79_loop_partial`. -/
example : Inner ⟨[-3, 2], [2 ^ 63 - 2, 5]⟩ := by
  refine ⟨by simp, by simp⟩

end Checked

end Litl
