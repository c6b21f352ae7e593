import Verif.Props.Ball
import Verif.Props.BoxAlgebra

/-!
# C78: translated and opposite regions
-/

namespace Litl

namespace Spec

/-- The opposite of a position. -/
def opposite (p : List Int) : List Int := p.map (fun x => -x)

/-- The position `p` translated by `v`. -/
def translated (v p : List Int) : List Int := List.zipWith (fun x y => x + y) p v

end Spec

open Spec

/-! ## Storage order -/

theorem Spec.StorageLt.length_eq {p q : List Int} (h : StorageLt p q) : p.length = q.length := by
  induction h with
  | tail _ ih => simp [ih]
  | head _ => rfl

theorem Spec.StorageLt.asymm {p q : List Int} (h : StorageLt p q) : ¬ StorageLt q p := by
  induction h with
  | tail h ih =>
    intro h'
    cases h' with
    | tail h' => exact ih h'
    | head _ => exact storageLt_irrefl _ h
  | head hlt =>
    intro h'
    cases h' with
    | tail h' => exact storageLt_irrefl _ h'
    | head h' => omega

theorem Spec.StorageLt.opposite {p q : List Int} (h : StorageLt p q) : StorageLt (opposite q) (opposite p) := by
  induction h with
  | tail _ ih => exact .tail ih
  | head hlt => exact .head (Int.neg_lt_neg hlt)

theorem Spec.StorageLt.translated {p q : List Int} (h : StorageLt p q) :
    ∀ {v : List Int}, v.length = p.length → StorageLt (translated v p) (translated v q) := by
  induction h with
  | tail _ ih =>
    intro v hv
    cases v with
    | nil => simp at hv
    | cons x v => exact .tail (ih (by simpa using hv))
  | head hlt =>
    intro v hv
    cases v with
    | nil => simp at hv
    | cons x v => exact .head (Int.add_lt_add_right hlt x)

/-- Lists in storage order which have the same elements are equal. -/
theorem eq_of_storage_order {l l' : List Position} (h : l.Pairwise StorageLt) (h' : l'.Pairwise StorageLt)
    (hm : ∀ p, p ∈ l ↔ p ∈ l') : l = l' := by
  have nd : ∀ {l : List Position}, l.Pairwise StorageLt → l.Nodup := fun h => by
    refine List.Pairwise.imp (fun {a b} hlt => ?_) h
    rintro rfl
    exact storageLt_irrefl _ hlt
  exact ((List.perm_ext_iff_of_nodup (nd h) (nd h')).2 hm).eq_of_pairwise
    (fun a b _ _ h1 h2 => absurd h2 (StorageLt.asymm h1)) h h'

theorem opposite_twice (p : List Int) : opposite (opposite p) = p := by
  simp [opposite]

theorem opposite_injective {p q : List Int} (h : opposite p = opposite q) : p = q := by
  rw [← opposite_twice p, h, opposite_twice]

theorem mem_opposites {l : List Position} {p : Position} : p ∈ (l.map opposite).reverse ↔ opposite p ∈ l := by
  rw [List.mem_reverse, List.mem_map]
  constructor
  · rintro ⟨q, hq, rfl⟩; rwa [opposite_twice]
  · intro h; exact ⟨_, h, opposite_twice p⟩

theorem pairwise_opposites {l : List Position} (h : l.Pairwise StorageLt) :
    ((l.map opposite).reverse).Pairwise StorageLt := by
  rw [List.pairwise_reverse, List.pairwise_map]
  exact h.imp (fun h => h.opposite)

theorem pairwise_translated {l : List Position} {v : Position} (h : l.Pairwise StorageLt)
    (hv : ∀ p ∈ l, v.length = p.length) : (l.map (translated v)).Pairwise StorageLt := by
  rw [List.pairwise_map]
  exact h.imp_of_mem (fun hp _ h => h.translated (hv _ hp))

/-! ## Boxes -/

/-- The loop over a box has at most one outcome: the positions of the box, in storage order. -/
theorem visits_box_iff (b : Box) (hf : b.front ≠ []) (l : List Position) :
    BoxIterator.Visits b l ↔ (∃ p, InBox b.front b.back p) ∧ l.Pairwise StorageLt ∧ ∀ p, p ∈ l ↔ InBox b.front b.back p := by
  constructor
  · intro h
    have hne := (C05_terminates_iff_nonempty_partial b hf).1 ⟨l, h⟩
    obtain ⟨l', h1, h2, _, h4, _⟩ := C04_box_iteration b hf hne
    cases C04_box_iteration_unique b l l' h h1
    exact ⟨hne, h4, h2⟩
  · rintro ⟨hne, h1, h2⟩
    obtain ⟨l', h3, h4, _, h5, _⟩ := C04_box_iteration b hf hne
    rwa [eq_of_storage_order h1 h5 (fun p => (h2 p).trans (h4 p).symm)]

/-- **C78**: the loop over a translated box visits the translated positions, in the same order; it terminates if and only
if the loop over the box does. -/
theorem C78_box_translated (b : Box) (v : Position) (hf : b.front ≠ []) (hl : b.front.length = b.back.length)
    (hv : v.length = b.front.length) :
    (∀ l, BoxIterator.Visits b l → BoxIterator.Visits (b.shift v) (l.map (translated v))) ∧
    ((∃ l, BoxIterator.Visits (b.shift v) l) ↔ ∃ l, BoxIterator.Visits b l) := by
  have hf' : (b.shift v).front ≠ [] := by
    intro h
    have := congrArg List.length h
    simp only [Box.shift, length_add hv.symm, List.length_nil] at this
    exact hf (List.length_eq_zero_iff.1 this)
  constructor
  · intro l h
    obtain ⟨⟨p, hp⟩, h1, h2⟩ := (visits_box_iff b hf l).1 h
    refine (visits_box_iff _ hf' _).2 ⟨⟨_, (C10_shift_positions b v _ hl hv).2 ⟨p, hp, rfl⟩⟩, ?_, ?_⟩
    · refine pairwise_translated h1 (fun p hp => ?_)
      have := ((h2 p).1 hp).1.length_eq
      omega
    · intro q
      rw [C10_shift_positions b v q hl hv, List.mem_map]
      constructor
      · rintro ⟨a, ha, rfl⟩; exact ⟨a, (h2 a).1 ha, rfl⟩
      · rintro ⟨a, ha, rfl⟩; exact ⟨a, (h2 a).2 ha, rfl⟩
  · rw [C05_terminates_iff_nonempty_partial _ hf', C05_terminates_iff_nonempty_partial _ hf]
    constructor
    · rintro ⟨p, hp⟩
      obtain ⟨q, hq, _⟩ := (C10_shift_positions b v p hl hv).1 hp
      exact ⟨q, hq⟩
    · rintro ⟨p, hp⟩
      exact ⟨_, (C10_shift_positions b v _ hl hv).2 ⟨p, hp, rfl⟩⟩

/-- **C78**: `box - v` is `box` translated by the opposite of `v`; `box + a`, `++box`, etc. are translations along each
axis. -/
theorem C78_box_translations (b : Box) (v : Position) (a : Int) (hl : b.front.length = b.back.length) :
    b.unshift v = b.shift (opposite v) ∧
    b.addScalar a = b.shift (List.replicate b.front.length a) ∧
    b.subScalar a = b.shift (List.replicate b.front.length (-a)) ∧
    b.inc = b.shift (List.replicate b.front.length 1) ∧
    b.dec = b.shift (List.replicate b.front.length (-1)) := by
  have hr : ∀ (n : Nat) (x : Int) (u : Position), u.length = n → u.add (List.replicate n x) = u.addScalar x := by
    intro n x u hu
    subst hu
    induction u with
    | nil => rfl
    | cons y u ih => simpa [Position.add, Position.addScalar, List.replicate_succ] using ih
  have hs : ∀ (x : Int) (u : Position), u.subScalar x = u.addScalar (-x) := fun x u => by
    simp [Position.subScalar, Position.addScalar, sub_eq_add_neg]
  have ho : ∀ u : Position, u.sub v = u.add (opposite v) := fun u => by
    simp [Position.sub, Position.add, opposite, List.zipWith_map_right, sub_eq_add_neg]
  refine ⟨?_, ?_, ?_, ?_, ?_⟩ <;>
    simp only [Box.unshift, Box.shift, Box.addScalar, Box.subScalar, Box.inc, Box.dec, ho, hs, hr _ _ _ rfl, hr _ _ _ hl.symm]

/-- **C78**, full statement: the loop over `-region` visits the opposites of the positions of the region, for boxes and
balls. -/
def C78_Statement : Prop :=
  (∀ (b : Box), b.front ≠ [] → b.front.length = b.back.length → ∀ l, BoxIterator.Visits b l →
    ∃ l', BoxIterator.Visits b.neg l' ∧ ∀ p, p ∈ l' ↔ opposite p ∈ l) ∧
  (∀ (P : Nat), P ≠ 0 → ∀ b : Ball, 0 ≤ b.radius → b.center ≠ [] → ∀ l, BallIterator.Visits P b l →
    ∃ l', BallIterator.Visits P b.neg l' ∧ ∀ p, p ∈ l' ↔ opposite p ∈ l)

/-- The positions of `-box`: there are none, but if the box has a single position. -/
theorem inBox_neg (b : Box) (h : ∃ p, InBox b.front b.back p) (p : Position) :
    InBox b.neg.front b.neg.back p ↔ b.front = b.back ∧ p = opposite b.front := by
  obtain ⟨q, hq1, hq2⟩ := h
  have key : ∀ (f b q p : List Int), List.Forall₂ (· ≤ ·) f q → List.Forall₂ (· ≤ ·) q b →
      (InBox (f.map (- ·)) (b.map (- ·)) p ↔ f = b ∧ p = opposite f) := by
    intro f
    induction f with
    | nil =>
      intro b q p h1 h2
      cases h1; cases h2
      simp [InBox, opposite]
    | cons x f ih =>
      intro b q p h1 h2
      cases h1 with
      | cons hx h1 =>
        cases h2 with
        | cons hy h2 =>
          cases p with
          | nil => simp [InBox, opposite]
          | cons z p =>
            have := ih _ _ p h1 h2
            simp only [InBox, List.map_cons, List.forall₂_cons, opposite] at this ⊢
            constructor
            · rintro ⟨⟨a1, a2⟩, a3, a4⟩
              obtain ⟨e1, e2⟩ := this.1 ⟨a2, a4⟩
              subst e1 e2
              have e3 : z = -x := by omega
              refine ⟨?_, by rw [e3]⟩
              congr 1
              omega
            · rintro ⟨e1, e2⟩
              cases e1; cases e2
              obtain ⟨a2, a4⟩ := this.2 ⟨rfl, rfl⟩
              exact ⟨⟨by omega, a2⟩, by omega, a4⟩
  exact key _ _ _ _ hq1 hq2

/-- **C78**: the loop over `-box` terminates if and only if the box has a single position.  Otherwise the front of the
`-box` is beyond its back. -/
theorem C78_box_opposite (b : Box) (hf : b.front ≠ []) (h : ∃ p, InBox b.front b.back p) :
    (∃ l, BoxIterator.Visits b.neg l) ↔ b.front = b.back := by
  have hf' : b.neg.front ≠ [] := by simpa [Box.neg, Position.neg] using hf
  rw [C05_terminates_iff_nonempty_partial _ hf']
  constructor
  · rintro ⟨p, hp⟩; exact ((inBox_neg b h p).1 hp).1
  · intro he; exact ⟨_, (inBox_neg b h _).2 ⟨he, rfl⟩⟩

/-- **C78**: swapping the bounds of `-box` gives the box of the opposite positions, which are visited in reverse order. -/
theorem C78_box_opposite_swapped (b : Box) (hf : b.front ≠ []) (l : List Position) (h : BoxIterator.Visits b l) :
    BoxIterator.Visits ⟨b.neg.back, b.neg.front⟩ (l.map opposite).reverse := by
  obtain ⟨⟨p, hp⟩, h1, h2⟩ := (visits_box_iff b hf l).1 h
  have hb : b.back ≠ [] := by
    have h3 := hp.1.length_eq
    have h4 := hp.2.length_eq
    intro e
    rw [e, List.length_nil] at h4
    exact hf (List.length_eq_zero_iff.1 (h3.trans h4))
  have key : ∀ p, InBox b.neg.back b.neg.front p ↔ InBox b.front b.back (opposite p) := by
    intro p
    simp only [InBox, Box.neg, Position.neg, opposite, List.forall₂_map_left_iff, List.forall₂_map_right_iff]
    constructor
    · rintro ⟨a, c⟩
      exact ⟨(c.imp (S := fun x y => y ≤ -x) (fun _ _ h => by omega)).flip,
        (a.imp (S := fun x y => -y ≤ x) (fun _ _ h => by omega)).flip⟩
    · rintro ⟨a, c⟩
      exact ⟨(c.imp (S := fun x y => -y ≤ x) (fun _ _ h => by omega)).flip,
        (a.imp (S := fun x y => y ≤ -x) (fun _ _ h => by omega)).flip⟩
  refine (visits_box_iff _ (by simpa [Box.neg, Position.neg] using hb) _).2
    ⟨⟨opposite p, (key _).2 (by rwa [opposite_twice])⟩, pairwise_opposites h1, fun q => ?_⟩
  rw [mem_opposites, h2, key]

/-! ## Balls -/

theorem distancePow_opposite (P : Nat) (p c : List Int) : distancePow P (opposite p) (opposite c) = distancePow P p c := by
  simp only [distancePow, opposite, List.zipWith_map]
  congr 2
  funext x y
  push_cast
  rw [show -(x : ℚ) - -(y : ℚ) = -((x : ℚ) - y) by ring, abs_neg]

theorem inBall_opposite (P : Nat) (r : ℚ) (c p : List Int) : InBall P r (opposite c) p ↔ InBall P r c (opposite p) := by
  have h := distancePow_opposite P (opposite p) c
  rw [opposite_twice] at h
  simp only [InBall, h]
  simp [opposite]

theorem distancePow_translated (P : Nat) : ∀ (p c v : List Int), p.length = c.length → v.length = c.length →
    distancePow P (translated v p) (translated v c) = distancePow P p c
  | [], [], _, _, _ => by simp [distancePow, translated]
  | x :: p, y :: c, [], _, h => by simp at h
  | x :: p, y :: c, z :: v, h, h' => by
    have := distancePow_translated P p c v (by simpa using h) (by simpa using h')
    simp only [translated, List.zipWith_cons_cons] at this ⊢
    rw [distancePow_cons, distancePow_cons, this]
    congr 2
    push_cast
    ring_nf

theorem translated_opposite : ∀ (v p : List Int), p.length = v.length → translated v (translated (opposite v) p) = p
  | [], [], _ => rfl
  | x :: v, y :: p, h => by
    have := translated_opposite v p (by simpa using h)
    simp only [translated, opposite, List.map_cons, List.zipWith_cons_cons] at this ⊢
    rw [this]
    congr 1
    omega

theorem length_translated {v p : List Int} (h : p.length = v.length) : (translated v p).length = v.length := by
  simp [translated, h]

/-- The loop over a ball has at most one outcome: the positions of the ball, in storage order. -/
theorem visits_ball_iff (P : Nat) (hP : P ≠ 0) (b : Ball) (hr : 0 ≤ b.radius) (hc : b.center ≠ []) (l : List Position) :
    BallIterator.Visits P b l ↔ l.Pairwise StorageLt ∧ ∀ p, p ∈ l ↔ InBall P b.radius b.center p := by
  obtain ⟨l', h1, h2, _, h4⟩ := C17_ball_iteration P hP b hr hc
  constructor
  · intro h
    cases C17_ball_iteration_unique P b l l' h h1
    exact ⟨h4, h2⟩
  · rintro ⟨h5, h6⟩
    rwa [eq_of_storage_order h5 h4 (fun p => (h6 p).trans (h2 p).symm)]

/-- **C78**, partial: the loop over `-ball` visits the opposites of the positions of the ball, in reverse order.
Missing: boxes, for which it is wrong as soon as there are two positions; see `C78_box_opposite`. -/
theorem C78_ball_opposite_partial (P : Nat) (hP : P ≠ 0) (b : Ball) (hr : 0 ≤ b.radius) (hc : b.center ≠ [])
    (l : List Position) (h : BallIterator.Visits P b l) : BallIterator.Visits P b.neg (l.map opposite).reverse := by
  obtain ⟨h1, h2⟩ := (visits_ball_iff P hP b hr hc l).1 h
  refine (visits_ball_iff P hP b.neg hr (by simpa [Ball.neg, Position.neg] using hc) _).2 ⟨pairwise_opposites h1, fun p => ?_⟩
  rw [mem_opposites, h2]
  exact (inBall_opposite P b.radius b.center p).symm

/-- **C78**: the loop over a translated ball visits the translated positions, in the same order. -/
theorem C78_ball_translated (P : Nat) (hP : P ≠ 0) (b : Ball) (v : Position) (hr : 0 ≤ b.radius) (hc : b.center ≠ [])
    (hv : v.length = b.center.length) (l : List Position) (h : BallIterator.Visits P b l) :
    BallIterator.Visits P (b.shift v) (l.map (translated v)) := by
  obtain ⟨h1, h2⟩ := (visits_ball_iff P hP b hr hc l).1 h
  have hc' : (b.shift v).center ≠ [] := by
    intro e
    have := congrArg List.length e
    simp only [Ball.shift, length_add hv.symm, List.length_nil] at this
    exact hc (List.length_eq_zero_iff.1 this)
  have hlen : (translated v b.center).length = v.length := length_translated hv.symm
  refine (visits_ball_iff P hP (b.shift v) hr hc' _).2 ⟨pairwise_translated h1 (fun p hp => ?_), fun p => ?_⟩
  · rw [hv, ((h2 p).1 hp).1]
  · rw [List.mem_map]
    show _ ↔ InBall P b.radius (translated v b.center) p
    constructor
    · rintro ⟨q, hq, rfl⟩
      obtain ⟨h3, h4⟩ := (h2 q).1 hq
      exact ⟨by rw [length_translated (h3.trans hv.symm), hlen], by rw [distancePow_translated P q b.center v h3 hv]; exact h4⟩
    · rintro ⟨h3, h4⟩
      have hq : (translated (opposite v) p).length = b.center.length := by
        rw [length_translated (by simp [opposite]; omega)]; simp [opposite]; omega
      have hback := translated_opposite v p (by omega)
      refine ⟨translated (opposite v) p, (h2 _).2 ⟨hq, ?_⟩, hback⟩
      rw [← distancePow_translated P _ b.center v hq hv, hback]
      exact h4

/-- **C78**: `ball - v` is `ball` translated by the opposite of `v`; `ball + a`, `++ball`, etc. are translations along
each axis. -/
theorem C78_ball_translations (b : Ball) (v : Position) (a : Int) :
    b.unshift v = b.shift (opposite v) ∧
    b.addScalar a = b.shift (List.replicate b.center.length a) ∧
    b.subScalar a = b.shift (List.replicate b.center.length (-a)) ∧
    b.inc = b.shift (List.replicate b.center.length 1) ∧
    b.dec = b.shift (List.replicate b.center.length (-1)) := by
  have hr : ∀ (x : Int) (u : Position), u.add (List.replicate u.length x) = u.addScalar x := by
    intro x u
    induction u with
    | nil => rfl
    | cons y u ih => simpa [Position.add, Position.addScalar, List.replicate_succ] using ih
  have hs : ∀ (x : Int) (u : Position), u.subScalar x = u.addScalar (-x) := fun x u => by
    simp [Position.subScalar, Position.addScalar, sub_eq_add_neg]
  have ho : ∀ u : Position, u.sub v = u.add (opposite v) := fun u => by
    simp [Position.sub, Position.add, opposite, List.zipWith_map_right, sub_eq_add_neg]
  refine ⟨?_, ?_, ?_, ?_, ?_⟩ <;>
    simp only [Ball.unshift, Ball.shift, Ball.addScalar, Ball.subScalar, Ball.inc, Ball.dec, ho, hs, hr]

/-- **C78**: the bounding box follows the translations, and is swapped by the opposite. -/
theorem C78_ball_box (b : Ball) (v : Position) (hv : v.length = b.center.length) :
    (b.shift v).box = b.box.shift v ∧ b.neg.box = ⟨b.box.neg.back, b.box.neg.front⟩ := by
  have key : ∀ (c v : List Int) (x : Int), v.length = c.length →
      (List.zipWith (· + ·) c v).map (· - x) = List.zipWith (· + ·) (c.map (· - x)) v ∧
      (List.zipWith (· + ·) c v).map (· + x) = List.zipWith (· + ·) (c.map (· + x)) v := by
    intro c
    induction c with
    | nil => intro v x h; simp
    | cons y c ih =>
      intro v x h
      cases v with
      | nil => simp at h
      | cons z v =>
        obtain ⟨h1, h2⟩ := ih v x (by simpa using h)
        simp only [List.zipWith_cons_cons, List.map_cons, h1, h2]
        exact ⟨by congr 1; omega, by congr 1; omega⟩
  constructor
  · obtain ⟨h1, h2⟩ := key b.center v (truncRat b.radius) hv
    simp only [Ball.box, Ball.shift, Box.fromCenter, Box.shift, Position.subScalar, Position.addScalar, Position.add, h1, h2]
  · simp only [Ball.box, Ball.neg, Box.fromCenter, Box.neg, Position.subScalar, Position.addScalar, Position.neg,
      List.map_map, Function.comp_def]
    congr 1
    · exact List.map_congr_left (fun x _ => by omega)
    · exact List.map_congr_left (fun x _ => by omega)

/-- **C78**: balls are equal when they have the same radius and center; `!=` is the opposite of `==`. -/
theorem C78_ball_eq (a b : Ball) : (a.eq b = true ↔ a = b) ∧ (a.ne b = !a.eq b) := by
  obtain ⟨r, c⟩ := a
  obtain ⟨r', c'⟩ := b
  constructor
  · simp [Ball.eq]
  · simp [Ball.eq, Ball.ne, bne, Bool.not_and]

/-- **C78** is violated by boxes, e.g. that from (0, 0) to (1, 0). -/
theorem C78_violated : ¬ C78_Statement := by
  intro h
  have hb : ∃ p, InBox ([0, 0] : List Int) [1, 0] p := ⟨[0, 0], by simp [InBox]⟩
  obtain ⟨l, hl, _⟩ := C04_box_iteration ⟨[0, 0], [1, 0]⟩ (by decide) hb
  obtain ⟨l', hl', _⟩ := h.1 ⟨[0, 0], [1, 0]⟩ (by decide) rfl l hl
  have := (C78_box_opposite ⟨[0, 0], [1, 0]⟩ (by decide) hb).1 ⟨l', hl'⟩
  simp at this

/-- Non-vacuity: a ball of two dimensions and its opposite, and a box which is translated. -/
example : (∃ l, BallIterator.Visits 1 ⟨3 / 2, [1, -1]⟩ l ∧ [2, -1] ∈ l ∧ BallIterator.Visits 1 ⟨3 / 2, [-1, 1]⟩ (l.map opposite).reverse) ∧
    BoxIterator.Visits (Box.shift ⟨[0, 0], [1, 1]⟩ [3, 4]) [[3, 4], [4, 4], [3, 5], [4, 5]] := by
  constructor
  · obtain ⟨l, h1, h2, _⟩ := C17_ball_iteration 1 (by decide) ⟨3 / 2, [1, -1]⟩ (by norm_num) (by simp)
    refine ⟨l, h1, (h2 _).2 ?_, C78_ball_opposite_partial 1 (by decide) ⟨3 / 2, [1, -1]⟩ (by norm_num) (by simp) l h1⟩
    simp only [InBall, distancePow]
    norm_num
  · have h : BoxIterator.Visits ⟨[0, 0], [1, 1]⟩ [[0, 0], [1, 0], [0, 1], [1, 1]] :=
      BoxIterator.visits_enum (b := ⟨[0, 0], [1, 1]⟩) (by decide) (by simp)
    exact (C78_box_translated ⟨[0, 0], [1, 1]⟩ [3, 4] (by decide) rfl rfl).1 _ h

end Litl
