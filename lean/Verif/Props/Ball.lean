import Verif.Lemmas.Ball
import Verif.Props.BoxIter
import Mathlib.Analysis.Real.Sqrt

/-!
# C17, C18: balls
-/

namespace Litl

open Spec

/-- **C17**: looping over a ball of radius `r >= 0` and any norm `LP`, `P >= 1`, terminates and visits exactly
the positions of the ball, each once, in increasing storage order. -/
theorem C17_ball_iteration (P : Nat) (hP : P ≠ 0) (b : Ball) (hr : 0 ≤ b.radius) (hc : b.center ≠ []) :
    ∃ l, BallIterator.Visits P b l ∧ (∀ p, p ∈ l ↔ InBall P b.radius b.center p) ∧ l.Nodup ∧
      l.Pairwise StorageLt := by
  have hf : 0 ≤ ⌊b.radius⌋ := Int.floor_nonneg.2 hr
  have hbox : b.box = ⟨b.center.subScalar ⌊b.radius⌋, b.center.addScalar ⌊b.radius⌋⟩ := by
    rw [Ball.box, truncRat_of_nonneg hr]; rfl
  have hne : b.box.front ≠ [] := by rw [hbox]; simpa [Position.subScalar] using hc
  obtain ⟨l, h1, h2, h3, h4, -⟩ := C04_box_iteration b.box hne
    ⟨_, BoxIterator.le_refl_forall₂ _, by rw [hbox]; exact box_front_le_back hf _⟩
  obtain ⟨d, h5, h6⟩ := BallIterator.loopTrace_filter (P := P) h1
  refine ⟨_, ⟨d, h5, h6⟩, ?_, h3.filter _, h4.filter _⟩
  intro p
  rw [List.mem_filter, h2, hbox]
  simp only [BallIterator.Skipped, BallIterator.distanceToCenter_eq, not_lt, decide_eq_true_eq, gt_iff_lt]
  constructor
  · rintro ⟨hb, hd⟩
    refine ⟨?_, hd⟩
    have := hb.1.length_eq
    simpa [Position.subScalar] using this.symm
  · intro h
    exact ⟨inBox_of_inBall hP hr h, h.2⟩

/-- **C17**: the loop is deterministic. -/
theorem C17_ball_iteration_unique (P : Nat) (b : Ball) (l l' : List Position) (h : BallIterator.Visits P b l)
    (h' : BallIterator.Visits P b l') : l = l' := by
  obtain ⟨c, h1, h2⟩ := h
  obtain ⟨c', h3, h4⟩ := h'
  rw [← h1.unique h3] at h4
  exact h2.unique h4

/-- **C17** for `P = 1`: the visited positions are those at Manhattan distance at most `r`. -/
theorem C17_l1_distance (r : ℚ) (c p : Position) : InBall 1 r c p ↔
    p.length = c.length ∧ (List.zipWith (fun x y : Int => |(x : ℚ) - (y : ℚ)|) p c).sum ≤ r := by
  simp [InBall, distancePow]

/-- **C17** for `P = 2`: the visited positions are those at Euclidean distance at most `r`. -/
theorem C17_l2_distance (r : ℚ) (hr : 0 ≤ r) (c p : Position) : InBall 2 r c p ↔
    p.length = c.length ∧ √((List.zipWith (fun x y : Int => ((x : ℝ) - (y : ℝ)) ^ 2) p c).sum) ≤ r := by
  have h : (List.zipWith (fun x y : Int => ((x : ℝ) - y) ^ 2) p c).sum = ((distancePow 2 p c : ℚ) : ℝ) := by
    induction p generalizing c with
    | nil => simp [distancePow]
    | cons x p ih =>
      cases c with
      | nil => simp [distancePow]
      | cons y c => rw [distancePow_cons]; simp [ih c, sq_abs]
  rw [h, InBall, Real.sqrt_le_left (by exact_mod_cast hr)]
  norm_cast

/-- **C17**: a radius below or equal to -1 gives an empty bounding box, over which the loop does not
terminate (see C05). -/
theorem C17_negative_radius_diverges (P : Nat) (b : Ball) (hr : b.radius ≤ -1) (hc : b.center ≠ []) :
    ¬ ∃ l, BallIterator.Visits P b l := by
  rintro ⟨l, c, h1, h2⟩
  obtain ⟨l', h3⟩ := h2.loopTrace
  obtain ⟨l'', h4⟩ := h1.loopTrace h3
  have hneg : truncRat b.radius < 0 := by
    have h5 : (1 : Int) ≤ ⌊-b.radius⌋ := Int.le_floor.2 (by push_cast; linarith)
    simp only [truncRat, if_pos (show b.radius < 0 by linarith)]
    omega
  refine C05_empty_box_diverges b.box ?_ ?_ ⟨l'', h4⟩
  · simpa [Ball.box, Box.fromCenter, Position.subScalar] using hc
  · rintro ⟨p, hp⟩
    rcases hcc : b.center with _ | ⟨x, c⟩
    · exact hc hcc
    · simp only [Ball.box, Box.fromCenter, hcc, Position.subScalar, Position.addScalar, List.map_cons] at hp
      obtain ⟨h5, h6⟩ := hp
      cases h5 with
      | cons h7 _ => cases h6 with
        | cons h8 _ => omega

/-- Non-vacuity of C17: the L1 ball of radius 3/2 centered on (1, -1) is a cross of 5 positions, the L2 ball
contains the corners too. -/
example : (0 : ℚ) ≤ 3 / 2 ∧ ([1, -1] : Position) ≠ [] ∧ InBall 1 (3 / 2) [1, -1] [2, -1] ∧
    ¬ InBall 1 (3 / 2) [1, -1] [2, 0] ∧ InBall 2 (3 / 2) [1, -1] [2, 0] ∧ ¬ InBall 2 (3 / 2) [1, -1] [3, -1] := by
  refine ⟨by norm_num, by decide, ?_⟩
  simp only [InBall, distancePow]
  norm_num

/-- **C18** (full statement, violated by the code): `size()` is the number of visited positions. -/
def C18_Statement : Prop :=
  ∀ (P : Nat) (b : Ball) (l : List Position), P ≠ 0 → 0 ≤ b.radius → b.center ≠ [] →
    BallIterator.Visits P b l → b.size = l.length

/-- The number of positions of the bounding box. -/
theorem C18_size_eq_box (b : Ball) (hr : 0 ≤ b.radius) (hc : b.center ≠ []) :
    b.size = (2 * ⌊b.radius⌋ + 1) ^ b.center.length := by
  rw [Ball.size, Ball.box, truncRat_of_nonneg hr, Box.size]
  generalize ⌊b.radius⌋ = k
  have h : (Box.fromCenter k b.center).shape = List.replicate b.center.length (2 * k + 1) := by
    generalize b.center = c
    induction c with
    | nil => rfl
    | cons x c ih =>
      simp only [Box.shape, Box.fromCenter, Position.sub, Position.addScalar, Position.subScalar, List.map_cons,
        List.zipWith_cons_cons, List.length_cons, List.replicate_succ] at ih ⊢
      rw [ih]
      congr 1
      ring
  rw [h, shapeSize_eq (by simpa using hc)]
  simp

/-- The shape and lengths are those of the bounding box. -/
theorem C18_shape (b : Ball) (hr : 0 ≤ b.radius) :
    b.shape = b.box.shape ∧ b.length = 2 * ⌊b.radius⌋ + 1 ∧ b.shape = List.replicate b.center.length b.length := by
  have hl : b.length = 2 * ⌊b.radius⌋ + 1 := by rw [Ball.length, truncRat_of_nonneg hr]
  refine ⟨?_, hl, rfl⟩
  rw [Ball.shape, hl, Ball.box, truncRat_of_nonneg hr]
  generalize ⌊b.radius⌋ = k
  generalize b.center = c
  induction c with
  | nil => rfl
  | cons x c ih =>
    simp only [Box.shape, Box.fromCenter, Position.sub, Position.addScalar, Position.subScalar, List.map_cons,
      List.zipWith_cons_cons, List.length_cons, List.replicate_succ] at ih ⊢
    rw [← ih]
    congr 1
    ring

example : (0 : ℚ) ≤ (⟨5 / 2, [7, -1]⟩ : Ball).radius := by norm_num

/-- **C18**, what remains true: `size()` is an upper bound of the number of visited positions, and is right
iff the ball contains the corner of its bounding box. Missing: the other balls. -/
theorem C18_size_partial (P : Nat) (b : Ball) (hr : 0 ≤ b.radius) (hc : b.center ≠ [])
    (l : List Position) (hl : BallIterator.Visits P b l) :
    (l.length : Int) ≤ b.size ∧
      (b.size = l.length ↔ (b.center.length : ℚ) * (⌊b.radius⌋ : ℚ) ^ P ≤ b.radius ^ P) := by
  have hf : 0 ≤ ⌊b.radius⌋ := Int.floor_nonneg.2 hr
  have hbox : b.box = ⟨b.center.subScalar ⌊b.radius⌋, b.center.addScalar ⌊b.radius⌋⟩ := by
    rw [Ball.box, truncRat_of_nonneg hr]; rfl
  have hne : b.box.front ≠ [] := by rw [hbox]; simpa [Position.subScalar] using hc
  obtain ⟨m, h1, h2, h3, h4, h5⟩ := C04_box_iteration b.box hne
    ⟨_, BoxIterator.le_refl_forall₂ _, by rw [hbox]; exact box_front_le_back hf _⟩
  obtain ⟨d, h6, h7⟩ := BallIterator.loopTrace_filter (P := P) h1
  have hlm := C17_ball_iteration_unique P b l _ hl ⟨d, h6, h7⟩
  rw [Ball.size, ← h5, hlm]
  refine ⟨by exact_mod_cast List.length_filter_le _ _, ?_⟩
  rw [Nat.cast_inj, eq_comm, List.length_filter_eq_length_iff]
  simp only [BallIterator.Skipped, BallIterator.distanceToCenter_eq, not_lt, decide_eq_true_eq, gt_iff_lt, h2, hbox]
  have hcorner : ∀ c : Position, distancePow P (c.addScalar ⌊b.radius⌋) c = c.length * (⌊b.radius⌋ : ℚ) ^ P := by
    intro c
    induction c with
    | nil => simp [distancePow, Position.addScalar]
    | cons x c ih =>
      simp only [Position.addScalar, List.map_cons, distancePow_cons] at ih ⊢
      rw [ih]
      rw [List.length_cons]
      push_cast
      rw [show (x : ℚ) + (⌊b.radius⌋ : ℚ) - x = ⌊b.radius⌋ by ring, abs_of_nonneg (by exact_mod_cast hf)]
      ring
  constructor
  · intro h
    rw [← hcorner]
    exact h _ ⟨box_front_le_back hf _, BoxIterator.le_refl_forall₂ _⟩
  · intro h p hp
    refine le_trans ?_ h
    revert hp
    generalize b.center = c
    intro hp
    induction c generalizing p with
    | nil =>
      cases p with
      | nil => simp [distancePow]
      | cons => simp [InBox, Position.subScalar] at hp
    | cons x c ih =>
      cases p with
      | nil => simp [InBox, Position.subScalar] at hp
      | cons y p =>
        simp only [InBox, Position.subScalar, Position.addScalar, List.map_cons, List.forall₂_cons] at hp
        have h8 := ih p ⟨hp.1.2, hp.2.2⟩
        rw [distancePow_cons]
        have h9 : |(y : ℚ) - x| ≤ ⌊b.radius⌋ := by
          rw [abs_le]
          constructor
          · have : -⌊b.radius⌋ ≤ y - x := by omega
            exact_mod_cast this
          · have : y - x ≤ ⌊b.radius⌋ := by omega
            exact_mod_cast this
        have h10 := pow_le_pow_left₀ (abs_nonneg _) h9 P
        simp only [List.length_cons, Nat.cast_add, Nat.cast_one]
        linarith

/-- **C18** is violated, e.g. by the L1 ball of radius 1 in 2D: size 9 for 5 positions. -/
theorem C18_violated : ¬ C18_Statement := by
  intro h
  obtain ⟨l, hl, -⟩ := C17_ball_iteration 1 one_ne_zero ⟨1, [0, 0]⟩ (by norm_num) (by decide)
  have h1 := h 1 ⟨1, [0, 0]⟩ l one_ne_zero (by norm_num) (by decide) hl
  have h2 := ((C18_size_partial 1 ⟨1, [0, 0]⟩ (by norm_num) (by decide) l hl).2).1 h1
  norm_num at h2

/-- Non-vacuity of C18: a 1D ball, for which the size is right. -/
example : (0 : ℚ) ≤ 5 / 2 ∧ (([7] : Position).length : ℚ) * (⌊(5 / 2 : ℚ)⌋ : ℚ) ^ 2 ≤ (5 / 2) ^ 2 := by
  have : ⌊(5 / 2 : ℚ)⌋ = 2 := by rw [Int.floor_eq_iff]; norm_num
  rw [this]; norm_num

end Litl
