import Verif.Lemmas.Arithmetic
import Verif.Model.BallMachine
import Verif.Props.Ball

/-!
# C122: bounding box of balls
-/

namespace Litl

open Spec
open Container (ok_bind)

/-- The box of given bounds is the smallest one which contains all the positions of a set: each box which contains them contains the
box. -/
def Spec.IsBoundingBox (positions : List Int → Prop) (front back : List Int) : Prop :=
  (∀ p, positions p → InBox front back p) ∧
    ∀ front' back', (∀ p, positions p → InBox front' back' p) → ∀ q, InBox front back q → InBox front' back' q

/-- The full property: the bounding box of a ball is the smallest box which contains its positions, and the shape is that of the
box, for any radius which is not negative and whatever the dimension. -/
def C122_Statement : Prop :=
  ∀ (P : Nat) (r : ℚ) (center : Position) (isVariable : Bool), P ≠ 0 → 0 ≤ r → center ≠ [] → (∀ c ∈ center, IsI64 c) →
    ∃ b, (MachineBall.mk (.finite r) center).box = .ok b ∧ IsBoundingBox (InBall P r center) b.front b.back ∧
      ∀ res, (MachineBall.mk (.finite r) center).Shapes isVariable res ↔ res = .ok b.shape

/-! ## Exact arithmetic -/

theorem distancePow_self {P : Nat} (hP : P ≠ 0) (c : List Int) : distancePow P c c = 0 := by
  induction c with
  | nil => simp [distancePow]
  | cons x c ih => rw [distancePow_cons, ih]; simp [hP]

theorem distancePow_set {P : Nat} (hP : P ≠ 0) : ∀ (c : List Int) (i : Nat) (hi : i < c.length) (v : Int),
    distancePow P (c.set i v) c = |(v : ℚ) - c[i]| ^ P
  | x :: c, 0, _, v => by
    rw [List.set_cons_zero, distancePow_cons, distancePow_self hP]
    simp
  | x :: c, i + 1, hi, v => by
    rw [List.set_cons_succ, distancePow_cons, distancePow_set hP c i (by simpa using hi)]
    simp [hP]

theorem forall₂_iff_getElem {R : Int → Int → Prop} : ∀ {a b : List Int}, List.Forall₂ R a b ↔
    a.length = b.length ∧ ∀ (i : Nat) (h : i < a.length) (h' : i < b.length), R a[i] b[i]
  | [], [] => by simp
  | [], _ :: _ => by simp
  | _ :: _, [] => by simp
  | x :: a, y :: b => by
    rw [List.forall₂_cons, forall₂_iff_getElem]
    constructor
    · rintro ⟨h1, h2, h3⟩
      refine ⟨by simp [h2], fun i h h' => ?_⟩
      cases i with
      | zero => exact h1
      | succ i => exact h3 i (by simpa using h) (by simpa using h')
    · rintro ⟨h1, h2⟩
      refine ⟨h2 0 (by simp) (by simp), by simpa using h1, fun i h h' => ?_⟩
      exact h2 (i + 1) (by simpa using h) (by simpa using h')

/-- **C122**, in exact arithmetic: the box of radius `⌊r⌋` is the smallest one. -/
theorem C122_smallest {P : Nat} (hP : P ≠ 0) {r : ℚ} (hr : 0 ≤ r) (center : Position) :
    IsBoundingBox (InBall P r center) (center.subScalar ⌊r⌋) (center.addScalar ⌊r⌋) := by
  refine ⟨fun p hp => inBox_of_inBall hP hr hp, fun front' back' h q hq => ?_⟩
  have hf : (0 : Int) ≤ ⌊r⌋ := Int.floor_nonneg.2 hr
  have hfr : (⌊r⌋ : ℚ) ≤ r := Int.floor_le r
  have hball : ∀ (i : Nat) (hi : i < center.length) (v : Int), |v - center[i]| ≤ ⌊r⌋ → InBall P r center (center.set i v) := by
    intro i hi v hv
    refine ⟨by simp, ?_⟩
    rw [distancePow_set hP center i hi]
    refine pow_le_pow_left₀ (abs_nonneg _) (le_trans ?_ hfr) P
    exact_mod_cast hv
  have hc := h center ⟨rfl, by rw [distancePow_self hP]; positivity⟩
  unfold InBox at hc hq ⊢
  rw [forall₂_iff_getElem, forall₂_iff_getElem] at hc hq ⊢
  simp only [Position.subScalar, Position.addScalar, List.length_map, List.getElem_map] at hq
  refine ⟨⟨hc.1.1.trans hq.1.1, fun i h1 h2 => ?_⟩, ⟨hq.2.1.trans hc.2.1, fun i h1 h2 => ?_⟩⟩
  · have hi : i < center.length := by omega
    have := (h _ (hball i hi (center[i] - ⌊r⌋) (by rw [sub_sub_cancel_left, abs_neg, abs_of_nonneg hf]))).1
    rw [forall₂_iff_getElem] at this
    have := this.2 i h1 (by simpa using hi)
    rw [List.getElem_set_self] at this
    exact this.trans (hq.1.2 i hi h2)
  · have hi : i < center.length := by omega
    have := (h _ (hball i hi (center[i] + ⌊r⌋) (by rw [add_sub_cancel_left, abs_of_nonneg hf]))).2
    rw [forall₂_iff_getElem] at this
    have := this.2 i (by simpa using hi) h2
    rw [List.getElem_set_self] at this
    exact (hq.2.2 i h1 hi).trans this

/-! ## Machine numbers -/

theorem mapM_ck (f : Int → Int) (l : List Int) : (l.mapM fun c => Checked.ck (f c)) =
    if ∀ c ∈ l, IsI64 (f c) then .ok (l.map f) else .error .ub := by
  induction l with
  | nil => simp; rfl
  | cons c l ih =>
    rw [List.mapM_cons, ih]
    unfold Checked.ck
    by_cases h1 : IsI64 (f c)
    · rw [if_pos h1, ok_bind]
      by_cases h2 : ∀ c ∈ l, IsI64 (f c)
      · rw [if_pos h2, if_pos (by simpa [h1] using h2)]; rfl
      · rw [if_neg h2, if_neg (by simpa [h1] using h2)]; rfl
    · have h2 : ¬ ∀ c' ∈ c :: l, IsI64 (f c') := fun h => h1 (h c (by simp))
      rw [if_neg h1, if_neg h2]; rfl

/-- **C122**, exactly: the box can be computed if, and only if, the radius is a number and all the coordinates of the bounds are values
of type `Index`; otherwise, the behaviour is undefined. -/
theorem C122_box {radius : Double} {center : Position} (hc : center ≠ []) : (MachineBall.mk radius center).box =
    match radius with
    | .finite r => if ∀ c ∈ center, IsI64 (c - truncRat r) ∧ IsI64 (c + truncRat r) then
        .ok ⟨center.subScalar (truncRat r), center.addScalar (truncRat r)⟩ else .error .ub
    | _ => .error .ub := by
  unfold MachineBall.box Double.toIndex
  cases radius with
  | nan => rfl
  | inf n => rfl
  | finite r =>
    dsimp only
    generalize truncRat r = t
    by_cases h : ∀ c ∈ center, IsI64 (c - t) ∧ IsI64 (c + t)
    · have ht : IsI64 t := by
        obtain ⟨c, hc⟩ := List.exists_mem_of_ne_nil center hc
        have := h c hc
        unfold IsI64 at *
        omega
      rw [if_pos h, Checked.ck, if_pos ht, ok_bind, mapM_ck (fun c => c - t), if_pos fun c hc => (h c hc).1, ok_bind,
        mapM_ck (fun c => c + t), if_pos fun c hc => (h c hc).2]
      rfl
    · rw [if_neg h, Checked.ck]
      split
      · rw [ok_bind, mapM_ck (fun c => c - t), mapM_ck (fun c => c + t)]
        by_cases h1 : ∀ c ∈ center, IsI64 (c - t)
        · rw [if_pos h1, ok_bind, if_neg fun h2 => h fun c hc => ⟨h1 c hc, h2 c hc⟩]; rfl
        · rw [if_neg h1]; rfl
      · rfl

/-- **C122**, exactly: the length can be computed if, and only if, the radius is a number whose integral part is in [-2^62, 2^62);
otherwise, the behaviour is undefined. -/
theorem C122_length (radius : Double) (center : Position) : (MachineBall.mk radius center).length =
    match radius with
    | .finite r => if -2 ^ 62 ≤ truncRat r ∧ truncRat r < 2 ^ 62 then .ok (2 * truncRat r + 1) else .error .ub
    | _ => .error .ub := by
  unfold MachineBall.length Double.toIndex
  cases radius with
  | nan => rfl
  | inf n => rfl
  | finite r =>
    dsimp only
    generalize truncRat r = t
    unfold Checked.ck
    by_cases h : -2 ^ 62 ≤ t ∧ t < 2 ^ 62
    · rw [if_pos h, if_pos (by unfold IsI64; omega), ok_bind, if_pos (by unfold IsI64; omega), ok_bind,
        if_pos (by unfold IsI64; omega)]
    · rw [if_neg h]
      split
      · rw [ok_bind, if_neg (by unfold IsI64; omega)]; rfl
      · rfl

/-- **C122**: the shape of balls of variable dimension cannot be computed. -/
theorem C122_variable (b : MachineBall) (s : Position) : ¬ b.Shapes true (.ok s) := by
  unfold MachineBall.Shapes
  rw [if_pos rfl]
  rintro (h | ⟨e, _, h⟩) <;> cases h

/-- **C122**, for fixed dimensions and coordinates which are far enough from the bounds of `Index`.

Missing: the variable dimension (`C122_variable`), and the other coordinates (`C122_box`, `C122_length`). -/
theorem C122_partial {P : Nat} (hP : P ≠ 0) {r : ℚ} (hr : 0 ≤ r) (hr' : ⌊r⌋ < 2 ^ 62) {center : Position} (hc : center ≠ [])
    (hb : ∀ c ∈ center, -2 ^ 63 + ⌊r⌋ ≤ c ∧ c < 2 ^ 63 - ⌊r⌋) :
    ∃ b, (MachineBall.mk (.finite r) center).box = .ok b ∧ IsBoundingBox (InBall P r center) b.front b.back ∧
      ∀ res, (MachineBall.mk (.finite r) center).Shapes false res ↔ res = .ok b.shape := by
  have hf : (0 : Int) ≤ ⌊r⌋ := Int.floor_nonneg.2 hr
  have hs : ∀ c ∈ center, IsI64 (c - truncRat r) ∧ IsI64 (c + truncRat r) := by
    intro c hc
    have := hb c hc
    rw [truncRat_of_nonneg hr]
    unfold IsI64
    omega
  refine ⟨⟨center.subScalar ⌊r⌋, center.addScalar ⌊r⌋⟩, ?_, C122_smallest hP hr center, fun res => ?_⟩
  · rw [C122_box hc]
    dsimp only
    rw [if_pos hs, truncRat_of_nonneg hr]
  · have e := (C18_shape ⟨r, center⟩ hr)
    have e1 : (⟨center.subScalar ⌊r⌋, center.addScalar ⌊r⌋⟩ : Box).shape = List.replicate center.length (2 * ⌊r⌋ + 1) := by
      have : (⟨center.subScalar ⌊r⌋, center.addScalar ⌊r⌋⟩ : Box) = (⟨r, center⟩ : Ball).box := by
        rw [Ball.box, truncRat_of_nonneg hr]; rfl
      rw [this, ← e.1, e.2.2, e.2.1]
    unfold MachineBall.Shapes
    rw [if_neg (by simp), C122_length, e1]
    dsimp only
    rw [truncRat_of_nonneg hr, if_pos (by omega)]
    rfl

/-- **C122**, for negative radii, for which balls are empty: boxes are empty if the radius is -1 or less, but contain the center
otherwise. -/
theorem C122_negative {r : ℚ} (hr : r < 0) {center : Position} (hc : center ≠ []) {b : Box}
    (hb : (MachineBall.mk (.finite r) center).box = .ok b) (p : Position) :
    InBox b.front b.back p ↔ -1 < r ∧ p = center := by
  rw [C122_box hc] at hb
  dsimp only at hb
  split at hb
  · obtain rfl := Except.ok.inj hb
    dsimp only
    have ht : truncRat r = -⌊-r⌋ := by simp [truncRat, hr]
    have h0 : 0 ≤ ⌊-r⌋ := Int.floor_nonneg.2 (by linarith)
    have h1 : -1 < r ↔ ⌊-r⌋ = 0 := by
      rw [Int.floor_eq_zero_iff]
      constructor
      · intro h; exact ⟨by linarith, by linarith⟩
      · rintro ⟨_, h⟩; linarith
    rw [h1, ht]
    generalize ⌊-r⌋ = t at *
    unfold InBox
    rw [forall₂_iff_getElem, forall₂_iff_getElem]
    simp only [Position.subScalar, Position.addScalar, List.length_map, List.getElem_map]
    constructor
    · rintro ⟨⟨e, f⟩, ⟨_, g⟩⟩
      have hl : 0 < center.length := List.length_pos_of_ne_nil hc
      have f0 := f 0 hl (by omega)
      have g0 := g 0 (by omega) hl
      have t0 : t = 0 := by omega
      refine ⟨t0, List.ext_getElem e.symm fun i h1 h2 => ?_⟩
      have := f i h2 h1
      have := g i h1 h2
      omega
    · rintro ⟨rfl, rfl⟩
      exact ⟨⟨rfl, fun i _ _ => by omega⟩, ⟨rfl, fun i _ _ => by omega⟩⟩
  · cases hb

theorem C122_violated : ¬ C122_Statement := by
  intro h
  obtain ⟨b, _, _, h3⟩ := h 1 1 [0] true one_ne_zero (by norm_num) (by simp) (by simp [IsI64])
  exact C122_variable _ _ ((h3 _).2 rfl)

/-- The property does not hold for the fixed dimensions, either: the back coordinate overflows. -/
theorem C122_violated_overflow : ¬ ∀ (P : Nat) (r : ℚ) (center : Position), P ≠ 0 → 0 ≤ r → center ≠ [] → (∀ c ∈ center, IsI64 c) →
    ∃ b, (MachineBall.mk (.finite r) center).box = .ok b := by
  intro h
  obtain ⟨b, hb⟩ := h 1 1 [2 ^ 63 - 1] one_ne_zero (by norm_num) (by simp) (by simp [IsI64])
  rw [C122_box (by simp)] at hb
  dsimp only at hb
  rw [if_neg] at hb
  · cases hb
  · have : truncRat 1 = 1 := by rw [truncRat_of_nonneg (by norm_num)]; simp
    rw [this]
    simp [IsI64]

/-- Concrete cases: the disk of radius 5/2 around (7, -1), and radii -1/2, -3 and NaN. -/
example : ∃ b, (MachineBall.mk (.finite (5 / 2)) [7, -1]).box = .ok b ∧ IsBoundingBox (InBall 2 (5 / 2) [7, -1]) b.front b.back ∧
    ∀ res, (MachineBall.mk (.finite (5 / 2)) [7, -1]).Shapes false res ↔ res = .ok b.shape := by
  have : ⌊(5 / 2 : ℚ)⌋ = 2 := by rw [Int.floor_eq_iff]; norm_num
  exact C122_partial two_ne_zero (by norm_num) (by rw [this]; norm_num) (by simp) (by rw [this]; simp)

example : (MachineBall.mk .nan [7, -1]).box = .error .ub := by rw [C122_box (by simp)]

example : (MachineBall.mk (.finite (-1 / 2)) [7, -1]).box = .ok ⟨[7, -1], [7, -1]⟩ ∧
    (MachineBall.mk (.finite (-3)) [7, -1]).box = .ok ⟨[10, 2], [4, -4]⟩ := by
  have h1 : truncRat (-1 / 2) = 0 := by
    have : ⌊(1 / 2 : ℚ)⌋ = 0 := by rw [Int.floor_eq_iff]; norm_num
    norm_num [truncRat, this]
  have h3 : truncRat (-3) = -3 := by norm_num [truncRat]
  constructor
  · rw [C122_box (by simp)]; dsimp only; rw [h1]; simp [IsI64, Position.addScalar, Position.subScalar]
  · rw [C122_box (by simp)]; dsimp only; rw [h3]; simp [IsI64, Position.addScalar, Position.subScalar]

end Litl
