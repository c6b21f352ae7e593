import Verif.Model.BallRounding
import Verif.Lemmas.Rounding
import Verif.Lemmas.InterpolationRounding
import Verif.Props.Regions

/-!
# Iterating over balls in floating point arithmetic (C96)
-/

namespace Litl

open Spec

namespace BallIterator

variable {R : Rounding ℚ} {pow : ℚ → ℚ}

theorem loopTrace_filterFl {b : Ball} {c : Position} {l : List Position}
    (h : LoopTrace (BoxIterator.next b.box) (BoxIterator.endPosition b.box) c l) :
    ∃ d, SettleFl R pow b c d ∧ LoopFl R pow b d (l.filter fun p => ¬ SkippedFl R pow b p) := by
  induction h with
  | done => exact ⟨_, SettleFl.done (Or.inl rfl), by simpa using LoopFl.done⟩
  | @next c l hne _ ih =>
    obtain ⟨d, h1, h2⟩ := ih
    by_cases hs : SkippedFl R pow b c
    · exact ⟨d, SettleFl.next hne hs h1, by simpa [hs] using h2⟩
    · refine ⟨c, SettleFl.done (Or.inr hs), ?_⟩
      simp only [hs, not_false_eq_true, decide_true, List.filter_cons_of_pos]
      exact LoopFl.next hne h1 h2

theorem SettleFl.unique {b : Ball} {c d d' : Position} (h : SettleFl R pow b c d) (h' : SettleFl R pow b c d') :
    d = d' := by
  induction h with
  | done hs =>
    cases h' with
    | done => rfl
    | next h1 h2 _ => exact absurd hs (by simp [h1, h2])
  | next h1 h2 _ ih =>
    cases h' with
    | done hs => exact absurd hs (by simp [h1, h2])
    | next _ _ h3 => exact ih h3

theorem LoopFl.unique {b : Ball} {c : Position} {l l' : List Position} (h : LoopFl R pow b c l)
    (h' : LoopFl R pow b c l') : l = l' := by
  induction h generalizing l' with
  | done =>
    cases h' with
    | done => rfl
    | next h1 _ _ => exact absurd rfl h1
  | next h1 h2 _ ih =>
    cases h' with
    | done => exact absurd rfl h1
    | next _ h3 h4 =>
      rw [← h2.unique h3] at h4
      rw [ih h4]

end BallIterator

/-- What is required of `std::pow(x, P)` for `x >= 0`: the result is a number, on the right side of each other number, i.e. one
of the two numbers around the exact power. This is weaker than correct rounding (`faithful_of_rounded`). -/
def Spec.FaithfulPow (p : Nat) (emin : Int) (P : Nat) (pow : ℚ → ℚ) : Prop :=
  ∀ x, 0 ≤ x → Binary.fl p emin x = x → Binary.fl p emin (pow x) = pow x ∧
    ∀ y, Binary.fl p emin y = y → (y ≤ x ^ P → y ≤ pow x) ∧ (x ^ P ≤ y → pow x ≤ y)

section

variable {p : Nat} {hp : 1 ≤ p} {emin : Int} {P : Nat} {pow : ℚ → ℚ}

theorem faithful_of_rounded (hp : 1 ≤ p) (emin : Int) (P : Nat) : FaithfulPow p emin P fun x => Binary.fl p emin (x ^ P) := by
  intro x _ _
  refine ⟨Binary.fl_idem hp emin _, fun y hy => ⟨fun h => ?_, fun h => ?_⟩⟩
  · rw [← hy]
    exact Binary.fl_mono hp emin h
  · rw [← hy]
    exact Binary.fl_mono hp emin h

theorem FaithfulPow.exact (h : FaithfulPow p emin P pow) {x : ℚ} (h0 : 0 ≤ x) (hx : Binary.fl p emin x = x)
    (hxP : Binary.fl p emin (x ^ P) = x ^ P) : pow x = x ^ P := by
  obtain ⟨_, h2⟩ := h x h0 hx
  exact le_antisymm ((h2 _ hxP).2 le_rfl) ((h2 _ hxP).1 le_rfl)

theorem Binary.fl_intCast_le (hp : 1 ≤ p) (he : emin ≤ 0) {n : Int} (h : |n| ≤ 2 ^ p) : Binary.fl p emin n = n := by
  rcases h.lt_or_eq with h | h
  · exact Binary.fl_intCast he h
  · have hpow : Binary.fl p emin (2 ^ p) = 2 ^ p := by
      have := Binary.fl_mul_pow (p := p) (emin := emin) (e := p) (by omega) (n := 1) (by
        rw [abs_one]
        exact one_lt_pow₀ (by norm_num) (by omega))
      simpa using this
    rcases abs_eq (by positivity) |>.1 h with h | h
    · rw [h]
      push_cast
      exact hpow
    · rw [h]
      push_cast
      rw [Binary.fl_neg, hpow]

/-- The power of a distance is an integer. -/
theorem distancePow_int (P : Nat) (x c : Position) : ∃ n : Nat, distancePow P x c = n := by
  induction x generalizing c with
  | nil => exact ⟨0, by simp [distancePow]⟩
  | cons a x ih =>
    cases c with
    | nil => exact ⟨0, by simp [distancePow]⟩
    | cons b c =>
      obtain ⟨n, hn⟩ := ih c
      refine ⟨(a - b).natAbs ^ P + n, ?_⟩
      rw [distancePow_cons, hn]
      push_cast
      rw [Nat.cast_natAbs]
      push_cast
      rfl

/-- Sums are exact as long as they are small enough. -/
theorem distance_foldlFl (hp : 1 ≤ p) (hP : P ≠ 0) (he : emin ≤ 0) (hpow : FaithfulPow p emin P pow) :
    ∀ (x c : Position) (m : Nat), (∀ a ∈ x, |a| ≤ 2 ^ p) → (∀ a ∈ c, |a| ≤ 2 ^ p) →
      (m : ℚ) + distancePow P x c ≤ 2 ^ p →
      (List.zip x c).foldl (fun acc ab => Binary.fl p emin (acc + pow |Binary.fl p emin (Binary.fl p emin ab.2 -
        Binary.fl p emin ab.1)|)) (m : ℚ) = m + distancePow P x c := by
  intro x
  induction x with
  | nil => intro c m _ _ _; simp [distancePow]
  | cons a x ih =>
    intro c m hx hc hm
    cases c with
    | nil => simp [distancePow]
    | cons b c =>
      have hd0 := distancePow_nonneg P x c
      rw [distancePow_cons] at hm ⊢
      have hm0 : (0 : ℚ) ≤ m := Nat.cast_nonneg m
      have hk : |(a : ℚ) - b| = ((a - b).natAbs : Nat) := by
        rw [Nat.cast_natAbs]
        push_cast
        rfl
      rw [hk] at hm ⊢
      set k := (a - b).natAbs with hkdef
      have hkP : k ^ P ≤ 2 ^ p := by
        have : ((k ^ P : Nat) : ℚ) ≤ ((2 ^ p : Nat) : ℚ) := by push_cast; linarith
        exact_mod_cast this
      have hk1 : k ≤ 2 ^ p := (Nat.le_self_pow hP k).trans hkP
      have hnat : ∀ n : Nat, n ≤ 2 ^ p → Binary.fl p emin n = n := by
        intro n hn
        have := Binary.fl_intCast_le (p := p) hp he (n := n) (by
          rw [abs_of_nonneg (by positivity)]
          exact_mod_cast hn)
        exact_mod_cast this
      have hdiff : |Binary.fl p emin ((b : ℚ) - (a : ℚ))| = k := by
        have hint : |b - a| ≤ 2 ^ p := by
          rw [← Int.natCast_natAbs, ← Int.natAbs_neg, neg_sub]
          exact_mod_cast hk1
        have := Binary.fl_intCast_le (p := p) hp he hint
        push_cast at this
        rw [this, abs_sub_comm, hk]
      have hpk : pow (k : ℚ) = (k : ℚ) ^ P := by
        refine FaithfulPow.exact hpow (Nat.cast_nonneg k) (hnat k hk1) ?_
        have := hnat (k ^ P) hkP
        exact_mod_cast this
      have hsum : Binary.fl p emin ((m : ℚ) + (k : ℚ) ^ P) = ((m + k ^ P : Nat) : ℚ) := by
        have := hnat (m + k ^ P) (by
          have : ((m + k ^ P : Nat) : ℚ) ≤ ((2 ^ p : Nat) : ℚ) := by push_cast; linarith
          exact_mod_cast this)
        rw [← this]
        push_cast
        rfl
      rw [List.zip_cons_cons, List.foldl_cons]
      dsimp only
      rw [Binary.fl_intCast_le hp he (hx a (by simp)), Binary.fl_intCast_le hp he (hc b (by simp)), hdiff, hpk, hsum,
        ih c (m + k ^ P) (fun a ha => hx a (List.mem_cons_of_mem _ ha)) (fun a ha => hc a (List.mem_cons_of_mem _ ha))
          (by push_cast; linarith)]
      push_cast
      ring

theorem distance_le_box {k : Nat} (P : Nat) : ∀ {c x : Position}, InBox (c.subScalar k) (c.addScalar k) x →
    distancePow P x c ≤ c.length * (k : ℚ) ^ P := by
  intro c
  induction c with
  | nil =>
    intro x _
    simp [distancePow]
  | cons b c ih =>
    intro x h
    simp only [InBox, Position.subScalar, Position.addScalar, List.map_cons] at h
    obtain ⟨h1, h2⟩ := h
    cases h1 with
    | cons h3 h4 =>
      cases h2 with
      | cons h5 h6 =>
        rw [distancePow_cons, List.length_cons]
        have := ih (x := _) ⟨h4, h6⟩
        push_cast
        rename_i a _
        have habs : |(a : ℚ) - b| ≤ k := by
          rw [abs_le]
          have h3' : (b : ℚ) - k ≤ a := by exact_mod_cast h3
          have h5' : (a : ℚ) ≤ b + k := by exact_mod_cast h5
          constructor <;> linarith
        have := pow_le_pow_left₀ (abs_nonneg _) habs P
        linarith

theorem abs_le_of_inBox {k m : Int} : ∀ {c x : Position}, InBox (c.subScalar k) (c.addScalar k) x → (∀ a ∈ c, |a| + k ≤ m) →
    ∀ a ∈ x, |a| ≤ m := by
  intro c
  induction c with
  | nil =>
    intro x h _ a ha
    cases h.1
    cases ha
  | cons b c ih =>
    intro x h hm a ha
    simp only [InBox, Position.subScalar, Position.addScalar, List.map_cons] at h
    obtain ⟨h1, h2⟩ := h
    cases h1 with
    | cons h3 h4 =>
      cases h2 with
      | cons h5 h6 =>
        rcases List.mem_cons.1 ha with rfl | ha
        · have := hm b (by simp)
          rw [abs_le]
          have := abs_le.1 (le_sub_iff_add_le.2 this)
          constructor <;> omega
        · exact ih ⟨h4, h6⟩ (fun a ha => hm a (List.mem_cons_of_mem _ ha)) a ha

/-- **C96**: which positions are visited, if their distances are representable: those of which the power of the distance does not
exceed the computed power of the radius. -/
theorem C96_exact (hP : P ≠ 0) (he : emin ≤ 0) (hpow : FaithfulPow p emin P pow) (b : Ball) (hr : 0 ≤ b.radius)
    (hc : b.center ≠ []) (hcenter : ∀ a ∈ b.center, |a| + ⌊b.radius⌋ ≤ 2 ^ p)
    (hsize : b.center.length * ⌊b.radius⌋ ^ P ≤ 2 ^ p) :
    ∃ l, BallIterator.VisitsFl (Binary.rounding p hp emin) pow b l ∧
      (∀ x, x ∈ l ↔ InBox (b.center.subScalar ⌊b.radius⌋) (b.center.addScalar ⌊b.radius⌋) x ∧
        distancePow P x b.center ≤ pow b.radius) ∧ l.Nodup ∧ l.Pairwise StorageLt := by
  have hf : 0 ≤ ⌊b.radius⌋ := Int.floor_nonneg.2 hr
  have hbox : b.box = ⟨b.center.subScalar ⌊b.radius⌋, b.center.addScalar ⌊b.radius⌋⟩ := by
    rw [Ball.box, truncRat_of_nonneg hr]; rfl
  have hne : b.box.front ≠ [] := by rw [hbox]; simpa [Position.subScalar] using hc
  obtain ⟨l, h1, h2, h3, h4, -⟩ := C04_box_iteration b.box hne
    ⟨_, BoxIterator.le_refl_forall₂ _, by rw [hbox]; exact box_front_le_back hf _⟩
  obtain ⟨d, h5, h6⟩ := BallIterator.loopTrace_filterFl (R := Binary.rounding p hp emin) (pow := pow) h1
  refine ⟨_, ⟨d, h5, h6⟩, ?_, h3.filter _, h4.filter _⟩
  intro x
  rw [List.mem_filter, h2, hbox]
  refine and_congr_right fun hb => ?_
  have hdist : BallIterator.distanceFl (Binary.rounding p hp emin) pow b.center x = distancePow P x b.center := by
    obtain ⟨k, hk⟩ := Int.eq_ofNat_of_zero_le hf
    dsimp only at hb
    rw [hk] at hb hsize hcenter
    have hle := distance_le_box P hb
    have := distance_foldlFl hp hP he hpow x b.center 0 (abs_le_of_inBox hb hcenter)
      (fun a ha => by have := hcenter a ha; omega) (by
        have : ((b.center.length * (k : Int) ^ P : Int) : ℚ) ≤ ((2 ^ p : Int) : ℚ) := by exact_mod_cast hsize
        push_cast at this ⊢
        linarith)
    rw [Nat.cast_zero, zero_add] at this
    exact this
  simp only [BallIterator.SkippedFl, hdist, gt_iff_lt, not_lt, decide_eq_true_eq]

/-- **C96**: the loop is deterministic. -/
theorem C96_unique {R : Rounding ℚ} {b : Ball} {l l' : List Position} (h : BallIterator.VisitsFl R pow b l)
    (h' : BallIterator.VisitsFl R pow b l') : l = l' := by
  obtain ⟨c, h1, h2⟩ := h
  obtain ⟨c', h3, h4⟩ := h'
  rw [← h1.unique h3] at h4
  exact h2.unique h4

/-- Distances are numbers. -/
theorem distance_number (hp : 1 ≤ p) (he : emin ≤ 0) {r : ℚ} (hr : 0 ≤ r) {c x : Position}
    (hb : InBox (c.subScalar ⌊r⌋) (c.addScalar ⌊r⌋) x) (hsize : c.length * ⌊r⌋ ^ P ≤ 2 ^ p) :
    Binary.fl p emin (distancePow P x c) = distancePow P x c := by
  obtain ⟨n, hn⟩ := distancePow_int P x c
  obtain ⟨k, hk⟩ := Int.eq_ofNat_of_zero_le (Int.floor_nonneg.2 hr)
  rw [hk] at hb hsize
  have hle := distance_le_box P hb
  rw [hn] at hle ⊢
  have h2 : (n : Int) ≤ 2 ^ p := by
    have : ((n : Int) : ℚ) ≤ ((c.length * (k : Int) ^ P : Int) : ℚ) := by push_cast; exact_mod_cast hle
    have : (n : Int) ≤ c.length * (k : Int) ^ P := by exact_mod_cast this
    exact this.trans hsize
  have := Binary.fl_intCast_le (p := p) hp he (n := n) (by rw [abs_of_nonneg (by positivity)]; exact h2)
  exact_mod_cast this

/-- **C96**: every position of the ball is visited. -/
theorem C96_contains (hP : P ≠ 0) (he : emin ≤ 0) (hpow : FaithfulPow p emin P pow) (b : Ball) (hr : 0 ≤ b.radius)
    (hrn : Binary.fl p emin b.radius = b.radius) (hc : b.center ≠ []) (hcenter : ∀ a ∈ b.center, |a| + ⌊b.radius⌋ ≤ 2 ^ p)
    (hsize : b.center.length * ⌊b.radius⌋ ^ P ≤ 2 ^ p) :
    ∃ l, BallIterator.VisitsFl (Binary.rounding p hp emin) pow b l ∧ ∀ x, InBall P b.radius b.center x → x ∈ l := by
  obtain ⟨l, h1, h2, -⟩ := C96_exact (hp := hp) hP he hpow b hr hc hcenter hsize
  refine ⟨l, h1, fun x hx => ?_⟩
  have hb := inBox_of_inBall hP hr hx
  rw [h2]
  refine ⟨hb, ?_⟩
  obtain ⟨n, hn⟩ := distancePow_int P x b.center
  have hnum := distance_number hp he hr hb hsize
  exact ((hpow b.radius hr hrn).2 _ hnum).1 hx.2

/-- **C96**: the positions which are not in the ball but are visited are those which are at the distance of the number next to
the power of the radius, if any. -/
theorem C96_only (hP : P ≠ 0) (he : emin ≤ 0) (hpow : FaithfulPow p emin P pow) (b : Ball) (hr : 0 ≤ b.radius)
    (hrn : Binary.fl p emin b.radius = b.radius) (hc : b.center ≠ []) (hcenter : ∀ a ∈ b.center, |a| + ⌊b.radius⌋ ≤ 2 ^ p)
    (hsize : b.center.length * ⌊b.radius⌋ ^ P ≤ 2 ^ p) {l : List Position}
    (h : BallIterator.VisitsFl (Binary.rounding p hp emin) pow b l) {x : Position} (hx : x ∈ l)
    (hx' : ¬ InBall P b.radius b.center x) :
    distancePow P x b.center = pow b.radius ∧ b.radius ^ P < distancePow P x b.center ∧
      ∀ y, Binary.fl p emin y = y → b.radius ^ P < y → distancePow P x b.center ≤ y := by
  obtain ⟨l', h1, h2, -⟩ := C96_exact (hp := hp) hP he hpow b hr hc hcenter hsize
  rw [C96_unique h h1, h2] at hx
  obtain ⟨hb, hd⟩ := hx
  have hlt : b.radius ^ P < distancePow P x b.center := by
    by_contra hcon
    refine hx' ⟨?_, not_lt.1 hcon⟩
    have := hb.1.length_eq
    simpa [Position.subScalar] using this.symm
  have hf := (hpow b.radius hr hrn).2
  have heq := le_antisymm hd ((hf _ (distance_number hp he hr hb hsize)).2 hlt.le)
  refine ⟨heq, hlt, fun y hy hlt' => ?_⟩
  rw [heq]
  exact (hf y hy).2 hlt'.le

/-- The visited positions are those of the ball, if the power of the radius is a number: e.g. if the radius is an integer.
Missing: the other radii, see `C96_contains`, `C96_only` and `C96_violated`. -/
theorem C96_partial (hP : P ≠ 0) (he : emin ≤ 0) (hpow : FaithfulPow p emin P pow) (b : Ball) (hr : 0 ≤ b.radius)
    (hrn : Binary.fl p emin b.radius = b.radius) (hrP : Binary.fl p emin (b.radius ^ P) = b.radius ^ P) (hc : b.center ≠ [])
    (hcenter : ∀ a ∈ b.center, |a| + ⌊b.radius⌋ ≤ 2 ^ p) (hsize : b.center.length * ⌊b.radius⌋ ^ P ≤ 2 ^ p) :
    ∃ l, BallIterator.VisitsFl (Binary.rounding p hp emin) pow b l ∧ (∀ x, x ∈ l ↔ InBall P b.radius b.center x) ∧
      BallIterator.Visits P b l := by
  obtain ⟨l, h1, h2, h3, h4⟩ := C96_exact (hp := hp) hP he hpow b hr hc hcenter hsize
  obtain ⟨l', h1', h2', h3', h4'⟩ := C17_ball_iteration P hP b hr hc
  have hmem : ∀ x, x ∈ l ↔ InBall P b.radius b.center x := by
    intro x
    rw [h2, FaithfulPow.exact hpow hr hrn hrP]
    constructor
    · rintro ⟨hb, hd⟩
      refine ⟨?_, hd⟩
      have := hb.1.length_eq
      simpa [Position.subScalar] using this.symm
    · intro h
      exact ⟨inBox_of_inBall hP hr h, h.2⟩
  refine ⟨l, h1, hmem, ?_⟩
  have hperm : l.Perm l' := (List.perm_ext_iff_of_nodup h3 h3').2 fun x => (hmem x).trans (h2' x).symm
  rw [hperm.eq_of_pairwise (fun _ _ _ _ h h' => absurd h' (StorageLt.asymm h)) h4 h4']
  exact h1'

/-- **C96** for a radius which is the square root of an integer `n`, correctly rounded: each position at a distance below is
visited, and no position at a distance above; those at a distance of the root may be (`C96_violated`) or not
(`C96_sqrt_violated`). -/
theorem C96_sqrt (he : emin ≤ -1) (hpow : FaithfulPow p emin 2 pow) (b : Ball) (hr : 0 ≤ b.radius) (n : Nat) (hn : n + 1 ≤ 2 ^ (p - 3))
    (h3 : 3 ≤ p) (hlow : n * (1 - 1 / 2 ^ p) ^ 2 ≤ b.radius ^ 2) (hup : b.radius ^ 2 ≤ n * (1 + 1 / 2 ^ p) ^ 2)
    (hrn : Binary.fl p emin b.radius = b.radius) (hc : b.center ≠ []) (hcenter : ∀ a ∈ b.center, |a| + ⌊b.radius⌋ ≤ 2 ^ p)
    (hsize : b.center.length * ⌊b.radius⌋ ^ 2 ≤ 2 ^ p) {l : List Position}
    (h : BallIterator.VisitsFl (Binary.rounding p hp emin) pow b l) (x : Position) (hx : x.length = b.center.length) :
    (distancePow 2 x b.center < n → x ∈ l) ∧ (n < distancePow 2 x b.center → x ∉ l) := by
  obtain ⟨m, hm⟩ := distancePow_int 2 x b.center
  have hnq : (n : ℚ) + 1 ≤ 2 ^ (p - 3) := by exact_mod_cast hn
  have hpq : (2 : ℚ) ^ p = 8 * 2 ^ (p - 3) := by
    rw [show (8 : ℚ) = 2 ^ 3 by norm_num, ← pow_add]
    congr 1
    omega
  have hu : (n : ℚ) * (1 / 2 ^ p) < 1 / 8 := by
    rw [hpq, mul_one_div, div_lt_div_iff₀ (by positivity) (by norm_num)]
    linarith
  have hu1 : (1 : ℚ) / 2 ^ p ≤ 1 / 8 := by
    rw [hpq]
    refine one_div_le_one_div_of_le (by norm_num) ?_
    have : (1 : ℚ) ≤ 2 ^ (p - 3) := one_le_pow₀ (by norm_num)
    linarith
  have hu0 : (0 : ℚ) ≤ 1 / 2 ^ p := by positivity
  have hn0 : (0 : ℚ) ≤ n := Nat.cast_nonneg n
  set u : ℚ := 1 / 2 ^ p with hudef
  constructor
  · intro hlt
    rw [hm] at hlt
    have hlt' : m + 1 ≤ n := by
      have : m < n := by exact_mod_cast hlt
      omega
    have hltq : (m : ℚ) + 1 ≤ n := by exact_mod_cast hlt'
    obtain ⟨l', h1, h4⟩ := C96_contains (hp := hp) (by norm_num) (by omega) hpow b hr hrn hc hcenter hsize
    rw [C96_unique h h1]
    refine h4 x ⟨hx, ?_⟩
    rw [hm]
    nlinarith
  · intro hlt hmem
    rw [hm] at hlt
    have hlt' : n + 1 ≤ m := by
      have : n < m := by exact_mod_cast hlt
      omega
    have hltq : (n : ℚ) + 1 ≤ m := by exact_mod_cast hlt'
    obtain ⟨l', h1, h4, -⟩ := C96_exact (hp := hp) (by norm_num) (by omega) hpow b hr hc hcenter hsize
    rw [C96_unique h h1, h4, hm] at hmem
    have hhalf : Binary.fl p emin ((n : ℚ) + 1 / 2) = n + 1 / 2 := by
      have hlt2 : ((2 * n + 1 : Nat) : Int) < 2 ^ p := by
        have : 2 ^ p = 8 * 2 ^ (p - 3) := by
          rw [show (8 : Nat) = 2 ^ 3 by norm_num, ← pow_add]
          congr 1
          omega
        have : (2 * n + 1 : Nat) < 2 ^ p := by omega
        exact_mod_cast this
      have := Binary.fl_mul_pow (p := p) (emin := emin) (e := -1) he (n := (2 * n + 1 : Nat)) (by
        rw [abs_of_nonneg (by positivity)]
        exact hlt2)
      rw [show (((2 * n + 1 : Nat) : Int) : ℚ) * 2 ^ (-1 : Int) = n + 1 / 2 by push_cast; norm_num; ring] at this
      exact this
    have := ((hpow b.radius hr hrn).2 _ hhalf).2 (by nlinarith)
    linarith [hmem.2]

end

/-! ## Counterexamples and examples -/

/-- `std::pow(x, 2)`, correctly rounded, for `double`s. -/
def Spec.squareFl (x : ℚ) : ℚ := Binary.fl 53 (-1074) (x ^ 2)

local notation "𝔻" => Binary.rounding 53 (by norm_num) (-1074)

theorem squareFl_faithful : FaithfulPow 53 (-1074) 2 squareFl := faithful_of_rounded (by norm_num) _ _

/-- **C96**, in full, for `double` and a power function which is correctly rounded: exactly the positions of the ball are
visited. -/
def C96_Statement : Prop :=
  ∀ (b : Ball) (l : List Position), 0 ≤ b.radius → Binary.fl 53 (-1074) b.radius = b.radius → b.center ≠ [] →
    (∀ a ∈ b.center, |a| + ⌊b.radius⌋ ≤ 2 ^ 53) → b.center.length * ⌊b.radius⌋ ^ 2 ≤ 2 ^ 53 →
    BallIterator.VisitsFl 𝔻 squareFl b l → ∀ x, x ∈ l ↔ InBall 2 b.radius b.center x

/-- **C96** for square roots: a ball of radius `std::sqrt(n)` contains the positions at a squared distance of at most `n`. -/
def C96_sqrt_Statement : Prop :=
  ∀ (b : Ball) (n : Nat) (l : List Position), 0 ≤ b.radius → Binary.fl 53 (-1074) b.radius = b.radius → b.center ≠ [] →
    (∀ a ∈ b.center, |a| + ⌊b.radius⌋ ≤ 2 ^ 53) → b.center.length * ⌊b.radius⌋ ^ 2 ≤ 2 ^ 53 →
    n * (1 - 1 / 2 ^ 53) ^ 2 ≤ b.radius ^ 2 → b.radius ^ 2 ≤ n * (1 + 1 / 2 ^ 53) ^ 2 →
    BallIterator.VisitsFl 𝔻 squareFl b l → ∀ x, x.length = b.center.length → (x ∈ l ↔ distancePow 2 x b.center ≤ n)

/-- The square root of 41, rounded: its square is rounded up to 41. -/
theorem squareFl_root41 {r : ℚ} (hr : r = 28161238212607 / 4398046511104) : squareFl r = 41 ∧ r ^ 2 < 41 ∧ ⌊r⌋ = 6 ∧
    Binary.fl 53 (-1074) r = r := by
  refine ⟨?_, by rw [hr]; norm_num, ?_, ?_⟩
  · unfold squareFl
    rw [Binary.fl_eq (e := -47) (m := 41 * 2 ^ 47) (by norm_num) (by rw [hr]; norm_num) (by rw [hr]; norm_num)
      (by rw [hr]; norm_num [abs_lt])]
    norm_num
  · rw [Int.floor_eq_iff, hr]
    norm_num
  · have := Binary.fl_mul_pow (p := 53) (emin := -1074) (e := -42) (by norm_num) (n := 28161238212607) (by norm_num)
    rw [show ((28161238212607 : Int) : ℚ) * 2 ^ (-42 : Int) = r by rw [hr]; norm_num] at this
    exact this

/-- The square root of 3, rounded: its square is rounded down. -/
theorem squareFl_root3 {r : ℚ} (hr : r = 3900231685776981 / 2251799813685248) : squareFl r < 3 ∧ ⌊r⌋ = 1 ∧
    Binary.fl 53 (-1074) r = r := by
  refine ⟨?_, ?_, ?_⟩
  · unfold squareFl
    rw [Binary.fl_eq (e := -51) (m := 3 * 2 ^ 51 - 1) (by norm_num) (by rw [hr]; norm_num) (by rw [hr]; norm_num)
      (by rw [hr]; norm_num [abs_lt])]
    norm_num
  · rw [Int.floor_eq_iff, hr]
    norm_num
  · have := Binary.fl_mul_pow (p := 53) (emin := -1074) (e := -51) (by norm_num) (n := 3900231685776981) (by norm_num)
    rw [show ((3900231685776981 : Int) : ℚ) * 2 ^ (-51 : Int) = r by rw [hr]; norm_num] at this
    exact this

/-- The ball of radius `std::sqrt(41)` (rounded, below the exact root) contains (4, 5). -/
theorem C96_violated : ¬ C96_Statement := by
  intro h
  obtain ⟨r, hr⟩ : ∃ r : ℚ, r = 28161238212607 / 4398046511104 := ⟨_, rfl⟩
  obtain ⟨h1, h2, h3, h4⟩ := squareFl_root41 hr
  have hr0 : 0 ≤ r := by rw [hr]; norm_num
  have hcen : ∀ a ∈ ([0, 0] : Position), |a| + ⌊r⌋ ≤ 2 ^ 53 := by
    intro a ha
    have : a = 0 := by simpa using ha
    rw [this, h3]
    norm_num
  have hsize : (([0, 0] : Position).length : Int) * ⌊r⌋ ^ 2 ≤ 2 ^ 53 := by
    rw [h3]
    norm_num
  obtain ⟨l, h5, h6, -⟩ := C96_exact (p := 53) (hp := by norm_num) (emin := -1074) (P := 2) (by norm_num) (by norm_num)
    squareFl_faithful ⟨r, [0, 0]⟩ hr0 (by simp) hcen hsize
  have hd : distancePow 2 [4, 5] [0, 0] = 41 := by
    simp only [distancePow]
    norm_num
  have h7 : [4, 5] ∈ l := by
    rw [h6]
    refine ⟨?_, by show distancePow 2 [4, 5] [0, 0] ≤ squareFl r; rw [hd, h1]⟩
    show InBox (Position.subScalar [0, 0] ⌊r⌋) (Position.addScalar [0, 0] ⌊r⌋) [4, 5]
    rw [h3]
    simp [InBox, Position.subScalar, Position.addScalar]
  have h8 := (h ⟨r, [0, 0]⟩ l hr0 h4 (by simp) hcen hsize h5 [4, 5]).1 h7
  have h9 : distancePow 2 [4, 5] [0, 0] ≤ r ^ 2 := h8.2
  rw [hd] at h9
  linarith

/-- The ball of radius `std::sqrt(3)` does not contain (1, 1, 1). -/
theorem C96_sqrt_violated : ¬ C96_sqrt_Statement := by
  intro h
  obtain ⟨r, hr⟩ : ∃ r : ℚ, r = 3900231685776981 / 2251799813685248 := ⟨_, rfl⟩
  obtain ⟨h1, h3, h4⟩ := squareFl_root3 hr
  have hr0 : 0 ≤ r := by rw [hr]; norm_num
  have hcen : ∀ a ∈ ([0, 0, 0] : Position), |a| + ⌊r⌋ ≤ 2 ^ 53 := by
    intro a ha
    have : a = 0 := by simpa using ha
    rw [this, h3]
    norm_num
  have hsize : (([0, 0, 0] : Position).length : Int) * ⌊r⌋ ^ 2 ≤ 2 ^ 53 := by
    rw [h3]
    norm_num
  obtain ⟨l, h5, h6, -⟩ := C96_exact (p := 53) (hp := by norm_num) (emin := -1074) (P := 2) (by norm_num) (by norm_num)
    squareFl_faithful ⟨r, [0, 0, 0]⟩ hr0 (by simp) hcen hsize
  have hd : distancePow 2 [1, 1, 1] [0, 0, 0] = 3 := by
    simp only [distancePow]
    norm_num
  have h8 := (h ⟨r, [0, 0, 0]⟩ 3 l hr0 h4 (by simp) hcen hsize (by show _ ≤ r ^ 2; rw [hr]; norm_num)
    (by show r ^ 2 ≤ _; rw [hr]; norm_num) h5 [1, 1, 1] rfl).2 (by show distancePow 2 [1, 1, 1] [0, 0, 0] ≤ _; rw [hd]; norm_num)
  rw [h6] at h8
  have h9 : distancePow 2 [1, 1, 1] [0, 0, 0] ≤ squareFl r := h8.2
  rw [hd] at h9
  linarith

/-- Hypotheses of the theorems: the L2 ball of radius 3/2 centered on (10, -7) contains (11, -6), and not (12, -7). -/
example : ∃ l, BallIterator.VisitsFl 𝔻 squareFl ⟨3 / 2, [10, -7]⟩ l ∧ [11, -6] ∈ l ∧ [12, -7] ∉ l := by
  have hf : ⌊(3 / 2 : ℚ)⌋ = 1 := by
    rw [Int.floor_eq_iff]
    norm_num
  have hnum : ∀ (n e : Int), -1074 ≤ e → |n| < 2 ^ 53 → Binary.fl 53 (-1074) (n * 2 ^ e) = n * 2 ^ e :=
    fun n e h1 h2 => Binary.fl_mul_pow h1 h2
  have h3 := hnum 3 (-1) (by norm_num) (by norm_num)
  have h9 := hnum 9 (-2) (by norm_num) (by norm_num)
  obtain ⟨l, h1, h2, -⟩ := C96_partial (p := 53) (hp := by norm_num) (emin := -1074) (P := 2) (by norm_num) (by norm_num)
    squareFl_faithful ⟨3 / 2, [10, -7]⟩ (by norm_num) (by norm_num at h3 ⊢; exact h3) (by norm_num at h9 ⊢; exact h9) (by simp)
    (by
      intro a ha
      simp only [List.mem_cons, List.not_mem_nil, or_false] at ha
      rw [hf]
      rcases ha with rfl | rfl <;> norm_num)
    (by rw [hf]; norm_num)
  refine ⟨l, h1, ?_, ?_⟩
  · rw [h2]
    simp only [InBall, distancePow]
    norm_num
  · rw [h2]
    simp only [InBall, distancePow]
    norm_num

end Litl
