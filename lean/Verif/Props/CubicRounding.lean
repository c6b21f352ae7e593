import Verif.Props.LinearRounding

/-!
# Cubic interpolation in floating point arithmetic (C95)
-/

namespace Litl

open Spec

section

variable {R : Rounding ℚ}

theorem floor_neighbors {x : ℚ} (h1 : 1 - 2 ^ 63 < x) (h2 : x < 2 ^ 63 - 2) :
    floorOf x = .ok (floorIndex x) ∧ Checked.ck (floorIndex x - 1) = .ok (floorIndex x - 1) ∧
      Checked.ck (floorIndex x + 1) = .ok (floorIndex x + 1) ∧ Checked.ck (floorIndex x + 2) = .ok (floorIndex x + 2) := by
  have hb := floorIndex_bounds x
  have h3 : 1 - 2 ^ 63 ≤ floorIndex x := by
    have : (((1 - 2 ^ 63 : Int)) : ℚ) < ((floorIndex x + 1 : Int) : ℚ) := by push_cast; linarith
    have : (1 - 2 ^ 63 : Int) < floorIndex x + 1 := by exact_mod_cast this
    omega
  have h4 : floorIndex x < 2 ^ 63 - 2 := by
    have : ((floorIndex x : Int) : ℚ) < ((2 ^ 63 - 2 : Int) : ℚ) := by push_cast; linarith
    exact_mod_cast this
  refine ⟨floorOf_eq (by linarith) (by linarith), ck_ok ⟨?_, ?_⟩, ck_ok ⟨?_, ?_⟩, ck_ok ⟨?_, ?_⟩⟩ <;> omega

/-- Relation between what is computed and the exact value, axis by axis. -/
theorem cubicFlRev_rel (P : Nat → Fl R → ℚ → Prop) (r : Position → Res (Fl R)) (g : Position → ℚ) :
    ∀ (xs : List ℚ) (idx : Position), xs ≠ [] →
    (∀ x ∈ xs, 1 - 2 ^ 63 < x ∧ x < 2 ^ 63 - 2 ∧ ∀ k a b c d a' b' c' d', P k a a' → P k b b' → P k c c' → P k d d' →
      P (k + 1) (cubicFormulaFl (offsetOf R x (floorIndex x)) a b c d) (cubicFormula (x - floorIndex x) a' b' c' d')) →
    (∀ q, Within 2 q xs.reverse → ∃ v, r (q ++ idx) = .ok v ∧ P 0 v (g (q ++ idx))) →
    ∃ v y, cubicFlRev r xs idx = .ok v ∧ cubicRev (fun q => .ok (g q)) xs idx = .ok y ∧ P xs.length v y := by
  intro xs
  induction xs with
  | nil => intro idx h; exact absurd rfl h
  | cons x t ih =>
    intro idx _ hx h
    have hb := floorIndex_bounds x
    obtain ⟨hx1, hx2, hstep⟩ := hx x (by simp)
    obtain ⟨hf, he, hg, hh⟩ := floor_neighbors hx1 hx2
    have w0 : |((floorIndex x - 1 : Int) : ℚ) - x| ≤ 2 := by push_cast; rw [abs_le]; constructor <;> linarith
    have w1 : |((floorIndex x : Int) : ℚ) - x| ≤ 2 := by rw [abs_le]; constructor <;> linarith
    have w2 : |((floorIndex x + 1 : Int) : ℚ) - x| ≤ 2 := by push_cast; rw [abs_le]; constructor <;> linarith
    have w3 : |((floorIndex x + 2 : Int) : ℚ) - x| ≤ 2 := by push_cast; rw [abs_le]; constructor <;> linarith
    cases t with
    | nil =>
      obtain ⟨v0, h0, p0⟩ := h [floorIndex x - 1] (.cons w0 .nil)
      obtain ⟨v1, h1, p1⟩ := h [floorIndex x] (.cons w1 .nil)
      obtain ⟨v2, h2, p2⟩ := h [floorIndex x + 1] (.cons w2 .nil)
      obtain ⟨v3, h3, p3⟩ := h [floorIndex x + 2] (.cons w3 .nil)
      simp only [List.cons_append, List.nil_append] at h0 h1 h2 h3
      simp only [cubicFlRev, hf, he, hg, hh, h0, h1, h2, h3, bind, Except.bind, pure, Except.pure, cubicRev]
      exact ⟨_, _, rfl, rfl, hstep 0 _ _ _ _ _ _ _ _ p0 p1 p2 p3⟩
    | cons y pos =>
      have hrec : ∀ k : Int, |(k : ℚ) - x| ≤ 2 → ∃ v y', cubicFlRev r (y :: pos) (k :: idx) = .ok v ∧
          cubicRev (fun q => .ok (g q)) (y :: pos) (k :: idx) = .ok y' ∧ P (y :: pos).length v y' := by
        intro k hk
        refine ih (k :: idx) (by simp) (fun z hz => hx z (List.mem_cons_of_mem _ hz)) fun q hq => ?_
        have := h (q ++ [k]) (by
          rw [List.reverse_cons]
          exact List.rel_append hq (.cons hk .nil))
        simpa using this
      obtain ⟨v0, y0, h0, h0', p0⟩ := hrec _ w0
      obtain ⟨v1, y1, h1, h1', p1⟩ := hrec _ w1
      obtain ⟨v2, y2, h2, h2', p2⟩ := hrec _ w2
      obtain ⟨v3, y3, h3, h3', p3⟩ := hrec _ w3
      simp only [cubicFlRev, cubicRev, hf, he, hg, hh, h0, h1, h2, h3, h0', h1', h2', h3', bind, Except.bind, pure, Except.pure]
      exact ⟨_, _, rfl, rfl, hstep _ _ _ _ _ _ _ _ _ p0 p1 p2 p3⟩

theorem cubicFl_rel (P : Nat → Fl R → ℚ → Prop) (r : Position → Res (Fl R)) (g : Position → ℚ) (xs : List ℚ) (hne : xs ≠ [])
    (hx : ∀ x ∈ xs, 1 - 2 ^ 63 < x ∧ x < 2 ^ 63 - 2 ∧ ∀ k a b c d a' b' c' d', P k a a' → P k b b' → P k c c' → P k d d' →
      P (k + 1) (cubicFormulaFl (offsetOf R x (floorIndex x)) a b c d) (cubicFormula (x - floorIndex x) a' b' c' d'))
    (h : ∀ q, Within 2 q xs → ∃ v, r q = .ok v ∧ P 0 v (g q)) :
    ∃ v, cubicFl r xs = .ok v ∧ P xs.length v (cubic g xs) := by
  obtain ⟨v, y, h1, h2, h3⟩ := cubicFlRev_rel P r g xs.reverse [] (by simpa using hne)
    (fun x hxm => hx x (List.mem_reverse.1 hxm)) (by
      rw [List.reverse_reverse]
      simpa using h)
  have h4 : cubicAt (fun q => .ok (g q)) xs = .ok y := h2
  rw [C44_keys (fun q => .ok (g q)) g xs hne fun _ _ => rfl] at h4
  rw [List.length_reverse] at h3
  cases h4
  exact ⟨v, h1, h3⟩

end

section

variable {p : Nat} {hp : 1 ≤ p} {emin : Int}

local notation "𝔽" => Binary.rounding p hp emin

theorem offsetOf_val (x : ℚ) (n : Int) : (offsetOf 𝔽 x n).val = Binary.fl p emin (x - Binary.fl p emin (n : ℚ)) := rfl

/-- The formula, in terms of numbers. -/
theorem cubicFormulaFl_val (h3 : 3 ≤ p) (he : emin ≤ 0) (D a b c d : Fl 𝔽) : (cubicFormulaFl D a b c d).val =
    Binary.fl p emin (b.val + Binary.fl p emin (1 / 2 * Binary.fl p emin (Binary.fl p emin
      (Binary.fl p emin (D.val * Binary.fl p emin (-a.val + c.val)) +
      Binary.fl p emin (Binary.fl p emin (D.val * D.val) *
        Binary.fl p emin (Binary.fl p emin (Binary.fl p emin (Binary.fl p emin (2 * a.val) - Binary.fl p emin (5 * b.val)) +
          Binary.fl p emin (4 * c.val)) - d.val))) +
      Binary.fl p emin (Binary.fl p emin (Binary.fl p emin (D.val * D.val) * D.val) *
        Binary.fl p emin (Binary.fl p emin (Binary.fl p emin (-a.val + Binary.fl p emin (3 * b.val)) -
          Binary.fl p emin (3 * c.val)) + d.val))))) := by
  have h8 : (2 : Int) ^ 3 ≤ 2 ^ p := pow_le_pow_right₀ (by norm_num) h3
  have hk : ∀ k : Nat, k ≤ 5 → Binary.fl p emin (k : ℚ) = k := by
    intro k hk
    have := Binary.fl_intCast (p := p) he (n := k) (by rw [abs_of_nonneg (by positivity)]; omega)
    exact_mod_cast this
  have e2 := hk 2 (by norm_num)
  have e3 := hk 3 (by norm_num)
  have e4 := hk 4 (by norm_num)
  have e5 := hk 5 (by norm_num)
  push_cast at e2 e3 e4 e5
  have f2 : (((2 : Nat) : Fl 𝔽)).val = 2 := by
    rw [Fl.val_natCast]
    push_cast
    exact e2
  have f3 : (((3 : Nat) : Fl 𝔽)).val = 3 := by
    rw [Fl.val_natCast]
    push_cast
    exact e3
  have f4 : (((4 : Nat) : Fl 𝔽)).val = 4 := by
    rw [Fl.val_natCast]
    push_cast
    exact e4
  have f5 : (((5 : Nat) : Fl 𝔽)).val = 5 := by
    rw [Fl.val_natCast]
    push_cast
    exact e5
  unfold cubicFormulaFl
  simp only [Fl.val_add, Fl.val_mul, Fl.val_sub, Fl.val_neg, f2, f3, f4, f5]
  rfl

/-- **C95**: cubic interpolation is exact at nonnegative integral positions. -/
theorem C95_integral (h3 : 3 ≤ p) (he : emin ≤ 0) (r : Position → Res (Fl 𝔽)) (g : Position → Fl 𝔽)
    (hg : ∀ q, Binary.fl p emin (g q).val = (g q).val) (q : Position) (hq : q ≠ [])
    (h0 : ∀ k ∈ q, 0 ≤ k ∧ k < 2 ^ 63 - 2 ∧ Binary.fl p emin k = k)
    (h : ∀ q', Within 2 q' (q.map fun k : Int => (k : ℚ)) → r q' = .ok (g q')) :
    cubicFl r (q.map fun k : Int => (k : ℚ)) = .ok (g q) := by
  obtain ⟨v, h1, h2⟩ := cubicFl_rel (fun _ (v : Fl 𝔽) y => v.val = y ∧ Binary.fl p emin v.val = v.val) r (fun q => (g q).val)
    (q.map fun k : Int => (k : ℚ)) (by simpa using hq) (fun x hxm => by
      obtain ⟨k, hk, rfl⟩ := List.mem_map.1 hxm
      obtain ⟨hk0, hk1, hk2⟩ := h0 k hk
      have hk0' : (0 : ℚ) ≤ k := by exact_mod_cast hk0
      refine ⟨by linarith, by exact_mod_cast hk1, ?_⟩
      rintro _ a b c d a' b' c' d' ⟨ha, _⟩ ⟨hb, hb'⟩ _ _
      have hoff : (offsetOf 𝔽 k (floorIndex (k : ℚ))).val = 0 := by
        have := offset_nonneg (p := p) he hk2 hk0'
        rw [Int.fract_intCast] at this
        exact this
      have hfi : floorIndex (k : ℚ) = k := by
        unfold floorIndex
        rw [toIndex_of_nonneg hk0', if_neg (by linarith), sub_zero, Int.floor_intCast]
      refine ⟨?_, Binary.fl_idem hp emin _⟩
      rw [cubicFormulaFl_val h3 he, hoff, hfi]
      simp only [zero_mul, mul_zero, Binary.fl_zero, add_zero, sub_self, cubicFormula]
      rw [hb', hb]) (fun q' hq' => ⟨_, h q' hq', rfl, hg q'⟩)
  have h4 := C44_integral (K := ℚ) (fun q => .ok (g q).val) (fun q => (g q).val) q hq fun _ _ => rfl
  rw [C44_keys (fun q => .ok (g q).val) (fun q => (g q).val) _ (by simpa using hq) fun _ _ => rfl] at h4
  rw [h1]
  congr 1
  have h5 : v.val = (g q).val := by
    rw [h2.1]
    exact Except.ok.inj h4
  exact h5

/-- Constants are reproduced, at each position, if their small multiples are numbers, e.g. for integers up to `2^p / 5`.
Missing: other constants, see `C95_violated` and `C95_accurate`. -/
theorem C95_constant_partial (h3 : 3 ≤ p) (he : emin ≤ 0) (r : Position → Res (Fl 𝔽)) (c : Fl 𝔽)
    (hc : ∀ k : Nat, k ≤ 5 → Binary.fl p emin (k * c.val) = k * c.val) (xs : List ℚ) (hne : xs ≠ [])
    (hx : ∀ x ∈ xs, 1 - 2 ^ 63 < x ∧ x < 2 ^ 63 - 2) (h : ∀ q, Within 2 q xs → r q = .ok c) : cubicFl r xs = .ok c := by
  have e1 := hc 1 (by norm_num)
  have e2 := hc 2 (by norm_num)
  have e3 := hc 3 (by norm_num)
  have e4 := hc 4 (by norm_num)
  have e5 := hc 5 (by norm_num)
  push_cast at e1 e2 e3 e4 e5
  rw [one_mul] at e1
  obtain ⟨v, h1, h2⟩ := cubicFl_rel (fun _ v _ => v = c) r (fun _ => 0) xs hne (fun x hxm => by
    refine ⟨(hx x hxm).1, (hx x hxm).2, ?_⟩
    rintro k a b c d _ _ _ _ rfl rfl rfl rfl
    show (cubicFormulaFl (offsetOf 𝔽 x (floorIndex x)) _ _ _ _).val = Fl.val _
    rw [cubicFormulaFl_val h3 he, e2, e3, e4, e5]
    have f1 : 2 * d.val - 5 * d.val = -(3 * d.val) := by ring
    have f2 : -(3 * d.val) + 4 * d.val = d.val := by ring
    have f3 : -d.val + 3 * d.val = 2 * d.val := by ring
    have f4 : 2 * d.val - 3 * d.val = -d.val := by ring
    rw [f1, Binary.fl_neg, e3, f2, e1, f3, e2, f4, Binary.fl_neg, e1]
    simp only [neg_add_cancel, sub_self, mul_zero, Binary.fl_zero, add_zero]
    exact e1) (fun q hq => ⟨c, h q hq, rfl⟩)
  rw [h1, h2]

/-! ### Accuracy -/

/-- `x` approximates `y`, of magnitude at most `S`, after `k` roundings, up to `e`. -/
structure Approx (u : ℚ) (k : Nat) (S e x y : ℚ) : Prop where
  le : |y| ≤ S
  near : |x - y| ≤ ((1 + u) ^ k - 1) * S + e

namespace Approx

variable {u S T e e' x y x' y' : ℚ} {k l : Nat}

theorem abs_le' (h : Approx u k S e x y) : |x| ≤ (1 + u) ^ k * S + e := by
  have := abs_add_le (x - y) y
  rw [sub_add_cancel] at this
  have := h.le
  have := h.near
  linarith

theorem refl (h : |y| ≤ S) : Approx u 0 S 0 y y := ⟨h, by simp⟩

theorem mono (hu : 0 ≤ u) (h : Approx u k S e x y) (hkl : k ≤ l) (he : e ≤ e') : Approx u l S e' x y := by
  refine ⟨h.le, h.near.trans ?_⟩
  have hS : 0 ≤ S := (abs_nonneg y).trans h.le
  have : (1 + u) ^ k ≤ (1 + u) ^ l := pow_le_pow_right₀ (by linarith) hkl
  nlinarith

theorem neg (h : Approx u k S e x y) : Approx u k S e (-x) (-y) :=
  ⟨by rw [abs_neg]; exact h.le, by rw [← neg_sub', abs_neg]; exact h.near⟩

/-- A rounding, which may underflow up to `η`. -/
theorem round {η z : ℚ} (hu : 0 ≤ u) (h : Approx u k S e x y) (hz : |z - x| ≤ u * |x| + η) :
    Approx u (k + 1) S ((1 + u) * e + η) z y := by
  refine ⟨h.le, ?_⟩
  have h1 := abs_sub_le z x y
  have h2 := mul_le_mul_of_nonneg_left h.abs_le' hu
  have h3 := h.near
  rw [pow_succ]
  nlinarith

theorem add (h : Approx u k S e x y) (h' : Approx u k T e' x' y') : Approx u k (S + T) (e + e') (x + x') (y + y') := by
  refine ⟨(abs_add_le _ _).trans (add_le_add h.le h'.le), ?_⟩
  rw [show x + x' - (y + y') = (x - y) + (x' - y') by ring]
  refine (abs_add_le _ _).trans ((add_le_add h.near h'.near).trans (le_of_eq (by ring)))

theorem sub (h : Approx u k S e x y) (h' : Approx u k T e' x' y') : Approx u k (S + T) (e + e') (x - x') (y - y') := by
  rw [sub_eq_add_neg, sub_eq_add_neg]
  exact h.add h'.neg

/-- A product with an approximation without underflow. -/
theorem mul (hu : 0 ≤ u) (h : Approx u l T 0 x' y') (h' : Approx u k S e x y) :
    Approx u (l + k) (T * S) ((1 + u) ^ l * T * e) (x' * x) (y' * y) := by
  have hS : 0 ≤ S := (abs_nonneg y).trans h'.le
  have hT : 0 ≤ T := (abs_nonneg y').trans h.le
  have hl : 1 ≤ (1 + u) ^ l := one_le_pow₀ (by linarith)
  refine ⟨by rw [abs_mul]; exact mul_le_mul h.le h'.le (abs_nonneg _) hT, ?_⟩
  rw [show x' * x - y' * y = x' * (x - y) + (x' - y') * y by ring]
  refine (abs_add_le _ _).trans ?_
  rw [abs_mul, abs_mul]
  have h1 := h.abs_le'
  have h2 := h.near
  rw [add_zero] at h1 h2
  have h3 : |x'| * |x - y| ≤ (1 + u) ^ l * T * (((1 + u) ^ k - 1) * S + e) :=
    mul_le_mul h1 h'.near (abs_nonneg _) (mul_nonneg (by linarith) hT)
  have h4 : |x' - y'| * |y| ≤ ((1 + u) ^ l - 1) * T * S :=
    mul_le_mul h2 h'.le (abs_nonneg _) (mul_nonneg (by linarith) hT)
  rw [pow_add]
  linarith

end Approx

/-- Rounding errors along one axis. -/
theorem cubic_local (hp : 1 ≤ p) (he : emin ≤ -p) {d D a b c e A : ℚ} (h0 : 0 ≤ d) (h1 : d ≤ 1) (hD : |D - d| ≤ 1 / 2 ^ p * d)
    (ha : Binary.fl p emin a = a) (hb : Binary.fl p emin b = b) (hc : Binary.fl p emin c = c) (he' : Binary.fl p emin e = e)
    (hA : |a| ≤ A) (hB : |b| ≤ A) (hC : |c| ≤ A) (hE : |e| ≤ A) :
    |Binary.fl p emin (b + Binary.fl p emin (1 / 2 * Binary.fl p emin (Binary.fl p emin
      (Binary.fl p emin (D * Binary.fl p emin (-a + c)) +
      Binary.fl p emin (Binary.fl p emin (D * D) *
        Binary.fl p emin (Binary.fl p emin (Binary.fl p emin (Binary.fl p emin (2 * a) - Binary.fl p emin (5 * b)) +
          Binary.fl p emin (4 * c)) - e))) +
      Binary.fl p emin (Binary.fl p emin (Binary.fl p emin (D * D) * D) *
        Binary.fl p emin (Binary.fl p emin (Binary.fl p emin (-a + Binary.fl p emin (3 * b)) -
          Binary.fl p emin (3 * c)) + e))))) - cubicFormula d a b c e| ≤
      ((1 + 1 / 2 ^ p) ^ 15 - 1) * (12 * A) + 5 * (1 + 1 / 2 ^ p) ^ 14 * (2 ^ emin / 2) := by
  set u : ℚ := 1 / 2 ^ p with hu
  have hu0 : 0 ≤ u := by positivity
  set η : ℚ := 2 ^ emin / 2 with hη
  have hη0 : 0 ≤ η := by
    have : (0 : ℚ) < 2 ^ emin := zpow_pos (by norm_num) _
    linarith
  have hηu : η ≤ u := by
    have h2 : (2 : ℚ) ^ emin ≤ 2 ^ (-p : Int) := zpow_le_zpow_right₀ (by norm_num) he
    rw [zpow_neg, zpow_natCast, ← one_div] at h2
    have : (0 : ℚ) < 2 ^ emin := zpow_pos (by norm_num) _
    linarith
  have num := fun x => Binary.fl_idem hp emin x
  have nearM : ∀ x, |Binary.fl p emin x - x| ≤ u * |x| + η := Binary.fl_near p emin
  have nearA : ∀ x y, Binary.fl p emin x = x → Binary.fl p emin y = y →
      |Binary.fl p emin (x + y) - (x + y)| ≤ u * |x + y| + 0 := fun x y hx hy => by
    rw [add_zero]
    exact Binary.fl_sum p emin hx hy
  have nearS : ∀ x y, Binary.fl p emin x = x → Binary.fl p emin y = y →
      |Binary.fl p emin (x - y) - (x - y)| ≤ u * |x - y| + 0 := fun x y hx hy => by
    have := nearA x (-y) hx (by rw [Binary.fl_neg, hy])
    rwa [← sub_eq_add_neg] at this
  -- powers of the offset
  have D1 : Approx u 1 1 0 D d := ⟨by rw [abs_of_nonneg h0]; exact h1, hD.trans (by rw [pow_one]; nlinarith)⟩
  have absorb : ∀ {k : Nat} {x y : ℚ}, Approx u k 1 η x y → Approx u (k + 1) 1 0 x y := fun {k x y} h => by
    refine ⟨h.le, h.near.trans ?_⟩
    have : (1 : ℚ) ≤ (1 + u) ^ k := one_le_pow₀ (by linarith)
    rw [pow_succ]
    nlinarith
  have D2 : Approx u 4 1 0 (Binary.fl p emin (D * D)) (d * d) := by
    have h := (D1.mul hu0 D1).round hu0 (nearM _)
    refine absorb (k := 3) ?_
    simpa using h
  have D3 : Approx u 7 1 0 (Binary.fl p emin (Binary.fl p emin (D * D) * D)) (d * d * d) := by
    have h := (D2.mul hu0 D1).round hu0 (nearM _)
    refine absorb (k := 6) ?_
    simpa using h
  -- differences
  have hlit : ∀ (m : ℚ) {x : ℚ}, 0 ≤ m → |x| ≤ A → Approx u 1 (m * A) η (Binary.fl p emin (m * x)) (m * x) := by
    intro m x hm hx
    have h := (Approx.refl (u := u) (S := m * A) (y := m * x) (by
      rw [abs_mul, abs_of_nonneg hm]
      exact mul_le_mul_of_nonneg_left hx hm)).round hu0 (nearM _)
    simpa using h
  have rA := Approx.refl (u := u) hA
  have rB := Approx.refl (u := u) hB
  have rC := Approx.refl (u := u) hC
  have rE := Approx.refl (u := u) hE
  have hna : Binary.fl p emin (-a) = -a := by rw [Binary.fl_neg, ha]
  have X1 : Approx u 1 (A + A) 0 (Binary.fl p emin (-a + c)) (-a + c) := by
    have h := (rA.neg.add rC).round hu0 (nearA _ _ hna hc)
    simpa using h
  have X2 := ((((((hlit 2 (by norm_num) hA).sub (hlit 5 (by norm_num) hB)).round hu0 (nearS _ _ (num _) (num _))).add
    ((hlit 4 (by norm_num) hC).mono hu0 (by norm_num : 1 ≤ 2) le_rfl)).round hu0 (nearA _ _ (num _) (num _))).sub
    (rE.mono hu0 (by norm_num : 0 ≤ 3) le_rfl)).round hu0 (nearS _ _ (num _) he')
  have X3 := ((((((rA.neg.mono hu0 (by norm_num : 0 ≤ 1) le_rfl).add (hlit 3 (by norm_num) hB)).round hu0
    (nearA _ _ hna (num _))).sub ((hlit 3 (by norm_num) hC).mono hu0 (by norm_num : 1 ≤ 2) le_rfl)).round hu0
    (nearS _ _ (num _) (num _))).add (rE.mono hu0 (by norm_num : 0 ≤ 3) le_rfl)).round hu0 (nearA _ _ (num _) he')
  -- products
  have P1 := (D1.mul hu0 X1).round hu0 (nearM _)
  have P2 := (D2.mul hu0 X2).round hu0 (nearM _)
  have P3 := (D3.mul hu0 X3).round hu0 (nearM _)
  have S1 := ((P1.mono hu0 (by norm_num : 1 + 1 + 1 ≤ 9) le_rfl).add P2).round hu0 (nearA _ _ (num _) (num _))
  have S2 := ((S1.mono hu0 (by norm_num : 9 + 1 ≤ 12) le_rfl).add P3).round hu0 (nearA _ _ (num _) (num _))
  have half : Approx u 0 (1 / 2) 0 (1 / 2) (1 / 2) := Approx.refl (by norm_num)
  have H := (half.mul hu0 S2).round hu0 (nearM _)
  have F := ((rB.mono hu0 (by norm_num : 0 ≤ 14) le_rfl).add (H.mono hu0 (by norm_num : 0 + (12 + 1) + 1 ≤ 14) le_rfl)).round hu0
    (nearA _ _ hb (num _))
  have hpow : ∀ i ≤ 14, (1 + u) ^ i * η ≤ (1 + u) ^ 14 * η := fun i hi =>
    mul_le_mul_of_nonneg_right (pow_le_pow_right₀ (by linarith) hi) hη0
  unfold cubicFormula
  refine F.near.trans ?_
  have h2 := hpow 1 (by norm_num)
  have h3 := hpow 3 (by norm_num)
  have h4 := hpow 4 (by norm_num)
  have h5 := hpow 11 (by norm_num)
  have h6 := hpow 12 (by norm_num)
  have h7 := hpow 13 (by norm_num)
  generalize 1 + u = w at *
  refine le_trans (le_of_eq (b := (w ^ 15 - 1) * (12 * A) + (w ^ 12 * η + 1 / 2 * (w ^ 11 * η) + w ^ 4 * η +
    1 / 2 * (w ^ 14 * η) + 1 / 2 * (w ^ 13 * η) + 1 / 2 * (w ^ 3 * η) + w ^ 1 * η)) ?_) ?_
  · ring
  · linarith

/-- Cubic interpolation amplifies by 5/4 at most along each axis. -/
theorem cubicFormula_abs {d a b c e S : ℚ} (h0 : 0 ≤ d) (h1 : d ≤ 1) (ha : |a| ≤ S) (hb : |b| ≤ S) (hc : |c| ≤ S)
    (he : |e| ≤ S) : |cubicFormula d a b c e| ≤ 5 / 4 * S := by
  have hS : 0 ≤ S := (abs_nonneg a).trans ha
  have hd : 0 ≤ 1 - d := by linarith
  rw [show cubicFormula d a b c e = -(d * (1 - d) ^ 2 / 2) * a + (1 - d) * (2 + 2 * d - 3 * d ^ 2) / 2 * b +
    d * (1 + 4 * d - 3 * d ^ 2) / 2 * c + -(d ^ 2 * (1 - d) / 2) * e by unfold cubicFormula; ring]
  have w1 : 0 ≤ d * (1 - d) ^ 2 / 2 := by positivity
  have w2 : 0 ≤ (1 - d) * (2 + 2 * d - 3 * d ^ 2) / 2 := by
    have : 0 ≤ 2 + 2 * d - 3 * d ^ 2 := by nlinarith
    positivity
  have w3 : 0 ≤ d * (1 + 4 * d - 3 * d ^ 2) / 2 := by
    have : 0 ≤ 1 + 4 * d - 3 * d ^ 2 := by nlinarith
    positivity
  have w4 : 0 ≤ d ^ 2 * (1 - d) / 2 := by positivity
  refine (abs_add_le _ _).trans ((add_le_add ((abs_add_le _ _).trans (add_le_add (abs_add_le _ _) le_rfl)) le_rfl).trans ?_)
  rw [abs_mul, abs_mul, abs_mul, abs_mul, abs_neg, abs_neg, abs_of_nonneg w1, abs_of_nonneg w2, abs_of_nonneg w3,
    abs_of_nonneg w4]
  have t1 := mul_le_mul_of_nonneg_left ha w1
  have t2 := mul_le_mul_of_nonneg_left hb w2
  have t3 := mul_le_mul_of_nonneg_left hc w3
  have t4 := mul_le_mul_of_nonneg_left he w4
  have hsum : d * (1 - d) ^ 2 / 2 * S + (1 - d) * (2 + 2 * d - 3 * d ^ 2) / 2 * S + d * (1 + 4 * d - 3 * d ^ 2) / 2 * S +
      d ^ 2 * (1 - d) / 2 * S = (1 + d * (1 - d)) * S := by ring
  have hq : d * (1 - d) ≤ 1 / 4 := by nlinarith [sq_nonneg (d - 1 / 2)]
  have := mul_le_mul_of_nonneg_right hq hS
  linarith

/-- Roundoff of one step of cubic interpolation: about 180 units. -/
def cubicRoundoff (p : Nat) : ℚ := 12 * ((1 + 1 / 2 ^ p) ^ 15 - 1)

/-- Underflow of one step of cubic interpolation. -/
def cubicUnderflow (p : Nat) (emin : Int) : ℚ := 5 * (1 + 1 / 2 ^ p) ^ 14 * (2 ^ emin / 2)

/-- **C95**: cubic interpolation is accurate with respect to the largest neighbor; along each axis, the errors are amplified by
5/4 at most, and about 180 units in the last place are added. -/
theorem C95_accurate (h3 : 3 ≤ p) (he : emin ≤ -p) (r : Position → Res (Fl 𝔽)) (g : Position → ℚ) (M : ℚ) (hM : 0 ≤ M)
    (xs : List ℚ) (hne : xs ≠ [])
    (hx : ∀ x ∈ xs, 1 - 2 ^ 63 < x ∧ x < 2 ^ 63 - 2 ∧ Binary.fl p emin x = x ∧ 2 - 2 ^ p ≤ x)
    (h : ∀ q, Within 2 q xs → r q = .ok (Fl.of (g q)) ∧ Binary.fl p emin (g q) = g q ∧ |g q| ≤ M) :
    ∃ v : Fl 𝔽, cubicFl r xs = .ok v ∧ |v.val - cubic g xs| ≤
      (5 / 4 + cubicRoundoff p) ^ xs.length * (M + xs.length * cubicUnderflow p emin) - (5 / 4) ^ xs.length * M := by
  have hu0 : (0 : ℚ) ≤ 1 / 2 ^ p := by positivity
  have hη0 : (0 : ℚ) ≤ 2 ^ emin / 2 := by
    have : (0 : ℚ) < 2 ^ emin := zpow_pos (by norm_num) _
    linarith
  have hκ : 0 ≤ cubicRoundoff p := by
    unfold cubicRoundoff
    have : (1 : ℚ) ≤ (1 + 1 / 2 ^ p) ^ 15 := one_le_pow₀ (by linarith)
    linarith
  have hε0 : 0 ≤ cubicUnderflow p emin := by
    unfold cubicUnderflow
    exact mul_nonneg (by positivity) hη0
  have hloc0 := @cubic_local p emin hp he
  have hκdef : 12 * ((1 + 1 / 2 ^ p) ^ 15 - 1) = cubicRoundoff p := rfl
  have hεdef : 5 * (1 + 1 / 2 ^ p) ^ 14 * (2 ^ emin / 2) = cubicUnderflow p emin := rfl
  rw [hεdef] at hloc0
  generalize cubicUnderflow p emin = ε at *
  generalize cubicRoundoff p = κ at *
  set B : Nat → ℚ := fun k => (5 / 4 + κ) ^ k * (M + k * ε) with hB
  have hBM : ∀ k, (5 / 4) ^ k * M ≤ B k := fun k => by
    have h1 : (5 / 4 : ℚ) ^ k ≤ (5 / 4 + κ) ^ k := pow_le_pow_left₀ (by norm_num) (by linarith) k
    have h2 : (0 : ℚ) ≤ k * ε := mul_nonneg (Nat.cast_nonneg k) hε0
    have h4 : (0 : ℚ) ≤ (5 / 4 + κ) ^ k := by positivity
    show (5 / 4) ^ k * M ≤ (5 / 4 + κ) ^ k * (M + k * ε)
    nlinarith
  have hBstep : ∀ k, (5 / 4 + κ) * B k + ε ≤ B (k + 1) := fun k => by
    have h1 : (1 : ℚ) ≤ (5 / 4 + κ) ^ (k + 1) := one_le_pow₀ (by linarith)
    show (5 / 4 + κ) * ((5 / 4 + κ) ^ k * (M + k * ε)) + ε ≤ (5 / 4 + κ) ^ (k + 1) * (M + (k + 1 : Nat) * ε)
    push_cast
    rw [← mul_assoc, ← pow_succ']
    nlinarith
  obtain ⟨v, h1, _, _, h2⟩ := cubicFl_rel (fun k (v : Fl 𝔽) y => Binary.fl p emin v.val = v.val ∧ |y| ≤ (5 / 4) ^ k * M ∧
    |v.val - y| ≤ B k - (5 / 4) ^ k * M) r g xs hne (fun x hxm => by
      obtain ⟨hx1, hx2, hx3, hx4⟩ := hx x hxm
      refine ⟨hx1, hx2, ?_⟩
      rintro k a b c e a' b' c' e' ⟨ha1, ha2, ha3⟩ ⟨hb1, hb2, hb3⟩ ⟨hc1, hc2, hc3⟩ ⟨he1, he2, he3⟩
      have hbnd := floorIndex_bounds x
      have hflf : Binary.fl p emin (floorIndex x : Int) = (floorIndex x : Int) := by
        by_cases h0 : 0 ≤ x
        · have hf : floorIndex x = ⌊x⌋ := by
            unfold floorIndex
            rw [toIndex_of_nonneg h0, if_neg (by linarith), sub_zero]
          rw [hf]
          exact Binary.fl_floor (by omega) h0 hx3
        · refine Binary.fl_intCast (by omega) ?_
          rw [abs_lt]
          constructor
          · have h3 : ((1 - 2 ^ p : Int) : ℚ) ≤ floorIndex x := by push_cast; linarith
            have : 1 - 2 ^ p ≤ floorIndex x := by exact_mod_cast h3
            omega
          · have h3 : ((floorIndex x : Int) : ℚ) < ((0 : Int) : ℚ) := by push_cast; linarith
            have : floorIndex x < 0 := by exact_mod_cast h3
            have : (0 : Int) < 2 ^ p := by positivity
            omega
      have hD : |Binary.fl p emin (x - Binary.fl p emin (floorIndex x : Int)) - (x - floorIndex x)| ≤
          1 / 2 ^ p * (x - floorIndex x) := by
        rw [hflf]
        have := Binary.fl_sum p emin hx3 (y := -(floorIndex x : ℚ)) (by rw [Binary.fl_neg, hflf])
        rw [← sub_eq_add_neg, abs_of_nonneg (by linarith : 0 ≤ x - (floorIndex x : ℚ))] at this
        exact this
      have hval : ∀ (z : Fl 𝔽) (z' : ℚ), |z'| ≤ (5 / 4) ^ k * M → |z.val - z'| ≤ B k - (5 / 4) ^ k * M → |z.val| ≤ B k := by
        intro z z' h1 h2
        have := abs_add_le (z.val - z') z'
        rw [sub_add_cancel] at this
        linarith
      have hloc := hloc0 (by linarith : 0 ≤ x - (floorIndex x : ℚ)) (by linarith) hD ha1 hb1 hc1 he1
        (hval a a' ha2 ha3) (hval b b' hb2 hb3) (hval c c' hc2 hc3) (hval e e' he2 he3)
      refine ⟨Binary.fl_idem hp emin _, ?_, ?_⟩
      · rw [pow_succ', mul_assoc]
        exact cubicFormula_abs (by linarith) (by linarith) ha2 hb2 hc2 he2
      · have hconv : |cubicFormula (x - floorIndex x) a.val b.val c.val e.val - cubicFormula (x - floorIndex x) a' b' c' e'| ≤
            5 / 4 * (B k - (5 / 4) ^ k * M) := by
          rw [show cubicFormula (x - floorIndex x) a.val b.val c.val e.val - cubicFormula (x - floorIndex x) a' b' c' e' =
            cubicFormula (x - floorIndex x) (a.val - a') (b.val - b') (c.val - c') (e.val - e') by unfold cubicFormula; ring]
          exact cubicFormula_abs (by linarith) (by linarith) ha3 hb3 hc3 he3
        have hoff : (offsetOf 𝔽 x (floorIndex x)).val = Binary.fl p emin (x - Binary.fl p emin (floorIndex x : Int)) := rfl
        rw [← hoff, ← cubicFormulaFl_val h3 (by omega)] at hloc
        have htri := abs_sub_le (cubicFormulaFl (offsetOf 𝔽 x (floorIndex x)) a b c e).val
          (cubicFormula (x - floorIndex x) a.val b.val c.val e.val) (cubicFormula (x - floorIndex x) a' b' c' e')
        have h5 := hBstep k
        have h6 : ((1 + 1 / 2 ^ p) ^ 15 - 1) * (12 * B k) = κ * B k := by rw [← hκdef]; ring
        rw [h6] at hloc
        rw [pow_succ']
        linarith) (fun q hq => by
      obtain ⟨h1, h2, h3⟩ := h q hq
      refine ⟨_, h1, h2, by simpa using h3, ?_⟩
      rw [show (Fl.of (g q) : Fl 𝔽).val = g q from rfl, sub_self, abs_zero]
      exact sub_nonneg.2 (hBM 0))
  exact ⟨v, h1, h2⟩

end


/-! ## Counterexample and examples -/

local notation "𝔻" => Binary.rounding 53 (by norm_num) (-1074)

/-- **C95**, in full, for `double`: constants are reproduced. -/
def C95_Statement : Prop :=
  ∀ (c : Fl 𝔻) (xs : List ℚ), xs ≠ [] → Binary.fl 53 (-1074) c.val = c.val →
    (∀ x ∈ xs, Binary.fl 53 (-1074) x = x ∧ |x| ≤ 2 ^ 51) → cubicFl (fun _ => .ok c) xs = .ok c

/-- Numbers which are not rounded. -/
theorem double_num (n e : Int) (x : ℚ) (h1 : -1074 ≤ e) (h2 : |n| < 2 ^ 53) (h : x = n * 2 ^ e) :
    Binary.fl 53 (-1074) x = x := by
  rw [h]
  exact Binary.fl_mul_pow h1 h2

theorem drift_a1 : Binary.fl 53 (-1074) (2 * (2 ^ 53 - 1)) = 2 * (2 ^ 53 - 1) :=
  double_num (2 ^ 53 - 1) 1 _ (by norm_num) (by norm_num) (by norm_num)

theorem drift_a2 : Binary.fl 53 (-1074) (5 * (2 ^ 53 - 1)) = 5 * 2 ^ 53 - 8 := by
  rw [Binary.fl_eq (e := 3) (m := 5 * 2 ^ 50 - 1) (by norm_num) (by norm_num) (by norm_num) (by norm_num [abs_lt])]
  norm_num

theorem drift_a3 : Binary.fl 53 (-1074) (2 * (2 ^ 53 - 1) - (5 * 2 ^ 53 - 8)) = -(3 * 2 ^ 53 - 8) := by
  rw [show (2 : ℚ) * (2 ^ 53 - 1) - (5 * 2 ^ 53 - 8) = -(3 * 2 ^ 53 - 6) by norm_num, Binary.fl_neg,
    Binary.fl_tie (e := 2) (m := 3 * 2 ^ 51 - 2) (by norm_num) (by norm_num) (by norm_num) (by norm_num)
      (by norm_num)]
  norm_num

theorem drift_a4 : Binary.fl 53 (-1074) (4 * (2 ^ 53 - 1)) = 4 * (2 ^ 53 - 1) :=
  double_num (2 ^ 53 - 1) 2 _ (by norm_num) (by norm_num) (by norm_num)

theorem drift_a5 : Binary.fl 53 (-1074) (-(3 * 2 ^ 53 - 8) + 4 * (2 ^ 53 - 1)) = 2 ^ 53 + 4 := by
  rw [double_num (2 ^ 52 + 2) 1 _ (by norm_num) (by norm_num) (by norm_num)]
  norm_num

theorem drift_a6 : Binary.fl 53 (-1074) (2 ^ 53 + 4 - (2 ^ 53 - 1)) = 5 := by
  rw [double_num 5 0 _ (by norm_num) (by norm_num) (by norm_num)]
  norm_num

theorem drift_b1 : Binary.fl 53 (-1074) (3 * (2 ^ 53 - 1)) = 3 * 2 ^ 53 - 4 := by
  rw [Binary.fl_eq (e := 2) (m := 3 * 2 ^ 51 - 1) (by norm_num) (by norm_num) (by norm_num) (by norm_num [abs_lt])]
  norm_num

theorem drift_b2 : Binary.fl 53 (-1074) (-(2 ^ 53 - 1) + (3 * 2 ^ 53 - 4)) = 2 ^ 54 - 4 := by
  rw [Binary.fl_tie (e := 1) (m := 2 ^ 53 - 2) (by norm_num) (by norm_num) (by norm_num) (by norm_num) (by norm_num)]
  norm_num

theorem drift_b3 : Binary.fl 53 (-1074) (2 ^ 54 - 4 - (3 * 2 ^ 53 - 4)) = -2 ^ 53 := by
  rw [double_num (-1) 53 _ (by norm_num) (by norm_num) (by norm_num)]
  norm_num

theorem drift_b4 : Binary.fl 53 (-1074) (-2 ^ 53 + (2 ^ 53 - 1)) = -1 := by
  rw [double_num (-1) 0 _ (by norm_num) (by norm_num) (by norm_num)]
  norm_num

theorem drift_c1 : Binary.fl 53 (-1074) (1 / 2 * (1 / 2)) = 1 / 4 := by
  rw [double_num 1 (-2) _ (by norm_num) (by norm_num) (by norm_num)]
  norm_num

theorem drift_c2 : Binary.fl 53 (-1074) (1 / 4 * (1 / 2)) = 1 / 8 := by
  rw [double_num 1 (-3) _ (by norm_num) (by norm_num) (by norm_num)]
  norm_num

theorem drift_c3 : Binary.fl 53 (-1074) (1 / 4 * 5) = 5 / 4 := by
  rw [double_num 5 (-2) _ (by norm_num) (by norm_num) (by norm_num)]
  norm_num

theorem drift_c4 : Binary.fl 53 (-1074) (1 / 8 * -1) = -1 / 8 := by
  rw [double_num (-1) (-3) _ (by norm_num) (by norm_num) (by norm_num)]
  norm_num

theorem drift_c5 : Binary.fl 53 (-1074) (5 / 4) = 5 / 4 :=
  double_num 5 (-2) _ (by norm_num) (by norm_num) (by norm_num)

theorem drift_c6 : Binary.fl 53 (-1074) (5 / 4 + -1 / 8) = 9 / 8 := by
  rw [double_num 9 (-3) _ (by norm_num) (by norm_num) (by norm_num)]
  norm_num

theorem drift_c7 : Binary.fl 53 (-1074) (1 / 2 * (9 / 8)) = 9 / 16 := by
  rw [double_num 9 (-4) _ (by norm_num) (by norm_num) (by norm_num)]
  norm_num

/-- The constant, rounded after the correction of 9/16. -/
theorem drift_d1 : Binary.fl 53 (-1074) (2 ^ 53 - 1 + 9 / 16) = 2 ^ 53 := by
  rw [Binary.fl_eq (e := 0) (m := 2 ^ 53) (by norm_num) (by norm_num) (by norm_num) (by norm_num [abs_lt])]
  norm_num

theorem drift_step (F : ℚ → ℚ) (h0 : F 0 = 0) (a1 : F (2 * (2 ^ 53 - 1)) = 2 * (2 ^ 53 - 1))
    (a2 : F (5 * (2 ^ 53 - 1)) = 5 * 2 ^ 53 - 8) (a3 : F (2 * (2 ^ 53 - 1) - (5 * 2 ^ 53 - 8)) = -(3 * 2 ^ 53 - 8))
    (a4 : F (4 * (2 ^ 53 - 1)) = 4 * (2 ^ 53 - 1)) (a5 : F (-(3 * 2 ^ 53 - 8) + 4 * (2 ^ 53 - 1)) = 2 ^ 53 + 4)
    (a6 : F (2 ^ 53 + 4 - (2 ^ 53 - 1)) = 5) (b1 : F (3 * (2 ^ 53 - 1)) = 3 * 2 ^ 53 - 4)
    (b2 : F (-(2 ^ 53 - 1) + (3 * 2 ^ 53 - 4)) = 2 ^ 54 - 4) (b3 : F (2 ^ 54 - 4 - (3 * 2 ^ 53 - 4)) = -2 ^ 53)
    (b4 : F (-2 ^ 53 + (2 ^ 53 - 1)) = -1) (c1 : F (1 / 2 * (1 / 2)) = 1 / 4) (c2 : F (1 / 4 * (1 / 2)) = 1 / 8)
    (c3 : F (1 / 4 * 5) = 5 / 4) (c4 : F (1 / 8 * -1) = -1 / 8) (c5 : F (5 / 4) = 5 / 4) (c6 : F (5 / 4 + -1 / 8) = 9 / 8)
    (c7 : F (1 / 2 * (9 / 8)) = 9 / 16) (d1 : F (2 ^ 53 - 1 + 9 / 16) = 2 ^ 53) (C D : ℚ)
    (hC : C = 2 ^ 53 - 1) (hD : D = 1 / 2) :
    F (C + F (1 / 2 * F (F (F (D * F (-C + C)) + F (F (D * D) * F (F (F (F (2 * C) - F (5 * C)) + F (4 * C)) - C))) +
      F (F (F (D * D) * D) * F (F (F (-C + F (3 * C)) - F (3 * C)) + C))))) = 2 ^ 53 := by
  subst hC hD
  rw [neg_add_cancel, h0, mul_zero, h0, zero_add, a1, a2, a3, a4, a5, a6, b1, b2, b3, b4, c1, c2, c3, c4, c5, c6, c7, d1]

theorem cubicFl_axis {R : Rounding ℚ} (c : Fl R) {x : ℚ} (h1 : 1 - 2 ^ 63 < x) (h2 : x < 2 ^ 63 - 2) :
    cubicFl (fun _ => .ok c) [x] = .ok (cubicFormulaFl (offsetOf R x (floorIndex x)) c c c c) := by
  obtain ⟨hf, he, hg, hh⟩ := floor_neighbors h1 h2
  show cubicFlRev _ [x] [] = _
  simp only [cubicFlRev, hf, he, hg, hh, bind, Except.bind, pure, Except.pure]

theorem drift_val (c D : Fl 𝔻) (hc : c.val = 2 ^ 53 - 1) (hD : D.val = 1 / 2) : (cubicFormulaFl D c c c c).val = 2 ^ 53 := by
  rw [cubicFormulaFl_val (by norm_num) (by norm_num)]
  exact drift_step (Binary.fl 53 (-1074)) (Binary.fl_zero _ _) drift_a1 drift_a2 drift_a3 drift_a4 drift_a5 drift_a6 drift_b1
    drift_b2 drift_b3 drift_b4 drift_c1 drift_c2 drift_c3 drift_c4 drift_c5 drift_c6 drift_c7 drift_d1 _ _ hc hD

theorem drift_offset {x : ℚ} {n : Int} (hx : x = 1 / 2) (hn : n = 0) : (offsetOf 𝔻 x n).val = 1 / 2 := by
  rw [offsetOf_val, hn, Int.cast_zero, Binary.fl_zero, sub_zero, hx]
  exact double_num 1 (-1) _ (by norm_num) (by norm_num) (by norm_num)

theorem floorIndex_half {x : ℚ} (hx : x = 1 / 2) : floorIndex x = 0 := by
  unfold floorIndex
  rw [toIndex_of_nonneg (by rw [hx]; norm_num), if_neg (by rw [hx]; norm_num), hx]
  norm_num

/-- The interpolation of the constant 2^53 - 1 at position 1/2 is 2^53. -/
theorem C95_drift (c : Fl 𝔻) (hc : c.val = 2 ^ 53 - 1) (x : ℚ) (hx : x = 1 / 2) :
    ∃ v : Fl 𝔻, cubicFl (fun _ => .ok c : Position → Res (Fl 𝔻)) [x] = .ok v ∧ v.val = 2 ^ 53 :=
  ⟨_, cubicFl_axis c (by rw [hx]; norm_num) (by rw [hx]; norm_num), drift_val c _ hc (drift_offset hx (floorIndex_half hx))⟩

theorem C95_violated : ¬ C95_Statement := by
  intro h
  have hnum : Binary.fl 53 (-1074) ((2 ^ 53 - 1 : Int) : ℚ) = ((2 ^ 53 - 1 : Int) : ℚ) :=
    Binary.fl_intCast (by norm_num) (by norm_num)
  have hc : (Fl.of ((2 ^ 53 - 1 : Int) : ℚ) : Fl 𝔻).val = 2 ^ 53 - 1 := by
    show ((2 ^ 53 - 1 : Int) : ℚ) = 2 ^ 53 - 1
    norm_num
  have h1 := h (Fl.of ((2 ^ 53 - 1 : Int) : ℚ)) [1 / 2] (by simp) hnum
    (by
      intro x hx
      rw [List.mem_singleton.1 hx]
      have := Binary.fl_mul_pow (p := 53) (emin := -1074) (e := -1) (by norm_num) (n := 1) (by norm_num)
      norm_num at this ⊢
      exact this)
  obtain ⟨v, h2, h3⟩ := C95_drift _ hc _ rfl
  rw [h1] at h2
  rw [← Except.ok.inj h2, hc] at h3
  norm_num at h3

/-- `C95_constant_partial`: the constant 7 is reproduced at (-3, 0.3). -/
example : cubicFl (fun _ => .ok (Fl.of 7) : Position → Res (Fl 𝔻)) [-3, 3 / 10] = .ok (Fl.of 7) := by
  refine C95_constant_partial (by norm_num) (by norm_num) _ _ ?_ _ (by simp) ?_ fun _ _ => rfl
  · intro k hk
    show Binary.fl 53 (-1074) (k * 7) = k * 7
    have := Binary.fl_intCast (p := 53) (emin := -1074) (by norm_num) (n := k * 7) (by
      rw [abs_of_nonneg (by positivity)]
      omega)
    push_cast at this
    exact this
  · intro x hx
    simp only [List.mem_cons, List.not_mem_nil, or_false] at hx
    rcases hx with rfl | rfl <;> norm_num

/-- `C95_integral` and `C94_at_integers`: the values 5 i are those of pixels 3 and 4, at position 3. -/
example : let r : Position → Res (Fl 𝔻) := fun q => .ok (if q = [3] then Fl.of 15 else if q = [4] then Fl.of 20 else Fl.of 0)
    cubicFl r [3] = .ok (Fl.of 15) ∧ linearFl r [3] = .ok (Fl.of 20) := by
  intro r
  have hnum : ∀ n : Int, |n| < 2 ^ 53 → Binary.fl 53 (-1074) n = n := fun n hn => Binary.fl_intCast (by norm_num) hn
  have h0 := hnum 0 (by norm_num)
  have h3 := hnum 3 (by norm_num)
  have h15 := hnum 15 (by norm_num)
  have h20 := hnum 20 (by norm_num)
  push_cast at h0 h15 h20
  have hg : ∀ q : Position, Binary.fl 53 (-1074) (if q = [3] then Fl.of 15 else if q = [4] then Fl.of 20 else Fl.of 0 : Fl 𝔻).val =
      (if q = [3] then Fl.of 15 else if q = [4] then Fl.of 20 else Fl.of 0 : Fl 𝔻).val := by
    intro q
    split_ifs
    · exact h15
    · exact h20
    · exact h0
  have h1 := C95_integral (p := 53) (hp := by norm_num) (emin := -1074) (by norm_num) (by norm_num) r _ hg [3] (by simp)
    (by
      intro k hk
      rw [List.mem_singleton.1 hk]
      exact ⟨by norm_num, by norm_num, h3⟩) fun _ _ => rfl
  have h2 := C94_at_integers (p := 53) (hp := by norm_num) (emin := -1074) (by norm_num) r _ hg [3] (by simp)
    (by
      intro k hk
      rw [List.mem_singleton.1 hk]
      exact ⟨by norm_num, by norm_num, h3⟩) fun _ _ => rfl
  push_cast [List.map_cons, List.map_nil] at h1 h2
  exact ⟨h1, h2⟩

/-- `C95_accurate` and `C44_keys`: the constant 2^53 - 1 is interpolated with an error of 1, for a bound of about 180. -/
example : ∃ v : Fl 𝔻, cubicFl (fun _ => .ok (Fl.of (2 ^ 53 - 1))) [1 / 2] = .ok v ∧
    |v.val - cubic (fun _ => 2 ^ 53 - 1) [1 / 2]| ≤
      (5 / 4 + cubicRoundoff 53) ^ 1 * ((2 ^ 53 - 1) + (1 : Nat) * cubicUnderflow 53 (-1074)) - (5 / 4) ^ 1 * (2 ^ 53 - 1) := by
  have hnum : Binary.fl 53 (-1074) (2 ^ 53 - 1) = 2 ^ 53 - 1 := by
    have := Binary.fl_intCast (p := 53) (emin := -1074) (by norm_num) (n := 2 ^ 53 - 1) (by norm_num)
    rwa [show ((2 ^ 53 - 1 : Int) : ℚ) = 2 ^ 53 - 1 by norm_num] at this
  refine C95_accurate (p := 53) (hp := by norm_num) (emin := -1074) (by norm_num) (by norm_num) _ (fun _ => 2 ^ 53 - 1)
    (2 ^ 53 - 1) (by norm_num) [1 / 2] (by simp) ?_ fun q _ => ⟨rfl, hnum, by norm_num⟩
  intro x hx
  rw [List.mem_singleton.1 hx]
  refine ⟨by norm_num, by norm_num, ?_, by norm_num⟩
  have := Binary.fl_mul_pow (p := 53) (emin := -1074) (e := -1) (by norm_num) (n := 1) (by norm_num)
  norm_num at this ⊢
  exact this

example : cubicRoundoff 53 ≤ 181 * (1 / 2 ^ 53) := by
  unfold cubicRoundoff
  norm_num

end Litl
