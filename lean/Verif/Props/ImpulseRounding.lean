import Verif.Model.ImpulseRounding
import Verif.Lemmas.Rounding
import Verif.Props.Random

/-!
# C103: impulse noise in floating point arithmetic
-/

namespace Litl

open Random

namespace Spec

/-- The probability that a function of an index takes some value, if the index is drawn according to weights. -/
def chance {α : Type} [DecidableEq α] (weights : List ℚ) (f : Nat → α) (v : α) : ℚ :=
  (((List.range weights.length).filter fun i => f i = v).map fun i => weights.getD i 0).sum / weights.sum

end Spec

open Spec

namespace Random

/-- The error on numbers up to 1. -/
theorem double_error {x : ℚ} (h : |x| ≤ 1) : |double.fl x - x| ≤ 1 / 2 ^ 54 := by
  change |Binary.fl 53 (-1074) x - x| ≤ 1 / 2 ^ 54
  by_cases h0 : x = 0
  · subst h0; rw [Binary.fl_zero]; norm_num
  rcases h.lt_or_eq with h | h
  · refine (Binary.fl_error 53 (-1074) x).trans ?_
    have h1 : Binary.exponent 53 (-1074) x ≤ -53 := by
      have h2 : Int.log 2 |x| < 0 := (Int.lt_zpow_iff_log_lt (by norm_num) (abs_pos.2 h0)).1 (by simpa using h)
      unfold Binary.exponent
      push_cast
      omega
    have := zpow_le_zpow_right₀ (a := (2 : ℚ)) (by norm_num) h1
    norm_num at this ⊢
    linarith
  · have : Binary.fl 53 (-1074) x = x := by
      rcases abs_eq (by norm_num) |>.1 h with h | h <;> subst h
      · have := Binary.fl_intCast (p := 53) (emin := -1074) (by norm_num) (n := 1) (by norm_num)
        simpa using this
      · have := Binary.fl_intCast (p := 53) (emin := -1074) (by norm_num) (n := -1) (by norm_num)
        simpa using this
    rw [this]; norm_num

theorem double_mono {x y : ℚ} (h : x ≤ y) : double.fl x ≤ double.fl y := Binary.fl_mono (by norm_num) _ h

theorem double_one : double.fl 1 = 1 := by
  change Binary.fl 53 (-1074) 1 = 1
  have := Binary.fl_intCast (p := 53) (emin := -1074) (by norm_num) (n := 1) (by norm_num)
  simpa using this

theorem double_nonneg {x : ℚ} (h : 0 ≤ x) : 0 ≤ double.fl x := Binary.fl_nonneg h

theorem double_nonpos {x : ℚ} (h : x ≤ 0) : double.fl x ≤ 0 := Binary.fl_nonpos h

/-- The remaining probability, from some value. -/
def remaining (l : List ℚ) (c : ℚ) : ℚ := l.foldl (fun n q => double.fl (n - double.fl q)) c

theorem nullProbability_val {α : Type} (m : List (α × ℚ)) :
    (nullProbabilityFl (impulseMap m)).val = remaining (m.map Prod.snd) 1 := by
  have key : ∀ c : Fl double, ((impulseMap m).foldl (fun (n : Fl double) e => n - e.2) c).val =
      remaining (m.map Prod.snd) c.val := by
    induction m with
    | nil => intro c; rfl
    | cons e m ih =>
      intro c
      change ((impulseMap m).foldl (fun (n : Fl double) e => n - e.2) (c - Fl.of (double.fl e.2))).val = _
      rw [ih]
      rfl
  exact key _

/-- The remaining probability is not too large. -/
theorem remaining_le : ∀ (l : List ℚ) {c e k : ℚ}, (∀ q ∈ l, 0 ≤ q) → c ≤ 1 → 0 ≤ e → 0 ≤ k → c ≤ e + k →
    remaining l c ≤ max (e - l.sum) 0 + k + l.length / 2 ^ 53 := by
  intro l
  induction l with
  | nil =>
    intro c e k _ _ he hk h
    simp only [remaining, List.foldl_nil, List.sum_nil, sub_zero, List.length_nil, Nat.cast_zero, zero_div, add_zero]
    rw [max_eq_left he]
    exact h
  | cons q l ih =>
    intro c e k hl hc he hk h
    have hq := hl q (by simp)
    have hl' : ∀ q ∈ l, 0 ≤ q := fun x hx => hl x (by simp [hx])
    have hs : 0 ≤ l.sum := List.sum_nonneg hl'
    have hp := double_nonneg hq
    have h1 : double.fl (c - double.fl q) ≤ 1 := by
      have := double_mono (x := c - double.fl q) (y := 1) (by linarith)
      rwa [double_one] at this
    have h2 : double.fl (c - double.fl q) ≤ max (e - q) 0 + (k + 1 / 2 ^ 53) := by
      have h0 := le_max_right (e - q) 0
      have h0' := le_max_left (e - q) 0
      by_cases h3 : c - double.fl q ≤ 0
      · have := double_nonpos h3
        have : (0 : ℚ) ≤ 1 / 2 ^ 53 := by positivity
        linarith
      · have h4 : q ≤ 1 := by
          by_contra h5
          have := double_mono (not_le.1 h5).le
          rw [double_one] at this
          linarith
        have h5 := abs_le.1 (double_error (x := q) (by rw [abs_of_nonneg hq]; exact h4))
        have h6 := abs_le.1 (double_error (x := c - double.fl q) (by rw [abs_le]; constructor <;> linarith))
        have : (1 : ℚ) / 2 ^ 54 + 1 / 2 ^ 54 = 1 / 2 ^ 53 := by norm_num
        linarith
    have := ih hl' h1 (le_max_right (e - q) 0) (by positivity) h2
    refine this.trans ?_
    rw [List.sum_cons, List.length_cons]
    have h3 : max (max (e - q) 0 - l.sum) 0 ≤ max (e - (q + l.sum)) 0 := by
      refine max_le ?_ (le_max_right _ _)
      rcases le_total (e - q) 0 with h | h
      · rw [max_eq_right h]; exact le_trans (by linarith) (le_max_right _ _)
      · rw [max_eq_left h]; exact le_trans (by linarith) (le_max_left _ _)
    push_cast
    have e1 : ((l.length : ℚ) + 1) / 2 ^ 53 = l.length / 2 ^ 53 + 1 / 2 ^ 53 := by ring
    rw [e1]
    linarith

/-- The remaining probability is not too small. -/
theorem le_remaining : ∀ (l : List ℚ) {c e k : ℚ}, (∀ q ∈ l, 0 ≤ q) → c ≤ 1 → e ≤ 1 → l.sum ≤ e →
    k + l.length / 2 ^ 53 ≤ 1 → e - k ≤ c → e - l.sum - k - l.length / 2 ^ 53 ≤ remaining l c := by
  intro l
  induction l with
  | nil =>
    intro c e k _ _ _ _ _ h
    simp only [remaining, List.foldl_nil, List.sum_nil, sub_zero, List.length_nil, Nat.cast_zero, zero_div]
    exact h
  | cons q l ih =>
    intro c e k hl hc he hle hk h
    have hq := hl q (by simp)
    have hl' : ∀ q ∈ l, 0 ≤ q := fun x hx => hl x (by simp [hx])
    have hs : 0 ≤ l.sum := List.sum_nonneg hl'
    have hp := double_nonneg hq
    rw [List.sum_cons] at hle ⊢
    rw [List.length_cons] at hk ⊢
    push_cast at hk ⊢
    have e1 : ((l.length : ℚ) + 1) / 2 ^ 53 = l.length / 2 ^ 53 + 1 / 2 ^ 53 := by ring
    rw [e1] at hk ⊢
    have e2 : (1 : ℚ) / 2 ^ 54 + 1 / 2 ^ 54 = 1 / 2 ^ 53 := by norm_num
    have e3 : (0 : ℚ) ≤ l.length / 2 ^ 53 := by positivity
    have e4 : (0 : ℚ) ≤ 1 / 2 ^ 54 := by positivity
    have h1 : double.fl (c - double.fl q) ≤ 1 := by
      have := double_mono (x := c - double.fl q) (y := 1) (by linarith)
      rwa [double_one] at this
    have h5 := abs_le.1 (double_error (x := q) (by rw [abs_of_nonneg hq]; linarith))
    have h6 := abs_le.1 (double_error (x := c - double.fl q) (by rw [abs_le]; constructor <;> linarith))
    have := ih (c := double.fl (c - double.fl q)) (e := e - q) (k := k + 1 / 2 ^ 53) hl' h1 (by linarith) (by linarith)
      (by linarith) (by linarith)
    refine le_trans ?_ this
    linarith

/-- The tolerance is exact. -/
theorem tolerance_val {n : Nat} (h : n < 2 ^ 53) : (Fl.of epsilon * (n : Fl double) : Fl double).val = n / 2 ^ 52 := by
  rw [Fl.val_mul, Fl.val_natCast]
  have h1 : double.fl (n : ℚ) = n := by
    change Binary.fl 53 (-1074) n = n
    have := Binary.fl_intCast (p := 53) (emin := -1074) (by norm_num) (n := (n : Int)) (by
      rw [abs_of_nonneg (by positivity)]; exact_mod_cast h)
    simpa using this
  rw [h1]
  have := Binary.fl_mul_pow (p := 53) (emin := -1074) (e := -52) (by norm_num) (n := (n : Int)) (by
    rw [abs_of_nonneg (by positivity)]; exact_mod_cast h)
  have e : (epsilon : ℚ) * n = ((n : Int) : ℚ) * 2 ^ (-52 : Int) := by
    unfold epsilon
    push_cast
    rw [zpow_neg, show ((2 : ℚ) ^ (52 : Int)) = 2 ^ 52 by norm_cast]
    ring
  change double.fl (epsilon * n) = _
  rw [e]
  change Binary.fl 53 (-1074) _ = _
  rw [this, ← e, epsilon]
  ring

end Random

open Random

variable {α : Type}

theorem impulseWeightsFl_kept {m : List (α × ℚ)} (hn : m.length < 2 ^ 53)
    (h : (m.length : ℚ) / 2 ^ 52 < remaining (m.map Prod.snd) 1) :
    (impulseWeightsFl (impulseMap m)).map Fl.val =
      m.map (fun e => double.fl e.2) ++ [remaining (m.map Prod.snd) 1] := by
  unfold impulseWeightsFl
  have hl : (impulseMap m).length = m.length := by simp [impulseMap]
  rw [if_neg]
  · rw [List.map_append, List.map_singleton, nullProbability_val, impulseMap, List.map_map, List.map_map]
    rfl
  · rw [hl]
    change ¬ (_ : ℚ) ≤ _
    change ¬ (nullProbabilityFl (impulseMap m)).val ≤ (Fl.of epsilon * (m.length : Fl double) : Fl double).val
    rw [nullProbability_val, tolerance_val hn]
    exact not_le.2 h

theorem impulseWeightsFl_discarded {m : List (α × ℚ)} (hn : m.length < 2 ^ 53)
    (h : remaining (m.map Prod.snd) 1 ≤ (m.length : ℚ) / 2 ^ 52) :
    (impulseWeightsFl (impulseMap m)).map Fl.val = m.map (fun e => double.fl e.2) := by
  unfold impulseWeightsFl
  have hl : (impulseMap m).length = m.length := by simp [impulseMap]
  rw [if_pos]
  · rw [impulseMap, List.map_map, List.map_map]
    rfl
  · rw [hl]
    change (nullProbabilityFl (impulseMap m)).val ≤ (Fl.of epsilon * (m.length : Fl double) : Fl double).val
    rw [nullProbability_val, tolerance_val hn]
    exact h

/-- **C103**: if the requested probabilities sum to 1 or more, e.g. 10 times 0.1, then although they are rounded, as well
as the remaining probability, the input is never returned: the outcome is always one of the listed values. -/
theorem C103_always {m : List (α × ℚ)} (hq : ∀ e ∈ m, 0 ≤ e.2) (hn : m.length < 2 ^ 53) (hs : 1 ≤ (m.map Prod.snd).sum) :
    (impulseWeightsFl (impulseMap m)).length = m.length ∧
    ∀ index < (impulseWeightsFl (impulseMap m)).length, ∀ x, impulseCallFl (impulseMap m) index x ∈ m.map Prod.fst := by
  have h1 := remaining_le (m.map Prod.snd) (c := 1) (e := 1) (k := 0)
    (by intro q hq'; obtain ⟨e, he, rfl⟩ := List.mem_map.1 hq'; exact hq e he) le_rfl (by norm_num) le_rfl (by norm_num)
  rw [max_eq_right (by linarith), List.length_map] at h1
  have h2 : (m.length : ℚ) / 2 ^ 53 ≤ m.length / 2 ^ 52 := by
    have : (0 : ℚ) ≤ m.length := by positivity
    linarith
  have h3 := congrArg List.length (impulseWeightsFl_discarded hn (by linarith))
  simp only [List.length_map] at h3
  refine ⟨h3, fun i hi x => ?_⟩
  rw [h3] at hi
  unfold impulseCallFl
  have e : (impulseMap m).map Prod.fst = m.map Prod.fst := by rw [impulseMap, List.map_map]; rfl
  rw [e, if_pos (by simpa using hi), List.getD_eq_getElem?_getD, List.getElem?_eq_getElem (by simpa using hi), Option.getD_some]
  exact List.getElem_mem _

-- Ten times 0.1.
example : (impulseWeightsFl (impulseMap ((List.range 10).map fun i => (i, 1 / 10)))).length = 10 :=
  (C103_always (by simp) (by simp) (by simp [List.range_succ]; norm_num)).1

/-! ## Probabilities -/

theorem impulseCallFl_listed {m : List (α × ℚ)} {i : Nat} {e : α × ℚ} (hi : m[i]? = some e) (x : α) :
    impulseCallFl (impulseMap m) i x = e.1 := by
  have h : i < m.length := (List.getElem?_eq_some_iff.1 hi).1
  have e' : (impulseMap m).map Prod.fst = m.map Prod.fst := by rw [impulseMap, List.map_map]; rfl
  unfold impulseCallFl
  rw [e', if_pos (by simpa using h), List.getD_eq_getElem?_getD, List.getElem?_map, hi]
  rfl

theorem impulseCallFl_input {m : List (α × ℚ)} {i : Nat} (hi : m.length ≤ i) (x : α) :
    impulseCallFl (impulseMap m) i x = x := by
  unfold impulseCallFl
  rw [if_neg]
  simpa [impulseMap] using hi

theorem sum_filter_eq {n i : Nat} (f : Nat → ℚ) (P : Nat → Prop) [DecidablePred P] (hP : ∀ j < n, P j ↔ j = i) :
    (((List.range n).filter fun j => P j).map f).sum = if i < n then f i else 0 := by
  have h1 : (List.range n).filter (fun j => P j) = (List.range n).filter (fun j => j == i) := by
    refine List.filter_congr fun j hj => ?_
    rw [decide_eq_decide.2 (hP j (List.mem_range.1 hj))]
    rfl
  rw [h1, List.filter_beq]
  split_ifs with h
  · rw [List.count_eq_one_of_mem List.nodup_range (List.mem_range.2 h)]
    simp
  · rw [List.count_eq_zero_of_not_mem (by simpa using h)]
    simp

theorem chance_listed [DecidableEq α] {m : List (α × ℚ)} (hk : (m.map Prod.fst).Nodup) {i : Nat} {e : α × ℚ}
    (hi : m[i]? = some e) {x : α} (hx : x ≠ e.1) {w : List ℚ} (hw : m.length ≤ w.length) :
    chance w (fun j => impulseCallFl (impulseMap m) j x) e.1 = w.getD i 0 / w.sum := by
  have h : i < m.length := (List.getElem?_eq_some_iff.1 hi).1
  unfold chance
  rw [sum_filter_eq (i := i) (fun j => w.getD j 0) (fun j => impulseCallFl (impulseMap m) j x = e.1), if_pos (by omega)]
  intro j _
  constructor
  · intro h'
    rcases lt_or_ge j m.length with hj | hj
    · have e1 := List.getElem?_eq_getElem hj
      rw [impulseCallFl_listed e1] at h'
      have h2 := (List.getElem?_eq_some_iff.1 hi).2
      exact (hk.getElem_inj_iff (hi := by simpa using hj) (hj := by simpa using h)).1 (by simp [h', h2])
    · rw [impulseCallFl_input hj] at h'
      exact absurd h' hx
  · rintro rfl
    exact impulseCallFl_listed hi x

theorem chance_input [DecidableEq α] {m : List (α × ℚ)} {x : α} (hx : x ∉ m.map Prod.fst) {w : List ℚ}
    (hw : w.length ≤ m.length + 1) :
    chance w (fun j => impulseCallFl (impulseMap m) j x) x = w.getD m.length 0 / w.sum := by
  unfold chance
  rw [sum_filter_eq (i := m.length) (fun j => w.getD j 0) (fun j => impulseCallFl (impulseMap m) j x = x)]
  · split_ifs with h
    · rfl
    · rw [List.getD_eq_getElem?_getD, List.getElem?_eq_none (by omega)]
      rfl
  intro j hj
  constructor
  · intro h'
    rcases lt_or_ge j m.length with hj | hj
    · rw [impulseCallFl_listed (List.getElem?_eq_getElem hj)] at h'
      exact absurd (List.mem_map.2 ⟨_, List.getElem_mem hj, h'⟩) hx
    · omega
  · rintro rfl
    exact impulseCallFl_input le_rfl x

theorem ratio_near {p q a W S b : ℚ} (hp : |p - q| ≤ a) (hW : |W - S| ≤ b) (hq : 0 ≤ q) (hqS : q ≤ S) (hS : 1 ≤ S)
    (hb : b ≤ S / 2) : |p / W - q / S| ≤ 2 * (a + b) / S := by
  have h1 := abs_le.1 hW
  have hW0 : S / 2 ≤ W := by linarith
  have hWp : 0 < W := by linarith
  have hSp : 0 < S := by linarith
  have e : p / W - q / S = ((p - q) * S + q * (S - W)) / (W * S) := by field_simp; ring
  have ha : 0 ≤ a := (abs_nonneg _).trans hp
  have hb0 : 0 ≤ b := (abs_nonneg _).trans hW
  rw [e, abs_div, abs_of_pos (mul_pos hWp hSp), div_le_div_iff₀ (mul_pos hWp hSp) hSp]
  have h2 : |(p - q) * S + q * (S - W)| ≤ a * S + S * b := by
    refine (abs_add_le _ _).trans ?_
    rw [abs_mul, abs_mul, abs_of_pos hSp, abs_of_nonneg hq, abs_sub_comm S W]
    have := mul_le_mul_of_nonneg_right hp hSp.le
    have := mul_le_mul hqS hW (abs_nonneg _) hSp.le
    linarith
  calc |(p - q) * S + q * (S - W)| * S ≤ (a * S + S * b) * S := mul_le_mul_of_nonneg_right h2 hSp.le
    _ = (a + b) * S * S := by ring
    _ ≤ (a + b) * S * (2 * W) := mul_le_mul_of_nonneg_left (by linarith) (by positivity)
    _ = 2 * (a + b) * (W * S) := by ring

theorem sum_near : ∀ (l : List ℚ) (u v : ℚ), (∀ q ∈ l, 0 ≤ q) → (∀ q ∈ l, |double.fl q - q| ≤ u * q + v) →
    |(l.map double.fl).sum - l.sum| ≤ u * l.sum + l.length * v := by
  intro l u v
  induction l with
  | nil => simp
  | cons q l ih =>
    intro h1 h2
    have h3 := ih (fun x hx => h1 x (by simp [hx])) fun x hx => h2 x (by simp [hx])
    have h4 := h2 q (by simp)
    rw [List.map_cons, List.sum_cons, List.sum_cons, List.length_cons]
    push_cast
    rw [abs_le] at *
    constructor <;> linarith [h3.1, h3.2, h4.1, h4.2]

/-- The weights, their sum, and how far they are from what is requested. -/
theorem weights_near {m : List (α × ℚ)} (hq : ∀ e ∈ m, 0 ≤ e.2) (hn : m.length ≤ 2 ^ 50) :
    ∀ w s, w = (impulseWeightsFl (impulseMap m)).map Fl.val → s = (m.map Prod.snd).sum →
    m.length ≤ w.length ∧ w.length ≤ m.length + 1 ∧
    (∀ (i : Nat) (e : α × ℚ), m[i]? = some e → |w.getD i 0 / w.sum - e.2 / max 1 s| ≤ m.length / 2 ^ 50) ∧
    |w.getD m.length 0 / w.sum - (1 - s / max 1 s)| ≤ m.length / 2 ^ 50 := by
  intro w s hw0 hs1
  have hl : ∀ q ∈ m.map Prod.snd, 0 ≤ q := by
    intro q hq'; obtain ⟨e, he, rfl⟩ := List.mem_map.1 hq'; exact hq e he
  have hs0 : 0 ≤ s := hs1 ▸ List.sum_nonneg hl
  have hle : ∀ e ∈ m, e.2 ≤ s := fun e he => hs1 ▸ List.single_le_sum hl _ (List.mem_map.2 ⟨e, he, rfl⟩)
  have hN : (m.length : ℚ) ≤ 2 ^ 50 := by exact_mod_cast hn
  have hN0 : (0 : ℚ) ≤ m.length := by positivity
  have hup := remaining_le (m.map Prod.snd) (c := 1) (e := 1) (k := 0) hl le_rfl (by norm_num) le_rfl (by norm_num)
  rw [List.length_map] at hup
  have hmap : m.map (fun e => double.fl e.2) = (m.map Prod.snd).map double.fl := by rw [List.map_map]; rfl
  have hget : ∀ (i : Nat) (e : α × ℚ), m[i]? = some e → ∀ t : List ℚ,
      (m.map (fun e => double.fl e.2) ++ t).getD i 0 = double.fl e.2 := by
    intro i e hi t
    have h : i < m.length := (List.getElem?_eq_some_iff.1 hi).1
    rw [List.getD_eq_getElem?_getD, List.getElem?_append_left (by simpa using h), List.getElem?_map, hi]
    rfl
  have hpos : ∀ (i : Nat) (e : α × ℚ), m[i]? = some e → (1 : ℚ) ≤ m.length := by
    intro i e hi
    have h : i < m.length := (List.getElem?_eq_some_iff.1 hi).1
    exact_mod_cast (by omega : 1 ≤ m.length)
  have e1 : (m.length : ℚ) / 2 ^ 52 = 2 * (m.length / 2 ^ 53) := by ring
  have e2 : (m.length : ℚ) / 2 ^ 50 = 8 * (m.length / 2 ^ 53) := by ring
  have e3 : (m.length : ℚ) * (1 / 2 ^ 54) = m.length / 2 ^ 53 / 2 := by ring
  have e4 : ∀ N : ℚ, 1 ≤ N → (1 : ℚ) / 2 ^ 54 ≤ N / 2 ^ 53 / 2 := by intro N hN; norm_num; linarith
  have hK : (m.length : ℚ) / 2 ^ 53 ≤ 1 / 8 := by
    rw [div_le_div_iff₀ (by norm_num) (by norm_num)]; linarith
  have hK0 : (0 : ℚ) ≤ m.length / 2 ^ 53 := by positivity
  set K := (m.length : ℚ) / 2 ^ 53 with hKdef
  rcases le_or_gt s 1 with hs | hs
  · have hmax : max 1 s = 1 := max_eq_left hs
    have hlow := le_remaining (m.map Prod.snd) (c := 1) (e := 1) (k := 0) hl le_rfl le_rfl (hs1 ▸ hs)
      (by rw [List.length_map, ← hKdef]; linarith) (by norm_num)
    rw [List.length_map, ← hKdef] at hlow
    rw [max_eq_left (by linarith)] at hup
    have hone : ∀ e ∈ m, |double.fl e.2 - e.2| ≤ 1 / 2 ^ 54 := fun e he =>
      double_error (by rw [abs_of_nonneg (hq e he)]; exact (hle e he).trans hs)
    have hsum := sum_near (m.map Prod.snd) 0 (1 / 2 ^ 54) hl (by
      intro q hq'
      obtain ⟨e, he, rfl⟩ := List.mem_map.1 hq'
      have := hone e he
      rwa [zero_mul, zero_add])
    rw [zero_mul, zero_add, List.length_map, e3] at hsum
    rw [hmax]
    simp only [div_one]
    have hsum' := abs_le.1 hsum
    rw [← hs1] at hup hlow hsum'
    rcases le_or_gt (remaining (m.map Prod.snd) 1) ((m.length : ℚ) / 2 ^ 52) with hd | hd
    · have hw : w = m.map (fun e => double.fl e.2) := hw0.trans <| impulseWeightsFl_discarded (by omega) hd
      rw [e1] at hd
      rw [hw]
      have hW : |(m.map (fun e => double.fl e.2)).sum - 1| ≤ 7 / 2 * K := by
        rw [hmap, abs_le]; constructor <;> linarith [hsum'.1, hsum'.2]
      refine ⟨by simp, by simp, fun i e hi => ?_, ?_⟩
      · have he : e ∈ m := List.mem_of_getElem? hi
        have h1 := hget i e hi []
        rw [List.append_nil] at h1
        rw [h1]
        have := ratio_near (hone e he) hW (hq e he) ((hle e he).trans hs) le_rfl (by linarith)
        rw [div_one, div_one] at this
        refine this.trans ?_
        have := e4 _ (hpos i e hi)
        rw [e2]
        linarith
      · rw [List.getD_eq_getElem?_getD, List.getElem?_eq_none (by simp), Option.getD_none, zero_div, e2, abs_le]
        constructor <;> linarith
    · have hw : w = _ := hw0.trans <| impulseWeightsFl_kept (by omega) hd
      rw [hw]
      have hW : |(m.map (fun e => double.fl e.2) ++ [remaining (m.map Prod.snd) 1]).sum - 1| ≤ 3 / 2 * K := by
        rw [hmap, List.sum_append, List.sum_singleton, abs_le]; constructor <;> linarith [hsum'.1, hsum'.2]
      refine ⟨by simp, by simp, fun i e hi => ?_, ?_⟩
      · have he : e ∈ m := List.mem_of_getElem? hi
        rw [hget i e hi]
        have := ratio_near (hone e he) hW (hq e he) ((hle e he).trans hs) le_rfl (by linarith)
        rw [div_one, div_one] at this
        refine this.trans ?_
        have := e4 _ (hpos i e hi)
        rw [e2]
        linarith
      · have h1 : (m.map (fun e => double.fl e.2) ++ [remaining (m.map Prod.snd) 1]).getD m.length 0 =
            remaining (m.map Prod.snd) 1 := by
          rw [List.getD_eq_getElem?_getD, List.getElem?_append_right (by simp)]
          simp
        rw [h1]
        have := ratio_near (p := remaining (m.map Prod.snd) 1) (q := 1 - s) (a := K)
          (by rw [abs_le]; constructor <;> linarith) hW (by linarith) (by linarith) le_rfl (by linarith)
        rw [div_one, div_one] at this
        refine this.trans ?_
        rw [e2]
        linarith
  · have hmax : max 1 s = s := max_eq_right hs.le
    rw [max_eq_right (by linarith)] at hup
    have hw : w = m.map (fun e => double.fl e.2) := hw0.trans <| impulseWeightsFl_discarded (by omega) (by rw [e1]; linarith)
    have heta : double.eta ≤ 1 / 2 ^ 54 := by
      change (2 : ℚ) ^ (-1074 : Int) / 2 ≤ 1 / 2 ^ 54
      have := zpow_le_zpow_right₀ (a := (2 : ℚ)) (by norm_num) (by norm_num : (-1074 : Int) ≤ -53)
      have e : (2 : ℚ) ^ (-53 : Int) = 1 / 2 ^ 53 := by rw [zpow_neg, one_div]; norm_cast
      rw [e] at this
      linarith [show (1 : ℚ) / 2 ^ 54 = 1 / 2 ^ 53 / 2 by norm_num]
    have hone : ∀ e ∈ m, |double.fl e.2 - e.2| ≤ 1 / 2 ^ 53 * e.2 + 1 / 2 ^ 54 := by
      intro e he
      have := double.near e.2
      rw [abs_of_nonneg (hq e he)] at this
      change _ ≤ 1 / 2 ^ 53 * e.2 + _ at this
      linarith
    have hsum := sum_near (m.map Prod.snd) (1 / 2 ^ 53) (1 / 2 ^ 54) hl (by
      intro q hq'
      obtain ⟨e, he, rfl⟩ := List.mem_map.1 hq'
      exact hone e he)
    rw [List.length_map, e3, ← hs1, ← hmap] at hsum
    rw [hw, hmax]
    refine ⟨by simp, by simp, fun i e hi => ?_, ?_⟩
    · have he : e ∈ m := List.mem_of_getElem? hi
      have h1 := hget i e hi []
      rw [List.append_nil] at h1
      rw [h1]
      have h2 := ratio_near (hone e he) hsum (hq e he) (hle e he) hs.le (by
        linarith)
      refine h2.trans ?_
      rw [div_le_iff₀ (by linarith), e2]
      have h3 := hle e he
      have h4 := hpos i e hi
      have h5 : (1 : ℚ) / 2 ^ 53 ≤ K := by rw [hKdef]; gcongr
      have h6 : K ≤ K * s := by nlinarith
      have h7 : 1 / 2 ^ 53 * s ≤ K * s := mul_le_mul_of_nonneg_right h5 hs0
      have h8 : (1 : ℚ) / 2 ^ 53 * e.2 ≤ 1 / 2 ^ 53 * s := mul_le_mul_of_nonneg_left h3 (by norm_num)
      have h9 := e4 _ h4
      rw [← hKdef] at h9
      linarith
    · rw [List.getD_eq_getElem?_getD, List.getElem?_eq_none (by simp), Option.getD_none, zero_div,
        div_self (by linarith), e2]
      simp only [sub_self, abs_zero]
      linarith

/-- **C103**: each listed value is the outcome with the probability which is requested, or the requested probability
divided by the sum of them if it is more than one, but for a small error, whatever the other values and their order. -/
theorem C103_listed [DecidableEq α] {m : List (α × ℚ)} (hq : ∀ e ∈ m, 0 ≤ e.2) (hk : (m.map Prod.fst).Nodup)
    (hn : m.length ≤ 2 ^ 50) {v : α} {q : ℚ} (hv : (v, q) ∈ m) {x : α} (hx : x ≠ v) :
    |chance ((impulseWeightsFl (impulseMap m)).map Fl.val) (fun index => impulseCallFl (impulseMap m) index x) v -
      q / max 1 (m.map Prod.snd).sum| ≤ m.length / 2 ^ 50 := by
  obtain ⟨h1, _, h3, _⟩ := weights_near hq hn _ _ rfl rfl
  obtain ⟨i, hi⟩ := List.mem_iff_getElem?.1 hv
  have h2 : chance _ (fun index => impulseCallFl (impulseMap m) index x) v = _ := chance_listed hk hi hx h1
  have h4 := h3 i (v, q) hi
  rw [h2]
  exact h4

/-- **C103**: the input is untouched with the remaining probability (0 if the sum is more than one), but for a small
error. -/
theorem C103_input [DecidableEq α] {m : List (α × ℚ)} (hq : ∀ e ∈ m, 0 ≤ e.2) (hn : m.length ≤ 2 ^ 50) {x : α}
    (hx : x ∉ m.map Prod.fst) :
    |chance ((impulseWeightsFl (impulseMap m)).map Fl.val) (fun index => impulseCallFl (impulseMap m) index x) x -
      max 0 (1 - (m.map Prod.snd).sum)| ≤ m.length / 2 ^ 50 := by
  obtain ⟨_, h2, _, h4⟩ := weights_near hq hn _ _ rfl rfl
  rw [chance_input hx h2]
  have e : max 0 (1 - (m.map Prod.snd).sum) = 1 - (m.map Prod.snd).sum / max 1 (m.map Prod.snd).sum := by
    rcases le_total (m.map Prod.snd).sum 1 with h | h
    · rw [max_eq_left h, max_eq_right (by linarith), div_one]
    · rw [max_eq_right h, max_eq_left (by linarith), div_self (by linarith), sub_self]
  rw [e]
  exact h4

/-- **C103**: the tolerance is necessary: the remaining probability may be positive although the requested probabilities
sum to 1, here 2/3 and 1/3. -/
theorem C103_tolerance : ∃ m : List (Int × ℚ), (∀ e ∈ m, 0 ≤ e.2) ∧ (m.map Prod.snd).sum = 1 ∧
    0 < (nullProbabilityFl (impulseMap m)).val := by
  refine ⟨[(0, 2 / 3), (1, 1 / 3)], by norm_num, by norm_num, ?_⟩
  rw [nullProbability_val]
  have h53 : (2 : ℚ) ^ (-53 : Int) = 1 / 2 ^ 53 := by rw [zpow_neg, one_div]; norm_cast
  have h54 : (2 : ℚ) ^ (-54 : Int) = 1 / 2 ^ 54 := by rw [zpow_neg, one_div]; norm_cast
  have h1 : double.fl (2 / 3) = 6004799503160661 / 2 ^ 53 := by
    have := Binary.fl_eq (p := 53) (emin := -1074) (e := -53) (by norm_num) (x := 2 / 3) (m := 6004799503160661)
      (by norm_num) (by norm_num) (by rw [h53]; norm_num [abs_lt])
    change Binary.fl 53 (-1074) _ = _
    rw [this, h53]; norm_num
  have h2 : double.fl (1 / 3) = 6004799503160661 / 2 ^ 54 := by
    have := Binary.fl_eq (p := 53) (emin := -1074) (e := -54) (by norm_num) (x := 1 / 3) (m := 6004799503160661)
      (by norm_num) (by norm_num) (by rw [h54]; norm_num [abs_lt])
    change Binary.fl 53 (-1074) _ = _
    rw [this, h54]; norm_num
  have h3 : double.fl (1 - 6004799503160661 / 2 ^ 53) = 3002399751580331 / 2 ^ 53 := by
    have := Binary.fl_mul_pow (p := 53) (emin := -1074) (e := -53) (by norm_num) (n := 3002399751580331) (by norm_num)
    rw [h53] at this
    have e : (1 : ℚ) - 6004799503160661 / 2 ^ 53 = (3002399751580331 : Int) * (1 / 2 ^ 53) := by norm_num
    rw [e]
    change Binary.fl 53 (-1074) _ = _
    rw [this]; norm_num
  have h4 : double.fl (3002399751580331 / 2 ^ 53 - 6004799503160661 / 2 ^ 54) = 1 / 2 ^ 54 := by
    have := Binary.fl_mul_pow (p := 53) (emin := -1074) (e := -54) (by norm_num) (n := 1) (by norm_num)
    rw [h54] at this
    have e : (3002399751580331 : ℚ) / 2 ^ 53 - 6004799503160661 / 2 ^ 54 = (1 : Int) * (1 / 2 ^ 54) := by norm_num
    rw [e]
    change Binary.fl 53 (-1074) _ = _
    rw [this]; norm_num
  simp only [remaining, List.map_cons, List.map_nil, List.foldl_cons, List.foldl_nil, h1, h2, h3, h4]
  norm_num

/-! ## Maps -/

theorem mapInsert_keys [LinearOrder α] (k : α) (p : ℚ) : ∀ m : List (α × ℚ), (m.map Prod.fst).Pairwise (· < ·) →
    ((mapInsert k p m).map Prod.fst).Pairwise (· < ·) ∧
      ∀ a, a ∈ (mapInsert k p m).map Prod.fst ↔ a = k ∨ a ∈ m.map Prod.fst := by
  intro m
  induction m with
  | nil => intro _; simp [mapInsert]
  | cons e m ih =>
    intro h
    obtain ⟨k', p'⟩ := e
    rw [List.map_cons, List.pairwise_cons] at h
    obtain ⟨h1, h2⟩ := ih h.2
    unfold mapInsert
    split_ifs with c1 c2
    · refine ⟨?_, fun a => by simp⟩
      rw [List.map_cons, List.map_cons, List.pairwise_cons, List.pairwise_cons]
      refine ⟨fun a ha => ?_, h⟩
      rcases List.mem_cons.1 ha with rfl | ha
      · exact c1
      · exact c1.trans (h.1 a ha)
    · subst c2
      refine ⟨?_, fun a => by simp⟩
      rw [List.map_cons, List.pairwise_cons]
      exact h
    · refine ⟨?_, fun a => ?_⟩
      · rw [List.map_cons, List.pairwise_cons]
        refine ⟨fun a ha => ?_, h1⟩
        rcases (h2 a).1 ha with rfl | ha
        · exact lt_of_le_of_ne (not_lt.1 c1) fun h => c2 h.symm
        · exact h.1 a ha
      · rw [List.map_cons, List.mem_cons, h2, List.map_cons, List.mem_cons]
        tauto

/-- **C103**: the values of a map are distinct, as `C103_listed` requires, however the map is written. -/
theorem C103_distinct [LinearOrder α] (l : List (α × ℚ)) :
    ((mapOf l).map Prod.fst).Nodup ∧ ∀ a, a ∈ (mapOf l).map Prod.fst ↔ a ∈ l.map Prod.fst := by
  have key : ∀ (l m : List (α × ℚ)), (m.map Prod.fst).Pairwise (· < ·) →
      ((l.foldl (fun m e => mapInsert e.1 e.2 m) m).map Prod.fst).Pairwise (· < ·) ∧
        ∀ a, a ∈ (l.foldl (fun m e => mapInsert e.1 e.2 m) m).map Prod.fst ↔ a ∈ m.map Prod.fst ∨ a ∈ l.map Prod.fst := by
    intro l
    induction l with
    | nil => intro m h; exact ⟨h, by simp⟩
    | cons e l ih =>
      intro m h
      obtain ⟨h1, h2⟩ := mapInsert_keys e.1 e.2 m h
      obtain ⟨h3, h4⟩ := ih _ h1
      refine ⟨h3, fun a => ?_⟩
      rw [List.foldl_cons, h4, h2, List.map_cons, List.mem_cons]
      tauto
  obtain ⟨h1, h2⟩ := key l [] (by simp)
  exact ⟨h1.imp fun h => h.ne, fun a => by rw [mapOf, h2]; simp⟩

/-- Salt and pepper: 255 with probability 0.1, 0 with probability 0.2, and 42 is untouched with probability 0.7. -/
example :
    let m := saltAndPepper (1 / 10) (1 / 5) (255 : Int) 0
    let noise := fun index => impulseCallFl (impulseMap m) index 42
    let w := (impulseWeightsFl (impulseMap m)).map Fl.val
    |chance w noise 255 - 1 / 10| ≤ 2 / 2 ^ 50 ∧ |chance w noise 0 - 1 / 5| ≤ 2 / 2 ^ 50 ∧
      |chance w noise 42 - 7 / 10| ≤ 2 / 2 ^ 50 := by
  intro m noise w
  have e : m = [(0, 1 / 5), (255, 1 / 10)] := by simp [m, saltAndPepper, mapOf, mapInsert]
  have hq : ∀ e ∈ m, 0 ≤ e.2 := by rw [e]; norm_num
  have hn : m.length ≤ 2 ^ 50 := by rw [e]; norm_num
  have hl : (m.length : ℚ) = 2 := by rw [e]; norm_num
  have hs : (m.map Prod.snd).sum = 3 / 10 := by rw [e]; norm_num
  have hk : (m.map Prod.fst).Nodup := by rw [e]; decide
  refine ⟨?_, ?_, ?_⟩
  · have := C103_listed hq hk hn (v := 255) (q := 1 / 10) (by rw [e]; simp) (x := 42) (by decide)
    rw [hs, hl, max_eq_left (by norm_num), div_one] at this
    exact this
  · have := C103_listed hq hk hn (v := 0) (q := 1 / 5) (by rw [e]; simp) (x := 42) (by decide)
    rw [hs, hl, max_eq_left (by norm_num), div_one] at this
    exact this
  · have := C103_input hq hn (x := 42) (by rw [e]; decide)
    rw [hs, hl, max_eq_right (by norm_num), show (1 : ℚ) - 3 / 10 = 7 / 10 by norm_num] at this
    exact this

end Litl
