import Verif.Model.Hsv
import Mathlib.Algebra.Order.Floor.Ring
import Mathlib.Data.Rat.Floor
import Mathlib.Tactic.Linarith
import Mathlib.Tactic.FieldSimp
import Mathlib.Tactic.Ring

/-!
# C112: color conversion

"A HSV (hue, saturation, value) color with H in [0, 360), and S and V in [0, 1]"
(LitlDemo/tests/src/LitlDemoChannels_test.cpp:27).
-/

namespace Litl

open Litl.Channels

namespace Spec

/-- `x` modulo 6. -/
def mod6 (x : ℚ) : ℚ := x - 6 * (⌊x / 6⌋ : Int)

/-- A channel of the RGB color of a HSV color, with the usual formula, where `n` is 5 for the red one, 3 for the green one and
1 for the blue one. -/
def channelOf (h s v n : ℚ) : ℚ :=
  v - v * s * max 0 (min (min (mod6 (n + h / 60)) (4 - mod6 (n + h / 60))) 1)

/-- The HSV color is well defined, in the documented ranges, and it is that of the RGB color. -/
def IsHsvOf (red green blue : Int) (c : Hsv) : Prop :=
  ∃ h s v, c = ⟨some h, some s, some v⟩ ∧ (0 ≤ h ∧ h < 360) ∧ (0 ≤ s ∧ s ≤ 1) ∧ (0 ≤ v ∧ v ≤ 1) ∧
    channelOf h s v 5 = red / 255 ∧ channelOf h s v 3 = green / 255 ∧ channelOf h s v 1 = blue / 255

/-- A component of a color. -/
def Byte (x : Int) : Prop := 0 ≤ x ∧ x ≤ 255

end Spec

open Spec

/-- **C112**, full statement: the conversion of any color is well defined, in the documented ranges, and equivalent to it. -/
def C112_Statement : Prop :=
  ∀ red green blue : Int, Byte red → Byte green → Byte blue → IsHsvOf red green blue (rgbToHsv red green blue)

/-- **C112** is violated: the members of gray colors are not initialized. -/
theorem C112_violated : ¬ C112_Statement := by
  intro h
  obtain ⟨a, b, c, he, -⟩ := h 0 0 0 ⟨by decide, by decide⟩ ⟨by decide, by decide⟩ ⟨by decide, by decide⟩
  have : rgbToHsv 0 0 0 = ⟨none, none, none⟩ := by simp [rgbToHsv]
  rw [this] at he
  exact nomatch he

theorem mod6_low {x : ℚ} (h0 : 0 ≤ x) (h1 : x < 6) : mod6 x = x := by
  have : ⌊x / 6⌋ = 0 := Int.floor_eq_iff.2 ⟨by push_cast; linarith, by push_cast; linarith⟩
  rw [mod6, this]; simp

theorem mod6_high {x : ℚ} (h0 : 6 ≤ x) (h1 : x < 12) : mod6 x = x - 6 := by
  have : ⌊x / 6⌋ = 1 := Int.floor_eq_iff.2 ⟨by push_cast; linarith, by push_cast; linarith⟩
  rw [mod6, this]; simp

theorem wave_up {k : ℚ} (h0 : 0 ≤ k) (h1 : k ≤ 1) : max 0 (min (min k (4 - k)) 1) = k := by
  rw [min_eq_left (by linarith : k ≤ 4 - k), min_eq_left h1, max_eq_right h0]

theorem wave_top {k : ℚ} (h0 : 1 ≤ k) (h1 : k ≤ 3) : max 0 (min (min k (4 - k)) 1) = 1 := by
  rw [min_eq_right (le_min h0 (by linarith)), max_eq_right (by norm_num)]

theorem wave_down {k : ℚ} (h0 : 3 ≤ k) (h1 : k ≤ 4) : max 0 (min (min k (4 - k)) 1) = 4 - k := by
  rw [min_eq_right (by linarith : 4 - k ≤ k), min_eq_left (by linarith), max_eq_right (by linarith)]

theorem wave_null {k : ℚ} (h0 : 4 ≤ k) : max 0 (min (min k (4 - k)) 1) = 0 :=
  max_eq_left ((min_le_left _ _).trans ((min_le_right _ _).trans (by linarith)))

/-- A channel, with its position `x` on the color wheel. -/
theorem channelOf_low {x s v n w : ℚ} (h0 : 0 ≤ n + x) (h1 : n + x < 6)
    (h : max 0 (min (min (n + x) (4 - (n + x))) 1) = w) : channelOf (60 * x) s v n = v - v * s * w := by
  rw [channelOf, mul_div_cancel_left₀ x (by norm_num : (60 : ℚ) ≠ 0), mod6_low h0 h1, h]

theorem channelOf_high {x s v n w : ℚ} (h0 : 6 ≤ n + x) (h1 : n + x < 12)
    (h : max 0 (min (min (n + x - 6) (4 - (n + x - 6))) 1) = w) : channelOf (60 * x) s v n = v - v * s * w := by
  rw [channelOf, mul_div_cancel_left₀ x (by norm_num : (60 : ℚ) ≠ 0), mod6_high h0 h1, h]

/-- The hue, in sectors of the color wheel. -/
theorem hue_eq {r g b mx d : ℚ} (hd : 0 < d) :
    hue r g b mx d =
      let x := if r = mx then (g - b) / d else if g = mx then 2 + (b - r) / d else 4 + (r - g) / d
      if x < 0 then 60 * (x + 6) else if x ≥ 6 then 60 * (x - 6) else 60 * x := by
  have e1 : (60 * (mx - b) + 180 * d) / d - (60 * (mx - g) + 180 * d) / d = 60 * ((g - b) / d) := by
    field_simp; ring
  have e2 : 120 + (60 * (mx - r) + 180 * d) / d - (60 * (mx - b) + 180 * d) / d = 60 * (2 + (b - r) / d) := by
    field_simp; ring
  have e3 : 240 + (60 * (mx - g) + 180 * d) / d - (60 * (mx - r) + 180 * d) / d = 60 * (4 + (r - g) / d) := by
    field_simp; ring
  unfold hue
  dsimp only
  rw [e1, e2, e3, ← apply_ite (fun x : ℚ => 60 * x) (g = mx), ← apply_ite (fun x : ℚ => 60 * x) (r = mx)]
  generalize (if r = mx then (g - b) / d else if g = mx then 2 + (b - r) / d else 4 + (r - g) / d) = x
  by_cases h1 : x < 0
  · rw [if_pos h1, if_pos (by linarith)]; ring
  · rw [if_neg h1, if_neg (by linarith)]
    by_cases h2 : x ≥ 6
    · rw [if_pos h2, if_pos (by linarith)]; ring
    · rw [if_neg h2, if_neg (by push Not at *; linarith)]

/-- What is to be proved, for the position `x` on the color wheel. -/
theorem channels_of {x s v d r g b : ℚ} (hvs : v * s = d)
    (h : (0 ≤ x ∧ x ≤ 1 ∧ r = v ∧ b = v - d ∧ x * d = g - b) ∨ (1 ≤ x ∧ x ≤ 2 ∧ g = v ∧ b = v - d ∧ (x - 2) * d = b - r) ∨
      (2 ≤ x ∧ x ≤ 3 ∧ g = v ∧ r = v - d ∧ (x - 2) * d = b - r) ∨ (3 ≤ x ∧ x ≤ 4 ∧ b = v ∧ r = v - d ∧ (x - 4) * d = r - g) ∨
      (4 ≤ x ∧ x ≤ 5 ∧ b = v ∧ g = v - d ∧ (x - 4) * d = r - g) ∨ (5 ≤ x ∧ x < 6 ∧ r = v ∧ g = v - d ∧ (x - 6) * d = g - b)) :
    channelOf (60 * x) s v 5 = r ∧ channelOf (60 * x) s v 3 = g ∧ channelOf (60 * x) s v 1 = b := by
  rcases h with ⟨h0, h1, e1, e2, e3⟩ | ⟨h0, h1, e1, e2, e3⟩ | ⟨h0, h1, e1, e2, e3⟩ | ⟨h0, h1, e1, e2, e3⟩ |
    ⟨h0, h1, e1, e2, e3⟩ | ⟨h0, h1, e1, e2, e3⟩
  · refine ⟨?_, ?_, ?_⟩
    · rcases h1.lt_or_eq with h1 | h1
      · rw [channelOf_low (by linarith) (by linarith) (wave_null (by linarith))]; linarith
      · rw [channelOf_high (by linarith) (by linarith) (wave_up (by linarith) (by linarith)), h1]; linarith
    · rw [channelOf_low (by linarith) (by linarith) (wave_down (by linarith) (by linarith)), hvs]
      linarith
    · rw [channelOf_low (by linarith) (by linarith) (wave_top (by linarith) (by linarith)), hvs]
      linarith
  · refine ⟨?_, ?_, ?_⟩
    · rw [channelOf_high (by linarith) (by linarith) (wave_up (by linarith) (by linarith)), hvs]
      linarith
    · rw [channelOf_low (by linarith) (by linarith) (wave_null (by linarith))]; linarith
    · rw [channelOf_low (by linarith) (by linarith) (wave_top (by linarith) (by linarith)), hvs]
      linarith
  · refine ⟨?_, ?_, ?_⟩
    · rw [channelOf_high (by linarith) (by linarith) (wave_top (by linarith) (by linarith)), hvs]
      linarith
    · rcases h1.lt_or_eq with h1 | h1
      · rw [channelOf_low (by linarith) (by linarith) (wave_null (by linarith))]; linarith
      · rw [channelOf_high (by linarith) (by linarith) (wave_up (by linarith) (by linarith)), h1]; linarith
    · rw [channelOf_low (by linarith) (by linarith) (wave_down (by linarith) (by linarith)), hvs]
      linarith
  · refine ⟨?_, ?_, ?_⟩
    · rw [channelOf_high (by linarith) (by linarith) (wave_top (by linarith) (by linarith)), hvs]
      linarith
    · rw [channelOf_high (by linarith) (by linarith) (wave_up (by linarith) (by linarith)), hvs]
      linarith
    · rw [channelOf_low (by linarith) (by linarith) (wave_null (by linarith))]; linarith
  · refine ⟨?_, ?_, ?_⟩
    · rw [channelOf_high (by linarith) (by linarith) (wave_down (by linarith) (by linarith)), hvs]
      linarith
    · rw [channelOf_high (by linarith) (by linarith) (wave_top (by linarith) (by linarith)), hvs]
      linarith
    · rcases h1.lt_or_eq with h1 | h1
      · rw [channelOf_low (by linarith) (by linarith) (wave_null (by linarith))]; linarith
      · rw [channelOf_high (by linarith) (by linarith) (wave_up (by linarith) (by linarith)), h1]; linarith
  · refine ⟨?_, ?_, ?_⟩
    · rw [channelOf_high (by linarith) (by linarith) (wave_null (by linarith))]; linarith
    · rw [channelOf_high (by linarith) (by linarith) (wave_top (by linarith) (by linarith)), hvs]
      linarith
    · rw [channelOf_high (by linarith) (by linarith) (wave_up (by linarith) (by linarith)), hvs]
      linarith

/-- The sector of a color. -/
theorem hue_sector {r g b mx mn d : ℚ} (hd : 0 < d) (hdm : d = mx - mn) (hr : mn ≤ r ∧ r ≤ mx) (hg : mn ≤ g ∧ g ≤ mx)
    (hb : mn ≤ b ∧ b ≤ mx) (hmx : mx = r ∨ mx = g ∨ mx = b) (hmn : mn = r ∨ mn = g ∨ mn = b) :
    ∃ x, hue r g b mx d = 60 * x ∧ 0 ≤ x ∧ x < 6 ∧
      ((0 ≤ x ∧ x ≤ 1 ∧ r = mx ∧ b = mx - d ∧ x * d = g - b) ∨ (1 ≤ x ∧ x ≤ 2 ∧ g = mx ∧ b = mx - d ∧ (x - 2) * d = b - r) ∨
      (2 ≤ x ∧ x ≤ 3 ∧ g = mx ∧ r = mx - d ∧ (x - 2) * d = b - r) ∨
      (3 ≤ x ∧ x ≤ 4 ∧ b = mx ∧ r = mx - d ∧ (x - 4) * d = r - g) ∨
      (4 ≤ x ∧ x ≤ 5 ∧ b = mx ∧ g = mx - d ∧ (x - 4) * d = r - g) ∨
      (5 ≤ x ∧ x < 6 ∧ r = mx ∧ g = mx - d ∧ (x - 6) * d = g - b)) := by
  have hmn' : mn = mx - d := by linarith
  rw [hue_eq hd]
  dsimp only
  by_cases h1 : r = mx
  · rw [if_pos h1]
    have hu : (g - b) / d * d = g - b := div_mul_cancel₀ _ hd.ne'
    by_cases hgb : b ≤ g
    · have h0 : 0 ≤ (g - b) / d := div_nonneg (by linarith) hd.le
      have h1' : (g - b) / d ≤ 1 := (div_le_one hd).2 (by linarith)
      have hbm : b = mx - d := by rcases hmn with h | h | h <;> linarith
      exact ⟨(g - b) / d, by rw [if_neg (by linarith), if_neg (by linarith)], h0, by linarith,
        Or.inl ⟨h0, h1', h1, hbm, hu⟩⟩
    · push Not at hgb
      have h0 : (g - b) / d < 0 := div_neg_of_neg_of_pos (by linarith) hd
      have h1' : -1 ≤ (g - b) / d := by rw [le_div_iff₀ hd]; linarith
      have hgm : g = mx - d := by rcases hmn with h | h | h <;> linarith
      refine ⟨(g - b) / d + 6, by rw [if_pos h0], by linarith, by linarith,
        Or.inr (Or.inr (Or.inr (Or.inr (Or.inr ⟨by linarith, by linarith, h1, hgm, ?_⟩))))⟩
      rw [add_sub_cancel_right, hu]
  · rw [if_neg h1]
    by_cases h2 : g = mx
    · rw [if_pos h2]
      have hu : (2 + (b - r) / d - 2) * d = b - r := by rw [add_sub_cancel_left, div_mul_cancel₀ _ hd.ne']
      have hl : -1 ≤ (b - r) / d := by rw [le_div_iff₀ hd]; linarith
      have hh : (b - r) / d ≤ 1 := (div_le_one hd).2 (by linarith)
      refine ⟨2 + (b - r) / d, by rw [if_neg (by linarith), if_neg (by linarith)], by linarith, by linarith, ?_⟩
      by_cases hbr : b ≤ r
      · have h0 : (b - r) / d ≤ 0 := div_nonpos_of_nonpos_of_nonneg (by linarith) hd.le
        have hbm : b = mx - d := by rcases hmn with h | h | h <;> linarith
        exact Or.inr (Or.inl ⟨by linarith, by linarith, h2, hbm, hu⟩)
      · push Not at hbr
        have h0 : 0 ≤ (b - r) / d := div_nonneg (by linarith) hd.le
        have hrm : r = mx - d := by rcases hmn with h | h | h <;> linarith
        exact Or.inr (Or.inr (Or.inl ⟨by linarith, by linarith, h2, hrm, hu⟩))
    · rw [if_neg h2]
      have h3 : b = mx := by
        rcases hmx with h | h | h
        · exact absurd h.symm h1
        · exact absurd h.symm h2
        · exact h.symm
      have hu : (4 + (r - g) / d - 4) * d = r - g := by rw [add_sub_cancel_left, div_mul_cancel₀ _ hd.ne']
      have hl : -1 ≤ (r - g) / d := by rw [le_div_iff₀ hd]; linarith
      have hh : (r - g) / d ≤ 1 := (div_le_one hd).2 (by linarith)
      refine ⟨4 + (r - g) / d, by rw [if_neg (by linarith), if_neg (by linarith)], by linarith, by linarith, ?_⟩
      by_cases hrg : r ≤ g
      · have h0 : (r - g) / d ≤ 0 := div_nonpos_of_nonpos_of_nonneg (by linarith) hd.le
        have hrm : r = mx - d := by rcases hmn with h | h | h <;> linarith
        exact Or.inr (Or.inr (Or.inr (Or.inl ⟨by linarith, by linarith, h3, hrm, hu⟩)))
      · push Not at hrg
        have h0 : 0 ≤ (r - g) / d := div_nonneg (by linarith) hd.le
        have hgm : g = mx - d := by rcases hmn with h | h | h <;> linarith
        exact Or.inr (Or.inr (Or.inr (Or.inr (Or.inl ⟨by linarith, by linarith, h3, hgm, hu⟩))))

/-- **C112**, for colors which are not gray: the conversion is well defined, in the documented ranges, and converting back with
the usual formula gives the color.
Missing: gray colors, see `C112_gray`; rounding errors, see Verif/Props/HsvRounding.lean. -/
theorem C112_color_partial (red green blue : Int) (hr : Byte red) (hg : Byte green) (hb : Byte blue)
    (h : ¬ (red = green ∧ green = blue)) : IsHsvOf red green blue (rgbToHsv red green blue) := by
  obtain ⟨r, hr'⟩ : ∃ r : ℚ, r = 1 / 255 * red := ⟨_, rfl⟩
  obtain ⟨g, hg'⟩ : ∃ g : ℚ, g = 1 / 255 * green := ⟨_, rfl⟩
  obtain ⟨b, hb'⟩ : ∃ b : ℚ, b = 1 / 255 * blue := ⟨_, rfl⟩
  have bounds : ∀ {x : Int} {y : ℚ}, Byte x → y = 1 / 255 * x → 0 ≤ y ∧ y ≤ 1 := by
    intro x y hx hy
    have h0 : (0 : ℚ) ≤ x := by exact_mod_cast hx.1
    have h1 : (x : ℚ) ≤ 255 := by exact_mod_cast hx.2
    exact ⟨by rw [hy]; linarith, by rw [hy]; linarith⟩
  have br := bounds hr hr'
  have bg := bounds hg hg'
  have bb := bounds hb hb'
  obtain ⟨mx, hmx⟩ : ∃ mx, mx = max (max r g) b := ⟨_, rfl⟩
  obtain ⟨mn, hmn⟩ : ∃ mn, mn = min (min r g) b := ⟨_, rfl⟩
  have hx1 : r ≤ mx ∧ g ≤ mx ∧ b ≤ mx :=
    ⟨hmx ▸ (le_max_left _ _).trans (le_max_left _ _), hmx ▸ (le_max_right _ _).trans (le_max_left _ _), hmx ▸ le_max_right _ _⟩
  have hn1 : mn ≤ r ∧ mn ≤ g ∧ mn ≤ b :=
    ⟨hmn ▸ (min_le_left _ _).trans (min_le_left _ _), hmn ▸ (min_le_left _ _).trans (min_le_right _ _), hmn ▸ min_le_right _ _⟩
  have hx2 : mx = r ∨ mx = g ∨ mx = b := by
    rcases max_choice (max r g) b with h1 | h1
    · rcases max_choice r g with h2 | h2
      · exact Or.inl (by rw [hmx, h1, h2])
      · exact Or.inr (Or.inl (by rw [hmx, h1, h2]))
    · exact Or.inr (Or.inr (by rw [hmx, h1]))
  have hn2 : mn = r ∨ mn = g ∨ mn = b := by
    rcases min_choice (min r g) b with h1 | h1
    · rcases min_choice r g with h2 | h2
      · exact Or.inl (by rw [hmn, h1, h2])
      · exact Or.inr (Or.inl (by rw [hmn, h1, h2]))
    · exact Or.inr (Or.inr (by rw [hmn, h1]))
  have hd : 0 < mx - mn := by
    rcases (show mn ≤ mx by linarith).lt_or_eq with h1 | h1
    · linarith
    · exfalso
      apply h
      have e1 : r = g := by linarith
      have e2 : g = b := by linarith
      constructor
      · have : (red : ℚ) = green := by rw [hr', hg'] at e1; linarith
        exact_mod_cast this
      · have : (green : ℚ) = blue := by rw [hg', hb'] at e2; linarith
        exact_mod_cast this
  have hmn0 : 0 ≤ mn := by rcases hn2 with h | h | h <;> rw [h] <;> linarith
  have hmx1 : mx ≤ 1 := by rcases hx2 with h | h | h <;> rw [h] <;> linarith
  have hmx0 : 0 < mx := by linarith
  have he : rgbToHsv red green blue = ⟨some (hue r g b mx (mx - mn)), some ((mx - mn) / mx), some mx⟩ := by
    unfold rgbToHsv
    dsimp only
    rw [← hr', ← hg', ← hb', ← hmx, ← hmn, if_neg hmx0.ne', if_neg hd.ne']
  obtain ⟨x, hx, x0, x6, hsec⟩ := hue_sector hd rfl ⟨hn1.1, hx1.1⟩ ⟨hn1.2.1, hx1.2.1⟩ ⟨hn1.2.2, hx1.2.2⟩ hx2 hn2
  have hc := channels_of (s := (mx - mn) / mx) (mul_div_cancel₀ _ hmx0.ne') hsec
  have hscale : ∀ (y : Int), (1 / 255 * y : ℚ) = y / 255 := fun y => by ring
  refine ⟨_, _, _, he, ?_, ⟨div_nonneg hd.le hmx0.le, (div_le_one hmx0).2 (by linarith)⟩, ⟨hmx0.le, hmx1⟩, ?_⟩
  · rw [hx]; exact ⟨by linarith, by linarith⟩
  · rw [hx, ← hscale, ← hscale, ← hscale, ← hr', ← hg', ← hb']
    exact hc

/-- Non-vacuity: the turquoise of the demo. -/
example : IsHsvOf 64 224 208 (rgbToHsv 64 224 208) ∧ rgbToHsv 64 224 208 = ⟨some 174, some (5 / 7), some (224 / 255)⟩ := by
  refine ⟨C112_color_partial 64 224 208 ⟨by decide, by decide⟩ ⟨by decide, by decide⟩ ⟨by decide, by decide⟩ (by decide), ?_⟩
  norm_num [rgbToHsv, hue, max_def, min_def]

/-- **C112**: the saturation and hue of gray colors are never initialized, nor is the value of the black one. -/
theorem C112_gray (x : Int) :
    rgbToHsv x x x = if x = 0 then ⟨none, none, none⟩ else ⟨none, none, some (x / 255)⟩ := by
  unfold rgbToHsv
  dsimp only
  rw [min_self, min_self, max_self, max_self, sub_self]
  by_cases h : x = 0
  · subst h; simp
  · have : (1 / 255 * x : ℚ) ≠ 0 := by
      have : (x : ℚ) ≠ 0 := by exact_mod_cast h
      positivity
    rw [if_neg this, if_pos rfl, if_neg h]
    congr 2
    ring

/-- **C112**: therefore, the conversion along the first axis, which reads the three members, is defined exactly for colors which
are not gray. -/
theorem C112_data (red green blue : Int) (hr : Byte red) (hg : Byte green) (hb : Byte blue) :
    (red = green ∧ green = blue → rgbDataToHsvData red green blue = .error .ub) ∧
    (¬ (red = green ∧ green = blue) → ∃ h s v, rgbDataToHsvData red green blue = .ok [h, s, v] ∧
      IsHsvOf red green blue ⟨some h, some s, some v⟩) := by
  constructor
  · rintro ⟨rfl, rfl⟩
    unfold rgbDataToHsvData
    rw [C112_gray]
    by_cases h : red = 0
    · rw [if_pos h]; rfl
    · rw [if_neg h]; rfl
  · intro h
    have hc := C112_color_partial red green blue hr hg hb h
    obtain ⟨x, s, v, he, -⟩ := id hc
    refine ⟨x, s, v, ?_, he ▸ hc⟩
    unfold rgbDataToHsvData
    rw [he]
    rfl

/-- Non-vacuity: turquoise and gray. -/
example : (∃ h s v, rgbDataToHsvData 64 224 208 = .ok [h, s, v] ∧ IsHsvOf 64 224 208 ⟨some h, some s, some v⟩) ∧
    rgbDataToHsvData 128 128 128 = .error .ub :=
  ⟨(C112_data 64 224 208 ⟨by decide, by decide⟩ ⟨by decide, by decide⟩ ⟨by decide, by decide⟩).2 (by decide),
    (C112_data 128 128 128 ⟨by decide, by decide⟩ ⟨by decide, by decide⟩ ⟨by decide, by decide⟩).1 ⟨rfl, rfl⟩⟩

end Litl
