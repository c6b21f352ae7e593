import Verif.Model.HsvRounding
import Verif.Lemmas.Rounding
import Verif.Props.Hsv

/-!
# Color conversion in floating point arithmetic (C112)
-/

namespace Litl

open Spec Channels

namespace HsvRounding

/-- Rounding to `double`. -/
abbrev F : ℚ → ℚ := Binary.fl 53 (-1074)

theorem F_mono {x y : ℚ} (h : x ≤ y) : F x ≤ F y := Binary.fl_mono (by norm_num) _ h

theorem F_idem (x : ℚ) : F (F x) = F x := Binary.fl_idem (by norm_num) _ x

theorem F_int (n : Int) (h : |n| < 2 ^ 53) : F n = n := Binary.fl_intCast (by norm_num) h

theorem F_zero : F 0 = 0 := Binary.fl_zero _ _

theorem F_one : F 1 = 1 := by exact_mod_cast F_int 1 (by norm_num)

theorem F_near {x B : ℚ} (h : |x| ≤ B) (hB : 1 ≤ B) : |F x - x| ≤ B / 2 ^ 52 := by
  have h1 := Binary.fl_near 53 (-1074) x
  have h2 : (2 : ℚ) ^ (-1074 : Int) ≤ 2 ^ (-52 : Int) := zpow_le_zpow_right₀ (by norm_num) (by norm_num)
  have h3 : (2 : ℚ) ^ (-52 : Int) = 1 / 2 ^ 52 := by norm_num
  rw [h3] at h2
  have h4 : 1 / 2 ^ 53 * |x| ≤ 1 / 2 ^ 53 * B := by gcongr
  have h5 : (1 : ℚ) / 2 ^ 52 / 2 ≤ B / 2 ^ 53 := by
    rw [div_div, show (2 : ℚ) ^ 52 * 2 = 2 ^ 53 by norm_num]
    gcongr
  have h6 : (B : ℚ) / 2 ^ 52 = 1 / 2 ^ 53 * B + B / 2 ^ 53 := by ring
  rw [h6]
  linarith

/-- A component is converted to a channel. -/
def chan (c : Int) : ℚ := F (F (1 / 255) * c)

theorem norm_le : F (1 / 255) ≤ 1 / 255 ∧ 1 / 255 - 1 / 2 ^ 60 ≤ F (1 / 255) := by
  have e : F (1 / 255) = ((4521260802379792 : Int) : ℚ) * 2 ^ (-60 : Int) := by
    refine Binary.fl_eq (by norm_num) ?_ ?_ ?_ <;> norm_num [abs_lt]
  rw [e]
  constructor <;> norm_num

theorem chan_mono {c c' : Int} (h : c ≤ c') : chan c ≤ chan c' := by
  have : (c : ℚ) ≤ c' := by exact_mod_cast h
  exact F_mono (mul_le_mul_of_nonneg_left this (Binary.fl_nonneg (by norm_num)))

theorem chan_near {c : Int} (h : Byte c) : |chan c - c / 255| ≤ 1 / 2 ^ 51 := by
  have h0 : (0 : ℚ) ≤ c := by exact_mod_cast h.1
  have h1 : (c : ℚ) ≤ 255 := by exact_mod_cast h.2
  obtain ⟨n1, n2⟩ := norm_le
  have p1 : F (1 / 255) * c ≤ 1 / 255 * c := by gcongr
  have p2 : (1 / 255 - 1 / 2 ^ 60) * c ≤ F (1 / 255) * c := by gcongr
  have p3 : 0 ≤ F (1 / 255) * c := mul_nonneg (Binary.fl_nonneg (by norm_num)) h0
  have := F_near (x := F (1 / 255) * c) (B := 1) (by rw [abs_of_nonneg p3]; linarith) le_rfl
  unfold chan
  rw [abs_le] at this ⊢
  constructor <;> linarith

theorem chan_bounds {c : Int} (h : Byte c) : 0 ≤ chan c ∧ chan c ≤ 1 := by
  have h0 : (0 : ℚ) ≤ c := by exact_mod_cast h.1
  have h1 : (c : ℚ) ≤ 255 := by exact_mod_cast h.2
  obtain ⟨n1, n2⟩ := norm_le
  have p1 : F (1 / 255) * c ≤ 1 / 255 * c := by gcongr
  have p3 : 0 ≤ F (1 / 255) * c := mul_nonneg (Binary.fl_nonneg (by norm_num)) h0
  refine ⟨Binary.fl_nonneg p3, ?_⟩
  have := F_mono (show F (1 / 255) * c ≤ 1 by linarith)
  rwa [F_one] at this

/-- Channels differ as soon as components do. -/
theorem chan_gap {c c' : Int} (h : Byte c) (h' : Byte c') (hlt : c < c') : chan c + 1 / 256 ≤ chan c' := by
  have h1 := abs_le.1 (chan_near h)
  have h2 := abs_le.1 (chan_near h')
  have h3 : ((c + 1 : Int) : ℚ) ≤ c' := by exact_mod_cast hlt
  push_cast at h3
  linarith

theorem chan_inj {c c' : Int} (h : Byte c) (h' : Byte c') : chan c = chan c' ↔ c = c' := by
  refine ⟨fun he => ?_, fun he => by rw [he]⟩
  rcases lt_trichotomy c c' with hlt | he' | hlt
  · have := chan_gap h h' hlt; linarith
  · exact he'
  · have := chan_gap h' h hlt; linarith

theorem F_chan (c : Int) : F (chan c) = chan c := F_idem _

/-- The error of the difference between channels. -/
theorem sub_near {c c' : Int} (h : Byte c) (h' : Byte c') : |F (chan c - chan c') - ((c : ℚ) - c') / 255| ≤ 1 / 2 ^ 49 := by
  have h1 := abs_le.1 (chan_near h)
  have h2 := abs_le.1 (chan_near h')
  have b1 := chan_bounds h
  have b2 := chan_bounds h'
  have := F_near (x := chan c - chan c') (B := 1) (by rw [abs_le]; constructor <;> linarith) le_rfl
  rw [abs_le] at this ⊢
  constructor <;> linarith

/-- The error of a quotient. -/
theorem div_near {n n' d d' B E ε : ℚ} (hd : 1 / 256 ≤ d) (hd' : 1 / 256 ≤ d') (hn : |n / d| ≤ B) (h1 : |n' - n| ≤ E)
    (h2 : |d' - d| ≤ ε) : |n' / d' - n / d| ≤ 256 * (E + B * ε) := by
  have hd0 : 0 < d := by linarith
  have hd0' : 0 < d' := by linarith
  have e : n' / d' - n / d = ((n' - n) + n / d * (d - d')) / d' := by field_simp; ring
  have hB : 0 ≤ B := (abs_nonneg _).trans hn
  have h3 : |(n' - n) + n / d * (d - d')| ≤ E + B * ε := by
    refine (abs_add_le _ _).trans (add_le_add h1 ?_)
    rw [abs_mul, abs_sub_comm d d']
    exact mul_le_mul hn h2 (abs_nonneg _) hB
  have h4 : 0 ≤ E + B * ε := (abs_nonneg _).trans h3
  rw [e, abs_div, abs_of_pos hd0', div_le_iff₀ hd0']
  nlinarith

/-- The error of the offset of a channel. -/
theorem offset_near {c mx mn : Int} (hc : Byte c) (hmx : Byte mx) (hmn : Byte mn) (h1 : mn ≤ c) (h2 : c ≤ mx) (h3 : mn < mx) :
    |offsetFl F (chan c) (chan mx) (F (chan mx - chan mn)) - (180 + 60 * (((mx : ℚ) - c) / ((mx : ℚ) - mn)))| ≤ 1 / 2 ^ 31 := by
  have q1 : (mn : ℚ) ≤ c := by exact_mod_cast h1
  have q2 : (c : ℚ) ≤ mx := by exact_mod_cast h2
  have q3 : ((mn + 1 : Int) : ℚ) ≤ mx := by exact_mod_cast h3
  have q4 : (0 : ℚ) ≤ mn := by exact_mod_cast hmn.1
  have q5 : (mx : ℚ) ≤ 255 := by exact_mod_cast hmx.2
  push_cast at q3
  have ha := sub_near hmx hc
  have hδ := sub_near hmx hmn
  set a := F (chan mx - chan c) with hadef
  set δ := F (chan mx - chan mn) with hδdef
  set A : ℚ := ((mx : ℚ) - c) / 255 with hA
  set Δ : ℚ := ((mx : ℚ) - mn) / 255 with hΔ
  have hA0 : 0 ≤ A := by rw [hA]; apply div_nonneg <;> linarith
  have hΔ0 : 1 / 255 ≤ Δ := by rw [hΔ, div_le_div_iff_of_pos_right (by norm_num)]; linarith
  have hAΔ : A ≤ Δ := by rw [hA, hΔ, div_le_div_iff_of_pos_right (by norm_num)]; linarith
  have hΔ1 : Δ ≤ 1 := by rw [hΔ, div_le_one (by norm_num)]; linarith
  have ha' := abs_le.1 ha
  have hδ' := abs_le.1 hδ
  have s1 := F_near (x := 60 * a) (B := 64) (by rw [abs_le]; constructor <;> linarith) (by norm_num)
  have s2 := F_near (x := 180 * δ) (B := 256) (by rw [abs_le]; constructor <;> linarith) (by norm_num)
  have s1' := abs_le.1 s1
  have s2' := abs_le.1 s2
  have s3 := F_near (x := F (60 * a) + F (180 * δ)) (B := 256) (by rw [abs_le]; constructor <;> linarith) (by norm_num)
  have s3' := abs_le.1 s3
  set n' := F (F (60 * a) + F (180 * δ)) with hn'
  have hn : |n' - (60 * A + 180 * Δ)| ≤ 320 / 2 ^ 49 := by
    rw [abs_le]; constructor <;> linarith
  have hΔp : 0 < Δ := by linarith
  have eq : (60 * A + 180 * Δ) / Δ = 180 + 60 * (((mx : ℚ) - c) / ((mx : ℚ) - mn)) := by
    have e1 : A / Δ = ((mx : ℚ) - c) / ((mx : ℚ) - mn) := by
      rw [hA, hΔ, div_div_div_cancel_right₀ (by norm_num)]
    rw [← e1]
    field_simp
    ring
  have hr : 0 ≤ ((mx : ℚ) - c) / ((mx : ℚ) - mn) ∧ ((mx : ℚ) - c) / ((mx : ℚ) - mn) ≤ 1 :=
    ⟨div_nonneg (by linarith) (by linarith), (div_le_one (by linarith)).2 (by linarith)⟩
  have hq := div_near (n := 60 * A + 180 * Δ) (n' := n') (d := Δ) (d' := δ) (B := 240) (E := 320 / 2 ^ 49) (ε := 1 / 2 ^ 49)
    (by linarith) (by linarith) (by rw [eq, abs_le]; constructor <;> linarith) hn hδ
  rw [eq] at hq
  have hq' := abs_le.1 hq
  have s4 := F_near (x := n' / δ) (B := 256) (by rw [abs_le]; constructor <;> linarith) (by norm_num)
  have s4' := abs_le.1 s4
  change |F (n' / δ) - _| ≤ _
  rw [abs_le]
  constructor <;> linarith

/-- The offsets are ordered as the channels, in reverse order. -/
theorem offset_anti {c c' mx mn : Int} (h : mn ≤ mx) (hcc : c ≤ c') :
    offsetFl F (chan c') (chan mx) (F (chan mx - chan mn)) ≤ offsetFl F (chan c) (chan mx) (F (chan mx - chan mn)) := by
  have h0 : 0 ≤ F (chan mx - chan mn) := Binary.fl_nonneg (by have := chan_mono h; linarith)
  have h1 := chan_mono hcc
  unfold offsetFl
  refine F_mono (div_le_div_of_nonneg_right (F_mono ?_) h0)
  have : F (60 * F (chan mx - chan c')) ≤ F (60 * F (chan mx - chan c)) :=
    F_mono (mul_le_mul_of_nonneg_left (F_mono (by linarith)) (by norm_num))
  linarith

/-- The offset of a channel in exact arithmetic. -/
theorem offset_eq {c mx mn : Int} (h : mn < mx) :
    (60 * ((mx : ℚ) / 255 - c / 255) + 180 * ((mx : ℚ) / 255 - mn / 255)) / ((mx : ℚ) / 255 - mn / 255) =
      180 + 60 * (((mx : ℚ) - c) / ((mx : ℚ) - mn)) := by
  have h1 : (mn : ℚ) < mx := by exact_mod_cast h
  have h2 : (mx : ℚ) - mn ≠ 0 := by linarith
  field_simp
  ring

/-- The rounded hue is in the documented range and is close to the exact one. -/
theorem hue_near {r g b mx mn : Int} (hr : Byte r) (hg : Byte g) (hb : Byte b) (hmx : Byte mx) (hmn : Byte mn) (h : mn < mx)
    (hr' : mn ≤ r ∧ r ≤ mx) (hg' : mn ≤ g ∧ g ≤ mx) (hb' : mn ≤ b ∧ b ≤ mx) :
    let x := hueFl F (chan r) (chan g) (chan b) (chan mx) (F (chan mx - chan mn))
    0 ≤ x ∧ x < 360 ∧ |x - hue ((r : ℚ) / 255) ((g : ℚ) / 255) ((b : ℚ) / 255) ((mx : ℚ) / 255) ((mx : ℚ) / 255 - mn / 255)| ≤
      1 / 2 ^ 28 := by
  have hm : (mn : ℚ) < mx := by exact_mod_cast h
  have hm255 : (mx : ℚ) - mn ≤ 255 := by
    have h1 : (0 : ℚ) ≤ mn := by exact_mod_cast hmn.1
    have h2 : (mx : ℚ) ≤ 255 := by exact_mod_cast hmx.2
    linarith
  have er := offset_near hr hmx hmn hr'.1 hr'.2 h
  have eg := offset_near hg hmx hmn hg'.1 hg'.2 h
  have eb := offset_near hb hmx hmn hb'.1 hb'.2 h
  have bound : ∀ c : Int, mn ≤ c ∧ c ≤ mx → 0 ≤ ((mx : ℚ) - c) / ((mx : ℚ) - mn) ∧ ((mx : ℚ) - c) / ((mx : ℚ) - mn) ≤ 1 := by
    rintro c ⟨h1, h2⟩
    have q1 : (mn : ℚ) ≤ c := by exact_mod_cast h1
    have q2 : (c : ℚ) ≤ mx := by exact_mod_cast h2
    exact ⟨div_nonneg (by linarith) (by linarith), (div_le_one (by linarith)).2 (by linarith)⟩
  have xr := bound r hr'
  have xg := bound g hg'
  have xb := bound b hb'
  have cond : ∀ c : Int, (c : ℚ) / 255 = mx / 255 ↔ c = mx := fun c => by
    rw [div_left_inj' (by norm_num)]
    exact_mod_cast Iff.rfl
  dsimp only
  unfold hueFl hue
  dsimp only
  rw [offset_eq h, offset_eq h, offset_eq h]
  simp only [cond, chan_inj hr hmx, chan_inj hg hmx]
  have mono : b ≤ g → offsetFl F (chan g) (chan mx) (F (chan mx - chan mn)) ≤ offsetFl F (chan b) (chan mx) (F (chan mx - chan mn)) :=
    offset_anti h.le
  have xgb : ((mx : ℚ) - b) / ((mx : ℚ) - mn) - ((mx : ℚ) - g) / ((mx : ℚ) - mn) = ((g : ℚ) - b) / ((mx : ℚ) - mn) := by
    rw [← sub_div]
    ring
  generalize offsetFl F (chan r) (chan mx) (F (chan mx - chan mn)) = dr at *
  generalize offsetFl F (chan g) (chan mx) (F (chan mx - chan mn)) = dg at *
  generalize offsetFl F (chan b) (chan mx) (F (chan mx - chan mn)) = db at *
  generalize ((mx : ℚ) - r) / ((mx : ℚ) - mn) = X at *
  generalize ((mx : ℚ) - g) / ((mx : ℚ) - mn) = Y at *
  generalize ((mx : ℚ) - b) / ((mx : ℚ) - mn) = Z at *
  rw [abs_le] at er eg eb
  by_cases h1 : r = mx
  · rw [if_pos h1, if_pos h1]
    have s1 := abs_le.1 (F_near (x := db - dg) (B := 64) (by rw [abs_le]; constructor <;> linarith) (by norm_num))
    by_cases h2 : b ≤ g
    · have p1 : 0 ≤ F (db - dg) := Binary.fl_nonneg (by linarith [mono h2])
      have p2 : 0 ≤ Z - Y := by
        rw [xgb]
        have : (b : ℚ) ≤ g := by exact_mod_cast h2
        exact div_nonneg (by linarith) (by linarith)
      rw [if_neg (by linarith), if_neg (by linarith), if_neg (by linarith), if_neg (by linarith)]
      exact ⟨p1, by linarith, by rw [abs_le]; constructor <;> linarith⟩
    · have p2 : Z - Y ≤ -(1 / 255) := by
        rw [xgb, div_le_iff₀ (by linarith)]
        have : ((g + 1 : Int) : ℚ) ≤ b := by exact_mod_cast (by omega : g + 1 ≤ b)
        push_cast at this
        linarith
      rw [if_pos (by linarith), if_pos (by linarith)]
      have s2 := abs_le.1 (F_near (x := F (db - dg) + 360) (B := 512) (by rw [abs_le]; constructor <;> linarith) (by norm_num))
      exact ⟨by linarith, by linarith, by rw [abs_le]; constructor <;> linarith⟩
  · rw [if_neg h1, if_neg h1]
    by_cases h2 : g = mx
    · rw [if_pos h2, if_pos h2]
      have s1 := abs_le.1 (F_near (x := 120 + dr) (B := 512) (by rw [abs_le]; constructor <;> linarith) (by norm_num))
      have s2 := abs_le.1 (F_near (x := F (120 + dr) - db) (B := 512) (by rw [abs_le]; constructor <;> linarith) (by norm_num))
      rw [if_neg (by linarith), if_neg (by linarith), if_neg (by linarith), if_neg (by linarith)]
      exact ⟨by linarith, by linarith, by rw [abs_le]; constructor <;> linarith⟩
    · rw [if_neg h2, if_neg h2]
      have s1 := abs_le.1 (F_near (x := 240 + dg) (B := 512) (by rw [abs_le]; constructor <;> linarith) (by norm_num))
      have s2 := abs_le.1 (F_near (x := F (240 + dg) - dr) (B := 512) (by rw [abs_le]; constructor <;> linarith) (by norm_num))
      rw [if_neg (by linarith), if_neg (by linarith), if_neg (by linarith), if_neg (by linarith)]
      exact ⟨by linarith, by linarith, by rw [abs_le]; constructor <;> linarith⟩

theorem chan_max (a b : Int) : max (chan a) (chan b) = chan (max a b) :=
  ((show Monotone chan from fun _ _ h => chan_mono h).map_max).symm

theorem chan_min (a b : Int) : min (chan a) (chan b) = chan (min a b) :=
  ((show Monotone chan from fun _ _ h => chan_mono h).map_min).symm

theorem scale_mono : Monotone fun x : Int => (x : ℚ) / 255 := fun a b h => by
  have : (a : ℚ) ≤ b := by exact_mod_cast h
  dsimp only
  gcongr

theorem chan_zero : chan 0 = 0 := by
  unfold chan
  rw [Int.cast_zero, mul_zero, F_zero]

theorem rgbToHsvFl_eq (red green blue : Int) : rgbToHsvFl F red green blue =
    if chan (max (max red green) blue) = 0 then ⟨none, none, none⟩
    else if F (chan (max (max red green) blue) - chan (min (min red green) blue)) = 0 then
      ⟨none, none, some (chan (max (max red green) blue))⟩
    else ⟨some (hueFl F (chan red) (chan green) (chan blue) (chan (max (max red green) blue))
        (F (chan (max (max red green) blue) - chan (min (min red green) blue)))),
      some (F (F (chan (max (max red green) blue) - chan (min (min red green) blue)) / chan (max (max red green) blue))),
      some (chan (max (max red green) blue))⟩ := by
  rw [← chan_max, ← chan_max, ← chan_min, ← chan_min]
  rfl

end HsvRounding

open HsvRounding

/-- **C112** in double precision, for colors which are not gray: the conversion is well defined, in the documented ranges in spite
of the rounding errors, and close to the exact one (which is that of the color, see `C112_color_partial`).
Missing: gray colors, see `C112_gray_rounding`. -/
theorem C112_rounding_partial (red green blue : Int) (hr : Byte red) (hg : Byte green) (hb : Byte blue)
    (h : ¬ (red = green ∧ green = blue)) :
    ∃ h s v h' s' v', rgbToHsvFl (Binary.fl 53 (-1074)) red green blue = ⟨some h, some s, some v⟩ ∧
      rgbToHsv red green blue = ⟨some h', some s', some v'⟩ ∧ (0 ≤ h ∧ h < 360) ∧ (0 ≤ s ∧ s ≤ 1) ∧ (0 ≤ v ∧ v ≤ 1) ∧
      |h - h'| ≤ 1 / 2 ^ 28 ∧ |s - s'| ≤ 1 / 2 ^ 40 ∧ |v - v'| ≤ 1 / 2 ^ 51 := by
  obtain ⟨mx, hmxd⟩ : ∃ mx, mx = max (max red green) blue := ⟨_, rfl⟩
  obtain ⟨mn, hmnd⟩ : ∃ mn, mn = min (min red green) blue := ⟨_, rfl⟩
  have hmx : Byte mx := by unfold Byte at *; omega
  have hmn : Byte mn := by unfold Byte at *; omega
  have hlt : mn < mx := by
    unfold Byte at *
    omega
  have hgap := chan_gap hmn hmx hlt
  have bn := chan_bounds hmn
  have bx := chan_bounds hmx
  have hδ := sub_near hmx hmn
  have hμ := chan_near hmx
  have hm : ((mn + 1 : Int) : ℚ) ≤ mx := by exact_mod_cast hlt
  have hmn0 : (0 : ℚ) ≤ mn := by exact_mod_cast hmn.1
  push_cast at hm
  have ex : max (max (1 / 255 * (red : ℚ)) (1 / 255 * (green : ℚ))) (1 / 255 * (blue : ℚ)) = (mx : ℚ) / 255 := by
    rw [hmxd, scale_mono.map_max, scale_mono.map_max]
    congr 1
    · congr 1 <;> ring
    · ring
  have en : min (min (1 / 255 * (red : ℚ)) (1 / 255 * (green : ℚ))) (1 / 255 * (blue : ℚ)) = (mn : ℚ) / 255 := by
    rw [hmnd, scale_mono.map_min, scale_mono.map_min]
    congr 1
    · congr 1 <;> ring
    · ring
  have e1 : rgbToHsv red green blue = ⟨some (hue ((red : ℚ) / 255) ((green : ℚ) / 255) ((blue : ℚ) / 255) ((mx : ℚ) / 255)
      ((mx : ℚ) / 255 - mn / 255)), some (((mx : ℚ) / 255 - mn / 255) / ((mx : ℚ) / 255)), some ((mx : ℚ) / 255)⟩ := by
    unfold rgbToHsv
    dsimp only
    rw [ex, en, if_neg (by intro hc; linarith), if_neg (by intro hc; linarith)]
    have hs : ∀ y : Int, (1 / 255 * y : ℚ) = y / 255 := fun y => by ring
    rw [hs, hs, hs]
  have e2 : rgbToHsvFl F red green blue = ⟨some (hueFl F (chan red) (chan green) (chan blue) (chan mx) (F (chan mx - chan mn))),
      some (F (F (chan mx - chan mn) / chan mx)), some (chan mx)⟩ := by
    rw [abs_le] at hδ
    rw [rgbToHsvFl_eq, ← hmxd, ← hmnd, if_neg (by intro hc; linarith), if_neg (by intro hc; linarith)]
  have hn := hue_near hr hg hb hmx hmn hlt (by omega) (by omega) (by omega)
  refine ⟨_, _, _, _, _, _, e2, e1, ⟨hn.1, hn.2.1⟩, ?_, bx, hn.2.2, ?_, hμ⟩
  · have h1 : 0 ≤ F (chan mx - chan mn) := Binary.fl_nonneg (by linarith)
    have h2 : F (chan mx - chan mn) ≤ chan mx := by
      have := F_mono (show chan mx - chan mn ≤ chan mx by linarith)
      rwa [F_chan] at this
    refine ⟨Binary.fl_nonneg (div_nonneg h1 bx.1), ?_⟩
    have := F_mono (show F (chan mx - chan mn) / chan mx ≤ 1 from (div_le_one (by linarith)).2 h2)
    rwa [F_one] at this
  · have hq : 0 ≤ ((mx : ℚ) - mn) / 255 / (mx / 255) ∧ ((mx : ℚ) - mn) / 255 / (mx / 255) ≤ 1 :=
      ⟨div_nonneg (by linarith) (by linarith), (div_le_one (by linarith)).2 (by linarith)⟩
    have hd := div_near (n := ((mx : ℚ) - mn) / 255) (n' := F (chan mx - chan mn)) (d := (mx : ℚ) / 255) (d' := chan mx) (B := 1)
      (by linarith) (by linarith) (by rw [abs_of_nonneg hq.1]; exact hq.2) hδ hμ
    rw [← sub_div]
    rw [abs_le] at hd
    have s1 := abs_le.1 (F_near (x := F (chan mx - chan mn) / chan mx) (B := 2) (by rw [abs_le]; constructor <;> linarith)
      (by norm_num))
    rw [abs_le]
    constructor <;> linarith

/-- **C112** in double precision: the saturation and hue of gray colors are never initialized, nor is the value of the black
one. -/
theorem C112_gray_rounding (x : Int) (hx : Byte x) :
    ∃ v, rgbToHsvFl (Binary.fl 53 (-1074)) x x x = if x = 0 then ⟨none, none, none⟩ else ⟨none, none, some v⟩ := by
  refine ⟨chan x, ?_⟩
  rw [rgbToHsvFl_eq, min_self, min_self, max_self, max_self, sub_self, F_zero, if_pos rfl]
  by_cases h : x = 0
  · rw [if_pos h, if_pos (by rw [h, chan_zero])]
  · rw [if_neg h, if_neg]
    rw [← chan_zero, chan_inj hx ⟨le_rfl, by norm_num⟩]
    exact h

/-- Non-vacuity: the turquoise of the demo. -/
example : ∃ h s v, rgbToHsvFl (Binary.fl 53 (-1074)) 64 224 208 = ⟨some h, some s, some v⟩ ∧ |h - 174| ≤ 1 / 2 ^ 28 := by
  obtain ⟨h, s, v, h', s', v', e1, e2, _, _, _, hn, _⟩ := C112_rounding_partial 64 224 208 ⟨by decide, by decide⟩
    ⟨by decide, by decide⟩ ⟨by decide, by decide⟩ (by decide)
  have : rgbToHsv 64 224 208 = ⟨some 174, some (5 / 7), some (224 / 255)⟩ := by
    norm_num [rgbToHsv, hue, max_def, min_def]
  rw [this] at e2
  cases e2
  exact ⟨h, s, v, e1, hn⟩

end Litl
