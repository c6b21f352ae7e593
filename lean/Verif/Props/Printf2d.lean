import Verif.Model.Printf2d
import Verif.Props.Convolution
import Verif.Props.KernelAlong
import Verif.Props.Printf

/-!
# C119, for 2D correlations
-/

namespace Litl.Convolution

open Container (ok_bind)

/-! ## Messages of pixels -/

theorem forM_ok {β : Type} {f : β → Res Unit} {l : List β} (h : ∀ b ∈ l, f b = .ok ()) : l.forM f = .ok () := by
  induction l with
  | nil => rfl
  | cons b l ih =>
    change (f b >>= fun _ => l.forM f) = _
    rw [h b (by simp)]
    exact ih fun c hc => h c (by simp [hc])

theorem forM_not {β : Type} {f : β → Res Unit} {l : List β} {b : β} (hb : b ∈ l) (h : f b ≠ .ok ()) : l.forM f ≠ .ok () := by
  induction l with
  | nil => simp at hb
  | cons c l ih =>
    change (f c >>= fun _ => l.forM f) ≠ _
    cases hc : f c with
    | error e => intro h; cases h
    | ok u =>
      rw [ok_bind]
      rcases List.mem_cons.1 hb with rfl | hb
      · exact absurd hc h
      · exact ih hb

variable {α : Type}

theorem printPixels_ok {arg : α → Argument} (ha : ∀ x, Conversion.i.Accepts (arg x)) {w h : Int} {data : List α}
    (hd : 0 < w → 0 < h → w * h ≤ data.length) : printPixels arg w h data = .ok () := by
  refine forM_ok fun y hy => forM_ok fun x hx => ?_
  rw [List.mem_range] at hx hy
  have hx' : (x : Int) < w := by omega
  have hy' : (y : Int) < h := by omega
  have hl := hd (by omega) (by omega)
  have hi : (x : Int) + y * w < data.length := by
    have : ((y : Int) + 1) * w ≤ h * w := Int.mul_le_mul_of_nonneg_right (by omega) (by omega)
    have e1 : ((y : Int) + 1) * w = y * w + w := by ring
    have e2 : h * w = w * h := by ring
    omega
  have h0 : 0 ≤ (x : Int) + y * w := by
    have : 0 ≤ (y : Int) * w := Int.mul_nonneg (by omega) (by omega)
    omega
  obtain ⟨v, hv⟩ : ∃ v, readAt data (index [w, h] [(x : Int), (y : Int)]) = .ok v := by
    rw [LineKernel.index_two, readAt_ok h0 hi]
    exact ⟨_, rfl⟩
  rw [hv, ok_bind]
  exact (printf_ok (by simp)).2 (by simp [ha])

theorem printPixels_not {arg : α → Argument} (ha : ∀ x, ¬ Conversion.i.Accepts (arg x)) {w h : Int} (hw : 0 < w) (hh : 0 < h)
    (data : List α) : printPixels arg w h data ≠ .ok () := by
  refine forM_not (b := 0) (by simp; omega) (forM_not (b := 0) (by simp; omega) ?_)
  cases hr : readAt data (index [w, h] [((0 : Nat) : Int), ((0 : Nat) : Int)]) with
  | error e => intro h; cases h
  | ok v =>
    rw [ok_bind]
    intro h
    exact ha v ((printf_ok (by simp)).1 h (.i, arg v) (by simp))

section Messages

variable [Zero α] [Add α] [Mul α]

/-! ## Lines -/

omit [Zero α] [Add α] [Mul α] in
theorem put_length {inn out : DataSamples} {s s' : LineKernel.State α} {x : α} (h : LineKernel.put inn out s x = .ok s') :
    s'.out.length = s.out.length := by
  unfold LineKernel.put writeAt at h
  split at h
  · cases h
  · split at h
    · obtain rfl := Except.ok.inj h
      simp
    · cases h

theorem correlates_length {k : LineKernel α} {read : Int → Res α} {inn out : DataSamples} {data res : List α}
    (h : k.Correlates read inn out data (.ok res)) : res.length = data.length := by
  have key : ∀ (r : Res α) (s s' : LineKernel.State α), (do let x ← r; LineKernel.put inn out s x) = .ok s' →
      s'.out.length = s.out.length := by
    intro r s s' h
    cases r with
    | error e => cases h
    | ok x => exact put_length h
  obtain ⟨r1, w1, h⟩ := h
  cases r1 with
  | error e => cases h
  | ok s1 =>
    obtain ⟨r2, w2, h⟩ := h
    cases r2 with
    | error e => cases h
    | ok s2 =>
      obtain ⟨r3, w3, h⟩ := h
      cases r3 with
      | error e => cases h
      | ok s3 =>
        obtain rfl := Except.ok.inj h
        have l1 := w1.inv (fun s => s.out.length = data.length) (fun s s' hs _ hb => (key _ s s' hb).trans hs) rfl
        have l2 := w2.inv (fun s => s.out.length = data.length) (fun s s' hs _ hb => (key _ s s' hb).trans hs) l1
        exact w3.inv (fun s => s.out.length = data.length) (fun s s' hs _ hb => (key _ s s' hb).trans hs) l2

theorem pass_length {k : LineKernel α} {read : Int → Res α} {last step inOffset outOffset v : Int} {inn out : DataSamples}
    {data res : List α} (h : Pass k read last step inOffset outOffset v inn out data (.ok res)) : res.length = data.length := by
  generalize hr : (.ok res : Res (List α)) = r at h
  induction h with
  | done => obtain rfl := Except.ok.inj hr; rfl
  | fail => cases hr
  | next _ hc _ ih => rw [ih hr, correlates_length hc]

theorem passPrinted_iff {arg : α → Argument} (ha : ∀ x, Conversion.i.Accepts (arg x)) {k : LineKernel α} {read : Int → Res α}
    {last step inOffset outOffset v : Int} {inn out : DataSamples}
    (hb : u64 (u64 (inn.size - k.forward) - u64 inn.sampling.step) < 2 ^ 63) {data : List α} {r : Res (List α)} :
    PassPrinted arg k read last step inOffset outOffset v inn out data r ↔
      Pass k read last step inOffset outOffset v inn out data r := by
  constructor
  · intro h
    induction h with
    | done hv => exact .done hv
    | fail hv hc => exact .fail hv ((LineKernel.C119_line_partial ha hb _ _).1 hc)
    | next hv hc _ ih => exact .next hv ((LineKernel.C119_line_partial ha hb _ _).1 hc) (ih hb)
  · intro h
    induction h with
    | done hv => exact .done hv
    | fail hv hc => exact .fail hv ((LineKernel.C119_line_partial ha hb _ _).2 hc)
    | next hv hc _ ih => exact .next hv ((LineKernel.C119_line_partial ha hb _ _).2 hc) (ih hb)

/-! ## 2D correlation -/

/-- **C119**, for 2D correlations and types which are printed as `int`, where the bounds of the central loops, which are unsigned, do
not wrap around: the outcomes are the same.

Missing: the other types (`C119_2d_undefined`), and the other bounds (`C119_2d_short`). -/
theorem C119_2d_partial {arg : α → Argument} (ha : ∀ x, Conversion.i.Accepts (arg x)) {convIn convOut : Int → Int}
    {k : LineKernel α} {w h cx cy : Int} {input out : List α} {x y : Sampling}
    (hx : u64 (u64 (w.toNat - k.forward) - u64 x.step) < 2 ^ 63)
    (hy : u64 (u64 ((yTo k h y - yFrom k y + 1).toNat - k.forward) - u64 y.step) < 2 ^ 63)
    (hs : (x.back - x.front + x.step).tdiv x.step * (yTo k h y - yFrom k y + 1) < 2 ^ 64)
    (hout : 0 < cx → 0 < cy → cx * cy ≤ out.length) (r : Res (List α)) :
    SparseCorrelates2dPrinted arg convIn convOut k w h input x y cx cy out r ↔
      SparseCorrelates2d convIn convOut k w h input x y cx cy out r := by
  unfold SparseCorrelates2dPrinted SparseCorrelates2d
  by_cases h0 : x.step = 0
  · rw [if_pos h0, if_pos h0]
  rw [if_neg h0, if_neg h0]
  dsimp only
  cases ho : Raster.ofShape (0 : α) [(x.back - x.front + x.step).tdiv x.step, yTo k h y - yFrom k y + 1] with
  | error e => rfl
  | ok t =>
    dsimp only
    have ht : 0 < (x.back - x.front + x.step).tdiv x.step → 0 < yTo k h y - yFrom k y + 1 →
        (x.back - x.front + x.step).tdiv x.step * (yTo k h y - yFrom k y + 1) ≤ t.data.length := by
      intro h1 h2
      have hp := Int.mul_pos h1 h2
      unfold Raster.ofShape at ho
      dsimp only at ho
      split at ho
      · cases ho
      · obtain rfl := Except.ok.inj ho
        simp only [List.length_replicate]
        rw [show shapeSize [(x.back - x.front + x.step).tdiv x.step, yTo k h y - yFrom k y + 1] =
          (x.back - x.front + x.step).tdiv x.step * (yTo k h y - yFrom k y + 1) by simp [shapeSize_eq],
          u64_id hp.le hs]
        omega
    refine exists_congr fun r1 => ?_
    rw [passPrinted_iff ha (by exact hx)]
    refine and_congr_right fun p1 => ?_
    cases r1 with
    | error e => rfl
    | ok d =>
      dsimp only
      rw [printPixels_ok ha (by rw [pass_length p1]; exact ht)]
      dsimp only
      constructor
      · rintro ⟨r2, p2, rfl⟩
        rw [passPrinted_iff ha (by exact hy)] at p2
        cases r2 with
        | error e => exact p2
        | ok o =>
          rw [ok_bind, printPixels_ok ha (by rw [pass_length p2]; exact hout)]
          exact p2
      · intro p2
        refine ⟨r, (passPrinted_iff ha (by exact hy)).2 p2, ?_⟩
        cases r with
        | error e => rfl
        | ok o =>
          rw [ok_bind, printPixels_ok ha (by rw [pass_length p2]; exact hout)]
          rfl

/-- **C119**, for 2D correlations and values which are never printable, e.g. floating point ones: there is no result, but if the
intermediate raster is empty. -/
theorem C119_2d_undefined {arg : α → Argument} (ha : ∀ x, ¬ Conversion.i.Accepts (arg x)) {convIn convOut : Int → Int}
    {k : LineKernel α} {w h cx cy : Int} {input out : List α} {x y : Sampling}
    (hx : 0 < (x.back - x.front + x.step).tdiv x.step) (hy : yFrom k y ≤ yTo k h y) (res : List α) :
    ¬ SparseCorrelates2dPrinted arg convIn convOut k w h input x y cx cy out (.ok res) := by
  unfold SparseCorrelates2dPrinted
  split
  · intro h; cases h
  · dsimp only
    split
    · intro h; cases h
    · rintro ⟨r1, _, q⟩
      cases r1 with
      | error e => cases q
      | ok d =>
        dsimp only at q
        cases hp : printPixels arg ((x.back - x.front + x.step).tdiv x.step) (yTo k h y - yFrom k y + 1) d with
        | error e => rw [hp] at q; cases q
        | ok u => exact printPixels_not ha hx (by omega) d hp

/-- **C119**, for 2D correlations: if there are more values after the origin, plus the step, than elements in a row, then there is no
result, whatever the value type. -/
theorem C119_2d_short {arg : α → Argument} {convIn convOut : Int → Int}
    {k : LineKernel α} {w h cx cy : Int} {input out : List α} {x y : Sampling}
    (hb : 2 ^ 63 ≤ u64 (u64 (w.toNat - k.forward) - u64 x.step)) (h0 : 0 ≤ k.origin)
    (hf : x.front < 2 ^ 63) (hs : k.origin + x.step ≤ 2 ^ 63) (hy : yFrom k y ≤ yTo k h y) (res : List α) :
    ¬ SparseCorrelates2dPrinted arg convIn convOut k w h input x y cx cy out (.ok res) := by
  unfold SparseCorrelates2dPrinted
  split
  · intro h; cases h
  · dsimp only
    split
    · intro h; cases h
    · rintro ⟨r1, p1, q⟩
      cases r1 with
      | error e => cases q
      | ok d =>
        clear q
        generalize hi : DataSamples.mk' (index [w, h] [0, yFrom k y]) w.toNat x 1 = inn at p1
        have e1 : inn.size = w.toNat := by rw [← hi]; rfl
        have e2 : inn.sampling.step = x.step := by rw [← hi]; rfl
        have e3 : inn.sampling.front = x.front := by rw [← hi]; rfl
        rw [← e1, ← e2] at hb
        rw [← e2] at hs
        rw [← e3] at hf
        cases p1 with
        | done hv => exact hv hy
        | next _ hc _ => exact LineKernel.C119_line_short hb h0 hf hs _ _ hc

end Messages

/-- **C119**, together with C72: the correlation of an image by a kernel which is not longer than its sides, with messages. There is a
result, and it is the expected one, if values are printable; if they are not, then there is no result. -/
theorem C119_2d_value [CommSemiring α] {arg : α → Argument} {convIn convOut : Int → Int} {k : LineKernel α} {w h : Nat}
    {input out : List α} (ho : 0 ≤ k.origin ∧ k.origin < k.values.length) (hkw : k.values.length ≤ w)
    (hkh : k.values.length ≤ h) (hsize : w * h < 2 ^ 63) (hin : input.length = w * h) (hout : out.length = w * h)
    (h1 : convIn w = w) (h2 : convOut w = w) (h3 : convOut 1 = 1) :
    ((∀ x, Conversion.i.Accepts (arg x)) →
      ∃ res, (∀ r, Correlates2dPrinted arg convIn convOut k w h input w h out r ↔ r = .ok res) ∧ res.length = out.length ∧
        ∀ i j : Nat, i < w → j < h →
          res[i + w * j]? = some (Spec.correlation2d k.values k.origin (Spec.image w h input) i j)) ∧
    ((∀ x, ¬ Conversion.i.Accepts (arg x)) → ∀ res, ¬ Correlates2dPrinted arg convIn convOut k w h input w h out (.ok res)) := by
  have hw : w < 2 ^ 63 := lt_of_le_of_lt (Nat.le_mul_of_pos_right w (by omega)) hsize
  have hh : h < 2 ^ 63 := lt_of_le_of_lt (Nat.le_mul_of_pos_left h (by omega)) hsize
  have hF : yFrom k ⟨0, (h : Int) - 1, 1⟩ = 0 := by unfold yFrom; dsimp only; omega
  have hf := forward_id ho (by omega)
  have hT : yTo k h ⟨0, (h : Int) - 1, 1⟩ = h - 1 := by unfold yTo; rw [hf]; dsimp only; omega
  have hx : ((w : Int) - 1 - 0 + 1).tdiv 1 = w := by simp
  have hu : ∀ n : Nat, n < 2 ^ 63 → k.values.length ≤ n → u64 (u64 ((n : Int) - k.forward) - u64 1) < 2 ^ 63 := by
    intro n hn hkn
    unfold LineKernel.forward u64 at *
    unfold i64 at hf
    omega
  have hsz : (w : Int) * h < 2 ^ 63 := by exact_mod_cast hsize
  constructor
  · intro ha
    obtain ⟨res, e1, e2, e3⟩ := C72_partial (convIn := convIn) (convOut := convOut) ho hkw hkh hsize hin hout h1 h2 h3
    refine ⟨res, fun r => ?_, e2, e3⟩
    rw [← e1 r]
    refine C119_2d_partial ha ?_ ?_ ?_ ?_ r
    · simpa using hu w hw hkw
    · rw [hF, hT]
      simpa using hu h hh hkh
    · rw [hF, hT, hx]
      have : (w : Int) * (h - 1 - 0 + 1) = w * h := by ring
      omega
    · intro _ _
      rw [hout]
      push_cast
      exact le_refl _
  · intro ha res
    refine C119_2d_undefined ha ?_ ?_ res
    · rw [hx]; omega
    · rw [hF, hT]; omega

/-- Concrete cases: `Kernel1d<int>` and `Kernel1d<double>` of values {1, 0, -1}, on an image of 4 x 3 pixels. -/
example (input out : List Int) (hin : input.length = 4 * 3) (hout : out.length = 4 * 3) : ∃ res, (∀ r,
    Correlates2dPrinted (.ofInteger .int) id id (⟨[1, 0, -1], 1⟩ : LineKernel Int) (4 : Nat) (3 : Nat) input (4 : Nat) (3 : Nat) out r ↔
      r = .ok res) := by
  obtain ⟨res, h, _⟩ := (C119_2d_value (arg := .ofInteger .int) (convIn := id) (convOut := id) (k := (⟨[1, 0, -1], 1⟩ : LineKernel Int))
    (w := 4) (h := 3) (by simp) (by simp) (by simp) (by norm_num) hin hout rfl rfl rfl).1 fun x => (C119_types .int x).1.2 (.inl (by decide))
  exact ⟨res, h⟩

example (input out res : List ℚ) (hin : input.length = 4 * 3) (hout : out.length = 4 * 3) :
    ¬ Correlates2dPrinted (fun _ => .floating) id id (⟨[1, 0, -1], 1⟩ : LineKernel ℚ) (4 : Nat) (3 : Nat) input (4 : Nat) (3 : Nat) out
      (.ok res) :=
  (C119_2d_value (by simp) (by simp) (by simp) (by norm_num) hin hout rfl rfl rfl).2 (fun _ => id) res

/-- Concrete case: 3 values after the origin, on an image of 2 x 5 pixels. -/
example (input out res : List Int) :
    ¬ Correlates2dPrinted (.ofInteger .int) id id (⟨[1, 2, 3, 4], 0⟩ : LineKernel Int) 2 5 input 2 5 out (.ok res) :=
  C119_2d_short (by decide) (by decide) (by decide) (by decide) (by decide) res

end Litl.Convolution
