import Mathlib.Data.List.GetD
import Verif.Props.Dft
import Verif.Model.DftDerivative
import Verif.Spec.Trigonometric
import Mathlib.Analysis.SpecialFunctions.Trigonometric.Deriv
import Mathlib.Algebra.BigOperators.Field
import Mathlib.Analysis.Calculus.Deriv.Add
import Mathlib.Analysis.Calculus.Deriv.Mul

/-!
# Derivation in Fourier domain (C100)
-/

namespace Litl

open Spec

theorem deriveLoop_length (v : List ℂ) (k : Int) : (deriveLoop v k).length = v.length := by
  induction v generalizing k with
  | nil => rfl
  | cons e v ih => simp [deriveLoop, ih]

theorem deriveLoop_getD (v : List ℂ) (k : Int) (i : Nat) :
    (deriveLoop v k).getD i 0 = v.getD i 0 * (Complex.I * ((k + i : Int) : ℂ)) := by
  induction v generalizing k i with
  | nil => simp [deriveLoop]
  | cons e v ih =>
    cases i with
    | zero =>
      simp only [deriveLoop, List.getD_cons_zero]
      congr 1
      apply Complex.ext <;> simp
    | succ i =>
      simp only [deriveLoop, List.getD_cons_succ]
      rw [ih]
      congr 3
      push_cast
      ring

theorem sum_map_range (n : Nat) (g : Nat → ℂ) : ((List.range n).map g).sum = ∑ j ∈ Finset.range n, g j := by
  induction n with
  | zero => simp
  | succ n ih => rw [List.range_succ, List.map_append, List.sum_append, Finset.sum_range_succ, ih]; simp

/-- The sum of the values at the positions of a line. -/
theorem sum_grid (n : Nat) (g : List Int → ℂ) :
    ((grid [(n : Int)]).map g).sum = ∑ j ∈ Finset.range n, g [(j : Int)] := by
  have hg : grid [(n : Int)] = (List.range n).map fun j : Nat => [(j : Int)] := by
    show ((List.range (n : Int).toNat).flatMap fun i : Nat => ([[]] : List (List Int)).map fun p => (i : Int) :: p) = _
    rw [Int.toNat_natCast, List.map_eq_flatMap]
    rfl
  rw [hg, List.map_map, sum_map_range]
  rfl

/-- The sum of the values of a complex exponential. -/
noncomputable def expSum (n : Nat) (p : Int) : ℂ :=
  ∑ j ∈ Finset.range n, Complex.exp (2 * Real.pi * Complex.I * ((j * p : ℝ) / n : ℝ))

theorem expSum_eq_zero {n : Nat} (hn : 0 < n) {p : Int} (hp : ¬ (n : Int) ∣ p) : expSum n p = 0 := by
  have h := sum_exp (a := n) (by exact_mod_cast hn) p
  rw [if_neg hp, Int.toNat_natCast, sum_map_range] at h
  unfold expSum
  rw [← h]
  simp

theorem mul_expSum {n : Nat} {p : Int} (h1 : -(n : Int) < p) (h2 : p < n) : (p : ℂ) * expSum n p = 0 := by
  by_cases h0 : p = 0
  · simp [h0]
  · rw [expSum_eq_zero (by omega), mul_zero]
    rintro ⟨c, hc⟩
    have : c = 0 := by
      by_contra hne
      rcases lt_or_gt_of_ne hne with h | h <;> nlinarith
    subst this
    omega

/-- The coefficient of frequency `k` of `n` values of a function. -/
noncomputable def coefficient (f : ℝ → ℝ) (n : Nat) (k : Int) : ℂ :=
  ∑ j ∈ Finset.range n, (f (2 * Real.pi * j / n) : ℂ) * Complex.exp (2 * Real.pi * Complex.I * (-1 * ((j * k : ℝ) / n) : ℝ))

theorem coefficient_cos (n : Nat) (m k : Int) :
    coefficient (fun x => Real.cos (m * x)) n k = (expSum n (m - k) + expSum n (-m - k)) / 2 := by
  unfold coefficient expSum
  rw [← Finset.sum_add_distrib, Finset.sum_div]
  refine Finset.sum_congr rfl fun j _ => ?_
  rw [Complex.ofReal_cos, Complex.cos, div_mul_eq_mul_div, add_mul, ← Complex.exp_add, ← Complex.exp_add]
  congr 3
  · push_cast; ring
  · push_cast; ring

theorem coefficient_sin (n : Nat) (m k : Int) :
    coefficient (fun x => Real.sin (m * x)) n k = (expSum n (-m - k) - expSum n (m - k)) * Complex.I / 2 := by
  unfold coefficient expSum
  rw [← Finset.sum_sub_distrib, Finset.sum_mul, Finset.sum_div]
  refine Finset.sum_congr rfl fun j _ => ?_
  rw [Complex.ofReal_sin, Complex.sin, div_mul_eq_mul_div, mul_right_comm, sub_mul, ← Complex.exp_add, ← Complex.exp_add]
  congr 4
  · push_cast; ring
  · push_cast; ring

theorem coefficient_trigonometric (a b : Nat → ℝ) (K n : Nat) (k : Int) :
    coefficient (trigonometric a b K) n k = ∑ m ∈ Finset.range (K + 1),
      ((a m : ℂ) * coefficient (fun x => Real.cos ((m : Int) * x)) n k +
        (b m : ℂ) * coefficient (fun x => Real.sin ((m : Int) * x)) n k) := by
  unfold coefficient trigonometric
  simp only [Finset.mul_sum]
  simp only [← Finset.sum_add_distrib]
  rw [Finset.sum_comm]
  refine Finset.sum_congr rfl fun j _ => ?_
  push_cast
  rw [Finset.sum_mul]
  refine Finset.sum_congr rfl fun m _ => ?_
  ring

/-- The derivative of a trigonometric polynomial. -/
theorem hasDerivAt_trigonometric (a b : Nat → ℝ) (K : Nat) (x : ℝ) :
    HasDerivAt (trigonometric a b K) (trigonometric (fun m => m * b m) (fun m => -(m * a m)) K x) x := by
  unfold trigonometric
  refine HasDerivAt.fun_sum fun m _ => ?_
  have hl : HasDerivAt (fun x : ℝ => (m : ℝ) * x) m x := by simpa using (hasDerivAt_id x).const_mul (m : ℝ)
  have h1 := (hl.cos).const_mul (a m)
  have h2 := (hl.sin).const_mul (b m)
  convert h1.fun_add h2 using 1
  dsimp only
  ring

theorem deriv_trigonometric (a b : Nat → ℝ) (K : Nat) :
    deriv (trigonometric a b K) = trigonometric (fun m => m * b m) (fun m => -(m * a m)) K :=
  funext fun x => (hasDerivAt_trigonometric a b K x).deriv

/-- The coefficients of the derivative, for the frequencies of the half spectrum. -/
theorem coefficient_deriv (a b : Nat → ℝ) {K n : Nat} (hK : 2 * K < n) {k : Int} (h0 : 0 ≤ k) (hk : 2 * k ≤ n) :
    coefficient (deriv (trigonometric a b K)) n k = coefficient (trigonometric a b K) n k * (Complex.I * k) := by
  rw [deriv_trigonometric, coefficient_trigonometric, coefficient_trigonometric, Finset.sum_mul]
  refine Finset.sum_congr rfl fun m hm => ?_
  rw [Finset.mem_range] at hm
  have h1 := mul_expSum (n := n) (p := m - k) (by omega) (by omega)
  have h2 := mul_expSum (n := n) (p := -m - k) (by omega) (by omega)
  rw [coefficient_cos, coefficient_sin]
  push_cast at h1 h2 ⊢
  generalize expSum n (m - k) = A at *
  generalize expSum n (-m - k) = B at *
  have hI := Complex.I_mul_I
  linear_combination (exp := 1) ((b m : ℂ) / 2 + (a m : ℂ) * Complex.I / 2) * h1 +
    (-(b m : ℂ) / 2 + (a m : ℂ) * Complex.I / 2) * h2 + ((b m : ℂ) * k * (A - B) / 2) * hI

theorem isDft_line {n : Nat} {f : ℝ → ℝ} {k : Int} {y : ℂ} :
    IsDft (-1) [(n : Int)] (Fftw.at' [(n : Int)] ((samples f n).map Complex.ofReal)) [k] y ↔ y = coefficient f n k := by
  rw [isDft_iff, sum_grid]
  unfold coefficient
  have : ∑ j ∈ Finset.range n, Fftw.at' [(n : Int)] ((samples f n).map Complex.ofReal) [(j : Int)] *
        wave (-1) [(n : Int)] [(j : Int)] [k] =
      ∑ j ∈ Finset.range n, (f (2 * Real.pi * j / n) : ℂ) *
        Complex.exp (2 * Real.pi * Complex.I * (-1 * ((j * k : ℝ) / n) : ℝ)) := by
    refine Finset.sum_congr rfl fun j hj => ?_
    rw [Finset.mem_range] at hj
    congr 1
    · simp [Fftw.at', rowMajor, samples, List.getD_eq_getElem?_getD, hj]
    · simp [wave, phase]
  rw [this]

/-- The loop computes the spectrum of the derivative. -/
theorem r2c_derive (a b : Nat → ℝ) {K n : Nat} (hK : 2 * K < n) {y : List ℂ}
    (h : Fftw.R2C [(n : Int)] (samples (trigonometric a b K) n) y) :
    Fftw.R2C [(n : Int)] (samples (deriv (trigonometric a b K)) n) (deriveLoop y 0) := by
  intro k hk
  have h1 := h k hk
  cases hk with
  | cons hx hk =>
    cases hk
    rename_i k
    rw [isDft_line] at h1 ⊢
    rw [coefficient_deriv a b hK hx.1 (by omega), ← h1]
    have hr : rowMajor [(n : Int) / 2 + 1] [k] = k := by simp [rowMajor]
    show (deriveLoop y 0).getD (rowMajor [(n : Int) / 2 + 1] [k]).toNat 0 =
      y.getD (rowMajor [(n : Int) / 2 + 1] [k]).toNat 0 * _
    rw [hr, deriveLoop_getD, zero_add, Int.toNat_of_nonneg hx.1]

theorem supported_line {n : Nat} (h0 : 0 < n) (h : n < 2 ^ 31) : Supported [(n : Int)] where
  ne := by simp
  pos := by intro s hs; simp at hs; omega
  fits := by intro s hs; simp at hs; omega

theorem fftwShape_line {n : Nat} (h0 : 0 < n) (h : n < 2 ^ 31) : fftwShape [(n : Int)] = [(n : Int)] := by
  rw [(supported_line h0 h).reversed]; rfl

theorem samples_length (f : ℝ → ℝ) (n : Nat) : (samples f n).length = n := by simp [samples]

theorem shapeSize_line (n : Int) : shapeSize [n] = n := by simp [shapeSize, shapeStride]

/-- The loop is defined for a complex buffer of enough elements: those of the raster are multiplied by `i k`, and nothing else
is modified. -/
theorem C100_derive (d : DftPlan) (m m' : Memory) : d.derive m = .ok m' ↔
    ∃ v w, m d.output.address = some (.complex v) ∧ shapeSize d.output.shape ≤ v.length ∧
      m' d.output.address = some (.complex w) ∧ w.length = v.length ∧
      (∀ a, a ≠ d.output.address → m' a = m a) ∧
      ∀ k : Nat, k < v.length → w.getD k 0 = if (k : Int) < shapeSize d.output.shape then v.getD k 0 * (⟨0, k⟩ : ℂ) else v.getD k 0 := by
  unfold DftPlan.derive
  have value : ∀ (v : List ℂ), shapeSize d.output.shape ≤ v.length → ∀ k : Nat,
      (deriveLoop (v.take (shapeSize d.output.shape).toNat) 0 ++ v.drop (shapeSize d.output.shape).toNat).getD k 0 =
      if (k : Int) < shapeSize d.output.shape then v.getD k 0 * (⟨0, k⟩ : ℂ) else v.getD k 0 := by
    intro v hv k
    have hl : (deriveLoop (v.take (shapeSize d.output.shape).toNat) 0).length = (shapeSize d.output.shape).toNat := by
      rw [deriveLoop_length, List.length_take]
      omega
    split
    · rw [List.getD_append _ _ _ _ (by omega), deriveLoop_getD]
      simp only [List.getD_eq_getElem?_getD, List.getElem?_take_of_lt (show k < (shapeSize d.output.shape).toNat by omega)]
      congr 1
      apply Complex.ext <;> simp
    · rw [List.getD_append_right _ _ _ _ (by omega), hl]
      simp only [List.getD_eq_getElem?_getD, List.getElem?_drop]
      congr 3
      omega
  have len : ∀ (v : List ℂ), shapeSize d.output.shape ≤ v.length →
      (deriveLoop (v.take (shapeSize d.output.shape).toNat) 0 ++ v.drop (shapeSize d.output.shape).toNat).length = v.length := by
    intro v hv
    rw [List.length_append, deriveLoop_length, List.length_take, List.length_drop]
    omega
  constructor
  · intro h
    split at h
    · next v hv =>
      split at h
      · cases h
      · next hs =>
        cases h
        refine ⟨v, _, hv, by omega, by simp [Memory.set], len v (by omega), fun a ha => by simp [Memory.set, ha], fun k _ => value v (by omega) k⟩
    · cases h
  · rintro ⟨v, w, h1, h2, h3, h4, h5, h6⟩
    rw [h1]
    dsimp only
    rw [if_neg (by omega)]
    have e : w = deriveLoop (v.take (shapeSize d.output.shape).toNat) 0 ++ v.drop (shapeSize d.output.shape).toNat := by
      refine List.ext_getElem (by rw [len v h2, h4]) fun k hk hk' => ?_
      have h7 := h6 k (by omega)
      rw [← value v h2 k, List.getD_eq_getElem _ _ hk, List.getD_eq_getElem _ _ hk'] at h7
      exact h7
    congr 1
    funext a
    by_cases ha : a = d.output.address
    · rw [ha, h3, e]
      simp [Memory.set]
    · rw [h5 a ha]
      simp [Memory.set, ha]

/-- Otherwise, other memory is accessed. -/
theorem C100_derive_undefined (d : DftPlan) (m : Memory) (v : Values) :
    (∀ e, d.derive m = .error e → e = .ub) ∧ ∀ e, v.derive = .error e → e = .ub := by
  constructor
  · intro e h
    unfold DftPlan.derive at h
    split at h
    · split at h
      · cases h; rfl
      · cases h
    · cases h; rfl
  · intro e h
    cases v with
    | complex v => cases h
    | real v => cases h; rfl

/-- C100, full statement: with plans which share their buffers, fill the input with the values of a periodic function (a trigonometric
polynomial), transform, multiply the coefficients by `i k`, transform back and normalize: the values of the derivative are in the
output of the inverse plan. -/
def C100_Statement : Prop :=
  ∀ (a b : Nat → ℝ) (K n : Nat) (t : Transform) (ps : List DftPlan) (m m₁ m₂ m₃ m₄ m₅ : Memory) (d i : DftPlan),
    0 < n → n < 2 ^ 31 → t.real = true → Session t [(n : Int)] ps m → d ∈ ps → i ∈ ps → d.transform.inverted = false →
    i.transform.inverted = true → d.Fills (.real (samples (trigonometric a b K) n)) m m₁ → d.Transforms m₁ (.ok m₂) →
    d.derive m₂ = .ok m₃ → i.Transforms m₃ (.ok m₄) → i.normalize m₄ = .ok m₅ →
    m₅ i.output.address = some (.real (samples (deriv (trigonometric a b K)) n))

/-- C100 for the functions whose degree is less than half the number of values: each step succeeds, and the derivative is exact.
Missing: higher degrees, which the values do not determine (`C100_violated`). -/
theorem C100_plans_partial (a b : Nat → ℝ) {K n : Nat} (hK : 2 * K < n) (hn : n < 2 ^ 31) {t : Transform} {ps : List DftPlan}
    {m m₁ : Memory} {d i : DftPlan} (ht : t.real = true) (hs : Session t [(n : Int)] ps m) (hd : d ∈ ps) (hi : i ∈ ps)
    (hdi : d.transform.inverted = false) (hii : i.transform.inverted = true)
    (hf : d.Fills (.real (samples (trigonometric a b K) n)) m m₁) :
    (∃ m₂, d.Transforms m₁ (.ok m₂)) ∧ ∀ r, d.Transforms m₁ r → ∃ m₂ m₃, r = .ok m₂ ∧ d.derive m₂ = .ok m₃ ∧
      (∃ m₄, i.Transforms m₃ (.ok m₄)) ∧ ∀ r, i.Transforms m₃ r → ∃ m₄ m₅, r = .ok m₄ ∧ i.normalize m₄ = .ok m₅ ∧
        m₅ i.output.address = some (.real (samples (deriv (trigonometric a b K)) n)) := by
  have h := supported_line (n := n) (by omega) hn
  have hs1 := hs.fill hd hf
  have n1 := C66_no_failure hs1 hd h
  refine ⟨n1.1, fun r hr => ?_⟩
  obtain ⟨m₂, rfl⟩ := n1.2 r hr
  have hs2 := hs1.transform hd hr
  obtain ⟨p, q, h1, h2⟩ := session_inv hs1
  have hpd := h2 d hd
  have hpi := h2 i hi
  rw [ht] at hpd hpi h1
  obtain ⟨v, _, _, rfl⟩ := hf
  obtain ⟨y, y1, _, _, y3, hy⟩ := spectrum_of_direct hpd h1 h hdi (Memory.set_same _ _ _) hr
  have e : i.input.address = d.output.address := by rw [hpi.input, hpd.output, hdi, hii]; simp
  have hos : d.output.shape = (⟨true, false⟩ : Transform).outShape [(n : Int)] := by
    rw [hpd.outShape]
    have := hpd.kind
    simp [Transform.outShape, Transform.directOutShape, hdi, this]
  have hyl : y.length = (shapeSize d.output.shape).toNat := by rw [hos]; omega
  have hder : d.derive m₂ = .ok (m₂.set d.output.address (.complex (deriveLoop y 0))) := by
    unfold DftPlan.derive
    rw [y1]
    dsimp only
    rw [if_neg (by rw [hos]; omega), ← hyl, List.take_length, List.drop_length, List.append_nil]
  have hfi : i.Fills (.complex (deriveLoop y 0)) m₂ (m₂.set d.output.address (.complex (deriveLoop y 0))) :=
    ⟨.complex y, by rw [e]; exact y1, ⟨rfl, deriveLoop_length y 0⟩, by rw [e]⟩
  have hs3 := hs2.fill hi hfi
  have n2 := C66_no_failure hs3 hi h
  refine ⟨m₂, _, rfl, hder, n2.1, fun r' hr' => ?_⟩
  obtain ⟨m₄, rfl⟩ := n2.2 r' hr'
  have hy' : IsSpectrum (fftwShape [(n : Int)]) (.real (samples (deriv (trigonometric a b K)) n)) (deriveLoop y 0) := by
    rw [fftwShape_line (by omega) hn] at hy ⊢
    exact r2c_derive a b hK hy
  obtain ⟨p', q', h1', h2'⟩ := session_inv hs3
  have hpi' := h2' i hi
  rw [ht] at hpi' h1'
  obtain ⟨m₅, hno, ho⟩ := inverse_of_spectrum hpi' h1' h hii (by rw [e]; exact Memory.set_same _ _ _) rfl
    (by rw [shapeSize_line]; simp [Values.length, samples_length]) hy' hr'
  exact ⟨m₄, m₅, rfl, hno, ho⟩

/-- C100 with functions: `inverseRealDft(out, {size})`, where `out` is `realDft(in)` whose coefficients were multiplied.
Missing: higher degrees, as above. -/
theorem C100_functions_partial (a b : Nat → ℝ) {K n : Nat} (hK : 2 * K < n) (hn : n < 2 ^ 31) :
    (∃ r, DftFunction ⟨true, false⟩ [(n : Int)] (.real (samples (trigonometric a b K) n)) r) ∧
    ∀ r, DftFunction ⟨true, false⟩ [(n : Int)] (.real (samples (trigonometric a b K) n)) r →
      ∃ y y', r = .ok ([(n : Int) / 2 + 1], y) ∧ y.derive = .ok y' ∧
        (∃ r', DftFunction ⟨true, true⟩ [(n : Int)] y' r') ∧ ∀ r', DftFunction ⟨true, true⟩ [(n : Int)] y' r' →
          r' = .ok ([(n : Int)], .real (samples (deriv (trigonometric a b K)) n)) := by
  have h := supported_line (n := n) (by omega) hn
  set x : Values := .real (samples (trigonometric a b K) n) with hxdef
  have hx1 : x.convert (⟨true, false⟩ : Transform).inReal = some x := rfl
  have hl1 : (x.length : Int) = shapeSize ((⟨true, false⟩ : Transform).inShape [(n : Int)]) := by
    show (x.length : Int) = shapeSize [(n : Int)]
    rw [shapeSize_line]
    simp [hxdef, Values.length, samples_length]
  refine ⟨function_exists h hx1 hl1, fun r hr => ?_⟩
  obtain ⟨p, q, m, m', d, hp, hm, ht, hin, htr, ho⟩ := function_spec h hx1 hl1 hr
  rcases ho with ⟨_, y, hy, rfl⟩ | ⟨hf, _⟩
  swap
  · cases hf
  have hdi : d.transform.inverted = false := by rw [ht]
  obtain ⟨y', y1, -, -, y2, hspec⟩ := spectrum_of_direct hp hm h hdi hin htr
  rw [hy] at y1; cases y1
  have hos : d.output.shape = [(n : Int) / 2 + 1] := by
    rw [hp.outShape, ht]
    simp [Transform.outShape, Transform.directOutShape, Transform.halfShape, Int.tdiv_eq_ediv_of_nonneg]
  refine ⟨.complex y', .complex (deriveLoop y' 0), by rw [hos], rfl, ?_⟩
  have hx2 : (Values.complex (deriveLoop y' 0)).convert (⟨true, true⟩ : Transform).inReal =
      some (.complex (deriveLoop y' 0)) := rfl
  have hl2 : ((Values.complex (deriveLoop y' 0)).length : Int) =
      shapeSize ((⟨true, true⟩ : Transform).inShape [(n : Int)]) := by
    show ((deriveLoop y' 0).length : Int) = _
    rw [deriveLoop_length, y2]
    rfl
  refine ⟨function_exists h hx2 hl2, fun r' hr' => ?_⟩
  obtain ⟨p', q', w, w', i, hp', hm', ht', hin', htr', ho'⟩ := function_spec h hx2 hl2 hr'
  have hii : i.transform.inverted = true := by rw [ht']
  have hspec' : IsSpectrum (fftwShape [(n : Int)]) (.real (samples (deriv (trigonometric a b K)) n)) (deriveLoop y' 0) := by
    rw [fftwShape_line (by omega) hn] at hspec ⊢
    exact r2c_derive a b hK hspec
  obtain ⟨w'', hno, hout⟩ := inverse_of_spectrum hp' hm' h hii hin' rfl
    (by rw [shapeSize_line]; simp [Values.length, samples_length]) hspec' htr'
  have his : i.output.shape = [(n : Int)] := by rw [hp'.outShape, ht', Transform.outShape]; simp
  rcases ho' with ⟨hf, _⟩ | ⟨_, ⟨e, he, _⟩ | ⟨m'', y, hn', hy', rfl⟩⟩
  · cases hf
  · rw [hno] at he; cases he
  · rw [hno] at hn'; cases hn'
    rw [hout] at hy'; cases hy'
    rw [his]

/-- The values of functions of high degrees are those of functions of low degrees: e.g. the sine of frequency `n - m` and the
opposite of that of frequency `m`. -/
theorem samples_alias {n m : Nat} (hm : m ≤ n) (hn : 0 < n) :
    samples (fun x => Real.sin ((n - m : Nat) * x)) n = samples (fun x => -Real.sin (m * x)) n := by
  unfold samples
  refine List.map_congr_left fun j _ => ?_
  have hn' : (n : ℝ) ≠ 0 := by exact_mod_cast hn.ne'
  dsimp only
  rw [Nat.cast_sub hm, sub_mul, show (n : ℝ) * (2 * Real.pi * j / n) = (j : Nat) * (2 * Real.pi) by field_simp,
    Real.sin_nat_mul_two_pi_sub]

/-- The trigonometric polynomial with one term, a multiple of the sine of given frequency. -/
theorem trigonometric_sin (c : ℝ) (m : Nat) :
    trigonometric (fun _ => 0) (fun k => if k = m then c else 0) m = fun x => c * Real.sin (m * x) := by
  funext x
  unfold trigonometric
  rw [Finset.sum_eq_single m] <;> simp +contextual

/-- What happens for high frequencies: the result for `sin((n - m) x)` is the derivative of `-sin(m x)`. -/
theorem C100_alias {m n : Nat} (hm : 2 * m < n) (hn : n < 2 ^ 31) {t : Transform} {ps : List DftPlan} {m₀ m₁ m₂ m₃ m₄ m₅ : Memory}
    {d i : DftPlan} (ht : t.real = true) (hs : Session t [(n : Int)] ps m₀) (hd : d ∈ ps) (hi : i ∈ ps)
    (hdi : d.transform.inverted = false) (hii : i.transform.inverted = true)
    (hf : d.Fills (.real (samples (fun x => Real.sin ((n - m : Nat) * x)) n)) m₀ m₁) (h2 : d.Transforms m₁ (.ok m₂))
    (h3 : d.derive m₂ = .ok m₃) (h4 : i.Transforms m₃ (.ok m₄)) (h5 : i.normalize m₄ = .ok m₅) :
    m₅ i.output.address = some (.real (samples (fun x => -(m * Real.cos (m * x))) n)) := by
  rw [samples_alias (by omega) (by omega)] at hf
  have he : (fun x => -Real.sin (m * x)) = trigonometric (fun _ => 0) (fun k => if k = m then -1 else 0) m := by
    rw [trigonometric_sin]; funext x; ring
  rw [he] at hf
  obtain ⟨_, hall⟩ := C100_plans_partial _ _ hm hn ht hs hd hi hdi hii hf
  obtain ⟨_, _, e1, e2, _, hall'⟩ := hall _ h2
  cases e1
  rw [h3] at e2
  cases e2
  obtain ⟨_, _, e3, e4, ho⟩ := hall' _ h4
  cases e3
  rw [h5] at e4
  cases e4
  rw [ho, deriv_trigonometric]
  congr 3
  funext x
  unfold trigonometric
  rw [Finset.sum_eq_single m] <;> simp +contextual

/-- Sessions with a real plan and its inverse. -/
theorem real_session {n : Nat} (h0 : 0 < n) (hn : n < 2 ^ 31) : ∃ m d i, Session ⟨true, false⟩ [(n : Int)] [i, d] m ∧
    d.transform.inverted = false ∧ i.transform.inverted = true ∧
    ∀ x : List ℝ, x.length = n → ∃ m₁, d.Fills (.real x) m m₁ := by
  have hsup := supported_line h0 hn
  obtain ⟨d, m, hc⟩ := constructs_exists ⟨true, false⟩ hsup
  have hs := Session.construct hc
  obtain ⟨i, m', hi⟩ := inverts_exists hs (d := d) (by simp)
  have hs' := hs.invert (by simp) hi
  obtain ⟨p, q, h1, h2⟩ := session_inv hs'
  have hp := h2 d (by simp)
  have ht := (constructs_none hc).1
  have hti : i.transform = d.transform.inverse := by cases hi; rfl
  have hdi : d.transform.inverted = false := by rw [ht]
  obtain ⟨v, v1, v2, v3⟩ := h1.signal
  refine ⟨m', d, i, hs', hdi, by rw [hti, ht]; rfl, fun x hx => ⟨_, v, ?_, ⟨v2.symm, ?_⟩, rfl⟩⟩
  · rw [hp.input, hdi]; exact v1
  · rw [shapeSize_line] at v3
    show x.length = v.length
    omega

/-- C100 does not hold for functions of high degrees: the derivative of three values of `sin(2 x)` starts with -1 instead of 2. -/
theorem C100_violated : ¬ C100_Statement := by
  intro hst
  obtain ⟨m, d, i, hs, hdi, hii, hfill⟩ := real_session (n := 3) (by norm_num) (by norm_num)
  have hsin : trigonometric (fun _ => 0) (fun k => if k = 2 then 1 else 0) 2 = fun x => Real.sin ((3 - 1 : Nat) * x) := by
    rw [trigonometric_sin]; funext x; simp
  obtain ⟨m₁, hf⟩ := hfill (samples (fun x => Real.sin ((3 - 1 : Nat) * x)) 3) (samples_length _ _)
  have hd : d ∈ [i, d] := by simp
  have hi : i ∈ [i, d] := by simp
  -- the steps succeed, as for the other function which has the same values
  have hf' := hf
  rw [samples_alias (by norm_num) (by norm_num)] at hf'
  have he : (fun x => -Real.sin ((1 : Nat) * x)) = trigonometric (fun _ => 0) (fun k => if k = 1 then -1 else 0) 1 := by
    rw [trigonometric_sin]; funext x; ring
  rw [he] at hf'
  obtain ⟨⟨m₂, h2⟩, hall⟩ := C100_plans_partial _ _ (by norm_num) (by norm_num) rfl hs hd hi hdi hii hf'
  obtain ⟨_, m₃, e1, h3, ⟨m₄, h4⟩, hall'⟩ := hall _ h2
  cases e1
  obtain ⟨_, m₅, e3, h5, -⟩ := hall' _ h4
  cases e3
  have r1 := C100_alias (m := 1) (by norm_num) (by norm_num) rfl hs hd hi hdi hii hf h2 h3 h4 h5
  have r2 := hst (fun _ => 0) (fun k => if k = 2 then 1 else 0) 2 3 ⟨true, false⟩ [i, d] m m₁ m₂ m₃ m₄ m₅ d i (by norm_num)
    (by norm_num) rfl hs hd hi hdi hii (by rw [hsin]; exact hf) h2 h3 h4 h5
  rw [r1, deriv_trigonometric] at r2
  have r3 := congrArg List.head? (Values.real.inj (Option.some.inj r2))
  simp [samples, trigonometric, List.range_succ] at r3
  norm_num at r3

/-- The program of the documentation: 360 values of the sine, whose derivative is the cosine. -/
example : ∃ m d i m₁ m₂ m₃ m₄ m₅, Session ⟨true, false⟩ [((360 : Nat) : Int)] [i, d] m ∧
    d.Fills (.real (samples Real.sin 360)) m m₁ ∧ d.Transforms m₁ (.ok m₂) ∧ d.derive m₂ = .ok m₃ ∧
    i.Transforms m₃ (.ok m₄) ∧ i.normalize m₄ = .ok m₅ ∧ m₅ i.output.address = some (.real (samples Real.cos 360)) := by
  obtain ⟨m, d, i, hs, hdi, hii, hfill⟩ := real_session (n := 360) (by norm_num) (by norm_num)
  have hsin : Real.sin = trigonometric (fun _ => 0) (fun k => if k = 1 then 1 else 0) 1 := by
    rw [trigonometric_sin]; funext x; simp
  obtain ⟨m₁, hf⟩ := hfill (samples Real.sin 360) (samples_length _ _)
  have hf' := hf
  rw [hsin] at hf'
  obtain ⟨⟨m₂, h2⟩, hall⟩ := C100_plans_partial _ _ (by norm_num) (by norm_num) rfl hs (by simp) (by simp) hdi hii hf'
  obtain ⟨_, m₃, e1, h3, ⟨m₄, h4⟩, hall'⟩ := hall _ h2
  cases e1
  obtain ⟨_, m₅, e3, h5, ho⟩ := hall' _ h4
  cases e3
  refine ⟨m, d, i, m₁, m₂, m₃, m₄, m₅, hs, hf, h2, h3, h4, h5, ?_⟩
  rw [ho, ← hsin, Real.deriv_sin]

end Litl
