import Verif.Lemmas.DftPlan

/-!
# Properties of the Fourier transforms
-/

namespace Litl

open Spec

/-! ## C52: shapes and buffers -/

/-- **C52**: the constructor allocates two buffers, distinct from each other and from those in use, of the shapes which
the transform requires, and owns them. -/
theorem C52_construct {t : Transform} {shape : Position} {m m' : Memory} {d : DftPlan}
    (h : DftPlan.Constructs t shape none none m d m') :
    d.shape = shape ∧ d.input.shape = t.inShape shape ∧ d.output.shape = t.outShape shape ∧
    d.input.address ≠ d.output.address ∧ m d.input.address = none ∧ m d.output.address = none ∧
    (∃ v, m' d.input.address = some v ∧ v.isReal = t.inReal ∧ (v.length : Int) = shapeSize (t.inShape shape)) ∧
    (∃ v, m' d.output.address = some v ∧ v.isReal = t.outReal ∧ (v.length : Int) = shapeSize (t.outShape shape)) ∧
    d.input.owns = true ∧ d.output.owns = true := by
  obtain ⟨ht, a, b, h1, h2, ⟨h3, h4⟩, h5, h6⟩ := constructs_none h
  subst ht
  refine ⟨h1.logical, h1.inShape, h1.outShape, h1.ne h2.ne, ?_, ?_, ?_, ?_, h5, h6⟩
  · rw [h1.input]; split_ifs <;> assumption
  · rw [h1.output]; split_ifs <;> assumption
  · rw [h1.input]
    cases hi : d.transform.inverted with
    | false =>
      have := h2.signal
      simpa [Holds, Transform.inReal, Transform.inShape, hi] using this
    | true =>
      have := h2.spectrum
      simpa [Holds, Transform.inReal, Transform.inShape, Transform.outShape, Transform.directOutShape, hi] using this
  · rw [h1.output]
    cases hi : d.transform.inverted with
    | false =>
      have := h2.spectrum
      simpa [Holds, Transform.outReal, Transform.outShape, Transform.directOutShape, hi] using this
    | true =>
      have := h2.signal
      simpa [Holds, Transform.outReal, Transform.outShape, hi] using this

/-- **C52**: the inverse of any plan of a session (e.g. of the plan which has just been constructed, or of an inverse)
has input and output shapes swapped, shares the buffers, and does not own them. -/
theorem C52_inverse {t : Transform} {shape : Position} {ps : List DftPlan} {m m' : Memory} {d i : DftPlan}
    (hs : Session t shape ps m) (hd : d ∈ ps) (h : d.Inverts m i m') :
    i.shape = d.shape ∧ i.input.shape = d.output.shape ∧ i.output.shape = d.input.shape ∧
    i.input.address = d.output.address ∧ i.output.address = d.input.address ∧
    i.input.owns = false ∧ i.output.owns = false := by
  obtain ⟨a, b, h1, h2⟩ := session_inv hs
  have hp := h2 d hd
  obtain ⟨h3, _, h5, h6, h7⟩ := inverts_spec hp h1 h
  refine ⟨h3.logical.trans hp.logical.symm, ?_, ?_, ?_, ?_, h6, h7⟩
  · rw [h3.inShape, hp.outShape, h5]
    by_cases hi : d.transform.inverted = true <;>
      simp [Transform.inShape, Transform.outShape, Transform.inverse, Transform.directOutShape, hi]
  · rw [h3.outShape, hp.inShape, h5]
    by_cases hi : d.transform.inverted = true <;>
      simp [Transform.inShape, Transform.outShape, Transform.inverse, Transform.directOutShape, hi]
  · rw [h3.input, hp.output, h5]
    by_cases hi : d.transform.inverted = true <;> simp [Transform.inverse, hi]
  · rw [h3.output, hp.input, h5]
    by_cases hi : d.transform.inverted = true <;> simp [Transform.inverse, hi]

/-- **C52**: the inverse of the inverse has the transform, shapes and buffers of the plan. -/
theorem C52_inverse_inverse {t : Transform} {shape : Position} {ps : List DftPlan} {m m' m'' : Memory}
    {d i j : DftPlan} (hs : Session t shape ps m) (hd : d ∈ ps) (h : d.Inverts m i m') (h' : i.Inverts m' j m'') :
    j.transform = d.transform ∧ j.shape = d.shape ∧ j.input.shape = d.input.shape ∧
    j.output.shape = d.output.shape ∧ j.input.address = d.input.address ∧ j.output.address = d.output.address := by
  have hs' := hs.invert hd h
  have a1 := C52_inverse hs hd h
  have a2 := C52_inverse hs' (by simp) h'
  have ht : i.transform = d.transform.inverse := by cases h; rfl
  have ht' : j.transform = i.transform.inverse := by cases h'; rfl
  refine ⟨?_, a2.1.trans a1.1, a2.2.1.trans a1.2.2.1, a2.2.2.1.trans a1.2.1, a2.2.2.2.1.trans a1.2.2.2.2.1,
    a2.2.2.2.2.1.trans a1.2.2.2.1⟩
  rw [ht', ht]
  obtain ⟨⟨r, i⟩, _⟩ := d
  simp [Transform.inverse]

/-- **C52**: whatever the transform, FFTW is given the logical shape, converted by `fftwShape()`. -/
theorem C52_fftw_lengths {t : Transform} {shape : Position} {ps : List DftPlan} {m : Memory} {d : DftPlan}
    (hs : Session t shape ps m) (hd : d ∈ ps) : d.plan.n = fftwShape shape := by
  obtain ⟨a, b, _, h2⟩ := session_inv hs
  have hp := h2 d hd
  rw [hp.plan, allocateFftwPlan]
  by_cases hi : d.transform.inverted = true
  · simp [hi, hp.outShape, Transform.outShape]
  · simp [hi, hp.inShape, Transform.inShape]

theorem toInt32_eq {x : Int} : toInt32 x = x ↔ -2 ^ 31 ≤ x ∧ x < 2 ^ 31 := by
  unfold toInt32
  constructor
  · intro h
    have h1 := Int.le_bmod (x := x) (m := 2 ^ 32) (by norm_num)
    have h2 := Int.bmod_lt (x := x) (m := 2 ^ 32) (by norm_num)
    rw [h] at h1 h2
    norm_num at h1 h2 ⊢
    omega
  · rintro ⟨h1, h2⟩
    apply Int.bmod_eq_of_le <;> norm_num at h1 h2 ⊢ <;> omega

/-- **C52**: `fftwShape()` is the shape with axes reversed exactly if the lengths are less than 2³¹. -/
theorem C52_fftwShape {shape : Position} (h : Pos shape) :
    fftwShape shape = shape.reverse ↔ ∀ s ∈ shape, s < 2 ^ 31 := by
  rw [fftwShape, List.reverse_inj]
  constructor
  · intro e s hs
    obtain ⟨i, hi, rfl⟩ := List.mem_iff_getElem.1 hs
    have : (shape.map toInt32)[i]'(by simpa using hi) = shape[i] := by simp only [e]
    rw [List.getElem_map] at this
    exact (toInt32_eq.1 this).2
  · intro hl
    conv_rhs => rw [← List.map_id shape]
    refine List.map_congr_left fun s hs => ?_
    have := h s hs
    exact toInt32_eq.2 ⟨by norm_num; omega, hl s hs⟩

/-- **C52** does not hold for lengths of 2³¹ and more: they do not fit in `int`. -/
theorem C52_violated : ¬ ∀ shape : Position, Pos shape → fftwShape shape = shape.reverse := by
  intro h
  have := (C52_fftwShape (shape := [2 ^ 31]) (by intro s hs; simp at hs; omega)).1
    (h [2 ^ 31] (by intro s hs; simp at hs; omega)) (2 ^ 31) (by simp)
  omega

/-- **C52**: in the row-major arrays of FFTW, with axes reversed, elements are at the same offset as in the raster. -/
theorem C52_layout {shape p : Position} (h : p.length = shape.length) :
    rowMajor shape.reverse p.reverse = index shape p := by
  rw [rowMajor_eq (by simpa using h), List.reverse_reverse, List.reverse_reverse]

/-- **C52**: the output of a real transform has `⌊length / 2⌋ + 1` columns and the other lengths are unchanged;
this is the layout of FFTW. -/
theorem C52_half_shape {a : Int} {shape : Position} (h : Pos (a :: shape)) :
    (⟨true, false⟩ : Transform).outShape (a :: shape) = (⌊(a : ℚ) / 2⌋ + 1) :: shape ∧
    Fftw.half (a :: shape).reverse = ((⟨true, false⟩ : Transform).outShape (a :: shape)).reverse := by
  have h0 : 0 ≤ a := (h a (by simp)).le
  constructor
  · have : ⌊(a : ℚ) / 2⌋ = a / 2 := by
      rw [show (2 : ℚ) = ((2 : Nat) : ℚ) by norm_num, Rat.floor_intCast_div_natCast]; norm_num
    rw [this]
    simp [Transform.outShape, Transform.directOutShape, Transform.halfShape, Int.tdiv_eq_ediv_of_nonneg h0]
  · rw [half_reverse fun s hs => (h s hs).le]
    simp [Transform.outShape, Transform.directOutShape]

/-- **C52**: this is enough: for any frequency, either it or its opposite is in the output of a real transform. -/
theorem C52_half_suffices {shape k : Position} (hs : Pos shape) (h : InShape shape k) :
    InShape ((⟨true, false⟩ : Transform).outShape shape) k ∨
      InShape ((⟨true, false⟩ : Transform).outShape shape) (oppositeFrequency shape k) := by
  have h1 := half_covers (inShape_reverse.2 h)
  rw [half_reverse fun s hm => (hs s hm).le, inShape_reverse] at h1
  refine h1.imp id fun h2 => ?_
  have e : oppositeFrequency shape.reverse k.reverse = (oppositeFrequency shape k).reverse := by
    simp only [oppositeFrequency]
    rw [List.reverse_zipWith (inShape_length h).symm]
  rw [e, inShape_reverse] at h2
  exact h2

/-- **C52**: this is necessary: the opposite of a frequency of the output is either out of it or in the same column,
such that no column can be deduced from another one. -/
theorem C52_half_minimal {a x y : Int} {shape k l : Position}
    (h : InShape ((⟨true, false⟩ : Transform).outShape (a :: shape)) (x :: k)) (ha : 0 < a)
    (ho : oppositeFrequency (a :: shape) (x :: k) = y :: l)
    (h' : InShape ((⟨true, false⟩ : Transform).outShape (a :: shape)) (y :: l)) : x = y := by
  simp only [Transform.outShape, Transform.directOutShape, Transform.halfShape, if_true, Bool.false_eq_true, if_false,
    InShape, List.forall₂_cons, Int.tdiv_eq_ediv_of_nonneg ha.le] at h h'
  simp only [oppositeFrequency, List.zipWith_cons_cons, List.cons.injEq] at ho
  obtain ⟨rfl, _⟩ := ho
  by_cases hx : x = 0
  · subst hx; simp
  · have e : (-x) % a = a - x := by
      by_cases hxa : x = a
      · subst hxa; omega
      · rw [← Int.add_emod_right, Int.emod_eq_of_lt] <;> omega
    rw [e] at h' ⊢
    omega

/-! ## C66: coefficients -/

/-- **C66**: whatever has been done before, transforms can be executed and do not fail. -/
theorem C66_no_failure {t : Transform} {shape : Position} {ps : List DftPlan} {m : Memory} {d : DftPlan}
    (hs : Session t shape ps m) (hd : d ∈ ps) (h : Supported shape) :
    (∃ m', d.Transforms m (.ok m')) ∧ ∀ r, d.Transforms m r → ∃ m', r = .ok m' := by
  obtain ⟨a, b, h1, h2⟩ := session_inv hs
  exact ⟨executes_exists (h2 d hd) h1 h, fun r hr => executes_ok (h2 d hd) h1 h hr⟩

/-- **C66**, negative result: nothing prevents the execution of a plan of which a buffer does not exist anymore (e.g. it
was owned by a plan which has been destroyed), has another value type or is too short: this is undefined behaviour.
For real transforms, the spectrum is the array of half the lengths. -/
theorem C66_undefined {d : DftPlan} {m : Memory}
    (h : (¬ ∃ v, m d.plan.input = some v ∧ (v.isReal = true ↔ d.plan.real = true ∧ d.plan.backward = false) ∧
        (if d.plan.real = true ∧ d.plan.backward = true then Fftw.half d.plan.n else d.plan.n).prod ≤ v.length) ∨
      ¬ ∃ v, m d.plan.output = some v ∧ (v.isReal = true ↔ d.plan.real = true ∧ d.plan.backward = true) ∧
        (if d.plan.real = true ∧ d.plan.backward = false then Fftw.half d.plan.n else d.plan.n).prod ≤ v.length)
    (r : Res Memory) : d.Transforms m r ↔ r = .error .ub := by
  unfold DftPlan.Transforms
  generalize d.plan = p at h ⊢
  constructor
  · intro hr
    cases hr with
    | c2c h1 h2 h3 h4 h5 =>
      refine (h.elim (fun h => h ⟨_, h2, ?_⟩) fun h => h ⟨_, h3, ?_⟩).elim <;> simp [h1, Values.isReal, Values.length, h4, h5]
    | r2c h1 h1' h2 h3 h4 h5 =>
      refine (h.elim (fun h => h ⟨_, h2, ?_⟩) fun h => h ⟨_, h3, ?_⟩).elim <;>
        simp [h1, h1', Values.isReal, Values.length, h4, h5]
    | c2r h1 h1' h2 h3 h4 h5 =>
      refine (h.elim (fun h => h ⟨_, h2, ?_⟩) fun h => h ⟨_, h3, ?_⟩).elim <;>
        simp [h1, h1', Values.isReal, Values.length, h4, h5]
    | input => rfl
    | output => rfl
  · rintro rfl
    rcases h with h | h
    · refine .input fun v hv ht => ?_
      by_contra hl
      refine h ⟨v, hv, ?_, ?_⟩
      · rw [ht]; simp
      · simpa using hl
    · refine .output fun v hv ht => ?_
      by_contra hl
      refine h ⟨v, hv, ?_, ?_⟩
      · rw [ht]; simp
      · simpa using hl

/-- **C66**: conversely, it is the only way to fail. -/
theorem C66_failure {d : DftPlan} {m : Memory} {e : Fail} (hr : d.Transforms m (.error e)) :
    (¬ ∃ v, m d.plan.input = some v ∧ (v.isReal = true ↔ d.plan.real = true ∧ d.plan.backward = false) ∧
        (if d.plan.real = true ∧ d.plan.backward = true then Fftw.half d.plan.n else d.plan.n).prod ≤ v.length) ∨
      ¬ ∃ v, m d.plan.output = some v ∧ (v.isReal = true ↔ d.plan.real = true ∧ d.plan.backward = true) ∧
        (if d.plan.real = true ∧ d.plan.backward = false then Fftw.half d.plan.n else d.plan.n).prod ≤ v.length := by
  unfold DftPlan.Transforms at hr
  generalize d.plan = p at hr ⊢
  cases hr with
  | input h =>
    left
    rintro ⟨v, hv, ht, hl⟩
    have := h v hv (by rw [Bool.eq_iff_iff, ht]; simp)
    simp only [Bool.and_eq_true] at this
    omega
  | output h =>
    right
    rintro ⟨v, hv, ht, hl⟩
    have := h v hv (by rw [Bool.eq_iff_iff, ht]; simp)
    simp only [Bool.and_eq_true, Bool.not_eq_true'] at this
    omega

/-- A plan of which the buffers have been freed. -/
example (r : Res Memory) :
    (⟨⟨true, false⟩, [4], ⟨0, [4], true⟩, ⟨1, [3], true⟩, ⟨true, false, [4], 0, 1⟩⟩ : DftPlan).Transforms (fun _ => none) r ↔
      r = .error .ub := C66_undefined (.inl (by simp)) r

/-- A plan of which the output, of 3 elements, is one element short. -/
example (r : Res Memory) :
    (⟨⟨true, false⟩, [4], ⟨0, [4], true⟩, ⟨1, [3], true⟩, ⟨true, false, [4], 0, 1⟩⟩ : DftPlan).Transforms
      (fun a => if a = 0 then some (.real [1, 2, 3, 4]) else some (.complex [0, 0])) r ↔ r = .error .ub :=
  C66_undefined (.inr (by simp [Fftw.half, Values.length])) r

/-- **C66**: after a (direct) transform, real or complex, the value at each position `k` of the output is the coefficient
of frequency `k` of the signal in the input, in the order of axes of the rasters. -/
theorem C66_direct {t : Transform} {shape : Position} {ps : List DftPlan} {m m' : Memory} {d : DftPlan}
    (hs : Session t shape ps m) (hd : d ∈ ps) (h : Supported shape) (hi : d.transform.inverted = false)
    (hr : d.Transforms m (.ok m')) :
    ∃ f : List Int → ℂ, (∀ j, InShape shape j → d.input.get? m j = some (f j)) ∧
      ∀ k, InShape (t.directOutShape shape) k → ∃ y, d.output.get? m' k = some y ∧ IsDft (-1) shape f k y := by
  obtain ⟨a, b, h1, h2⟩ := session_inv hs
  have hp := h2 d hd
  have hsz := shapeSize_eq h.ne
  have hin : d.input.shape = shape := by rw [hp.inShape, Transform.inShape, hi]; simp
  have hout : d.output.shape = t.directOutShape shape := by
    rw [hp.outShape, Transform.outShape, hi, Transform.directOutShape, hp.kind]; simp [Transform.directOutShape]
  cases htr : t.real with
  | false =>
    rw [htr] at hp h1
    obtain ⟨x, y, x1, y1, x2, y2, hc⟩ := executes_complex hp h1 h hr
    rw [hi, h.reversed] at hc
    simp only [Transform.directOutShape, htr, Bool.false_eq_true, if_false] at hout ⊢
    refine ⟨fun j => Fftw.at' shape.reverse x j.reverse, fun j hj => get?_complex hin x1 hj (by rw [x2, hsz]),
      fun k hk => ⟨_, get?_complex hout y1 hk (by rw [y2, hsz]), ?_⟩⟩
    exact isDft_reverse hk (fun j _ => rfl) (hc k.reverse (inShape_reverse.2 hk))
  | true =>
    rw [htr] at hp h1
    obtain ⟨x, y, x1, y1, x2, y2, hc⟩ := executes_real hp h1 h hi hr
    rw [h.reversed] at hc
    simp only [Transform.directOutShape, htr, if_true] at hout ⊢
    have hne : Transform.halfShape shape ≠ [] := by
      have := h.ne
      cases shape <;> simp_all [Transform.halfShape]
    have hh := half_reverse fun s hs => (h.pos s hs).le
    refine ⟨fun j => Fftw.at' shape.reverse (x.map Complex.ofReal) j.reverse,
      fun j hj => get?_real hin x1 hj (by rw [x2, hsz]),
      fun k hk => ⟨_, get?_complex hout y1 hk (by rw [y2, shapeSize_eq hne]), ?_⟩⟩
    have hk' : InShape (Fftw.half shape.reverse) k.reverse := by rw [hh]; exact inShape_reverse.2 hk
    have hks : InShape shape k := inShape_reverse.1 (inShape_of_half (fun s hs => h.pos s (by simpa using hs)) hk')
    have := hc k.reverse hk'
    rw [hh] at this
    exact isDft_reverse hks (fun j _ => rfl) this

/-- **C66**: after an inverse complex transform, the output is the inverse transform of the input, up to
normalization. -/
theorem C66_inverse_complex {t : Transform} {shape : Position} {ps : List DftPlan} {m m' : Memory} {d : DftPlan}
    (hs : Session t shape ps m) (hd : d ∈ ps) (h : Supported shape) (ht : t.real = false)
    (hi : d.transform.inverted = true) (hr : d.Transforms m (.ok m')) :
    ∃ f : List Int → ℂ, (∀ k, InShape shape k → d.input.get? m k = some (f k)) ∧
      ∀ j, InShape shape j → ∃ y, d.output.get? m' j = some y ∧ IsDft 1 shape f j y := by
  obtain ⟨a, b, h1, h2⟩ := session_inv hs
  have hp := h2 d hd
  have hsz := shapeSize_eq h.ne
  have hout : d.output.shape = shape := by rw [hp.outShape, Transform.outShape, hi]; simp
  have hin : d.input.shape = shape := by
    rw [hp.inShape, Transform.inShape, hi, Transform.directOutShape, hp.kind, ht]; simp
  rw [ht] at hp h1
  obtain ⟨x, y, x1, y1, x2, y2, hc⟩ := executes_complex hp h1 h hr
  rw [hi, h.reversed] at hc
  refine ⟨fun j => Fftw.at' shape.reverse x j.reverse, fun j hj => get?_complex hin x1 hj (by rw [x2, hsz]),
    fun k hk => ⟨_, get?_complex hout y1 hk (by rw [y2, hsz]), ?_⟩⟩
  exact isDft_reverse hk (fun j _ => rfl) (hc k.reverse (inShape_reverse.2 hk))

/-- **C66**: after an inverse real transform, the output is the inverse transform of the Hermitian spectrum of which half
is in the input, up to normalization. -/
theorem C66_inverse_real {t : Transform} {shape : Position} {ps : List DftPlan} {m m' : Memory} {d : DftPlan}
    (hs : Session t shape ps m) (hd : d ∈ ps) (h : Supported shape) (ht : t.real = true)
    (hi : d.transform.inverted = true) (hr : d.Transforms m (.ok m')) {X : List Int → ℂ} (hX : IsHermitian shape X)
    (hin : ∀ k, InShape (t.directOutShape shape) k → d.input.get? m k = some (X k)) :
    ∀ j, InShape shape j → ∃ y : ℝ, d.output.get? m' j = some (y : ℂ) ∧ IsDft 1 shape X j y := by
  obtain ⟨a, b, h1, h2⟩ := session_inv hs
  have hp := h2 d hd
  have hsz := shapeSize_eq h.ne
  have hout : d.output.shape = shape := by rw [hp.outShape, Transform.outShape, hi]; simp
  have his : d.input.shape = Transform.halfShape shape := by
    rw [hp.inShape, Transform.inShape, hi, Transform.directOutShape, hp.kind, ht]; simp
  simp only [Transform.directOutShape, ht, if_true] at hin
  rw [ht] at hp h1
  obtain ⟨x, y, x1, y1, x2, y2, hc⟩ := executes_inverseReal hp h1 h hi hr
  rw [h.reversed] at hc
  have hne : Transform.halfShape shape ≠ [] := by
    have := h.ne
    cases shape <;> simp_all [Transform.halfShape]
  have hh := half_reverse fun s hs => (h.pos s hs).le
  have key := hc (fun k => X k.reverse) ?_ ?_
  · intro j hj
    refine ⟨y.getD (rowMajor shape.reverse j.reverse).toNat 0, ?_, ?_⟩
    · rw [get?_real hout y1 hj (by rw [y2, hsz]), at'_map_ofReal]
    · have := key j.reverse (inShape_reverse.2 hj)
      rw [at'_map_ofReal] at this
      exact isDft_reverse hj (f := fun k => X k.reverse) (fun k _ => by simp) this
  · intro k hk
    have hk' : InShape shape k.reverse := by rw [← inShape_reverse, List.reverse_reverse]; exact hk
    have e : (oppositeFrequency shape.reverse k).reverse = oppositeFrequency shape k.reverse := by
      simp only [oppositeFrequency]
      rw [List.reverse_zipWith (inShape_length hk).symm, List.reverse_reverse]
    simp only
    rw [e]
    exact hX _ hk'
  · intro k hk
    rw [hh] at hk ⊢
    have hk' : InShape (Transform.halfShape shape) k.reverse := by
      rw [← inShape_reverse, List.reverse_reverse]; exact hk
    have e := hin _ hk'
    rw [get?_complex his x1 hk' (by rw [x2, shapeSize_eq hne]), List.reverse_reverse] at e
    exact Option.some.inj e

/-! ## C53: round trip -/

/-- **C53** (as stated in properties.jsonl, for plans): at any time, filling the input of a plan, transforming,
applying an inverse plan and normalizing gives back the signal. -/
def C53_Statement : Prop :=
  ∀ (t : Transform) (shape : Position) (ps : List DftPlan) (m m₁ m₂ m₃ m₄ : Memory) (d i : DftPlan) (x : Values),
    shape ≠ [] → Pos shape → Session t shape ps m → d ∈ ps → i ∈ ps → d.transform.inverted = false →
    i.transform.inverted = true → d.Fills x m m₁ → d.Transforms m₁ (.ok m₂) → i.Transforms m₂ (.ok m₃) →
    i.normalize m₃ = .ok m₄ → m₄ i.output.address = some x

/-- The complex array is the transform of the values. -/
def IsSpectrum (n : List Int) : Values → List ℂ → Prop
  | .real x, y => Fftw.R2C n x y
  | .complex x, y => Fftw.C2C (-1) n x y

theorem map_scale_complex {x z : List ℂ} {N : Int} (hN : N ≠ 0) {size : Nat} (hz : z.length = size)
    (h : z = x.map fun v => (N : ℂ) * v) :
    (z.take size).map (· * ((1 / (N : ℝ) : ℝ) : ℂ)) ++ z.drop size = x := by
  rw [← hz, List.take_length, List.drop_length, List.append_nil, h, List.map_map]
  conv_rhs => rw [← List.map_id x]
  refine List.map_congr_left fun v _ => ?_
  have : (N : ℂ) ≠ 0 := by exact_mod_cast hN
  simp only [Function.comp, id, Complex.ofReal_div, Complex.ofReal_one, Complex.ofReal_intCast]
  field_simp

theorem map_scale_real {x z : List ℝ} {N : Int} (hN : N ≠ 0) {size : Nat} (hz : z.length = size)
    (h : z = x.map fun v => (N : ℝ) * v) :
    (z.take size).map (· * (1 / (N : ℝ))) ++ z.drop size = x := by
  rw [← hz, List.take_length, List.drop_length, List.append_nil, h, List.map_map]
  conv_rhs => rw [← List.map_id x]
  refine List.map_congr_left fun v _ => ?_
  have : (N : ℝ) ≠ 0 := by exact_mod_cast hN
  simp only [Function.comp, id]
  field_simp

/-- The inverse transform of the spectrum of a signal is the signal, after normalization. -/
theorem inverse_of_spectrum {real : Bool} {shape : Position} {a b : Nat} {m m' : Memory} {i : DftPlan} {x : Values}
    {y : List ℂ} (hp : PlanOn real shape a b i) (hm : BuffersOn real shape a b m) (h : Supported shape)
    (hi : i.transform.inverted = true) (hy : m i.input.address = some (.complex y)) (hx : x.isReal = real)
    (hl : (x.length : Int) = shapeSize shape) (hs : IsSpectrum (fftwShape shape) x y)
    (hr : i.Transforms m (.ok m')) : ∃ m'', i.normalize m' = .ok m'' ∧ m'' i.output.address = some x := by
  have hN : shapeSize shape ≠ 0 := by rw [shapeSize_eq h.ne]; exact (prod_pos_int h.pos).ne'
  have hout : i.output.shape = shape := by rw [hp.outShape, Transform.outShape, hi]; simp
  cases x with
  | complex x =>
    subst hx
    obtain ⟨y', z, y1, z1, y2, z2, hc⟩ := executes_complex hp hm h hr
    rw [hy] at y1; cases y1
    rw [hi] at hc
    simp only [Values.length] at hl
    have hz := c2c_round_trip h.pos' (by rw [hl, h.prod]) (by rw [z2, h.prod]) hs hc
    rw [h.prod] at hz
    have hsz : z.length = (shapeSize shape).toNat := by omega
    refine ⟨m'.set i.output.address (.complex x), ?_, Memory.set_same _ _ _⟩
    unfold DftPlan.normalize
    rw [z1]
    dsimp only
    rw [hout, if_neg (by simp only [Values.length]; omega), DftPlan.scale, DftPlan.normalizationFactor, hp.logical,
      map_scale_complex hN hsz hz]
  | real x =>
    subst hx
    obtain ⟨y', z, y1, z1, y2, z2, hc⟩ := executes_inverseReal hp hm h hi hr
    rw [hy] at y1; cases y1
    simp only [Values.length] at hl
    have hz := r2c_round_trip h.pos' (by rw [hl, h.prod]) (by rw [z2, h.prod]) hs hc
    rw [h.prod] at hz
    have hsz : z.length = (shapeSize shape).toNat := by omega
    refine ⟨m'.set i.output.address (.real x), ?_, Memory.set_same _ _ _⟩
    unfold DftPlan.normalize
    rw [z1]
    dsimp only
    rw [hout, if_neg (by simp only [Values.length]; omega), DftPlan.scale, DftPlan.normalizationFactor, hp.logical,
      map_scale_real hN hsz hz]

/-- A direct transform outputs the spectrum. -/
theorem spectrum_of_direct {real : Bool} {shape : Position} {a b : Nat} {m m' : Memory} {d : DftPlan} {x : Values}
    (hp : PlanOn real shape a b d) (hm : BuffersOn real shape a b m) (h : Supported shape)
    (hi : d.transform.inverted = false) (hx : m d.input.address = some x) (hr : d.Transforms m (.ok m')) :
    ∃ y, m' d.output.address = some (.complex y) ∧ x.isReal = real ∧ (x.length : Int) = shapeSize shape ∧
      (y.length : Int) = shapeSize ((⟨real, false⟩ : Transform).outShape shape) ∧
      IsSpectrum (fftwShape shape) x y := by
  cases real with
  | false =>
    obtain ⟨x', y, x1, y1, x2, y2, hc⟩ := executes_complex hp hm h hr
    rw [hx] at x1; cases x1
    rw [hi] at hc
    exact ⟨y, y1, rfl, x2, by simpa [Transform.outShape, Transform.directOutShape] using y2, hc⟩
  | true =>
    obtain ⟨x', y, x1, y1, x2, y2, hc⟩ := executes_real hp hm h hi hr
    rw [hx] at x1; cases x1
    exact ⟨y, y1, rfl, x2, by simpa [Transform.outShape, Transform.directOutShape] using y2, hc⟩

/-- **C53** for the lengths which fit in `int`: at any time, whatever has been done with the plans and buffers, after
filling the input, the transform, the inverse transform and the normalization succeed and give back the signal.
Missing: lengths of 2³¹ or more, for which the property does not hold (`C53_violated`). -/
theorem C53_round_trip_partial {t : Transform} {shape : Position} {ps : List DftPlan} {m m₁ : Memory} {d i : DftPlan}
    {x : Values} (h : Supported shape) (hs : Session t shape ps m) (hd : d ∈ ps) (hi : i ∈ ps)
    (hdi : d.transform.inverted = false) (hii : i.transform.inverted = true) (hf : d.Fills x m m₁) :
    (∃ m₂, d.Transforms m₁ (.ok m₂)) ∧ ∀ r, d.Transforms m₁ r → ∃ m₂, r = .ok m₂ ∧
      (∃ m₃, i.Transforms m₂ (.ok m₃)) ∧ ∀ r, i.Transforms m₂ r → ∃ m₃, r = .ok m₃ ∧
        ∃ m₄, i.normalize m₃ = .ok m₄ ∧ m₄ i.output.address = some x := by
  have hs1 := hs.fill hd hf
  have n1 := C66_no_failure hs1 hd h
  refine ⟨n1.1, fun r hr => ?_⟩
  obtain ⟨m₂, rfl⟩ := n1.2 r hr
  have hs2 := hs1.transform hd hr
  have n2 := C66_no_failure hs2 hi h
  refine ⟨m₂, rfl, n2.1, fun r' hr' => ?_⟩
  obtain ⟨m₃, rfl⟩ := n2.2 r' hr'
  refine ⟨m₃, rfl, ?_⟩
  obtain ⟨a, b, h1, h2⟩ := session_inv hs1
  have hpd := h2 d hd
  have hpi := h2 i hi
  obtain ⟨v, _, _, rfl⟩ := hf
  obtain ⟨y, y1, x1, x2, _, hy⟩ := spectrum_of_direct hpd h1 h hdi (Memory.set_same _ _ _) hr
  have e : i.input.address = d.output.address := by rw [hpi.input, hpd.output, hdi, hii]; simp
  exact inverse_of_spectrum hpi (h1.of_executes hpd hr) h hii (e ▸ y1) x1 x2 hy hr'

/-- **C53**: normalization does not fail. -/
theorem C53_normalize {t : Transform} {shape : Position} {ps : List DftPlan} {m : Memory} {d : DftPlan}
    (hs : Session t shape ps m) (hd : d ∈ ps) : ∃ m', d.normalize m = .ok m' := by
  obtain ⟨a, b, h1, h2⟩ := session_inv hs
  have hp := h2 d hd
  have : Holds m d.output.address d.transform.outReal (shapeSize d.output.shape) := by
    rw [hp.output, hp.outShape]
    have h3 := h1.signal
    have h4 := h1.spectrum
    have := hp.kind
    cases hi : d.transform.inverted <;>
      simp_all [Transform.outReal, Transform.outShape, Transform.directOutShape]
  obtain ⟨v, v1, _, v3⟩ := this
  unfold DftPlan.normalize
  rw [v1]
  simp only
  rw [if_neg (by omega)]
  exact ⟨_, rfl⟩

/-- **C53**, beware: plans overwrite the buffers when created. If the inverse plan is created after the transform, as in
"calling `transform()` and then `inverse().transform()`" (DftPlan.h:55-57), the outcome may be any signal at all. -/
theorem C53_late_inverse {t : Transform} {shape : Position} {ps : List DftPlan} {m : Memory} {d : DftPlan}
    {x : Values} (h : Supported shape) (hs : Session t shape ps m) (hd : d ∈ ps)
    (hdi : d.transform.inverted = false) (hx : x.isReal = t.real) (hl : (x.length : Int) = shapeSize shape) :
    ∃ i m₁ m₂ m₃, d.Inverts m i m₁ ∧ i.Transforms m₁ (.ok m₂) ∧ i.normalize m₂ = .ok m₃ ∧
      m₃ i.output.address = some x := by
  obtain ⟨a, b, h1, h2⟩ := session_inv hs
  have hp := h2 d hd
  obtain ⟨v, v1, v2, v3⟩ := h1.signal
  obtain ⟨w, w1, w2, w3⟩ := h1.spectrum
  -- the spectrum of the target signal
  have hy : ∃ y : List ℂ, y.length = w.length ∧ IsSpectrum (fftwShape shape) x y := by
    cases x with
    | real x =>
      refine exists_r2c h.pos' x w.length ?_
      rw [w3, h.half, Transform.outShape, ← hx]
      simp [Transform.directOutShape, Values.isReal]
    | complex x =>
      refine exists_c2c h.pos' (-1) x w.length ?_
      rw [w3, h.prod, Transform.outShape, ← hx]
      simp [Transform.directOutShape, Values.isReal]
  obtain ⟨y, y1, y2⟩ := hy
  have ha : d.input.address = a := by rw [hp.input, hdi]; simp
  have hb : d.output.address = b := by rw [hp.output, hdi]; simp
  let t' := d.transform.inverse
  let bi : DftBuffer := ⟨d.output.address, t'.inShape d.shape, false⟩
  let bo : DftBuffer := ⟨d.input.address, t'.outShape d.shape, false⟩
  let i : DftPlan := ⟨t', d.shape, bi, bo, allocateFftwPlan t' bi bo⟩
  let m₁ : Memory := (m.set d.output.address (.complex y)).set d.input.address v
  have hinv : d.Inverts m i m₁ := by
    refine DftPlan.Constructs.mk .share .share ?_
    refine Fftw.Measures.mk (v := w) (w := v) ?_ ?_ ⟨?_, ?_⟩ (garbage_refl v)
    · change m d.output.address = _; rw [hb]; exact w1
    · change m d.input.address = _; rw [ha]; exact v1
    · exact w2.symm
    · exact y1
  have hs' := hs.invert hd hinv
  obtain ⟨hpi, hm1, _⟩ := inverts_spec hp h1 hinv
  have hii : i.transform.inverted = true := by simp [i, t', Transform.inverse, hdi]
  obtain ⟨m₂, hr⟩ := (C66_no_failure hs' (d := i) (by simp) h).1
  have hin : m₁ i.input.address = some (.complex y) := by
    change ((m.set d.output.address (.complex y)).set d.input.address v) d.output.address = _
    rw [Memory.set_ne _ (hp.ne h1.ne).symm, Memory.set_same]
  obtain ⟨m₃, hn, ho⟩ := inverse_of_spectrum hpi hm1 h hii hin hx hl y2 hr
  exact ⟨i, m₁, m₂, m₃, hinv, hr, hn, ho⟩

theorem convert_length {x x' : Values} {real : Bool} (h : x.convert real = some x') :
    x'.isReal = real ∧ x'.length = x.length := by
  cases x <;> cases real <;> simp only [Values.convert, Option.some.injEq, reduceCtorEq] at h <;> subst h <;>
    simp [Values.isReal, Values.length]

theorem copyTo_eq {x x' v : Values} {a : Nat} {m : Memory} (hv : m a = some v) (hx : x.convert v.isReal = some x')
    (hl : x.length = v.length) : copyTo x a m = .ok (m.set a x') := by
  have h1 := convert_length hx
  unfold copyTo
  rw [hv]
  dsimp only
  rw [if_neg (by omega), hx]
  cases v with
  | real v =>
    obtain ⟨w, rfl⟩ := real_of_isReal h1.1
    have : w.length = v.length := by simpa [Values.length] using h1.2.trans hl
    simp [Values.overwrite, this]
  | complex v =>
    obtain ⟨w, rfl⟩ := complex_of_isReal h1.1
    have : w.length = v.length := by simpa [Values.length] using h1.2.trans hl
    simp [Values.overwrite, this]

theorem shapeSize_nonneg {shape : Position} (h : Supported shape) (t : Transform) :
    0 ≤ shapeSize (t.inShape shape) ∧ 0 ≤ shapeSize (t.outShape shape) := by
  have h1 : 0 ≤ shapeSize shape := by rw [← h.prod]; exact (prod_pos_int h.pos').le
  have h2 : 0 ≤ shapeSize (Transform.halfShape shape) := by
    rw [← h.half]; exact (prod_pos_int (half_pos h.pos')).le
  obtain ⟨r, i⟩ := t
  cases r <;> cases i <;> simp [Transform.inShape, Transform.outShape, Transform.directOutShape, h1, h2]

/-- Plans can be constructed. -/
theorem constructs_exists (t : Transform) {shape : Position} (h : Supported shape) :
    ∃ d m, DftPlan.Constructs t shape none none (fun _ => none) d m := by
  have mk : ∀ (real : Bool) (n : Int), 0 ≤ n → ∃ v : Values, v.isReal = real ∧ (v.length : Int) = n := by
    intro real n hn
    cases real
    · exact ⟨.complex (List.replicate n.toNat 0), rfl, by simp [Values.length, hn]⟩
    · exact ⟨.real (List.replicate n.toNat 0), rfl, by simp [Values.length, hn]⟩
  obtain ⟨v, v1, v2⟩ := mk t.inReal _ (shapeSize_nonneg h t).1
  obtain ⟨w, w1, w2⟩ := mk t.outReal _ (shapeSize_nonneg h t).2
  refine ⟨_, _, .mk (.own (a := 0) rfl v1 v2) (.own (a := 1) ?_ w1 w2) (.mk (v := v) (w := w) ?_ ?_
    (garbage_refl _) (garbage_refl _))⟩
  · simp [Memory.set]
  · simp [Memory.set, allocateFftwPlan]
  · simp [Memory.set, allocateFftwPlan]

/-- Decomposition of the functions. -/
theorem function_spec {t : Transform} {shape : Position} {x x' : Values} {r : Res (Position × Values)}
    (h : Supported shape) (hx : x.convert t.inReal = some x') (hl : (x.length : Int) = shapeSize (t.inShape shape))
    (hr : DftFunction t shape x r) :
    ∃ a b m m' d, PlanOn t.real shape a b d ∧ BuffersOn t.real shape a b m ∧ d.transform = t ∧
      m d.input.address = some x' ∧ d.Transforms m (.ok m') ∧
      ((t.inverted = false ∧ ∃ y, m' d.output.address = some y ∧ r = .ok (d.output.shape, y)) ∨
       (t.inverted = true ∧ ((∃ e, d.normalize m' = .error e ∧ r = .error e) ∨
          ∃ m'' y, d.normalize m' = .ok m'' ∧ m'' d.output.address = some y ∧ r = .ok (d.output.shape, y)))) := by
  have start : ∀ {m m₁ : Memory} {d : DftPlan}, DftPlan.Constructs t shape none none m d m₁ →
      ∃ a b m₂, copyTo x d.input.address m₁ = .ok m₂ ∧ PlanOn t.real shape a b d ∧
        BuffersOn t.real shape a b m₂ ∧ d.transform = t ∧ m₂ d.input.address = some x' := by
    intro m m₁ d hc
    obtain ⟨ht, a, b, h1, h2, _⟩ := constructs_none hc
    obtain ⟨_, _, _, _, _, _, ⟨v, v1, v2, v3⟩, _⟩ := C52_construct hc
    have hc' := copyTo_eq v1 (by rw [v2]; exact hx) (by omega)
    refine ⟨a, b, _, hc', h1, h2.garbage h1.ports.2.1 v1 ?_, ht, Memory.set_same _ _ _⟩
    have := convert_length hx
    exact ⟨by rw [this.1, v2], by omega⟩
  cases hr with
  | copy hc he =>
    obtain ⟨a, b, m₂, e, _⟩ := start hc
    rw [e] at he; cases he
  | transform hc he ht =>
    obtain ⟨a, b, m₂, e, h1, h2, _⟩ := start hc
    rw [e] at he; cases he
    obtain ⟨_, h⟩ := executes_ok h1 h2 h ht
    cases h
  | direct hi hc he ht hy =>
    obtain ⟨a, b, m₂, e, h1, h2, h3, h4⟩ := start hc
    rw [e] at he; cases he
    exact ⟨a, b, _, _, _, h1, h2, h3, h4, ht, .inl ⟨hi, _, hy, rfl⟩⟩
  | normalize hi hc he ht hn =>
    obtain ⟨a, b, m₂, e, h1, h2, h3, h4⟩ := start hc
    rw [e] at he; cases he
    exact ⟨a, b, _, _, _, h1, h2, h3, h4, ht, .inr ⟨hi, .inl ⟨_, hn, rfl⟩⟩⟩
  | inverse hi hc he ht hn hy =>
    obtain ⟨a, b, m₂, e, h1, h2, h3, h4⟩ := start hc
    rw [e] at he; cases he
    exact ⟨a, b, _, _, _, h1, h2, h3, h4, ht, .inr ⟨hi, .inr ⟨_, _, hn, hy, rfl⟩⟩⟩

/-- The functions return. -/
theorem function_exists {t : Transform} {shape : Position} {x x' : Values} (h : Supported shape)
    (hx : x.convert t.inReal = some x') (hl : (x.length : Int) = shapeSize (t.inShape shape)) :
    ∃ r, DftFunction t shape x r := by
  obtain ⟨d, m, hc⟩ := constructs_exists t h
  obtain ⟨_, _, _, _, _, _, ⟨v, v1, v2, v3⟩, _⟩ := C52_construct hc
  have hc' := copyTo_eq v1 (by rw [v2]; exact hx) (by omega)
  have hf : d.Fills x' m (m.set d.input.address x') := by
    have := convert_length hx
    exact ⟨v, v1, ⟨by rw [this.1, v2], by omega⟩, rfl⟩
  have hs := (Session.construct hc).fill (by simp) hf
  obtain ⟨m', hr⟩ := (C66_no_failure hs (d := d) (by simp) h).1
  have hs' := hs.transform (by simp) hr
  have out : ∀ {m : Memory}, Session t shape [d] m → ∃ y, m d.output.address = some y := by
    intro m hs
    obtain ⟨a, b, h1, h2⟩ := session_inv hs
    have hp := h2 d (by simp)
    rw [hp.output]
    obtain ⟨v, hv, _⟩ := h1.signal
    obtain ⟨w, hw, _⟩ := h1.spectrum
    split_ifs
    · exact ⟨v, hv⟩
    · exact ⟨w, hw⟩
  cases hi : t.inverted with
  | false =>
    obtain ⟨y, hy⟩ := out hs'
    exact ⟨_, .direct hi hc hc' hr hy⟩
  | true =>
    obtain ⟨m'', hn⟩ := C53_normalize hs' (d := d) (by simp)
    obtain ⟨y, hy⟩ := out (hs'.normalize (by simp) hn)
    exact ⟨_, .inverse hi hc hc' hr hn hy⟩

/-- **C53** for the functions and the lengths which fit in `int`: `inverseComplexDft(complexDft(in))` is `in`
(converted to complex if real), and `inverseRealDft(realDft(in), in.shape())` is `in`.
Missing: lengths of 2³¹ or more (`C53_violated`). -/
theorem C53_functions_partial {real : Bool} {shape : Position} {x x' : Values} (h : Supported shape)
    (hx : x.convert real = some x') (hl : (x.length : Int) = shapeSize shape) :
    (∃ r, DftFunction ⟨real, false⟩ shape x r) ∧ ∀ r, DftFunction ⟨real, false⟩ shape x r →
      ∃ y, r = .ok ((⟨real, false⟩ : Transform).outShape shape, y) ∧
        (∃ r', DftFunction ⟨real, true⟩ shape y r') ∧ ∀ r', DftFunction ⟨real, true⟩ shape y r' →
          r' = .ok (shape, x') := by
  have hx1 : x.convert (⟨real, false⟩ : Transform).inReal = some x' := by simpa [Transform.inReal] using hx
  have hl1 : (x.length : Int) = shapeSize ((⟨real, false⟩ : Transform).inShape shape) := by
    simpa [Transform.inShape] using hl
  refine ⟨function_exists h hx1 hl1, fun r hr => ?_⟩
  obtain ⟨a, b, m, m', d, hp, hm, ht, hin, htr, ho⟩ := function_spec h hx1 hl1 hr
  rcases ho with ⟨_, y, hy, rfl⟩ | ⟨hf, _⟩
  swap
  · cases hf
  have hdi : d.transform.inverted = false := by rw [ht]
  obtain ⟨y', y1, x1, x2, y2, hspec⟩ := spectrum_of_direct hp hm h hdi hin htr
  rw [hy] at y1; cases y1
  refine ⟨.complex y', by rw [hp.outShape, ht], ?_⟩
  have hx2 : (Values.complex y').convert (⟨real, true⟩ : Transform).inReal = some (.complex y') := by
    simp [Transform.inReal, Values.convert]
  have hl2 : ((Values.complex y').length : Int) = shapeSize ((⟨real, true⟩ : Transform).inShape shape) := by
    simpa [Values.length, Transform.inShape, Transform.outShape, Transform.directOutShape] using y2
  refine ⟨function_exists h hx2 hl2, fun r' hr' => ?_⟩
  obtain ⟨a', b', n, n', i, hp', hm', ht', hin', htr', ho'⟩ := function_spec h hx2 hl2 hr'
  have hii : i.transform.inverted = true := by rw [ht']
  obtain ⟨n'', hn, hout⟩ := inverse_of_spectrum hp' hm' h hii hin' x1 x2 hspec htr'
  have hos : i.output.shape = shape := by rw [hp'.outShape, ht', Transform.outShape]; simp
  rcases ho' with ⟨hf, _⟩ | ⟨_, ⟨e, he, _⟩ | ⟨m'', y, hn', hy', rfl⟩⟩
  · cases hf
  · rw [hn] at he; cases he
  · rw [hn] at hn'; cases hn'
    rw [hout] at hy'; cases hy'
    rw [hos]

/-- FFTW is asked to transform only the beginning of the signal when lengths do not fit in `int`. -/
theorem long_signal {L : Int} (hL : 1 < L) (h1 : toInt32 L = 1) : ¬ C53_Statement := by
  intro h
  let ones : Values := .complex (List.replicate L.toNat 1)
  have hlen : (ones.length : Int) = L := by simp [ones, Values.length]; omega
  have hsz : shapeSize [L] = L := by simp [shapeSize, shapeStride]
  let t : Transform := ⟨false, false⟩
  let e : Memory := fun _ => none
  let m : Memory := (((e.set 0 ones).set 1 ones).set 0 ones).set 1 ones
  let bi : DftBuffer := ⟨0, [L], true⟩
  let bo : DftBuffer := ⟨1, [L], true⟩
  let d : DftPlan := ⟨t, [L], bi, bo, allocateFftwPlan t bi bo⟩
  have hd : DftPlan.Constructs t [L] none none e d m := by
    refine .mk (.own rfl rfl (hlen.trans hsz.symm)) (.own ?_ rfl (hlen.trans hsz.symm))
      (.mk (v := ones) (w := ones) ?_ ?_ (garbage_refl _) (garbage_refl _)) <;>
      simp [Memory.set, e, allocateFftwPlan, bi, bo]
  let ci : DftBuffer := ⟨1, [L], false⟩
  let co : DftBuffer := ⟨0, [L], false⟩
  let i : DftPlan := ⟨⟨false, true⟩, [L], ci, co, allocateFftwPlan ⟨false, true⟩ ci co⟩
  let m' : Memory := (m.set 1 ones).set 0 ones
  have hi : d.Inverts m i m' := by
    refine .mk .share .share (.mk (v := ones) (w := ones) ?_ ?_ (garbage_refl _) (garbage_refl _))
    · simp [Memory.set, m, allocateFftwPlan, d, ci]
    · simp [Memory.set, m, allocateFftwPlan, d, co]
  have hs := (Session.construct hd).invert (by simp) hi
  have hf : d.Fills ones m' (m'.set 0 ones) :=
    ⟨ones, by simp [Memory.set, m', d, bi], garbage_refl _, rfl⟩
  have hn : fftwShape [L] = [1] := by simp [fftwShape, h1]
  have hx0 : Fftw.at' [1] (List.replicate L.toNat (1 : ℂ)) [0] = 1 := by
    have : 0 < L.toNat := by omega
    simp [Fftw.at', rowMajor, List.getD_eq_getElem?_getD, this]
  have hc : ∀ s : ℝ, Fftw.C2C s [1] (List.replicate L.toNat 1) (List.replicate L.toNat 1) := by
    intro s k hk
    cases hk with
    | cons hx hk =>
      cases hk
      rename_i x
      have : x = 0 := by omega
      subst this
      rw [isDft_iff, hx0]
      simp [grid, wave, phase, hx0]
  have hle : ([1] : List Int).prod ≤ ((List.replicate L.toNat (1 : ℂ)).length : Int) := by simp; omega
  have ht1 : d.Transforms (m'.set 0 ones) (.ok (((m'.set 0 ones).set 0 ones).set 1 ones)) := by
    refine Fftw.Executes.c2c (x := List.replicate L.toNat 1) (o := List.replicate L.toNat 1)
      (y := List.replicate L.toNat 1) rfl ?_ ?_ ?_ ?_ rfl ?_ (garbage_refl _)
    · simp [Memory.set, d, bi, allocateFftwPlan, ones]
    · simp [Memory.set, d, bo, m', allocateFftwPlan, ones]
    · simp only [d, allocateFftwPlan, t, Bool.false_eq_true, if_false, bi, hn]; exact hle
    · simp only [d, allocateFftwPlan, t, Bool.false_eq_true, if_false, bi, hn]; exact hle
    · simp only [d, allocateFftwPlan, t, Bool.false_eq_true, if_false, bi, hn]; exact hc _
  let m₂ : Memory := ((m'.set 0 ones).set 0 ones).set 1 ones
  have ht2 : i.Transforms m₂ (.ok ((m₂.set 1 ones).set 0 ones)) := by
    refine Fftw.Executes.c2c (x := List.replicate L.toNat 1) (o := List.replicate L.toNat 1)
      (y := List.replicate L.toNat 1) rfl ?_ ?_ ?_ ?_ rfl ?_ (garbage_refl _)
    · simp [Memory.set, i, ci, m₂, allocateFftwPlan, ones]
    · simp [Memory.set, i, co, m₂, allocateFftwPlan, ones]
    · simp only [i, allocateFftwPlan, if_true, co, hn]; exact hle
    · simp only [i, allocateFftwPlan, if_true, co, hn]; exact hle
    · simp only [i, allocateFftwPlan, if_true, co, hn]; exact hc _
  have hs3 := ((hs.fill (d := d) (by simp) hf).transform (d := d) (by simp) ht1).transform (d := i) (by simp) ht2
  obtain ⟨m₄, hno⟩ := C53_normalize hs3 (d := i) (by simp)
  have := h t [L] [i, d] m' _ _ _ m₄ d i ones (by simp) (by intro s hs; simp at hs; omega) hs (by simp) (by simp) rfl rfl
    hf ht1 ht2 hno
  unfold DftPlan.normalize at hno
  have hcont : ((m₂.set 1 ones).set 0 ones) i.output.address = some ones := by simp [Memory.set, i, co]
  rw [hcont] at hno
  dsimp only at hno
  rw [if_neg (by simp only [i, co, hsz]; omega)] at hno
  cases hno
  rw [Memory.set_same] at this
  have h0 := Option.some.inj this
  simp only [ones, DftPlan.scale, Values.complex.injEq, i, co, DftPlan.normalizationFactor, hsz] at h0
  have h00 := congrArg (fun l : List ℂ => l[0]?) h0
  have hpos : 0 < L.toNat := by omega
  simp [hpos] at h00
  have : (L : ℂ) = ((1 : Int) : ℂ) := by simpa using h00
  have : L = 1 := by exact_mod_cast this
  omega

/-- **C53** does not hold for the 1D complex signals of length 2³² + 1, of which FFTW is asked to transform only one
element. -/
theorem C53_violated : ¬ C53_Statement :=
  long_signal (L := 2 ^ 32 + 1) (by norm_num) (by decide)

/-! ## C67: convolution in Fourier domain -/

theorem circular_inShape : ∀ {n p q : List Int}, InShape n p → InShape n q → InShape n (circular n p q) := by
  intro n
  induction n with
  | nil => intro p q hp hq; cases hp; cases hq; exact .nil
  | cons a n ih =>
    intro p q hp hq
    cases hp with
    | cons hx hp =>
      cases hq with
      | cons hy hq => exact .cons ⟨Int.emod_nonneg _ (by omega), Int.emod_lt_of_pos _ (by omega)⟩ (ih hp hq)

theorem circular_inj : ∀ {n p p' q : List Int}, InShape n p → InShape n p' → InShape n q →
    circular n p q = circular n p' q → p = p' := by
  intro n
  induction n with
  | nil => intro p p' q hp hp' hq _; cases hp; cases hp'; rfl
  | cons a n ih =>
    intro p p' q hp hp' hq e
    cases hp with
    | cons hx hp =>
      cases hp' with
      | cons hx' hp' =>
        cases hq with
        | cons hy hq =>
          rename_i x p x' p' y q
          simp only [circular, List.zipWith_cons_cons, List.cons.injEq] at e
          rw [ih hp hp' hq e.2]
          have h1 : (x - y - (x' - y)) % a = 0 := Int.emod_eq_emod_iff_emod_sub_eq_zero.1 e.1
          rw [show x - y - (x' - y) = x - x' by ring] at h1
          obtain ⟨c, hc⟩ := Int.dvd_of_emod_eq_zero h1
          have : c = 0 := by
            by_contra hne
            rcases lt_or_gt_of_ne hne with h | h <;> nlinarith
          subst this
          rw [show x = x' by linarith]

theorem perm_circular {n q : List Int} (hq : InShape n q) :
    ((grid n).map fun p => circular n p q).Perm (grid n) := by
  have hn : ((grid n).map fun p => circular n p q).Nodup :=
    (nodup_grid n).map_on fun p hp p' hp' e => circular_inj (mem_grid.1 hp) (mem_grid.1 hp') hq e
  refine List.Subperm.perm_of_length_le (List.subperm_of_subset hn ?_) (by simp)
  intro p hp
  obtain ⟨p', hp', rfl⟩ := List.mem_map.1 hp
  exact mem_grid.2 (circular_inShape (mem_grid.1 hp') hq)

theorem wave_circular {s : Int} : ∀ {n p q : List Int}, InShape n p → InShape n q → ∀ {k : List Int},
    k.length = n.length → wave s n p k = wave s n q k * wave s n (circular n p q) k := by
  intro n
  induction n with
  | nil => intro p q hp hq k _; cases hp; cases hq; simp [wave, phase]
  | cons a n ih =>
    intro p q hp hq k hk
    cases hp with
    | cons hx hp =>
      cases hq with
      | cons hy hq =>
        cases k with
        | nil => simp at hk
        | cons z k =>
          rename_i x p y q
          have ih' := ih hp hq (k := k) (by simpa using hk)
          simp only [circular, List.zipWith_cons_cons] at ih' ⊢
          rw [wave_cons, wave_cons, wave_cons, ih']
          have ha : (a : ℝ) ≠ 0 := by
            have : a ≠ 0 := by omega
            exact_mod_cast this
          have hm : ((x - y) % a : Int) = x - y - a * ((x - y) / a) := by
            have := Int.emod_add_mul_ediv (x - y) a; omega
          have e : (s : ℝ) * ((x * z : ℝ) / a) = s * ((y * z : ℝ) / a) + s * (((x - y) % a : Int) * z / a) +
              ((s * ((x - y) / a) * z : Int) : ℝ) := by
            rw [hm]; push_cast; field_simp; ring
          rw [e, Complex.ofReal_add, Complex.ofReal_add, mul_add, mul_add, Complex.exp_add, Complex.exp_add, exp_int]
          ring

/-- The transform of the convolution is the product of the transforms. -/
theorem dft_convolution {n : List Int} {f g F G c : List Int → ℂ}
    (hF : ∀ k, InShape n k → IsDft (-1) n f k (F k)) (hG : ∀ k, InShape n k → IsDft (-1) n g k (G k))
    (hc : ∀ p, c p = ((grid n).map fun q => f q * g (circular n p q)).sum) {k : List Int} (hk : InShape n k) :
    IsDft (-1) n c k (F k * G k) := by
  rw [isDft_iff, isDft_iff.1 (hF k hk), isDft_iff.1 (hG k hk), ← List.sum_map_mul_right]
  have h1 : ((grid n).map fun p => c p * wave (-1) n p k) =
      (grid n).map fun p => ((grid n).map fun q => f q * g (circular n p q) * wave (-1) n p k).sum :=
    List.map_congr_left fun p _ => by rw [hc, ← List.sum_map_mul_right]
  rw [h1, sum_comm_list]
  congr 1
  refine List.map_congr_left fun q hq => ?_
  have hq := mem_grid.1 hq
  rw [← ((perm_circular hq).map fun j => g j * wave (-1) n j k).sum_eq, List.map_map, ← List.sum_map_mul_left]
  congr 1
  refine List.map_congr_left fun p hp => ?_
  simp only [Function.comp]
  have := wave_circular (s := -1) (mem_grid.1 hp) hq (k := k) (inShape_length hk)
  rw [show (((-1 : Int) : ℝ)) = (-1 : ℝ) by norm_num] at this
  rw [this]
  ring

/-- **C53**: normalization divides the values of the output by the number of pixels. -/
theorem C53_normalize_value {t : Transform} {shape : Position} {ps : List DftPlan} {m m' : Memory} {d : DftPlan}
    (hne : shape ≠ []) (hs : Session t shape ps m) (hd : d ∈ ps) (hn : d.normalize m = .ok m') {p : Position}
    (hp : InShape d.output.shape p) {y : ℂ} (hy : d.output.get? m p = some y) :
    d.output.get? m' p = some (y / pixelCount shape) := by
  obtain ⟨a, b, h1, h2⟩ := session_inv hs
  have hpl := h2 d hd
  have hsz : d.output.shape ≠ [] := by
    rw [hpl.outShape]
    cases shape with
    | nil => exact absurd rfl hne
    | cons a l =>
      obtain ⟨⟨r, i⟩, _⟩ := d
      cases r <;> cases i <;> simp [Transform.outShape, Transform.directOutShape, Transform.halfShape]
  have hidx := index_bounds hp
  rw [← shapeSize_eq hsz] at hidx
  have hlt : (index d.output.shape p).toNat < (shapeSize d.output.shape).toNat := by omega
  unfold DftPlan.normalize at hn
  cases ho : m d.output.address with
  | none => rw [ho] at hn; cases hn
  | some v =>
    rw [ho] at hn
    dsimp only at hn
    by_cases hl : (v.length : Int) < shapeSize d.output.shape
    · rw [if_pos hl] at hn; cases hn
    · rw [if_neg hl] at hn
      cases hn
      have hN : (d.normalizationFactor : ℝ) = (pixelCount shape : Int) := by
        rw [DftPlan.normalizationFactor, hpl.logical, shapeSize_eq hne, pixelCount]
      simp only [DftBuffer.get?, ho, Option.bind_some] at hy
      simp only [DftBuffer.get?, Memory.set_same, Option.bind_some]
      rw [hN]
      cases v with
      | real v =>
        simp only [Values.get?, DftPlan.scale] at hy ⊢
        have hlv : (index d.output.shape p).toNat < v.length := by simp only [Values.length] at hl; omega
        rw [List.getElem?_append_left (by simp; omega), List.getElem?_map, List.getElem?_take, if_pos hlt]
        rw [List.getElem?_eq_getElem hlv] at hy ⊢
        simp only [Option.map_some, Option.some.injEq] at hy ⊢
        rw [← hy, Complex.ofReal_mul, Complex.ofReal_div, Complex.ofReal_one, Complex.ofReal_intCast]
        ring
      | complex v =>
        simp only [Values.get?, DftPlan.scale] at hy ⊢
        have hlv : (index d.output.shape p).toNat < v.length := by simp only [Values.length] at hl; omega
        rw [List.getElem?_append_left (by simp; omega), List.getElem?_map, List.getElem?_take, if_pos hlt, hy]
        simp only [Option.map_some, Option.some.injEq]
        rw [Complex.ofReal_div, Complex.ofReal_one, Complex.ofReal_intCast]
        ring

/-- **C67**: if the input of an inverse plan is the product of the coefficients of two signals (its half for real signals),
then its output, after normalization, is the circular convolution of the signals. -/
theorem C67_convolution {t : Transform} {shape : Position} {ps : List DftPlan} {m : Memory} {i : DftPlan}
    (hs : Session t shape ps m) (hi : i ∈ ps) (h : Supported shape) (hii : i.transform.inverted = true)
    {f g F G : List Int → ℂ} (hre : t.real = true → ∀ j, (f j).im = 0 ∧ (g j).im = 0)
    (hF : ∀ k, InShape shape k → IsDft (-1) shape f k (F k))
    (hG : ∀ k, InShape shape k → IsDft (-1) shape g k (G k))
    (hin : ∀ k, InShape (t.directOutShape shape) k → i.input.get? m k = some (F k * G k)) :
    (∃ m', i.Transforms m (.ok m')) ∧ ∀ r, i.Transforms m r → ∃ m' m'', r = .ok m' ∧ i.normalize m' = .ok m'' ∧
      ∀ p, InShape shape p → ∃ y, i.output.get? m'' p = some y ∧ IsConvolution shape f g p y := by
  have hnf := C66_no_failure hs hi h
  refine ⟨hnf.1, fun r hr => ?_⟩
  obtain ⟨m', rfl⟩ := hnf.2 r hr
  have hs' := hs.transform hi hr
  obtain ⟨m'', hn⟩ := C53_normalize hs' hi
  refine ⟨m', m'', rfl, hn, fun p hp => ?_⟩
  have hout : i.output.shape = shape := by
    obtain ⟨a, b, h1, h2⟩ := session_inv hs
    rw [(h2 i hi).outShape, Transform.outShape, hii]; simp
  let c : List Int → ℂ := fun p => ((grid shape).map fun q => f q * g (circular shape p q)).sum
  have hC : ∀ k, InShape shape k → IsDft (-1) shape c k (F k * G k) :=
    fun k hk => dft_convolution hF hG (fun _ => rfl) hk
  have hN : ((shape.prod : Int) : ℂ) ≠ 0 := by exact_mod_cast (prod_pos_int h.pos).ne'
  have key : ∃ y, i.output.get? m' p = some y ∧ y = (shape.prod : Int) * c p := by
    cases ht : t.real with
    | false =>
      obtain ⟨X, hX, ho⟩ := C66_inverse_complex hs hi h ht hii hr
      obtain ⟨y, hy, hd⟩ := ho p hp
      refine ⟨y, hy, dft_inversion h.pos (F := X) (fun k hk => ?_) hp hd⟩
      have e := hin k (by simpa [Transform.directOutShape, ht] using hk)
      rw [hX k hk] at e
      rw [Option.some.inj e]
      exact hC k hk
    | true =>
      have herm : ∀ {u U : List Int → ℂ}, (∀ j, (u j).im = 0) → (∀ k, InShape shape k → IsDft (-1) shape u k (U k)) →
          IsHermitian shape U := by
        intro u U hu hU k hk
        have h1 := isHermitian_of_real h.pos (fun j => (u j).re)
          (X := fun k => ((grid shape).map fun j => (((u j).re : ℝ) : ℂ) * wave (-1) shape j k).sum) (fun _ => rfl) k hk
        have h2 : ∀ j, (((u j).re : ℝ) : ℂ) = u j := fun j => Complex.ext (by simp) (by simp [hu j])
        simp only [h2] at h1
        rw [isDft_iff.1 (hU k hk), isDft_iff.1 (hU _ (opposite_inShape hk))]
        exact h1
      have hX : IsHermitian shape fun k => F k * G k := by
        intro k hk
        simp only [map_mul]
        rw [herm (fun j => (hre ht j).1) hF k hk, herm (fun j => (hre ht j).2) hG k hk]
      obtain ⟨y, hy, hd⟩ := C66_inverse_real hs hi h ht hii hr hX hin p hp
      exact ⟨_, hy, dft_inversion h.pos hC hp hd⟩
  obtain ⟨y, hy, e⟩ := key
  refine ⟨_, C53_normalize_value h.ne hs' hi hn (by rw [hout]; exact hp) hy, ?_⟩
  intro l hl hm
  rw [e, pixelCount, mul_div_cancel_left₀ _ hN]
  exact ((perm_grid hl hm).map _).sum_eq.symm

/-! ## Non-vacuity -/

/-- Inverse plans can be constructed. -/
theorem inverts_exists {t : Transform} {shape : Position} {ps : List DftPlan} {m : Memory} {d : DftPlan}
    (hs : Session t shape ps m) (hd : d ∈ ps) : ∃ i m', d.Inverts m i m' := by
  obtain ⟨a, b, h1, h2⟩ := session_inv hs
  have hp := h2 d hd
  obtain ⟨v, v1, _⟩ := h1.signal
  obtain ⟨w, w1, _⟩ := h1.spectrum
  have key : ∀ c, c = a ∨ c = b → ∃ u, m c = some u := by
    rintro c (rfl | rfl)
    · exact ⟨v, v1⟩
    · exact ⟨w, w1⟩
  obtain ⟨v, hv⟩ := key _ hp.ports.2.2
  obtain ⟨w, hw⟩ := key _ hp.ports.2.1
  exact ⟨_, _, .mk .share .share (.mk hv hw (garbage_refl v) (garbage_refl w))⟩

/-- A real or complex signal of 4 × 3 pixels. -/
theorem example_supported : Supported [4, 3] where
  ne := by simp
  pos := by intro s hs; simp at hs; omega
  fits := by intro s hs; simp at hs; omega

/-- A real plan and its inverse: the spectrum has 3 columns; the plans can be filled, executed, and the round trip
is as expected, for a signal which is not constant. -/
example : ∃ ps m d i m₁ m₂ m₃ m₄, Session ⟨true, false⟩ [4, 3] ps m ∧ d ∈ ps ∧ i ∈ ps ∧
    d.output.shape = [3, 3] ∧ i.input.address = d.output.address ∧
    d.Fills (.real [0, 1, 2, 3, 4, 5, 6, 7, 8, 9, 10, 11]) m m₁ ∧ d.Transforms m₁ (.ok m₂) ∧
    i.Transforms m₂ (.ok m₃) ∧ i.normalize m₃ = .ok m₄ ∧
    m₄ i.output.address = some (.real [0, 1, 2, 3, 4, 5, 6, 7, 8, 9, 10, 11]) := by
  obtain ⟨d, m, hc⟩ := constructs_exists ⟨true, false⟩ example_supported
  have hs := Session.construct hc
  obtain ⟨i, m', hi⟩ := inverts_exists hs (d := d) (by simp)
  have hs' := hs.invert (by simp) hi
  obtain ⟨a, b, h1, h2⟩ := session_inv hs'
  have hp := h2 d (by simp)
  have ht := (constructs_none hc).1
  have hti : i.transform = d.transform.inverse := by cases hi; rfl
  have hdi : d.transform.inverted = false := by rw [ht]
  have hii : i.transform.inverted = true := by rw [hti, ht]; rfl
  obtain ⟨v, v1, v2, v3⟩ := h1.signal
  have hf : d.Fills (.real [0, 1, 2, 3, 4, 5, 6, 7, 8, 9, 10, 11]) m'
      (m'.set d.input.address (.real [0, 1, 2, 3, 4, 5, 6, 7, 8, 9, 10, 11])) := by
    refine ⟨v, ?_, ⟨v2.symm, ?_⟩, rfl⟩
    · rw [hp.input, hdi]; exact v1
    · have : shapeSize [4, 3] = 12 := by rfl
      rw [this] at v3
      have h12 : (12 : Nat) = v.length := by omega
      exact h12
  obtain ⟨⟨m₂, hr⟩, h3⟩ := C53_round_trip_partial example_supported hs' (by simp) (by simp) hdi hii hf (i := i)
  obtain ⟨_, e, ⟨m₃, hr'⟩, h4⟩ := h3 _ hr
  cases e
  obtain ⟨_, e, m₄, hn, ho⟩ := h4 _ hr'
  cases e
  refine ⟨_, _, d, i, _, _, _, _, hs', by simp, by simp, ?_, (C52_inverse hs (by simp) hi).2.2.2.1, hf, hr, hr', hn, ho⟩
  rw [hp.outShape, ht]; rfl

/-- The functions on a complex raster. -/
example : ∃ r, DftFunction ⟨false, false⟩ [4, 3] (.real (List.replicate 12 1)) r :=
  (C53_functions_partial (x' := .complex ((List.replicate 12 (1 : ℝ)).map Complex.ofReal)) example_supported rfl
    rfl).1

/-- A position of a half spectrum of odd width, the opposite of which is not in the half spectrum; and one in the middle
of a half spectrum of even width, the opposite of which is in the same column. -/
example : InShape ((⟨true, false⟩ : Transform).outShape [5, 3]) [2, 1] ∧
    oppositeFrequency [5, 3] [2, 1] = [3, 2] ∧ ¬ InShape ((⟨true, false⟩ : Transform).outShape [5, 3]) [3, 2] ∧
    oppositeFrequency [4, 3] [2, 1] = [2, 2] ∧ InShape ((⟨true, false⟩ : Transform).outShape [4, 3]) [2, 2] := by
  refine ⟨?_, rfl, ?_, rfl, ?_⟩ <;> simp [Transform.outShape, Transform.directOutShape, Transform.halfShape, InShape]

/-- The coefficients of the signal (1, 2): sum and difference. -/
example : IsDft (-1) [2] (fun j => if j = [0] then 1 else 2) [0] 3 ∧
    IsDft (-1) [2] (fun j => if j = [0] then 1 else 2) [1] (-1) := by
  have hg : grid [2] = [[0], [1]] := rfl
  constructor
  · rw [isDft_iff, hg]; simp [wave, phase]; norm_num
  · rw [isDft_iff, hg]
    have : Complex.exp (-(2 * Real.pi * Complex.I * 2⁻¹)) = -1 := by
      rw [show -(2 * Real.pi * Complex.I * 2⁻¹ : ℂ) = -(Real.pi * Complex.I) by ring, Complex.exp_neg,
        Complex.exp_pi_mul_I]; norm_num
    simp [wave, phase, this]; norm_num

/-- The coefficients of (1, 2) are (3, -1), those of (0, 1) are (1, -1); an inverse plan is filled with their product, and
outputs their convolution, which is (2, 1). -/
example : ∃ m i m' m'', Session ⟨false, true⟩ [2] [i] m ∧ i.Transforms m (.ok m') ∧ i.normalize m' = .ok m'' ∧
    i.input.get? m [0] = some 3 ∧ i.input.get? m [1] = some 1 ∧
    i.output.get? m'' [0] = some 2 ∧ i.output.get? m'' [1] = some 1 := by
  have hsup : Supported [2] := ⟨by simp, by intro s hs; simp at hs; omega, by intro s hs; simp at hs; omega⟩
  obtain ⟨i, m, hc⟩ := constructs_exists ⟨false, true⟩ hsup
  obtain ⟨_, his, _, _, _, _, ⟨v, v1, v2, v3⟩, _⟩ := C52_construct hc
  have ht := (constructs_none hc).1
  have hii : i.transform.inverted = true := by rw [ht]
  have hl : v.length = 2 := by
    have : shapeSize ((⟨false, true⟩ : Transform).inShape [2]) = 2 := by rfl
    omega
  have hf : i.Fills (.complex [3, 1]) m (m.set i.input.address (.complex [3, 1])) :=
    ⟨v, v1, ⟨v2.symm, hl.symm⟩, rfl⟩
  have hs := (Session.construct hc).fill (by simp) hf
  have his' : i.input.shape = [2] := his
  have g0 : i.input.get? (m.set i.input.address (.complex [3, 1])) [0] = some 3 := by
    simp [DftBuffer.get?, Memory.set, his', Values.get?, index]
  have g1 : i.input.get? (m.set i.input.address (.complex [3, 1])) [1] = some 1 := by
    simp [DftBuffer.get?, Memory.set, his', Values.get?, index]
  have two : ∀ {k : List Int}, InShape [2] k → k = [0] ∨ k = [1] := by
    intro k hk
    have := mem_grid.2 hk
    rw [show grid [2] = [[0], [1]] from rfl] at this
    simpa using this
  have hg : grid [2] = [[0], [1]] := rfl
  have he : Complex.exp (-(2 * Real.pi * Complex.I * 2⁻¹)) = -1 := by
    rw [show -(2 * Real.pi * Complex.I * 2⁻¹ : ℂ) = -(Real.pi * Complex.I) by ring, Complex.exp_neg,
      Complex.exp_pi_mul_I]; norm_num
  obtain ⟨⟨m', hr⟩, hall⟩ := C67_convolution hs (i := i) (by simp) hsup hii
    (f := fun j => if j = [0] then 1 else 2) (g := fun j => if j = [0] then 0 else 1)
    (F := fun k => if k = [0] then 3 else -1) (G := fun k => if k = [0] then 1 else -1) (by simp)
    (by
      intro k hk
      rw [isDft_iff, hg]
      rcases two hk with rfl | rfl
      · simp [wave, phase]; norm_num
      · simp [wave, phase, he]; norm_num)
    (by
      intro k hk
      rw [isDft_iff, hg]
      rcases two hk with rfl | rfl
      · simp [wave, phase]
      · simp [wave, phase, he])
    (by
      intro k hk
      rcases two (k := k) (by simpa [Transform.directOutShape] using hk) with rfl | rfl
      · rw [g0]; simp
      · rw [g1]; simp)
  obtain ⟨_, m'', e, hn, ho⟩ := hall _ hr
  cases e
  refine ⟨_, i, m', m'', hs, hr, hn, g0, g1, ?_, ?_⟩
  · obtain ⟨y, hy, hconv⟩ := ho [0] (by simp [InShape])
    rw [hy, hconv (grid [2]) (nodup_grid _) fun _ => mem_grid, hg]
    simp [circular]
  · obtain ⟨y, hy, hconv⟩ := ho [1] (by simp [InShape])
    rw [hy, hconv (grid [2]) (nodup_grid _) fun _ => mem_grid, hg]
    simp [circular]

end Litl
