import Verif.Lemmas.DftSession

/-!
# Lemmas on the execution of Fourier transform plans
-/

namespace Litl

open Spec

theorem phase_append : ∀ {n j k : List Int} (n' j' k' : List Int), j.length = n.length → k.length = n.length →
    phase (n ++ n') (j ++ j') (k ++ k') = phase n j k + phase n' j' k' := by
  intro n
  induction n with
  | nil => intro j k n' j' k' hj hk; simp_all [phase]
  | cons a n ih =>
    intro j k n' j' k' hj hk
    cases j with
    | nil => simp at hj
    | cons x j =>
      cases k with
      | nil => simp at hk
      | cons y k =>
        simp only [List.cons_append, phase]
        rw [ih _ _ _ (by simpa using hj) (by simpa using hk)]
        ring

theorem phase_reverse : ∀ {n j k : List Int}, j.length = n.length → k.length = n.length →
    phase n.reverse j.reverse k.reverse = phase n j k := by
  intro n
  induction n with
  | nil => intros; simp [phase]
  | cons a n ih =>
    intro j k hj hk
    cases j with
    | nil => simp at hj
    | cons x j =>
      cases k with
      | nil => simp at hk
      | cons y k =>
        simp only [List.reverse_cons]
        rw [phase_append _ _ _ (by simpa using hj) (by simpa using hk),
          ih (by simpa using hj) (by simpa using hk)]
        simp only [phase]
        ring

theorem isDft_reverse {s : ℝ} {shape k : List Int} {f g : List Int → ℂ} {y : ℂ} (hk : InShape shape k)
    (hfg : ∀ j, InShape shape j → f j.reverse = g j) (h : IsDft s shape.reverse f k.reverse y) :
    IsDft s shape g k y := by
  intro l hl hm
  rw [h (l.map List.reverse) (hl.map List.reverse_injective) ?_, List.map_map]
  · congr 1
    refine List.map_congr_left fun j hj => ?_
    have hj := (hm j).1 hj
    simp only [Function.comp]
    rw [hfg j hj, phase_reverse (inShape_length hj) (inShape_length hk)]
  · intro p
    rw [List.mem_map]
    constructor
    · rintro ⟨q, hq, rfl⟩; exact inShape_reverse.2 ((hm q).1 hq)
    · intro hp
      refine ⟨p.reverse, (hm _).2 ?_, List.reverse_reverse p⟩
      rw [← inShape_reverse, List.reverse_reverse]; exact hp

/-- The shapes which FFTW can take: positive lengths, less than 2³¹, in dimension 1 or more. -/
structure Supported (shape : Position) : Prop where
  ne : shape ≠ []
  pos : Pos shape
  fits : ∀ s ∈ shape, s < 2 ^ 31

theorem toInt32_of_lt {x : Int} (h0 : 0 < x) (h : x < 2 ^ 31) : toInt32 x = x := by
  unfold toInt32
  apply Int.bmod_eq_of_le <;> norm_num at h ⊢ <;> omega

theorem Supported.reversed {shape : Position} (h : Supported shape) : fftwShape shape = shape.reverse := by
  rw [fftwShape, List.reverse_inj]
  conv_rhs => rw [← List.map_id shape]
  exact List.map_congr_left fun s hs => toInt32_of_lt (h.pos s hs) (h.fits s hs)

theorem Supported.pos' {shape : Position} (h : Supported shape) : Pos (fftwShape shape) := by
  rw [h.reversed]; intro s hs; exact h.pos s (by simpa using hs)

theorem Supported.prod {shape : Position} (h : Supported shape) : (fftwShape shape).prod = shapeSize shape := by
  rw [h.reversed, shapeSize_eq h.ne, prod_reverse_int]

theorem Supported.half {shape : Position} (h : Supported shape) :
    (Fftw.half (fftwShape shape)).prod = shapeSize (Transform.halfShape shape) := by
  rw [h.reversed, half_reverse fun s hs => (h.pos s hs).le, prod_reverse_int, shapeSize_eq]
  have := h.ne
  cases shape <;> simp_all [Transform.halfShape]

theorem PlanOn.n {real : Bool} {shape : Position} {a b : Nat} {d : DftPlan} (h : PlanOn real shape a b d) :
    d.plan.n = fftwShape shape := by
  rw [h.plan, allocateFftwPlan]
  by_cases hi : d.transform.inverted = true
  · simp [hi, h.outShape, Transform.outShape]
  · simp [hi, h.inShape, Transform.inShape]

theorem PlanOn.flags {real : Bool} {shape : Position} {a b : Nat} {d : DftPlan} (h : PlanOn real shape a b d) :
    d.plan.real = real ∧ d.plan.backward = d.transform.inverted := by
  rw [h.plan]; exact ⟨h.kind, rfl⟩

/-- The sizes and types of the buffers of a plan. -/
theorem PlanOn.buffers {real : Bool} {shape : Position} {a b : Nat} {m : Memory} {d : DftPlan}
    (h : PlanOn real shape a b d) (hm : BuffersOn real shape a b m) (hs : Supported shape) :
    Holds m d.plan.input (d.plan.real && !d.plan.backward)
      (if d.plan.real && d.plan.backward then Fftw.half d.plan.n else d.plan.n).prod ∧
    Holds m d.plan.output (d.plan.real && d.plan.backward)
      (if d.plan.real && !d.plan.backward then Fftw.half d.plan.n else d.plan.n).prod := by
  obtain ⟨⟨p1, p2⟩, _⟩ := h.ports
  obtain ⟨f1, f2⟩ := h.flags
  have hb := hm.spectrum
  have ha := hm.signal
  rw [p1, p2, h.input, h.output, f1, f2, h.n]
  cases hi : d.transform.inverted <;> cases real <;>
    simp_all [hs.prod, hs.half, Transform.outShape, Transform.directOutShape]

theorem real_of_isReal {v : Values} (h : v.isReal = true) : ∃ x, v = .real x := by
  cases v with
  | real x => exact ⟨x, rfl⟩
  | complex x => cases h

theorem complex_of_isReal {v : Values} (h : v.isReal = false) : ∃ x, v = .complex x := by
  cases v with
  | complex x => exact ⟨x, rfl⟩
  | real x => cases h

theorem garbage_refl (v : Values) : Fftw.Garbage v v := ⟨rfl, rfl⟩

/-- Transforms can be executed. -/
theorem executes_exists {real : Bool} {shape : Position} {a b : Nat} {m : Memory} {d : DftPlan}
    (h : PlanOn real shape a b d) (hm : BuffersOn real shape a b m) (hs : Supported shape) :
    ∃ m', d.Transforms m (.ok m') := by
  obtain ⟨⟨v, v1, v2, v3⟩, ⟨w, w1, w2, w3⟩⟩ := h.buffers hm hs
  have hn : Pos d.plan.n := by rw [h.n]; exact hs.pos'
  unfold DftPlan.Transforms
  cases hr : d.plan.real with
  | false =>
    simp only [hr, Bool.false_and, Bool.false_eq_true, if_false] at v2 v3 w2 w3
    obtain ⟨x, rfl⟩ := complex_of_isReal v2
    obtain ⟨o, rfl⟩ := complex_of_isReal w2
    simp only [Values.length] at v3 w3
    obtain ⟨y, y1, y2⟩ := exists_c2c hn (if d.plan.backward then 1 else -1) x o.length w3.ge
    exact ⟨_, .c2c hr v1 w1 v3.ge w3.ge y1 y2 (garbage_refl _)⟩
  | true =>
    cases hb : d.plan.backward with
    | false =>
      simp only [hr, hb, Bool.true_and, Bool.not_false, Bool.false_eq_true, if_false, if_true] at v2 v3 w2 w3
      obtain ⟨x, rfl⟩ := real_of_isReal v2
      obtain ⟨o, rfl⟩ := complex_of_isReal w2
      simp only [Values.length] at v3 w3
      obtain ⟨y, y1, y2⟩ := exists_r2c hn x o.length w3.ge
      exact ⟨_, .r2c hr hb v1 w1 v3.ge w3.ge y1 y2 (garbage_refl _)⟩
    | true =>
      simp only [hr, hb, Bool.true_and, Bool.not_true, Bool.false_eq_true, if_false, if_true] at v2 v3 w2 w3
      obtain ⟨x, rfl⟩ := complex_of_isReal v2
      obtain ⟨o, rfl⟩ := real_of_isReal w2
      simp only [Values.length] at v3 w3
      obtain ⟨y, y1, y2⟩ := exists_c2r hn x o.length w3.ge
      exact ⟨_, .c2r hr hb v1 w1 v3.ge w3.ge y1 y2 (garbage_refl _)⟩

/-- Transforms do not fail. -/
theorem executes_ok {real : Bool} {shape : Position} {a b : Nat} {m : Memory} {d : DftPlan} {r : Res Memory}
    (h : PlanOn real shape a b d) (hm : BuffersOn real shape a b m) (hs : Supported shape)
    (hr : d.Transforms m r) : ∃ m', r = .ok m' := by
  obtain ⟨⟨v, v1, v2, v3⟩, ⟨w, w1, w2, w3⟩⟩ := h.buffers hm hs
  unfold DftPlan.Transforms at hr
  cases hr with
  | c2c => exact ⟨_, rfl⟩
  | r2c => exact ⟨_, rfl⟩
  | c2r => exact ⟨_, rfl⟩
  | input e => have := e v v1 v2; omega
  | output e => have := e w w1 w2; omega

theorem BuffersOn.of_executes {real : Bool} {shape : Position} {a b : Nat} {m m' : Memory} {d : DftPlan}
    (h : PlanOn real shape a b d) (hm : BuffersOn real shape a b m) (hr : d.Transforms m (.ok m')) :
    BuffersOn real shape a b m' := by
  have hp := h.ports
  refine hm.executes (by rw [hp.1.1]; exact hp.2.1) (by rw [hp.1.2]; exact hp.2.2) ?_ hr
  rw [hp.1.1, hp.1.2]; exact h.ne hm.ne

theorem executes_complex {shape : Position} {a b : Nat} {m m' : Memory} {d : DftPlan}
    (h : PlanOn false shape a b d) (hm : BuffersOn false shape a b m) (hs : Supported shape)
    (hr : d.Transforms m (.ok m')) : ∃ x y, m d.input.address = some (.complex x) ∧
      m' d.output.address = some (.complex y) ∧ (x.length : Int) = shapeSize shape ∧
      (y.length : Int) = shapeSize shape ∧
      Fftw.C2C (if d.transform.inverted then 1 else -1) (fftwShape shape) x y := by
  obtain ⟨⟨v, v1, v2, v3⟩, ⟨w, w1, w2, w3⟩⟩ := h.buffers hm hs
  obtain ⟨f1, f2⟩ := h.flags
  obtain ⟨⟨p1, p2⟩, _⟩ := h.ports
  simp only [f1, Bool.false_and, Bool.false_eq_true, if_false, h.n, hs.prod] at v3 w3
  unfold DftPlan.Transforms at hr
  cases hr with
  | c2c e1 e2 e3 e4 e5 e6 e7 e8 =>
    rename_i x y o g
    rw [v1] at e2; cases e2
    rw [w1] at e3; cases e3
    rw [f2, h.n] at e7
    simp only [Values.length] at v3 w3
    exact ⟨x, y, p1 ▸ v1, p2 ▸ Memory.set_same _ _ _, v3, by omega, e7⟩
  | r2c e1 => rw [f1] at e1; cases e1
  | c2r e1 => rw [f1] at e1; cases e1

theorem executes_real {shape : Position} {a b : Nat} {m m' : Memory} {d : DftPlan}
    (h : PlanOn true shape a b d) (hm : BuffersOn true shape a b m) (hs : Supported shape)
    (hi : d.transform.inverted = false)
    (hr : d.Transforms m (.ok m')) : ∃ x y, m d.input.address = some (.real x) ∧
      m' d.output.address = some (.complex y) ∧ (x.length : Int) = shapeSize shape ∧
      (y.length : Int) = shapeSize (Transform.halfShape shape) ∧ Fftw.R2C (fftwShape shape) x y := by
  obtain ⟨⟨v, v1, v2, v3⟩, ⟨w, w1, w2, w3⟩⟩ := h.buffers hm hs
  obtain ⟨f1, f2⟩ := h.flags
  obtain ⟨⟨p1, p2⟩, _⟩ := h.ports
  simp only [f1, f2, hi, Bool.true_and, Bool.not_false, Bool.false_eq_true, if_false, if_true, h.n, hs.prod,
    hs.half] at v3 w3
  unfold DftPlan.Transforms at hr
  cases hr with
  | r2c e1 e1' e2 e3 e4 e5 e6 e7 e8 =>
    rename_i x y o g
    rw [v1] at e2; cases e2
    rw [w1] at e3; cases e3
    rw [h.n] at e7
    simp only [Values.length] at v3 w3
    exact ⟨x, y, p1 ▸ v1, p2 ▸ Memory.set_same _ _ _, v3, by omega, e7⟩
  | c2c e1 => rw [f1] at e1; cases e1
  | c2r e1 e1' => rw [f2, hi] at e1'; cases e1'

theorem executes_inverseReal {shape : Position} {a b : Nat} {m m' : Memory} {d : DftPlan}
    (h : PlanOn true shape a b d) (hm : BuffersOn true shape a b m) (hs : Supported shape)
    (hi : d.transform.inverted = true)
    (hr : d.Transforms m (.ok m')) : ∃ x y, m d.input.address = some (.complex x) ∧
      m' d.output.address = some (.real y) ∧ (x.length : Int) = shapeSize (Transform.halfShape shape) ∧
      (y.length : Int) = shapeSize shape ∧ Fftw.C2R (fftwShape shape) x y := by
  obtain ⟨⟨v, v1, v2, v3⟩, ⟨w, w1, w2, w3⟩⟩ := h.buffers hm hs
  obtain ⟨f1, f2⟩ := h.flags
  obtain ⟨⟨p1, p2⟩, _⟩ := h.ports
  simp only [f1, f2, hi, Bool.true_and, Bool.not_true, Bool.false_eq_true, if_false, if_true, h.n, hs.prod,
    hs.half] at v3 w3
  unfold DftPlan.Transforms at hr
  cases hr with
  | c2r e1 e1' e2 e3 e4 e5 e6 e7 e8 =>
    rename_i x y o g
    rw [v1] at e2; cases e2
    rw [w1] at e3; cases e3
    rw [h.n] at e7
    simp only [Values.length] at v3 w3
    exact ⟨x, y, p1 ▸ v1, p2 ▸ Memory.set_same _ _ _, v3, by omega, e7⟩
  | c2c e1 => rw [f1] at e1; cases e1
  | r2c e1 e1' => rw [f2, hi] at e1'; cases e1'

/-- Reading a raster at a position is reading the row-major array at the reversed position. -/
theorem get?_complex {shape p : Position} {b : DftBuffer} {m : Memory} {x : List ℂ} (hb : b.shape = shape)
    (hm : m b.address = some (.complex x)) (hp : InShape shape p) (hx : (x.length : Int) = shape.prod) :
    b.get? m p = some (Fftw.at' shape.reverse x p.reverse) := by
  have h := at'_eq (inShape_reverse.2 hp) (x := x) (by rw [prod_reverse_int, hx])
  rw [rowMajor_eq (by simpa using inShape_length hp), List.reverse_reverse, List.reverse_reverse] at h
  simp only [DftBuffer.get?, hm, Option.bind_some, Values.get?, hb]
  exact h

theorem get?_real {shape p : Position} {b : DftBuffer} {m : Memory} {x : List ℝ} (hb : b.shape = shape)
    (hm : m b.address = some (.real x)) (hp : InShape shape p) (hx : (x.length : Int) = shape.prod) :
    b.get? m p = some (Fftw.at' shape.reverse (x.map Complex.ofReal) p.reverse) := by
  have h := at'_eq (inShape_reverse.2 hp) (x := x.map Complex.ofReal) (by rw [prod_reverse_int]; simpa using hx.ge)
  rw [rowMajor_eq (by simpa using inShape_length hp), List.reverse_reverse, List.reverse_reverse] at h
  simp only [DftBuffer.get?, hm, Option.bind_some, Values.get?, hb]
  rw [← h, List.getElem?_map]

end Litl
