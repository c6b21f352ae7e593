import Verif.Lemmas.LineKernel
import Verif.Model.Printf
import Verif.Props.SeparableKernel

/-!
# C119: messages of correlations do not make the behaviour undefined
-/

namespace Litl

open Container (ok_bind)

variable {α : Type} [Zero α] [Add α] [Mul α]

/-- The full property: whatever the integral value type, or for floating point values, the messages do not change the outcomes. -/
def C119_Statement : Prop :=
  (∀ (t : IntType) (k : SeparableKernel Int) (input : Raster Int) (r : Res (Raster Int)),
    k.CorrelatesPrinted (.ofInteger t) input r ↔ k.Correlates input r) ∧
  ∀ (k : SeparableKernel ℚ) (input : Raster ℚ) (r : Res (Raster ℚ)),
    k.CorrelatesPrinted (fun _ => .floating) input r ↔ k.Correlates input r

/-! ## Arguments -/

theorem printf_ok {cs : List Conversion} {as : List Argument} (hl : cs.length ≤ as.length) :
    printf cs as = .ok () ↔ ∀ x ∈ cs.zip as, x.1.Accepts x.2 := by
  induction cs generalizing as with
  | nil => simp [printf]
  | cons c cs ih =>
    cases as with
    | nil => simp at hl
    | cons a as =>
      rw [printf, List.zip_cons_cons, List.forall_mem_cons]
      split
      · next h => rw [ih (by simpa using hl)]; simp [h]
      · next h => simp [h]

theorem printf_error {cs : List Conversion} {as : List Argument} {e : Fail} (h : printf cs as = .error e) : e = .ub := by
  induction cs generalizing as with
  | nil => simp [printf] at h
  | cons c cs ih =>
    cases as with
    | nil => cases h; rfl
    | cons a as =>
      rw [printf] at h
      split at h
      · exact ih h
      · cases h; rfl

theorem accepts_long (x : Int) : Conversion.li.Accepts (.integer .long x) := .inl rfl

/-- **C119**: the value types which can be printed as `int` are the integers of at most 31 digits (`bool` to `int`), and
`unsigned int` up to 2^31 - 1; floating point and complex numbers cannot. -/
theorem C119_types (t : IntType) (x : Int) : (Conversion.i.Accepts (.ofInteger t x) ↔
    t.digits ≤ 31 ∨ t = ⟨32, false⟩ ∧ x ≤ 2 ^ 31 - 1) ∧ ¬ Conversion.i.Accepts .floating := by
  refine ⟨?_, id⟩
  unfold Argument.ofInteger Conversion.Accepts IntType.promoted Conversion.type IntType.int IntType.highest
  dsimp only
  by_cases h : t.digits ≤ 31
  · simp [h]
  · rw [if_neg h]
    have : t ≠ ⟨31, true⟩ := by rintro rfl; exact h le_rfl
    simp [h, this]

/-! ## Separable kernels -/

open SeparableKernel in
/-- **C119**: the outcome with messages is a raster if, and only if, that without messages is, and the first pixels of the rasters which
are computed for each axis are printable. -/
theorem C119_separable (arg : α → Argument) (kernels : List (Nat × LineKernel α)) (axes : List Nat) (input out : Raster α) :
    AlongSeqPrinted arg kernels axes input (.ok out) ↔
      ∃ tmps : List (Raster α), tmps.length = axes.length ∧ (input :: tmps).getLast? = some out ∧
        (∀ (i axis : Nat) (a b : Raster α), axes[i]? = some axis → (input :: tmps)[i]? = some a → tmps[i]? = some b →
          Along kernels axis a (.ok b)) ∧
        ∀ b ∈ tmps, ∃ x, readAt b.data 0 = .ok x ∧ Conversion.i.Accepts (arg x) := by
  induction axes generalizing input with
  | nil =>
    constructor
    · intro h
      cases h
      exact ⟨[], rfl, rfl, by simp, by simp⟩
    · rintro ⟨tmps, h1, h2, _, _⟩
      obtain rfl : tmps = [] := List.length_eq_zero_iff.1 h1
      simp at h2
      subst h2
      exact .done
  | cons axis axes ih =>
    constructor
    · intro h
      generalize hr : (.ok out : Res (Raster α)) = r at h
      cases h with
      | fail => cases hr
      | @next _ _ _ tmp res h1 h2 =>
        cases res with
        | error e => cases hr
        | ok o =>
          unfold message at hr
          rw [ok_bind] at hr
          cases hx : readAt tmp.data 0 with
          | error e => rw [hx] at hr; cases hr
          | ok x =>
            cases hy : readAt o.data 0 with
            | error e => rw [hx, hy] at hr; cases hr
            | ok y =>
              rw [hx, hy, ok_bind, ok_bind] at hr
              cases hp : printf [.li, .i, .i] [.integer .long axis, arg x, arg y] with
              | error e => rw [hp] at hr; cases hr
              | ok u =>
                rw [hp, ok_bind] at hr
                obtain rfl := Except.ok.inj hr
                have hp := (printf_ok (by simp)).1 hp
                obtain ⟨tmps, t1, t2, t3, t4⟩ := (ih tmp).1 h2
                refine ⟨tmp :: tmps, by simp [t1], by rw [List.getLast?_cons_cons]; exact t2, ?_, ?_⟩
                · intro i ax a b g1 g2 g3
                  cases i with
                  | zero =>
                    simp at g1 g2 g3
                    subst g1 g2 g3
                    exact h1
                  | succ i => exact t3 i ax a b (by simpa using g1) (by simpa using g2) (by simpa using g3)
                · intro b hb
                  rcases List.mem_cons.1 hb with rfl | hb
                  · exact ⟨x, hx, hp (.i, arg x) (by simp)⟩
                  · exact t4 b hb
    · rintro ⟨tmps, t1, t2, t3, t4⟩
      cases tmps with
      | nil => simp at t1
      | cons tmp tmps =>
        have h1 : Along kernels axis input (.ok tmp) := t3 0 axis input tmp rfl rfl rfl
        rw [List.getLast?_cons_cons] at t2
        have h2 := (ih tmp).2 ⟨tmps, by simpa using t1, t2,
          fun i ax a b g1 g2 g3 => t3 (i + 1) ax a b (by simpa using g1) (by simpa using g2) (by simpa using g3),
          fun b hb => t4 b (List.mem_cons_of_mem _ hb)⟩
        obtain ⟨x, hx, ax⟩ := t4 tmp (List.mem_cons_self ..)
        obtain ⟨y, hy, ay⟩ := t4 out (List.mem_of_getLast? t2)
        have hm : message arg axis tmp (.ok out) = .ok out := by
          unfold message
          rw [ok_bind, hx, hy, ok_bind, ok_bind, (printf_ok (by simp)).2 (by simp [accepts_long, ax, ay])]
          rfl
        rw [← hm]
        exact .next h1 h2

open SeparableKernel in
/-- **C119**, for the types which are printed as `int`: the outcomes are the same.

Missing: the other ones, see `C119_undefined`, and `unsigned int` beyond 2^31 - 1 (`C119_separable`). -/
theorem C119_separable_partial {arg : α → Argument} (ha : ∀ x, Conversion.i.Accepts (arg x)) (k : SeparableKernel α)
    (input : Raster α) (r : Res (Raster α)) : k.CorrelatesPrinted arg input r ↔ k.Correlates input r := by
  have hm : ∀ (axis : Nat) (tmp : Raster α) (res : Res (Raster α)), message arg axis tmp res = printed tmp res := by
    intro axis tmp res
    cases res with
    | error e => rfl
    | ok o =>
      unfold message printed
      rw [ok_bind, ok_bind]
      cases readAt tmp.data 0 with
      | error e => rfl
      | ok x =>
        rw [ok_bind, ok_bind]
        cases readAt o.data 0 with
        | error e => rfl
        | ok y =>
          rw [ok_bind, ok_bind, (printf_ok (by simp)).2 (by simp [accepts_long, ha])]
          rfl
  unfold SeparableKernel.CorrelatesPrinted SeparableKernel.Correlates
  generalize k.axes = axes
  constructor
  · intro h
    induction h with
    | done => exact .done
    | fail h => exact .fail h
    | next h1 _ ih => rw [hm]; exact .next h1 ih
  · intro h
    induction h with
    | done => exact .done
    | fail h => exact .fail h
    | next h1 _ ih => rw [← hm]; exact .next h1 ih

omit [Zero α] [Add α] [Mul α] in
theorem message_not {arg : α → Argument} (ha : ∀ x, ¬ Conversion.i.Accepts (arg x)) (axis : Nat) (tmp out : Raster α) :
    SeparableKernel.message arg axis tmp (.ok out) = .error .ub := by
  unfold SeparableKernel.message
  rw [ok_bind]
  rcases readAt_cases tmp.data 0 with ⟨_, hx⟩ | ⟨_, hx⟩
  · rcases readAt_cases out.data 0 with ⟨_, hy⟩ | ⟨_, hy⟩
    · rw [hx, hy, ok_bind, ok_bind, printf, if_pos (accepts_long _), printf, if_neg (ha _)]
      rfl
    · rw [hx, hy]; rfl
  · rw [hx]; rfl

open SeparableKernel in
/-- **C119**: with values which are never printable (see `C119_types`: floating point numbers, complex numbers and long integers),
correlation along at least one axis never gives a raster; where it should, the behaviour is undefined, and the other outcomes are
those without messages. -/
theorem C119_undefined {arg : α → Argument} (ha : ∀ x, ¬ Conversion.i.Accepts (arg x)) {k : SeparableKernel α} (hk : k.axes ≠ [])
    (input : Raster α) : (∀ out, ¬ k.CorrelatesPrinted arg input (.ok out)) ∧
      (∀ out, k.Correlates input (.ok out) → k.CorrelatesPrinted arg input (.error .ub)) ∧
      ∀ r, k.CorrelatesPrinted arg input r → r = .error .ub ∨ k.Correlates input r := by
  unfold SeparableKernel.CorrelatesPrinted SeparableKernel.Correlates
  generalize k.axes = axes at hk
  refine ⟨?_, ?_, ?_⟩
  · intro out h
    obtain ⟨tmps, t1, _, _, t4⟩ := (C119_separable arg _ _ _ _).1 h
    cases tmps with
    | nil => exact hk (List.length_eq_zero_iff.1 t1.symm)
    | cons b tmps =>
      obtain ⟨x, _, hx⟩ := t4 b (List.mem_cons_self ..)
      exact ha x hx
  · intro out h
    generalize hr : (.ok out : Res (Raster α)) = r at h
    induction h generalizing out with
    | done => exact absurd rfl hk
    | fail => cases hr
    | @next axis axes input tmp res h1 h2 ih =>
      cases res with
      | error e => cases hr
      | ok o =>
        by_cases hx : axes = []
        · subst hx
          cases h2
          have := AlongSeqPrinted.next (arg := arg) h1 .done
          rwa [message_not ha] at this
        · exact .next (arg := arg) (res := .error .ub) h1 (ih hx o rfl)
  · clear hk
    intro r h
    induction h with
    | done => exact .inr .done
    | fail h => exact .inr (.fail h)
    | @next axis axes input tmp res h1 h2 ih =>
      cases res with
      | error e =>
        rcases ih with ih | ih
        · rw [ih]; exact .inl rfl
        · exact .inr (.next (res := .error e) h1 ih)
      | ok o => exact .inl (message_not ha ..)

/-- A concrete case of `C119_undefined`: a kernel along an axis, with `double` and with `long`. -/
example (input out : Raster ℚ) : ¬ (SeparableKernel.mk [0] [(0, ⟨[1, 2], 0⟩)] : SeparableKernel ℚ).CorrelatesPrinted
    (fun _ => .floating) input (.ok out) := (C119_undefined (fun _ => id) (by decide) input).1 out

example (input out : Raster Int) : ¬ (SeparableKernel.mk [0] [(0, ⟨[1, 2], 0⟩)] : SeparableKernel Int).CorrelatesPrinted
    (.ofInteger .long) input (.ok out) :=
  (C119_undefined (fun x h => by have := (C119_types .long x).1.1 h; revert this; simp [IntType.long]) (by decide) input).1 out

example (k : SeparableKernel Int) (input : Raster Int) (r : Res (Raster Int)) :
    k.CorrelatesPrinted (.ofInteger ⟨15, true⟩) input r ↔ k.Correlates input r :=
  C119_separable_partial (fun x => (C119_types ⟨15, true⟩ x).1.2 (.inl (by decide))) k input r

open SeparableKernel Spec in
theorem C119_violated : ¬ C119_Statement := by
  rintro ⟨h, _⟩
  obtain ⟨out, _, h1, _⟩ := C49_separable example_wellFormed (by decide) (by unfold Pos; decide) (by decide) example_large
    (by decide) example_extends
  have h2 := (h .long exampleKernel exampleRaster (.ok out)).2 ((h1 _).2 rfl)
  refine (C119_undefined (fun x h => ?_) (by decide) exampleRaster).1 out h2
  have := (C119_types .long x).1.1 h
  revert this
  simp [IntType.long]

/-! ## 1D kernels -/

theorem While.not_cond {σ : Type _} {cond : σ → Prop} {body : σ → Res σ} {s s' : σ} (h : While cond body s (.ok s')) :
    ¬ cond s' := by
  generalize hr : (.ok s' : Res σ) = r at h
  induction h with
  | done hc => obtain rfl := Except.ok.inj hr; exact hc
  | fail => cases hr
  | next _ _ _ ih => exact ih hr

theorem While.inv {σ : Type _} {cond : σ → Prop} {body : σ → Res σ} (P : σ → Prop)
    (hp : ∀ s s', P s → cond s → body s = .ok s' → P s') {s s' : σ} (h : While cond body s (.ok s')) (h0 : P s) : P s' := by
  generalize hr : (.ok s' : Res σ) = r at h
  induction h with
  | done hc => obtain rfl := Except.ok.inj hr; exact h0
  | fail => cases hr
  | next hc hb _ ih => exact ih (hp _ _ h0 hc hb) hr

/-- A loop whose body never succeeds succeeds only without iterating. -/
theorem While.never {σ : Type _} {cond : σ → Prop} {body : σ → Res σ} {s s' : σ} (hb : ∀ t t', body t ≠ .ok t') :
    While cond body s (.ok s') ↔ ¬ cond s ∧ s' = s := by
  constructor
  · intro h
    cases h with
    | done hc => exact ⟨hc, rfl⟩
    | next _ h _ => exact absurd h (hb _ _)
  · rintro ⟨hc, rfl⟩
    exact .done hc

namespace LineKernel

omit [Zero α] [Add α] [Mul α] in
theorem printf_step {r : Res (State α)} {cs : List Conversion} {as : List Argument} (hl : cs.length ≤ as.length)
    (h : ∀ x ∈ cs.zip as, x.1.Accepts x.2) : (do let s' ← r; printf cs as; return s') = r := by
  cases r with
  | error e => rfl
  | ok s => rw [ok_bind, (printf_ok hl).2 h]; rfl

theorem printf_step_not {β γ : Type} {r : Res β} {f : β → Res γ} {cs : β → List Conversion} {as : β → List Argument}
    (h : ∀ b, printf (cs b) (as b) ≠ .ok ()) (t : γ) : (do let b ← r; let s' ← f b; printf (cs b) (as b); return s') ≠ .ok t := by
  cases r with
  | error e => intro h; cases h
  | ok b =>
    rw [ok_bind]
    cases f b with
    | error e => intro h; cases h
    | ok s =>
      rw [ok_bind]
      cases hp : printf (cs b) (as b) with
      | error e => intro h; cases h
      | ok u => exact absurd hp (h b)

/-- **C119**, for 1D kernels and types which are printed as `int`, where the bound of the second loop, which is unsigned, does not wrap
around: the outcomes are the same.

Missing: the other types (`C119_line_undefined`), and the other bounds (`C119_line_short`). -/
theorem C119_line_partial {arg : α → Argument} (ha : ∀ x, Conversion.i.Accepts (arg x)) {k : LineKernel α} {read : Int → Res α}
    {inn out : DataSamples} (hb : u64 (u64 (inn.size - k.forward) - u64 inn.sampling.step) < 2 ^ 63) (data : List α)
    (r : Res (List α)) : k.CorrelatesPrinted arg read inn out data r ↔ k.Correlates read inn out data r := by
  have h1 : backwardPrinted arg k read inn out = backwardBody k read inn out := by
    funext s
    unfold backwardPrinted backwardBody
    congr 1
    funext x
    exact printf_step (by simp) (by simp [accepts_long, ha])
  have h2 : centralPrinted arg k read inn out = centralBody k read inn out := by
    funext s
    unfold centralPrinted centralBody
    congr 1
    funext x
    refine printf_step (by simp) ?_
    simp only [List.zip_cons_cons, List.zip_nil_right, List.forall_mem_cons, accepts_long, ha, true_and]
    refine ⟨.inr ⟨rfl, ?_⟩, by simp⟩
    simp only [Conversion.type, IntType.long, IntType.highest]
    omega
  have h3 : forwardPrinted arg k read inn out = forwardBody k read inn out := by
    funext s
    unfold forwardPrinted forwardBody
    congr 1
    funext x
    exact printf_step (by simp) (by simp [accepts_long, ha])
  unfold LineKernel.CorrelatesPrinted LineKernel.Correlates
  rw [(printf_ok (by simp)).2 (by simp [accepts_long]), h1, h2, h3]
  exact Iff.rfl

/-- **C119**, for 1D kernels and values which are never printable: there is a result only if there is nothing to compute. -/
theorem C119_line_undefined {arg : α → Argument} (ha : ∀ x, ¬ Conversion.i.Accepts (arg x)) {k : LineKernel α}
    {read : Int → Res α} {inn out : DataSamples} {data res : List α} :
    k.CorrelatesPrinted arg read inn out data (.ok res) ↔
      k.origin ≤ inn.sampling.front ∧ u64 (u64 (inn.size - k.forward) - u64 inn.sampling.step) < u64 inn.sampling.front ∧
      inn.sampling.back < inn.sampling.front ∧ res = data := by
  have hp : ∀ (a b : Argument) (x : α), printf [.li, .li, .i] [a, b, arg x] ≠ .ok () := by
    intro a b x h
    exact ha x ((printf_ok (by simp)).1 h (.i, arg x) (by simp))
  have n1 : ∀ t t', backwardPrinted arg k read inn out t ≠ .ok t' := fun t t' =>
    printf_step_not (f := fun x => put inn out t x) (cs := fun _ => [.li, .li, .i]) (as := fun x => [_, _, arg x]) (hp _ _) t'
  have n2 : ∀ t t', centralPrinted arg k read inn out t ≠ .ok t' := fun t t' =>
    printf_step_not (f := fun x => put inn out t x) (cs := fun _ => [.li, .li, .i]) (as := fun x => [_, _, arg x]) (hp _ _) t'
  have n3 : ∀ t t', forwardPrinted arg k read inn out t ≠ .ok t' := fun t t' =>
    printf_step_not (f := fun x => put inn out t x) (cs := fun _ => [.li, .li, .i]) (as := fun x => [_, _, arg x]) (hp _ _) t'
  unfold LineKernel.CorrelatesPrinted
  rw [(printf_ok (by simp)).2 (by simp [accepts_long])]
  constructor
  · rintro ⟨r1, w1, h⟩
    cases r1 with
    | error e => cases h
    | ok s1 =>
      obtain ⟨c1, rfl⟩ := (While.never n1).1 w1
      obtain ⟨r2, w2, h⟩ := h
      cases r2 with
      | error e => cases h
      | ok s2 =>
        obtain ⟨c2, rfl⟩ := (While.never n2).1 w2
        obtain ⟨r3, w3, h⟩ := h
        cases r3 with
        | error e => cases h
        | ok s3 =>
          obtain ⟨c3, rfl⟩ := (While.never n3).1 w3
          exact ⟨Int.not_lt.1 c1, Int.not_le.1 c2, Int.not_le.1 c3, Except.ok.inj h⟩
  · rintro ⟨c1, c2, c3, rfl⟩
    exact ⟨_, .done (Int.not_lt.2 c1), _, .done (Int.not_le.2 c2), _, .done (Int.not_le.2 c3), rfl⟩

/-- **C119**, for 1D kernels: if the bound of the second loop wraps around, i.e. if the line is shorter than the number of values after
the origin plus the step, then there is no result, whatever the value type. -/
theorem C119_line_short {arg : α → Argument} {k : LineKernel α} {read : Int → Res α} {inn out : DataSamples}
    (hb : 2 ^ 63 ≤ u64 (u64 (inn.size - k.forward) - u64 inn.sampling.step)) (h0 : 0 ≤ k.origin)
    (hf : inn.sampling.front < 2 ^ 63) (hs : k.origin + inn.sampling.step ≤ 2 ^ 63) (data res : List α) :
    ¬ k.CorrelatesPrinted arg read inn out data (.ok res) := by
  unfold LineKernel.CorrelatesPrinted
  rw [(printf_ok (by simp)).2 (by simp [accepts_long])]
  rintro ⟨r1, w1, h⟩
  cases r1 with
  | error e => cases h
  | ok s1 =>
    have g1 : k.origin ≤ s1.i := Int.not_lt.1 w1.not_cond
    have g2 : s1.i < 2 ^ 63 := by
      refine w1.inv (fun s => s.i < 2 ^ 63) ?_ hf
      intro s s' _ hc hbody
      have : s'.i = s.i + inn.sampling.step := by
        unfold backwardPrinted at hbody
        cases hx : innerProduct k.values (k.origin - s.i) k.values.length read inn.stride inn.data with
        | error e => rw [hx] at hbody; cases hbody
        | ok x =>
          rw [hx, ok_bind] at hbody
          unfold put at hbody
          cases hw : writeAt s.out s.outIt x with
          | error e => rw [hw] at hbody; cases hbody
          | ok o =>
            rw [hw, ok_bind] at hbody
            cases hp : printf [.li, .li, .i] [.integer .long k.origin, .integer .long s.i, arg x] with
            | error e => rw [hp] at hbody; cases hbody
            | ok u =>
              rw [hp] at hbody
              obtain rfl := Except.ok.inj hbody
              rfl
      omega
    obtain ⟨r2, w2, h⟩ := h
    cases r2 with
    | error e => cases h
    | ok s2 =>
      have hc : CentralCond k inn s1 := by
        unfold CentralCond
        have : u64 s1.i = s1.i := by unfold u64; omega
        omega
      have n2 : ∀ t t', centralPrinted arg k read inn out t ≠ .ok t' := fun t t' => by
        refine printf_step_not (f := fun x => put inn out t x) (cs := fun _ => [.li, .li, .i])
          (as := fun x => [_, _, arg x]) (fun x hx => ?_) t'
        rcases (printf_ok (by simp)).1 hx (.li, _) (List.mem_cons_self ..) with h | ⟨_, h⟩
        · cases h
        · simp only [Conversion.type, IntType.long, IntType.highest] at h
          omega
      exact ((While.never n2).1 w2).1 hc

/-- Concrete cases: 3 values after the origin, on a line of 2 elements, and `Kernel1d<float>` on a line of 4 elements, as in
LitlTransforms/tests/src/Convolution_test.cpp. -/
example (read : Int → Res Int) (out : DataSamples) (data res : List Int) : ¬ (⟨[1, 2, 3, 4], 0⟩ : LineKernel Int).CorrelatesPrinted
    (.ofInteger .int) read ⟨0, 2, ⟨0, 1, 1⟩, 1⟩ out data (.ok res) :=
  C119_line_short (by decide) (by decide) (by decide) (by decide) data res

example (read : Int → Res ℚ) (out : DataSamples) (data res : List ℚ) : ¬ (⟨[1, 1, 1], 1⟩ : LineKernel ℚ).CorrelatesPrinted
    (fun _ => .floating) read ⟨0, 4, ⟨0, 3, 1⟩, 1⟩ out data (.ok res) := fun h =>
  absurd ((C119_line_undefined (fun _ => id)).1 h).1 (by simp)

example (read : Int → Res Int) (out : DataSamples) (data : List Int) (r : Res (List Int)) :
    (⟨[1, 0, -1], 1⟩ : LineKernel Int).CorrelatesPrinted (.ofInteger .int) read ⟨0, 4, ⟨0, 3, 1⟩, 1⟩ out data r ↔
      (⟨[1, 0, -1], 1⟩ : LineKernel Int).Correlates read ⟨0, 4, ⟨0, 3, 1⟩, 1⟩ out data r :=
  C119_line_partial (fun x => (C119_types .int x).1.2 (.inl (by decide))) (by decide) data r

end LineKernel

end Litl
