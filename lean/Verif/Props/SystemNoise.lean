import Verif.Model.SystemNoise
import Verif.Props.Noise

/-!
# C125: compound noises
-/

namespace Litl

open Random Spec

variable {α δ ε : Type}

namespace Spec

/-- Shot noise of the values, in order: the values and the final engine. -/
def shots (poisson : α → ε → α × ε) : List α → ε → List α × ε
  | [], e => ([], e)
  | x :: l, e => ((poisson x e).1 :: (shots poisson l (poisson x e).2).1, (shots poisson l (poisson x e).2).2)

/-- Shot noise of the flux, plus Gaussian noise whose mean and variance are the dark current, from the normal values. -/
def systemValues [Add α] [Mul α] (sqrt : α → α) (shot dark normal : List α) : List α :=
  List.zipWith (· + ·) shot (List.zipWith (fun d g => d + sqrt d * g) dark normal)

end Spec

section

variable [Add α] [Mul α] [Inhabited α]

theorem callInOrder_system (sqrt : α → α) (poisson : α → ε → α × ε) (draw : δ → ε → α × δ × ε) :
    ∀ (flux dark : List α) (s : SystemNoise δ ε), flux.length = dark.length →
    callInOrder (fun args s => s.call sqrt poisson draw (args.getD 0 default) (args.getD 1 default))
        (List.zipWith (fun x y => [x, y]) flux dark) s =
      (systemValues sqrt (shots poisson flux s.poisson).1 dark
          (draws draw flux.length s.gaussian.distribution s.gaussian.engine).1,
        ⟨(shots poisson flux s.poisson).2, (draws draw flux.length s.gaussian.distribution s.gaussian.engine).2.1,
          (draws draw flux.length s.gaussian.distribution s.gaussian.engine).2.2⟩) := by
  intro flux
  induction flux with
  | nil => intro dark s _; rfl
  | cons x flux ih =>
    intro dark s h
    cases dark with
    | nil => simp at h
    | cons y dark =>
      simp only [List.zipWith_cons_cons, callInOrder]
      rw [ih dark _ (by simpa using h)]
      rfl

omit [Add α] [Mul α] [Inhabited α] in
theorem rows_two (mem : List α) (b c n : Nat) (hb : b + n ≤ mem.length) (hc : c + n ≤ mem.length) :
    ((List.range n).map fun i => [b, c].filterMap fun b => mem[b + i]?) =
      List.zipWith (fun x y => [x, y]) (elements mem b n) (elements mem c n) := by
  apply List.ext_getElem
  · simp [elements]
    omega
  · intro i h1 h2
    have hi : i < n := by simpa using h1
    simp [elements, List.getElem?_eq_getElem (show b + i < mem.length by omega),
      List.getElem?_eq_getElem (show c + i < mem.length by omega)]

omit [Add α] [Mul α] [Inhabited α] in
theorem elements_len (mem : List α) (a n : Nat) (h : a + n ≤ mem.length) : (elements mem a n).length = n := by
  simp [elements]
  omega

/-- **C125**: what the compound noise generates from two containers. -/
theorem C125_generate (sqrt : α → α) (poisson : α → ε → α × ε) (draw : δ → ε → α × δ × ε) (mem : List α)
    (s : SystemNoise δ ε) (a n flux dark : Nat) (ha : a + n ≤ mem.length) (hf : flux + n ≤ mem.length)
    (hd : dark + n ≤ mem.length) (hf' : a ≤ flux ∨ flux + n ≤ a) (hd' : a ≤ dark ∨ dark + n ≤ a) :
    ∃ m t, generateSystem sqrt poisson draw mem s a n flux dark = .ok (m, t) ∧
      elements m a n = systemValues sqrt (shots poisson (elements mem flux n) s.poisson).1 (elements mem dark n)
        (draws draw n s.gaussian.distribution s.gaussian.engine).1 ∧ m.length = mem.length ∧ SameOutside mem m a n := by
  obtain ⟨m, h1, h2, h3, h4⟩ := Litl.C27_generate
    (fun args (s : SystemNoise δ ε) => s.call sqrt poisson draw (args.getD 0 default) (args.getD 1 default)) mem s a n
    [flux, dark] ha (by simp; omega)
  rw [rows_two mem flux dark n hf hd, callInOrder_system _ _ _ _ _ _
    (by rw [elements_len _ _ _ hf, elements_len _ _ _ hd]), elements_len _ _ _ hf] at h2
  exact ⟨m, _, h1, h2, h3, h4⟩

/-- **C125**: in place. -/
theorem C125_apply (sqrt : α → α) (poisson : α → ε → α × ε) (draw : δ → ε → α × δ × ε) (mem : List α)
    (s : SystemNoise δ ε) (n flux dark : Nat) (hf : flux + n ≤ mem.length)
    (hd : dark + n ≤ mem.length) (hd' : flux ≤ dark ∨ dark + n ≤ flux) :
    ∃ m t, applySystem sqrt poisson draw mem s n flux dark = .ok (m, t) ∧
      elements m flux n = systemValues sqrt (shots poisson (elements mem flux n) s.poisson).1 (elements mem dark n)
        (draws draw n s.gaussian.distribution s.gaussian.engine).1 ∧ m.length = mem.length ∧ SameOutside mem m flux n :=
  C125_generate sqrt poisson draw mem s flux n flux dark hf hf hd (.inl le_rfl) hd'

/-- **C125**: both ways of applying the noise give the same values, and leave the same generator. -/
theorem C125_agree (sqrt : α → α) (poisson : α → ε → α × ε) (draw : δ → ε → α × δ × ε) (mem : List α)
    (s : SystemNoise δ ε) (a n flux dark : Nat) (ha : a + n ≤ mem.length) (hf : flux + n ≤ mem.length)
    (hd : dark + n ≤ mem.length) (hf' : a ≤ flux ∨ flux + n ≤ a) (hd' : a ≤ dark ∨ dark + n ≤ a)
    (hfd : flux ≤ dark ∨ dark + n ≤ flux) :
    ∃ m m' t, generateSystem sqrt poisson draw mem s a n flux dark = .ok (m, t) ∧
      applySystem sqrt poisson draw mem s n flux dark = .ok (m', t) ∧ elements m a n = elements m' flux n := by
  obtain ⟨m, h1, h2, -⟩ := Litl.C27_generate
    (fun args (s : SystemNoise δ ε) => s.call sqrt poisson draw (args.getD 0 default) (args.getD 1 default)) mem s a n
    [flux, dark] ha (by simp; omega)
  obtain ⟨m', h1', h2', -⟩ := Litl.C27_apply
    (fun args (s : SystemNoise δ ε) => s.call sqrt poisson draw (args.getD 0 default) (args.getD 1 default)) mem s flux n
    [dark] hf (by simp; omega)
  exact ⟨m, m', _, h1, h1', h2.trans h2'.symm⟩

end

theorem callInOrder_shots [Inhabited α] (poisson : α → ε → α × ε) : ∀ (l : List α) (e : ε),
    callInOrder (fun args e => poissonCall poisson (args.headD default) e) (l.map fun x => [x]) e = shots poisson l e := by
  intro l
  induction l with
  | nil => intro e; rfl
  | cons x l ih =>
    intro e
    simp only [List.map_cons, callInOrder, ih, shots]
    rfl

/-- What `PoissonNoise` does to a container: the shot noise of its values. -/
theorem applyPoisson_shots [Inhabited α] (mk : Nat → ε) (poisson : α → ε → α × ε) (now : Nat → Nat) (seed ticks : Nat)
    (mem : List α) (a n : Nat) (h : a + n ≤ mem.length) :
    ∃ m, applyPoisson mk poisson now seed ticks mem a n = .ok m ∧
      elements m a n = (shots poisson (elements mem a n) (engine mk now seed ticks).1).1 := by
  obtain ⟨m, h1, h2, -⟩ := Litl.C27_apply (fun args (e : ε) => poissonCall poisson (args.headD default) e) mem
    (engine mk now seed ticks).1 a n [] h (by simp)
  rw [rows_eq mem a n h, callInOrder_shots] at h2
  refine ⟨m, ?_, h2⟩
  unfold applyPoisson
  rw [h1]
  rfl

/-- **C125**: for a given seed, the values are the sum of those of `PoissonNoise` applied to the flux and of the dark current,
plus its square root times what `GaussianNoise` generates, both with the same seed. -/
theorem C125_components [Add α] [Mul α] [Inhabited α] (sqrt : α → α) (mk : Nat → ε) (poisson : α → ε → α × ε)
    (draw : δ → ε → α × δ × ε) (d : δ) (now now' : Nat → Nat) (seed ticks ticks' : Nat) (hs : seed ≠ timeSeed) (mem : List α)
    (a n flux dark : Nat) (ha : a + n ≤ mem.length) (hf : flux + n ≤ mem.length) (hd : dark + n ≤ mem.length)
    (hf' : a ≤ flux ∨ flux + n ≤ a) (hd' : a ≤ dark ∨ dark + n ≤ a) :
    ∃ m t p g u, generateSystem sqrt poisson draw mem (makeSystem mk now d seed ticks).1 a n flux dark = .ok (m, t) ∧
      applyPoisson (mersenne mk) poisson now' seed ticks' mem flux n = .ok p ∧
      generateNoise draw mem (makeNoise mk now' d seed ticks').1 a n = .ok (g, u) ∧
      elements m a n = systemValues sqrt (elements p flux n) (elements mem dark n) (elements g a n) := by
  obtain ⟨m, t, h1, h2, -⟩ := C125_generate sqrt poisson draw mem (makeSystem mk now d seed ticks).1 a n flux dark ha hf hd
    hf' hd'
  obtain ⟨p, h3, h4⟩ := applyPoisson_shots (mersenne mk) poisson now' seed ticks' mem flux n hf
  obtain ⟨g, h5, h6, -⟩ := C75_generate draw mem (makeNoise mk now' d seed ticks').1 a n ha
  refine ⟨m, t, p, g, _, h1, h3, h5, ?_⟩
  rw [h2, h4, h6]
  simp [makeSystem, makeNoise, engine, hs]

section

variable [Add α] [Mul α] [Inhabited α]

omit [Add α] [Mul α] [Inhabited α] in
/-- Shot noise at an index depends on the values up to this index. -/
theorem shots_prefix (poisson : α → ε → α × ε) : ∀ (l l' : List α) (e : ε) (k : Nat),
    l.take (k + 1) = l'.take (k + 1) → (shots poisson l e).1[k]? = (shots poisson l' e).1[k]?
  | [], l', e, k, h => by cases l' <;> simp_all [shots]
  | x :: l, [], e, k, h => by simp at h
  | x :: l, x' :: l', e, k, h => by
    simp only [List.take_succ_cons, List.cons.injEq] at h
    obtain ⟨rfl, h⟩ := h
    cases k with
    | zero => rfl
    | succ k =>
      simp only [shots, List.getElem?_cons_succ]
      exact shots_prefix poisson l l' _ k h

/-- **C125**: the value at an index depends on the dark current at this index and on the fluxes up to this index only: changing
the dark current somewhere does not change the noise elsewhere, and changing the flux somewhere does not change what
comes before. -/
theorem C125_local (sqrt : α → α) (poisson : α → ε → α × ε) (draw : δ → ε → α × δ × ε) (mem mem' : List α)
    (s : SystemNoise δ ε) (a n flux dark k : Nat) (hk : k < n) (ha : a + n ≤ mem.length) (hf : flux + n ≤ mem.length)
    (hd : dark + n ≤ mem.length) (hf' : a ≤ flux ∨ flux + n ≤ a) (hd' : a ≤ dark ∨ dark + n ≤ a)
    (hl : mem'.length = mem.length) (hsd : mem'[dark + k]? = mem[dark + k]?)
    (hsf : ∀ j ≤ k, mem'[flux + j]? = mem[flux + j]?) :
    ∃ m m' t t', generateSystem sqrt poisson draw mem s a n flux dark = .ok (m, t) ∧
      generateSystem sqrt poisson draw mem' s a n flux dark = .ok (m', t') ∧ m'[a + k]? = m[a + k]? := by
  obtain ⟨m, t, h1, h2, -⟩ := C125_generate sqrt poisson draw mem s a n flux dark ha hf hd hf' hd'
  obtain ⟨m', t', h1', h2', -⟩ := C125_generate sqrt poisson draw mem' s a n flux dark (hl ▸ ha) (hl ▸ hf) (hl ▸ hd) hf' hd'
  refine ⟨m, m', t, t', h1, h1', ?_⟩
  have e : ∀ (l : List α) (b : Nat), l[b + k]? = (elements l b n)[k]? := by
    intro l b
    simp [elements, hk]
  rw [e m' a, e m a, h2, h2']
  simp only [systemValues, List.getElem?_zipWith]
  rw [← e, ← e, hsd, shots_prefix poisson (elements mem' flux n) (elements mem flux n) s.poisson k ?_]
  apply List.ext_getElem?
  intro j
  simp only [elements, List.getElem?_take, List.getElem?_drop]
  split_ifs
  · exact hsf j (by omega)
  · rfl
  · rfl

end

/-- **C125**: beware that both components draw the same random numbers: their engines are the same. -/
theorem C125_same_engine (mk : Nat → ε) (now : Nat → Nat) (d : δ) (seed ticks : Nat) (hs : seed ≠ timeSeed) :
    (makeSystem mk now d seed ticks).1.poisson = (makeSystem mk now d seed ticks).1.gaussian.engine ∧
      (makeSystem mk now d seed ticks).2 = ticks := by
  simp [makeSystem, makeNoise, engine, hs]

/-- Hypotheses of the theorems above: fluxes 5, 0, 2 and dark currents 4, 9, 1, with a counter as engine, which shot noise
increments as many times as the mean; the normal values are the numbers which are drawn. -/
example :
    generateSystem (α := Int) (δ := Unit) (fun x => if x = 9 then 3 else if x = 4 then 2 else 1)
      (fun x (e : Nat) => (x + e, e + x.toNat)) (fun d e => ((e : Int), d, e + 1))
      [0, 0, 0, 5, 0, 2, 4, 9, 1] (makeSystem id (fun _ => 0) () 7 0).1 0 3 3 6 =
      .ok ([12 + (4 + 2 * 7), 12 + (9 + 3 * 8), 14 + (1 + 1 * 9), 5, 0, 2, 4, 9, 1], ⟨14, (), 10⟩) := by rfl

/-- In place. -/
example :
    applySystem (α := Int) (δ := Unit) (fun x => if x = 9 then 3 else if x = 4 then 2 else 1)
      (fun x (e : Nat) => (x + e, e + x.toNat)) (fun d e => ((e : Int), d, e + 1))
      [5, 0, 2, 4, 9, 1] (makeSystem id (fun _ => 0) () 7 0).1 3 0 3 =
      .ok ([12 + (4 + 2 * 7), 12 + (9 + 3 * 8), 14 + (1 + 1 * 9), 4, 9, 1], ⟨14, (), 10⟩) := by rfl

/-- Changing the first flux changes the noise of the next elements. -/
example :
    applySystem (α := Int) (δ := Unit) (fun x => if x = 9 then 3 else if x = 4 then 2 else 1)
      (fun x (e : Nat) => (x + e, e + x.toNat)) (fun d e => ((e : Int), d, e + 1))
      [6, 0, 2, 4, 9, 1] (makeSystem id (fun _ => 0) () 7 0).1 3 0 3 =
      .ok ([13 + (4 + 2 * 7), 13 + (9 + 3 * 8), 15 + (1 + 1 * 9), 4, 9, 1], ⟨15, (), 10⟩) := by rfl

end Litl
