import Verif.Model.Noise
import Verif.Props.Random

/-!
# C75: reproducibility of random noises
-/

namespace Litl

open Random Spec

variable {α δ ε : Type}

namespace Spec

/-- The first `n` values which are drawn, and the final state. -/
def draws (draw : δ → ε → α × δ × ε) : Nat → δ → ε → List α × δ × ε
  | 0, d, e => ([], d, e)
  | n + 1, d, e =>
    let r := draw d e
    let t := draws draw n r.2.1 r.2.2
    (r.1 :: t.1, t.2)

/-- The first `n` values which are drawn from two distributions in turn, with the same engine. -/
def alternate (draw : δ → ε → α × δ × ε) : Nat → δ → δ → ε → List α
  | 0, _, _, _ => []
  | n + 1, d, d', e => (draw d e).1 :: alternate draw n d' (draw d e).2.1 (draw d e).2.2

end Spec

/-- **C75**, in full: noises with the same parameters and the same seed, but -1 for those which may be seeded by the clock,
generate the same values; the noise which is added to a container is the one which would be generated. -/
def C75_Statement : Prop :=
  ∀ (α δ ε : Type) (_ : Add α) (_ : Inhabited α) (mk : Nat → ε) (draw : δ → ε → α × δ × ε) (d : δ)
    (now now' : Nat → Nat) (seed ticks ticks' : Nat) (stable : Bool) (mem : List α) (a n : Nat),
    a + n ≤ mem.length → (stable = true ∨ seed ≠ timeSeed) →
    ∃ m s t, generateNoise draw mem (makeNoise mk now d seed ticks).1 a n = .ok (m, s) ∧
      generateNoise draw mem (makeNoise mk now' d seed ticks').1 a n = .ok (m, s) ∧
      (stable = false → applyNoise draw mem (makeNoise mk now' d seed ticks').1 a n = .ok (t, s) ∧
        elements t a n = List.zipWith (· + ·) (elements mem a n) (elements m a n))

theorem callInOrder_generate (draw : δ → ε → α × δ × ε) : ∀ (rows : List (List α)) (s : Noise δ ε),
    callInOrder (fun _ s => s.generate draw) rows s =
      ((draws draw rows.length s.distribution s.engine).1,
        ⟨(draws draw rows.length s.distribution s.engine).2.1, (draws draw rows.length s.distribution s.engine).2.2⟩) := by
  intro rows
  induction rows with
  | nil => intro s; rfl
  | cons r rows ih =>
    intro s
    simp only [callInOrder, ih, List.length_cons, draws]
    rfl

theorem callInOrder_add [Add α] [Inhabited α] (draw : δ → ε → α × δ × ε) : ∀ (l : List α) (s : Noise δ ε),
    callInOrder (fun args s => s.add draw (args.headD default)) (l.map fun x => [x]) s =
      (List.zipWith (· + ·) l (draws draw l.length s.distribution s.engine).1,
        ⟨(draws draw l.length s.distribution s.engine).2.1, (draws draw l.length s.distribution s.engine).2.2⟩) := by
  intro l
  induction l with
  | nil => intro s; rfl
  | cons r rows ih =>
    intro s
    simp only [List.map_cons, callInOrder, ih, List.length_cons, draws, List.zipWith_cons_cons]
    rfl

/-- **C75**: generating gives the successive draws, whatever the memory. -/
theorem C75_generate (draw : δ → ε → α × δ × ε) (mem : List α) (s : Noise δ ε) (a n : Nat) (h : a + n ≤ mem.length) :
    ∃ m, generateNoise draw mem s a n = .ok (m, ⟨(draws draw n s.distribution s.engine).2.1,
        (draws draw n s.distribution s.engine).2.2⟩) ∧
      elements m a n = (draws draw n s.distribution s.engine).1 ∧ m.length = mem.length ∧ SameOutside mem m a n := by
  obtain ⟨m, h1, h2, h3, h4⟩ := C27_generate (fun _ s => s.generate draw) mem s a n [] h (by simp)
  rw [callInOrder_generate] at h1 h2
  simp only [List.length_map, List.length_range] at h1 h2
  exact ⟨m, h1, h2, h3, h4⟩

theorem rows_eq (mem : List α) (a n : Nat) (h : a + n ≤ mem.length) :
    ((List.range n).map fun i => [a].filterMap fun b => mem[b + i]?) = (elements mem a n).map fun x => [x] := by
  refine List.ext_getElem ?_ ?_
  · simp [elements]; omega
  · intro i h1 h2
    have hi : i < n := by simpa using h1
    simp [elements, List.getElem?_eq_getElem (show a + i < mem.length by omega)]

/-- **C75**: applying adds the successive draws. -/
theorem C75_apply [Add α] [Inhabited α] (draw : δ → ε → α × δ × ε) (mem : List α) (s : Noise δ ε) (a n : Nat)
    (h : a + n ≤ mem.length) :
    ∃ m, applyNoise draw mem s a n = .ok (m, ⟨(draws draw n s.distribution s.engine).2.1,
        (draws draw n s.distribution s.engine).2.2⟩) ∧
      elements m a n = List.zipWith (· + ·) (elements mem a n) (draws draw n s.distribution s.engine).1 ∧
      SameOutside mem m a n := by
  obtain ⟨m, h1, h2, _, h4⟩ := C27_apply (fun args (s : Noise δ ε) => s.add draw (args.headD default)) mem s a n [] h
    (by simp)
  rw [rows_eq mem a n h, callInOrder_add] at h1 h2
  have hl : (elements mem a n).length = n := by simp [elements]; omega
  rw [hl] at h1 h2
  exact ⟨m, h1, h2, h4⟩

/-- **C75**: but for the seed -1, noises only depend on the parameters and on the seed modulo 2^32, not on the clock. -/
theorem C75_seed (mk : Nat → ε) (d : δ) (now now' : Nat → Nat) (seed seed' ticks ticks' : Nat) (hs : seed ≠ timeSeed)
    (hs' : seed' ≠ timeSeed) (h : seed % 2 ^ 32 = seed' % 2 ^ 32) :
    (makeNoise mk now d seed ticks).1 = (makeNoise mk now' d seed' ticks').1 ∧ (makeNoise mk now d seed ticks).2 = ticks := by
  simp only [makeNoise, engine, if_pos hs, if_pos hs', mersenne, h, and_self]

/-- **C75**, partial: fixed seeds.
Missing: `StablePoissonNoise` of seed -1, which is seeded by the clock (`C75_violated`). -/
theorem C75_reproducible_partial [Add α] [Inhabited α] (mk : Nat → ε) (draw : δ → ε → α × δ × ε) (d : δ)
    (now now' : Nat → Nat) (seed ticks ticks' : Nat) (mem : List α) (a n : Nat) (h : a + n ≤ mem.length)
    (hs : seed ≠ timeSeed) :
    ∃ m s t, generateNoise draw mem (makeNoise mk now d seed ticks).1 a n = .ok (m, s) ∧
      generateNoise draw mem (makeNoise mk now' d seed ticks').1 a n = .ok (m, s) ∧
      applyNoise draw mem (makeNoise mk now' d seed ticks').1 a n = .ok (t, s) ∧
        elements t a n = List.zipWith (· + ·) (elements mem a n) (elements m a n) := by
  have e := (C75_seed mk d now now' seed seed ticks ticks' hs hs rfl).1
  obtain ⟨m, h1, h2, -⟩ := C75_generate draw mem (makeNoise mk now' d seed ticks').1 a n h
  obtain ⟨t, h3, h4, -⟩ := C75_apply draw mem (makeNoise mk now' d seed ticks').1 a n h
  exact ⟨m, _, t, by rw [e]; exact h1, h1, h3, by rw [h4, h2]⟩

/-- **C75** is refuted: contrary to the documentation, `StablePoissonNoise` can be instantiated with a random seed, on which
the generated values depend. -/
theorem C75_violated : ¬ C75_Statement := by
  intro h
  obtain ⟨m, s, _, h1, h2, -⟩ := h Nat Unit Nat ⟨Nat.add⟩ ⟨0⟩ id (fun d e => (e, d, e)) () (fun _ => 1) (fun _ => 2)
    timeSeed 0 0 true [0] 0 1 (by decide) (.inl rfl)
  have e1 : generateNoise (fun d e => (e, d, e)) [0]
      (makeNoise (δ := Unit) id (fun _ => 1) () timeSeed 0).1 0 1 = .ok ([1], ⟨(), 1⟩) := by rfl
  have e2 : generateNoise (fun d e => (e, d, e)) [0]
      (makeNoise (δ := Unit) id (fun _ => 2) () timeSeed 0).1 0 1 = .ok ([2], ⟨(), 2⟩) := by rfl
  rw [e1] at h1
  rw [e2] at h2
  cases h1
  cases h2

/-- **C75**, exact result: the seed -1 is that of the clock at construction, modulo 2^32. -/
theorem C75_clock (mk : Nat → ε) (d : δ) (now : Nat → Nat) (ticks : Nat) (h : now ticks ≠ timeSeed) :
    makeNoise mk now d timeSeed ticks = ((makeNoise mk now d (now ticks) ticks).1, ticks + 1) := by
  simp [makeNoise, engine, h]

/-- **C75**: the only seed which stands for the clock is that of the default parameter, -1 converted to `std::size_t`. -/
theorem C75_clock_seed (seed : Nat) (d : δ) :
    (∃ now now' : Nat → Nat, (makeNoise id now d seed 0).1 ≠ (makeNoise id now' d seed 0).1) ↔ (seed : Int) = u64 (-1) := by
  have e : u64 (-1) = 2 ^ 64 - 1 := by decide
  rw [e]
  constructor
  · rintro ⟨now, now', hne⟩
    by_contra hs
    exact hne (C75_seed id d now now' seed seed 0 0 (by unfold timeSeed; omega) (by unfold timeSeed; omega) rfl).1
  · intro hs
    have hs' : seed = timeSeed := by unfold timeSeed; omega
    refine ⟨fun _ => 0, fun _ => 1, ?_⟩
    rw [hs']
    simp [makeNoise, engine, mersenne]

/-- Non-vacuity: the default seed. -/
example : ((2 ^ 64 - 1 : Nat) : Int) = u64 (-1) := by decide

/-- **C75**: noise objects go on from where they were: generating `n + m` values is generating `n` values then `m` values. -/
theorem C75_continues (draw : δ → ε → α × δ × ε) (n m : Nat) (d : δ) (e : ε) :
    draws draw (n + m) d e =
      ((draws draw n d e).1 ++ (draws draw m (draws draw n d e).2.1 (draws draw n d e).2.2).1,
        (draws draw m (draws draw n d e).2.1 (draws draw n d e).2.2).2) := by
  induction n generalizing d e with
  | zero => simp [draws]
  | succ n ih =>
    rw [Nat.add_right_comm]
    simp only [draws, ih, List.cons_append]

/-- **C75**: the real and imaginary parts of complex noises are drawn in turn from both distributions, the real part first. -/
theorem C75_alternate (draw : δ → ε → α × δ × ε) (n : Nat) (d d' : δ) (e : ε) :
    ((draws (drawComplex draw) n (d, d') e).1.flatMap fun z => [z.1, z.2]) = alternate draw (2 * n) d d' e := by
  induction n generalizing d d' e with
  | zero => rfl
  | succ n ih =>
    rw [Nat.mul_succ, alternate, alternate]
    simp only [draws, drawComplex, List.flatMap_cons, ih]
    rfl

/-- **C75**: with distributions which use one draw of the engine, the real parts of a complex noise come from the draws of even
index, and the imaginary parts from the draws of odd index. -/
theorem C75_complex (value : δ → ε → α) (next : ε → ε) (n : Nat) (d d' : δ) (e : ε) :
    draws (drawComplex fun d e => (value d e, d, next e)) n (d, d') e =
      ((List.range n).map fun k => (value d (next^[2 * k] e), value d' (next^[2 * k + 1] e)), (d, d'), next^[2 * n] e) := by
  induction n generalizing e with
  | zero => rfl
  | succ n ih =>
    rw [draws]
    simp only [drawComplex, ih, List.range_succ_eq_map, List.map_cons, List.map_map]
    refine Prod.ext ?_ (Prod.ext rfl ?_)
    · simp only [Nat.mul_zero, Function.iterate_zero, id_eq, Nat.zero_add, Function.iterate_one, List.cons.injEq, true_and]
      refine List.map_congr_left fun k _ => ?_
      simp only [Function.comp, Nat.succ_eq_add_one, Nat.mul_add, Nat.mul_one, ← Function.iterate_succ_apply]
    · dsimp only
      rw [← Function.iterate_succ_apply, ← Function.iterate_succ_apply]
      rfl

/-- **C75**: `random(size)` gives the draws of the engine which is seeded by the clock, and as many values as the size. -/
theorem C75_random [Inhabited α] (mk : Nat → ε) (now : Nat → Nat) (draw : δ → ε → α × δ × ε) (d : δ) (ticks n : Nat) :
    random mk now draw d ticks n = .ok (draws draw n d (mersenne mk (now ticks))).1 := by
  obtain ⟨m, h1, h2, h3, -⟩ := C75_generate draw (List.replicate n default) (makeNoise mk now d timeSeed ticks).1 0 n
    (by simp)
  have e : (makeNoise mk now d timeSeed ticks).1 = ⟨d, mersenne mk (now ticks)⟩ := by simp [makeNoise, engine]
  have hm : elements m 0 n = m := by
    rw [elements, List.drop_zero, List.take_of_length_le (by simp [h3])]
  unfold random
  rw [h1, ← hm, h2, e]
  rfl

/-! ## Non-vacuity -/

/-- A counter for engine, and a distribution which saves one value out of two, as `std::normal_distribution`: a noise of seed
5 is generated, and is applied to a container. -/
example :
    let draw : Option Nat → Nat → Nat × Option Nat × Nat := fun d e =>
      match d with
      | some v => (v, none, e)
      | none => (e % 10, some (e % 10 + 100), e + 7)
    (generateNoise draw [0, 0, 0, 0, 0, 0] (makeNoise id (fun _ => 0) none 5 0).1 1 3).map Prod.fst =
      .ok [0, 5, 105, 2, 0, 0] ∧
    (applyNoise draw [0, 10, 20, 30, 0, 0] (makeNoise id (fun _ => 9) none 5 3).1 1 3).map Prod.fst =
      .ok [0, 15, 125, 32, 0, 0] ∧
    (5 : Nat) ≠ timeSeed ∧ 5 % 2 ^ 32 = (2 ^ 32 + 5) % 2 ^ 32 :=
  ⟨by rfl, by rfl, by decide, by decide⟩

/-- Complex draws of a counter. -/
example : (draws (drawComplex fun (d : Nat) (e : Nat) => (d + e, d, e + 1)) 3 (0, 100) 0).1 = [(0, 101), (2, 103), (4, 105)] := by
  decide

end Litl
