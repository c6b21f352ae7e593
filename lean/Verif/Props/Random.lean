import Verif.Model.Random
import Verif.Props.Arithmetic
import Mathlib.Algebra.Order.BigOperators.Group.List
import Mathlib.Algebra.Field.Rat
import Mathlib.Tactic.Linarith
import Mathlib.Tactic.NormNum
import Mathlib.Tactic.Positivity
import Mathlib.Tactic.FieldSimp

/-!
# Random noise (C39, C40)
-/

namespace Litl

open Random Spec

variable {α ε : Type}

/-! ## C39: locality of the stable Poisson noise -/

theorem minstdNext_range {x : Nat} (h0 : 0 < x) (h1 : x < minstdModulus) :
    0 < minstdNext x ∧ minstdNext x < minstdModulus := by
  refine ⟨?_, Nat.mod_lt _ (by decide)⟩
  rcases Nat.eq_zero_or_pos (minstdNext x) with h | h
  · have hd : minstdModulus ∣ 48271 * x := Nat.dvd_of_mod_eq_zero h
    have hc : Nat.Coprime minstdModulus 48271 := by decide
    have := Nat.le_of_dvd h0 (hc.dvd_of_dvd_mul_left hd)
    omega
  · exact h

theorem minstdSeed_range (seed : Nat) : 0 < minstdSeed seed ∧ minstdSeed seed < minstdModulus := by
  unfold minstdSeed
  split
  · decide
  · exact ⟨by omega, Nat.mod_lt _ (by decide)⟩

theorem iterate_range {x : Nat} (h : 0 < x ∧ x < minstdModulus) (k : Nat) :
    0 < minstdNext^[k] x ∧ minstdNext^[k] x < minstdModulus := by
  induction k with
  | zero => exact h
  | succ k ih =>
    rw [Function.iterate_succ_apply']
    exact minstdNext_range ih.1 ih.2

/-- The seeder never gives the seed which stands for the current time. -/
theorem stableCall_eq (mk : Nat → ε) (poisson : α → ε → α × ε) (now : Nat → Nat) (x : α) (s : Nat × Nat)
    (h : 0 < s.1 ∧ s.1 < minstdModulus) :
    stableCall mk poisson now x s = ((poisson x (mk (minstdNext s.1))).1, (minstdNext s.1, s.2)) := by
  have h' := minstdNext_range h.1 h.2
  have hne : minstdNext s.1 ≠ timeSeed := by
    have : minstdModulus < timeSeed := by decide
    omega
  unfold stableCall engine
  simp only [if_pos hne]

theorem callInOrder_stable [Inhabited α] (mk : Nat → ε) (poisson : α → ε → α × ε) (now : Nat → Nat) :
    ∀ (rows : List (List α)) (s : Nat × Nat), 0 < s.1 ∧ s.1 < minstdModulus → ∀ k : Nat,
      (callInOrder (fun args s => stableCall mk poisson now (args.headD default) s) rows s).1[k]? =
        rows[k]?.map fun r => (poisson (r.headD default) (mk (minstdNext^[k + 1] s.1))).1 := by
  intro rows
  induction rows with
  | nil => intro s _ k; simp [callInOrder]
  | cons r rows ih =>
    intro s hs k
    simp only [callInOrder, stableCall_eq mk poisson now _ s hs]
    cases k with
    | zero => simp
    | succ k =>
      rw [List.getElem?_cons_succ, List.getElem?_cons_succ, ih _ (minstdNext_range hs.1 hs.2) k]
      rfl

/-- The stable Poisson noise always succeeds, and the output at index `k` only depends on the seed, on `k` and on the
input at this index: it is drawn from an engine whose seed is the `k + 1`-th draw of the seeder.  In particular, the
clock is never used. -/
theorem C39_output [Inhabited α] (mk : Nat → ε) (poisson : α → ε → α × ε) (now : Nat → Nat) (seed ticks : Nat)
    (mem : List α) (a n : Nat) (h : a + n ≤ mem.length) :
    ∃ m, applyStable mk poisson now seed ticks mem a n = .ok m ∧ SameOutside mem m a n ∧
      ∀ k < n, m[a + k]? =
        mem[a + k]?.map fun x => (poisson x (mk (minstdNext^[k + 1] (minstdSeed seed)))).1 := by
  obtain ⟨m, h1, h2, h3, h4⟩ := C27_apply (fun args s => stableCall mk poisson now (args.headD default) s) mem
    (minstdSeed seed, ticks) a n [] h (by simp)
  refine ⟨m, ?_, h4, ?_⟩
  · unfold applyStable
    rw [h1]
    rfl
  · intro k hk
    have e : m[a + k]? = (elements m a n)[k]? := by
      unfold elements
      rw [List.getElem?_take, if_pos hk, List.getElem?_drop]
    rw [e, h2, callInOrder_stable mk poisson now _ _ (minstdSeed_range seed) k, List.getElem?_map,
      List.getElem?_range hk]
    have hk' : a + k < mem.length := by omega
    simp [List.getElem?_eq_getElem hk']

/-- **C39**: with the same seed, two containers which have the same value at some index get the same value at this
index, whatever the other values, the engine, the number of draws and the clock. -/
theorem C39_local [Inhabited α] (mk : Nat → ε) (poisson : α → ε → α × ε) (now now' : Nat → Nat)
    (seed ticks ticks' : Nat) (mem mem' : List α) (a n a' n' : Nat) (h : a + n ≤ mem.length)
    (h' : a' + n' ≤ mem'.length) (k : Nat) (hk : k < n) (hk' : k < n') (hx : mem[a + k]? = mem'[a' + k]?) :
    ∃ m m', applyStable mk poisson now seed ticks mem a n = .ok m ∧
      applyStable mk poisson now' seed ticks' mem' a' n' = .ok m' ∧ m[a + k]? = m'[a' + k]? := by
  obtain ⟨m, h1, _, h2⟩ := C39_output mk poisson now seed ticks mem a n h
  obtain ⟨m', h1', _, h2'⟩ := C39_output mk poisson now' seed ticks' mem' a' n' h'
  exact ⟨m, m', h1, h1', by rw [h2 k hk, h2' k hk', hx]⟩

/-- Both containers have the value 2 at index 2, as in the documentation; the engine is a counter, and the "Poisson"
distribution draws as many times as its mean.  The stable noise is the same at index 2; the other one is not. -/
example :
    let poisson : Nat → Nat → Nat × Nat := fun mean e => (mean + e % 7, e + mean)
    applyStable id poisson (fun _ => 0) 0 0 [0, 1, 2, 3] 0 4 = .ok [6, 1, 7, 7] ∧
    applyStable id poisson (fun _ => 0) 0 0 [10, 100, 2, 30] 0 4 = .ok [16, 100, 7, 34] ∧
    applyPoisson id poisson (fun _ => 0) 0 0 [0, 1, 2, 3] 0 4 = .ok [0, 1, 3, 6] ∧
    applyPoisson id poisson (fun _ => 0) 0 0 [10, 100, 2, 30] 0 4 = .ok [10, 103, 7, 30] :=
  ⟨by rfl, by rfl, by rfl, by rfl⟩

/-! ## C40: impulse noise -/

namespace Spec

/-- The probability of each outcome of a discrete distribution. -/
def probabilities (weights : List ℚ) : List ℚ := weights.map (· / weights.sum)

end Spec

/-- The full property, for maps whose probabilities are not negative. -/
def C40_Statement : Prop :=
  ∀ (α : Type) (m : List (α × ℚ)), (∀ e ∈ m, 0 ≤ e.2) →
    (∀ (index : Nat) (x : α), index < (impulseWeights m).length →
      impulseCall m index x = x ∨ impulseCall m index x ∈ m.map Prod.fst) ∧
    (∀ w ∈ impulseWeights m, 0 ≤ w) ∧
    (∀ (i : Nat) (e : α × ℚ), m[i]? = some e →
      (impulseWeights m)[i]? = some e.2 ∧ ∀ x, impulseCall m i x = e.1) ∧
    ((m.map Prod.snd).sum < 1 → (impulseWeights m).sum = 1)

theorem null_eq (m : List (α × ℚ)) (c : ℚ) : m.foldl (fun n e => n - e.2) c = c - (m.map Prod.snd).sum := by
  induction m generalizing c with
  | nil => simp
  | cons e m ih => rw [List.foldl_cons, ih, List.map_cons, List.sum_cons]; ring

/-- If the probabilities sum to slightly less than 1, the null hypothesis is discarded and the weights do not sum to
1: here a single impulse of probability 1 - 2^-53. -/
theorem C40_violated : ¬ C40_Statement := by
  intro h
  have := (h Unit [((), 1 - 1 / 2 ^ 53)] (by norm_num)).2.2.2 (by norm_num)
  unfold impulseWeights at this
  norm_num [epsilon] at this

/-- Each output is the input or one of the listed values. -/
theorem C40_values (m : List (α × ℚ)) (index : Nat) (x : α) :
    impulseCall m index x = x ∨ impulseCall m index x ∈ m.map Prod.fst := by
  unfold impulseCall impulseValues
  cases h : (m.map Prod.fst)[index]? with
  | none => exact .inl rfl
  | some v => exact .inr (List.mem_of_getElem? h)

/-- The i-th outcome is the i-th listed value with its listed probability as weight; the other outcome, if any, is
the input. -/
theorem C40_outcomes (m : List (α × ℚ)) :
    (∀ (i : Nat) (e : α × ℚ), m[i]? = some e →
      (impulseWeights m)[i]? = some e.2 ∧ ∀ x, impulseCall m i x = e.1) ∧
    (∀ i, m.length ≤ i → ∀ x, impulseCall m i x = x) ∧
    (m.length ≤ (impulseWeights m).length ∧ (impulseWeights m).length ≤ m.length + 1) := by
  refine ⟨fun i e hi => ?_, fun i hi x => ?_, ?_⟩
  · have hl := (List.getElem?_eq_some_iff.1 hi).1
    constructor
    · unfold impulseWeights
      simp only
      split
      · rw [List.getElem?_map, hi]; rfl
      · rw [List.getElem?_append_left (by simpa using hl), List.getElem?_map, hi]; rfl
    · intro x
      unfold impulseCall impulseValues
      rw [List.getElem?_map, hi]
      rfl
  · unfold impulseCall impulseValues
    rw [List.getElem?_eq_none (by simpa using hi)]
  · unfold impulseWeights
    simp only
    split <;> simp

/-- The weights are not negative. -/
theorem C40_nonneg (m : List (α × ℚ)) (hm : ∀ e ∈ m, 0 ≤ e.2) : ∀ w ∈ impulseWeights m, 0 ≤ w := by
  have h1 : ∀ w ∈ m.map Prod.snd, 0 ≤ w := by
    intro w hw
    obtain ⟨e, he, rfl⟩ := List.mem_map.1 hw
    exact hm e he
  intro w hw
  unfold impulseWeights at hw
  simp only at hw
  split at hw
  · exact h1 w hw
  · next hn =>
    rcases List.mem_append.1 hw with hw | hw
    · exact h1 w hw
    · rw [List.mem_singleton] at hw
      rw [hw]
      have : 0 ≤ epsilon * (m.length : ℚ) := by unfold epsilon; positivity
      linarith

/-- The weights sum to one if the listed probabilities sum to less than one by more than the tolerance.
Missing: sums in the tolerance, i.e. between `1 - count * epsilon` and 1 (`C40_violated`). -/
theorem C40_sum_partial (m : List (α × ℚ)) (h : (m.map Prod.snd).sum < 1 - m.length / 2 ^ 52) :
    (impulseWeights m).sum = 1 := by
  unfold impulseWeights
  simp only [null_eq, epsilon]
  rw [if_neg (by linarith), List.sum_append, List.sum_singleton]
  ring

/-- The probabilities of the outcomes: those which are listed if they sum to less than one (but for the tolerance) or
exactly one; those which are listed, divided by their sum, if it is more than one. -/
theorem C40_probabilities (m : List (α × ℚ)) :
    let s := (m.map Prod.snd).sum
    (s < 1 - m.length / 2 ^ 52 → probabilities (impulseWeights m) = m.map Prod.snd ++ [1 - s]) ∧
    (s = 1 → probabilities (impulseWeights m) = m.map Prod.snd) ∧
    (1 - m.length / 2 ^ 52 ≤ s → probabilities (impulseWeights m) = m.map fun e => e.2 / s) := by
  intro s
  have key : 1 - m.length / 2 ^ 52 ≤ s → probabilities (impulseWeights m) = m.map fun e => e.2 / s := by
    intro h
    unfold impulseWeights
    simp only [null_eq, epsilon]
    rw [if_pos (by linarith)]
    simp [probabilities, s]
  refine ⟨fun h => ?_, fun h => ?_, key⟩
  · have hs := C40_sum_partial m h
    unfold probabilities
    rw [hs]
    simp only [div_one, List.map_id']
    unfold impulseWeights
    simp only [null_eq, epsilon]
    rw [if_neg (by linarith)]
  · have : (0 : ℚ) ≤ m.length / 2 ^ 52 := by positivity
    rw [key (by linarith), h]
    simp

-- Salt with probability 1/10 and pepper with probability 1/5.
example : impulseWeights (saltAndPepper (1 / 10) (1 / 5) (255 : Int) 0) = [1 / 5, 1 / 10, 7 / 10] ∧
    impulseCall (saltAndPepper (1 / 10) (1 / 5) (255 : Int) 0) 1 42 = 255 ∧
    impulseCall (saltAndPepper (1 / 10) (1 / 5) (255 : Int) 0) 2 42 = 42 ∧
    probabilities (impulseWeights [(3, (3 : ℚ)), (4, 1)]) = [3 / 4, 1 / 4] := by
  refine ⟨?_, rfl, rfl, ?_⟩
  · simp [saltAndPepper, mapOf, mapInsert, impulseWeights, epsilon]; norm_num
  · simp [probabilities, impulseWeights, epsilon]; norm_num

theorem mem_mapInsert [LinearOrder α] (k : α) (p : ℚ) (m : List (α × ℚ)) (e : α × ℚ) (hm : m.Pairwise (·.1 < ·.1)) :
    e ∈ mapInsert k p m ↔ e ∈ m ∨ (e = (k, p) ∧ ∀ e' ∈ m, e'.1 ≠ k) := by
  induction m with
  | nil => simp [mapInsert]
  | cons a m ih =>
    obtain ⟨k', p'⟩ := a
    rw [List.pairwise_cons] at hm
    unfold mapInsert
    split
    · rename_i h
      have : ∀ e' ∈ (k', p') :: m, e'.1 ≠ k := by
        intro e' he'
        rcases List.mem_cons.1 he' with rfl | he'
        · exact h.ne'
        · exact (h.trans (hm.1 e' he')).ne'
      rw [List.mem_cons, or_comm]
      exact or_congr_right ⟨fun h => ⟨h, this⟩, fun h => h.1⟩
    · split
      · rename_i h
        subst h
        constructor
        · exact .inl
        · rintro (h | ⟨_, h⟩)
          · exact h
          · exact absurd rfl (h (k, p') (by simp))
      · rename_i h1 h2
        rw [List.mem_cons, ih hm.2, List.mem_cons, List.forall_mem_cons, or_assoc]
        have : (k', p').1 ≠ k := fun h => h2 h.symm
        simp only [this, ne_eq, not_false_eq_true, true_and]

theorem mapInsert_sorted [LinearOrder α] (k : α) (p : ℚ) (m : List (α × ℚ)) (hm : m.Pairwise (·.1 < ·.1)) :
    (mapInsert k p m).Pairwise (·.1 < ·.1) := by
  induction m with
  | nil => simp [mapInsert]
  | cons a m ih =>
    obtain ⟨k', p'⟩ := a
    have hm' := hm
    rw [List.pairwise_cons] at hm
    unfold mapInsert
    split
    · rename_i h
      refine List.pairwise_cons.2 ⟨fun e he => ?_, hm'⟩
      rcases List.mem_cons.1 he with rfl | he
      · exact h
      · exact h.trans (hm.1 e he)
    · split
      · exact hm'
      · rename_i h1 h2
        refine List.pairwise_cons.2 ⟨fun e he => ?_, ih hm.2⟩
        rcases (mem_mapInsert k p m e hm.2).1 he with he | ⟨rfl, _⟩
        · exact hm.1 e he
        · exact lt_of_le_of_ne (not_lt.1 h1) fun h => h2 h.symm

/-- **C40**: listed values are sorted by increasing order, and each one has the first probability which is given for it.
As the list is sorted, this determines the outcomes of each index (`C40_outcomes`). -/
theorem C40_map [LinearOrder α] (l : List (α × ℚ)) :
    (mapOf l).Pairwise (·.1 < ·.1) ∧ ∀ e, e ∈ mapOf l ↔ l.find? (fun e' => decide (e'.1 = e.1)) = some e := by
  have key : ∀ m : List (α × ℚ), m.Pairwise (·.1 < ·.1) →
      (l.foldl (fun m e => mapInsert e.1 e.2 m) m).Pairwise (·.1 < ·.1) ∧
      ∀ e, e ∈ l.foldl (fun m e => mapInsert e.1 e.2 m) m ↔
        e ∈ m ∨ ((∀ e' ∈ m, e'.1 ≠ e.1) ∧ l.find? (fun e' => decide (e'.1 = e.1)) = some e) := by
    induction l with
    | nil => intro m hm; simp [hm]
    | cons a l ih =>
      intro m hm
      rw [List.foldl_cons]
      obtain ⟨h1, h2⟩ := ih (mapInsert a.1 a.2 m) (mapInsert_sorted a.1 a.2 m hm)
      refine ⟨h1, fun e => ?_⟩
      rw [h2, mem_mapInsert _ _ _ _ hm, List.find?_cons]
      have hne : (∀ e' ∈ mapInsert a.1 a.2 m, e'.1 ≠ e.1) ↔ (∀ e' ∈ m, e'.1 ≠ e.1) ∧ a.1 ≠ e.1 := by
        constructor
        · intro h
          refine ⟨fun e' he' => h e' ((mem_mapInsert _ _ _ _ hm).2 (.inl he')), fun ha => ?_⟩
          by_cases hx : ∀ e' ∈ m, e'.1 ≠ a.1
          · exact h a ((mem_mapInsert _ _ _ _ hm).2 (.inr ⟨rfl, hx⟩)) ha
          · push Not at hx
            obtain ⟨e', he', hx⟩ := hx
            exact h e' ((mem_mapInsert _ _ _ _ hm).2 (.inl he')) (hx.trans ha)
        · rintro ⟨h, ha⟩ e' he'
          rcases (mem_mapInsert _ _ _ _ hm).1 he' with he' | ⟨rfl, _⟩
          · exact h e' he'
          · exact ha
      rw [hne]
      by_cases ha : a.1 = e.1
      · simp only [ha, ne_eq, not_true_eq_false, and_false, false_and, or_false, decide_true, Option.some.injEq]
        refine or_congr_right ⟨?_, ?_⟩
        · rintro ⟨h, h'⟩
          exact ⟨h', Prod.ext ha (congrArg Prod.snd h).symm⟩
        · rintro ⟨h, rfl⟩
          exact ⟨rfl, h⟩
      · have hae : e ≠ (a.1, a.2) := fun h => ha (by rw [h])
        simp only [ha, hae, ne_eq, not_false_eq_true, and_true, false_and, or_false, decide_false]
  have := key [] List.Pairwise.nil
  refine ⟨this.1, fun e => ?_⟩
  rw [show mapOf l = l.foldl (fun m e => mapInsert e.1 e.2 m) [] from rfl, this.2]
  simp

/-- The key 3 is given twice; keys are sorted. -/
example : mapOf [((3 : Int), (1 / 2 : ℚ)), (-1, 1 / 4), (3, 0)] = [(-1, 1 / 4), (3, 1 / 2)] := by
  simp [mapOf, mapInsert]

/-- Salt and pepper: each one has its probability if they are different; otherwise only the salt is considered. -/
theorem C40_salt_and_pepper [LinearOrder α] (pSalt pPepper : ℚ) (salt pepper : α) :
    (salt ≠ pepper → (saltAndPepper pSalt pPepper salt pepper).Perm [(salt, pSalt), (pepper, pPepper)]) ∧
    (salt = pepper → saltAndPepper pSalt pPepper salt pepper = [(salt, pSalt)]) := by
  constructor
  · intro h
    unfold saltAndPepper mapOf
    simp only [List.foldl_cons, List.foldl_nil, mapInsert, if_neg h.symm]
    split
    · exact List.Perm.swap _ _ _
    · exact List.Perm.refl _
  · rintro rfl
    simp [saltAndPepper, mapOf, mapInsert]

end Litl
