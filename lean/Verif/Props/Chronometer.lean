import Mathlib.Algebra.Order.Chebyshev
import Mathlib.Algebra.BigOperators.Fin
import Mathlib.Algebra.Order.BigOperators.Group.List
import Mathlib.Tactic.Ring
import Mathlib.Tactic.Linarith
import Mathlib.Tactic.FieldSimp
import Mathlib.Tactic.NormNum
import Verif.Model.Chronometer

/-!
# C56: chronometer
-/

namespace Litl.Chronometer

/-! ## Specification -/

/-- The calls since the last reset, or all of them. -/
def sinceReset : List Op → List Op
  | [] => []
  | op :: ops =>
    if ops.any (fun o => match o with | .reset _ => true | _ => false) then sinceReset ops
    else match op with
      | .reset _ => ops
      | _ => op :: ops

/-- The offset: that of the last reset, or that of the constructor. -/
def lastOffset (offset : ℚ) : List Op → ℚ
  | [] => offset
  | .reset o :: ops => lastOffset o ops
  | _ :: ops => lastOffset offset ops

/-- The number of stops. -/
def stops (ops : List Op) : Nat := ops.countP fun o => match o with | .stop _ => true | _ => false

/-- Start and stop at given times. -/
def laps (l : List (Int × Int)) : List Op := l.flatMap fun p => [.start p.1, .stop p.2]

/-- The total time in ticks between starts and stops. -/
def total (l : List (Int × Int)) : Int := (l.map fun p => p.2 - p.1).sum

/-- The time is never decreasing. -/
def NonDecreasing (l : List (Int × Int)) : Prop := (l.flatMap fun p => [p.1, p.2]).Pairwise (· ≤ ·)

/-- A duration in ticks, in given unit, without rounding. -/
def exact (unit : Unit) (ticks : Int) : ℚ := ticks * unit.num / unit.den

/-- **C56** (as stated in properties.jsonl). -/
def C56_Statement : Prop :=
  ∀ (unit : Unit), unit.Valid → ∀ (offset : ℚ) (ops : List Op),
    (let c := run unit (new offset) ops
     c.elapsed = lastOffset offset ops + c.container.sum ∧ count c = stops (sinceReset ops)) ∧
    ∀ (o : ℚ) (l : List (Int × Int)), NonDecreasing l →
      (run unit (new offset) (ops ++ .reset o :: laps l)).elapsed - o = exact unit (total l)

/-! ## Elapsed time and count -/

theorem run_append (unit : Unit) (c : State) (a b : List Op) : run unit c (a ++ b) = run unit (run unit c a) b := by
  simp [run]

theorem run_elapsed (unit : Unit) (ops : List Op) (c : State) (offset : ℚ) (h : c.elapsed = offset + c.container.sum) :
    (run unit c ops).elapsed = lastOffset offset ops + (run unit c ops).container.sum := by
  induction ops generalizing c offset with
  | nil => exact h
  | cons op ops ih =>
    have step : run unit c (op :: ops) = run unit (apply unit c op) ops := rfl
    rw [step]
    cases op with
    | start now => exact ih _ offset h
    | stop now =>
      refine ih _ offset ?_
      simp [apply, stop, h]; ring
    | reset o => exact ih _ o (by simp [apply, reset])

/-- **C56**: the elapsed time is the offset plus the sum of the increments, after any sequence of calls. -/
theorem C56_elapsed (unit : Unit) (offset : ℚ) (ops : List Op) :
    (run unit (new offset) ops).elapsed = lastOffset offset ops + (run unit (new offset) ops).container.sum :=
  run_elapsed unit ops _ offset (by simp [new, reset])

theorem run_count (unit : Unit) (ops : List Op) (c : State) :
    count (run unit c ops) = if ops.any (fun o => match o with | .reset _ => true | _ => false)
      then stops (sinceReset ops) else count c + stops ops := by
  induction ops generalizing c with
  | nil => simp [run, stops]
  | cons op ops ih =>
    have step : run unit c (op :: ops) = run unit (apply unit c op) ops := rfl
    rw [step, ih]
    by_cases ha : ops.any (fun o => match o with | .reset _ => true | _ => false)
    · rw [if_pos ha, if_pos (by simp only [List.any_cons]; rw [ha]; simp)]
      simp only [sinceReset]
      rw [if_pos ha]
    · rw [if_neg ha]
      have ha' := Bool.eq_false_iff.2 ha
      cases op with
      | start now =>
        rw [if_neg (by simp only [List.any_cons]; rw [ha']; simp)]
        simp [apply, start, count, stops]
      | stop now =>
        rw [if_neg (by simp only [List.any_cons]; rw [ha']; simp)]
        simp [apply, stop, count, stops]; omega
      | reset o =>
        rw [if_pos (by simp)]
        simp only [sinceReset]
        rw [if_neg ha]
        simp [apply, reset, count]

/-- **C56**: the count is the number of stops since the last reset, after any sequence of calls. -/
theorem C56_count (unit : Unit) (offset : ℚ) (ops : List Op) :
    count (run unit (new offset) ops) = stops (sinceReset ops) := by
  rw [run_count]
  by_cases ha : ops.any (fun o => match o with | .reset _ => true | _ => false)
  · rw [if_pos ha]
  · rw [if_neg ha]
    have : sinceReset ops = ops := by
      cases ops with
      | nil => rfl
      | cons op ops =>
        simp only [List.any_cons, Bool.or_eq_true, not_or] at ha
        simp only [sinceReset]
        rw [if_neg ha.2]
        cases op <;> simp_all
    rw [this]
    simp [new, reset, count]

/-- **C56**: whatever the history, a stop which follows a start appends one increment, which is the time since the start
(after conversion), adds it to the elapsed time, returns it, and leaves the other increments unchanged;
the chronometer is running in between only. -/
theorem C56_start_stop (unit : Unit) (offset : ℚ) (ops : List Op) (tic toc : Int) :
    let c := run unit (new offset) ops
    let d := start tic c
    let e := (stop unit toc d).2
    d.running = true ∧ e.running = false ∧
    (stop unit toc d).1 = cast unit (toc - tic) ∧
    e.elapsed = c.elapsed + cast unit (toc - tic) ∧
    e.container = c.container ++ [cast unit (toc - tic)] ∧
    last e = .ok (cast unit (toc - tic)) := by
  simp [start, stop, last]

/-- **C56**: a chronometer is running iff the last call is a start. -/
theorem C56_running (unit : Unit) (offset : ℚ) (ops : List Op) :
    (run unit (new offset) ops).running = true ↔ ∃ before now, ops = before ++ [.start now] := by
  rcases List.eq_nil_or_concat ops with rfl | ⟨before, op, rfl⟩
  · simp [run, new, reset]
  · rw [List.concat_eq_append, run_append]
    cases op <;> simp [run, apply, start, stop, reset]

/-! ## Total time -/

theorem run_laps (unit : Unit) (l : List (Int × Int)) (c : State) :
    (run unit c (laps l)).elapsed = c.elapsed + (l.map fun p => cast unit (p.2 - p.1)).sum ∧
    (run unit c (laps l)).container = c.container ++ l.map fun p => cast unit (p.2 - p.1) := by
  induction l generalizing c with
  | nil => simp [laps, run]
  | cons p l ih =>
    have e : laps (p :: l) = [.start p.1, .stop p.2] ++ laps l := rfl
    rw [e, run_append]
    obtain ⟨h1, h2⟩ := ih (run unit c [.start p.1, .stop p.2])
    rw [h1, h2]
    simp [run, apply, start, stop]
    ring

/-- **C56**: after alternating starts and stops, the increments are the times between starts and stops, in order. -/
theorem C56_increments (unit : Unit) (offset o : ℚ) (ops : List Op) (l : List (Int × Int)) :
    (run unit (new offset) (ops ++ .reset o :: laps l)).container = l.map fun p => cast unit (p.2 - p.1) := by
  rw [run_append]
  exact (run_laps unit l _).2.trans (by simp [apply, reset])

theorem elapsed_laps (unit : Unit) (offset o : ℚ) (ops : List Op) (l : List (Int × Int)) :
    (run unit (new offset) (ops ++ .reset o :: laps l)).elapsed - o = (l.map fun p => cast unit (p.2 - p.1)).sum := by
  rw [run_append]
  have := (run_laps unit l (apply unit (run unit (new offset) ops) (.reset o))).1
  have e : run unit (run unit (new offset) ops) (.reset o :: laps l) =
    run unit (apply unit (run unit (new offset) ops) (.reset o)) (laps l) := rfl
  rw [e, this]
  simp [apply, reset]

theorem exact_total (unit : Unit) (l : List (Int × Int)) :
    exact unit (total l) = (l.map fun p => exact unit (p.2 - p.1)).sum := by
  induction l with
  | nil => simp [total, exact]
  | cons p l ih =>
    rw [List.map_cons, List.sum_cons, ← ih]
    simp only [total, exact, List.map_cons, List.sum_cons]
    push_cast
    ring

/-- Conversion is exact if the representation is not integral or the duration is a whole number of units. -/
theorem cast_exact {unit : Unit} (hu : unit.Valid) {ticks : Int}
    (h : unit.integral = false ∨ (unit.den : Int) ∣ ticks * unit.num) : cast unit ticks = exact unit ticks := by
  have hd : (unit.den : ℚ) ≠ 0 := by exact_mod_cast hu.den.ne'
  unfold cast exact
  rcases h with h | ⟨k, h⟩
  · simp [h]
  · by_cases hi : unit.integral = true
    · rw [if_pos hi, h, Int.mul_tdiv_cancel_left _ (by exact_mod_cast hu.den.ne')]
      have : (ticks : ℚ) * unit.num = unit.den * k := by exact_mod_cast h
      rw [this]; field_simp
    · rw [if_neg hi]

/-- Non-negative durations are rounded down, by less than a unit. -/
theorem cast_bounds {unit : Unit} (hu : unit.Valid) {ticks : Int} (h : 0 ≤ ticks) :
    0 ≤ exact unit ticks - cast unit ticks ∧ exact unit ticks - cast unit ticks < 1 := by
  have hd : (0 : ℚ) < unit.den := by exact_mod_cast hu.den
  unfold cast exact
  by_cases hi : unit.integral = true
  · rw [if_pos hi]
    have h0 : 0 ≤ ticks * unit.num := Int.mul_nonneg h (by omega)
    rw [Int.tdiv_eq_ediv_of_nonneg h0]
    have e := Int.mul_ediv_add_emod (ticks * unit.num) unit.den
    have m0 := Int.emod_nonneg (ticks * unit.num) (b := unit.den) (by exact_mod_cast hu.den.ne')
    have m1 := Int.emod_lt_of_pos (ticks * unit.num) (b := unit.den) (by exact_mod_cast hu.den)
    generalize (ticks * unit.num) / (unit.den : Int) = q at *
    generalize (ticks * unit.num) % (unit.den : Int) = r at *
    have e' : (ticks : ℚ) * unit.num = unit.den * q + r := by exact_mod_cast e.symm
    rw [e']
    have : ((unit.den : ℚ) * q + r) / unit.den - q = r / unit.den := by field_simp; ring
    rw [this]
    constructor
    · exact div_nonneg (by exact_mod_cast m0) hd.le
    · rw [div_lt_one hd]; exact_mod_cast m1
  · rw [if_neg hi]; constructor <;> simp

/-- **C56** if the unit is not integral, or if all the measured times are whole numbers of units.
Missing: the other cases, for which the property does not hold (`C56_violated`); see `C56_total_bounds_partial`. -/
theorem C56_total_partial {unit : Unit} (hu : unit.Valid) (offset o : ℚ) (ops : List Op) {l : List (Int × Int)}
    (h : unit.integral = false ∨ ∀ p ∈ l, (unit.den : Int) ∣ (p.2 - p.1) * unit.num) :
    (run unit (new offset) (ops ++ .reset o :: laps l)).elapsed - o = exact unit (total l) := by
  rw [elapsed_laps, exact_total]
  congr 1
  refine List.map_congr_left fun p hp => cast_exact hu ?_
  rcases h with h | h
  · exact .inl h
  · exact .inr (h p hp)

theorem sub_bounds {α : Type} {f g : α → ℚ} {l : List α} (h : ∀ a ∈ l, 0 ≤ g a - f a ∧ g a - f a < 1) :
    0 ≤ (l.map g).sum - (l.map f).sum ∧ (l.map g).sum - (l.map f).sum ≤ l.length ∧
    (l ≠ [] → (l.map g).sum - (l.map f).sum < l.length) := by
  induction l with
  | nil => simp
  | cons a l ih =>
    obtain ⟨h1, h2, h3⟩ := ih fun b hb => h b (by simp [hb])
    obtain ⟨g1, g2⟩ := h a (by simp)
    simp only [List.map_cons, List.sum_cons, List.length_cons, Nat.cast_add, Nat.cast_one]
    refine ⟨by linarith, by linarith, fun _ => by linarith⟩

/-- **C56** up to rounding: if the clock does not decrease, the elapsed time is at most the total time, and lacks less
than a unit per measure.
Missing: equality, which does not hold (`C56_violated`). -/
theorem C56_total_bounds_partial {unit : Unit} (hu : unit.Valid) (offset o : ℚ) (ops : List Op) {l : List (Int × Int)}
    (h : NonDecreasing l) :
    let measured := (run unit (new offset) (ops ++ .reset o :: laps l)).elapsed - o
    measured ≤ exact unit (total l) ∧ exact unit (total l) ≤ measured + l.length ∧
    (l ≠ [] → exact unit (total l) < measured + l.length) := by
  have hl : ∀ p ∈ l, p.1 ≤ p.2 := by
    intro p hp
    obtain ⟨a, b, rfl⟩ := List.append_of_mem hp
    simp only [NonDecreasing, List.flatMap_append, List.flatMap_cons, List.cons_append, List.nil_append] at h
    have := (List.pairwise_append.1 h).2.1
    exact (List.pairwise_cons.1 this).1 p.2 (by simp)
  dsimp only
  rw [elapsed_laps, exact_total]
  obtain ⟨h1, h2, h3⟩ := sub_bounds (f := fun p : Int × Int => cast unit (p.2 - p.1))
    (g := fun p => exact unit (p.2 - p.1)) (l := l) (fun p hp => cast_bounds hu (by have := hl p hp; omega))
  exact ⟨by linarith, by linarith, fun hn => by have := h3 hn; linarith⟩

/-- **C56**, negative: with an integral unit, if a measured time is not a whole number of units,
then the elapsed time is less than the total time. -/
theorem C56_total_lt {unit : Unit} (hu : unit.Valid) (hi : unit.integral = true) (offset o : ℚ) (ops : List Op)
    {l : List (Int × Int)} (h : ∀ p ∈ l, p.1 ≤ p.2) (hn : ∃ p ∈ l, ¬ (unit.den : Int) ∣ (p.2 - p.1) * unit.num) :
    (run unit (new offset) (ops ++ .reset o :: laps l)).elapsed - o < exact unit (total l) := by
  rw [elapsed_laps, exact_total]
  obtain ⟨p, hp, hd⟩ := hn
  refine List.sum_lt_sum _ _ (fun q hq => ?_) ⟨p, hp, ?_⟩
  · have := (cast_bounds hu (ticks := q.2 - q.1) (by have := h q hq; omega)).1
    linarith
  · refine lt_of_le_of_ne ?_ ?_
    · have := (cast_bounds hu (ticks := p.2 - p.1) (by have := h p hp; omega)).1
      linarith
    · intro e
      refine hd ⟨Int.tdiv ((p.2 - p.1) * unit.num) unit.den, ?_⟩
      have hd0 : (unit.den : ℚ) ≠ 0 := by exact_mod_cast hu.den.ne'
      unfold cast exact at e
      rw [if_pos hi, eq_div_iff hd0] at e
      have e' : Int.tdiv ((p.2 - p.1) * unit.num) unit.den * unit.den = (p.2 - p.1) * unit.num := by
        exact_mod_cast e
      exact e'.symm.trans (mul_comm _ _)

/-- Milliseconds, for a clock in nanoseconds. -/
def milliseconds : Unit := ⟨1, 1000000, true⟩

/-- **C56** does not hold: increments are rounded down. -/
theorem C56_violated : ¬ C56_Statement := by
  intro h
  have h1 := (h milliseconds ⟨by decide, by decide⟩ 0 []).2 0 [(0, 999999), (1000000, 1999999)] (by unfold NonDecreasing; decide)
  have h2 := C56_total_lt (unit := milliseconds) ⟨by decide, by decide⟩ rfl 0 0 []
    (l := [(0, 999999), (1000000, 1999999)]) (by decide) (by decide)
  rw [h1] at h2
  exact lt_irrefl _ h2

/-- Only a start changes the time from which the next increment is measured. -/
theorem tic_of_no_start (unit : Unit) (l : List Op) (c : State) (h : ∀ op ∈ l, ∀ now, op ≠ .start now) :
    (run unit c l).tic = c.tic := by
  induction l generalizing c with
  | nil => rfl
  | cons op l ih =>
    have step : run unit c (op :: l) = run unit (apply unit c op) l := rfl
    rw [step, ih _ fun op hop => h op (by simp [hop])]
    cases op with
    | start now => exact absurd rfl (h _ (by simp) now)
    | stop now => rfl
    | reset o => rfl

/-- **C56**: a stop which does not follow a start since the construction or last reset is not detected: the time is measured
from the last start, even if before the last reset (or from the epoch of the clock). -/
theorem C56_stop_without_start (unit : Unit) (offset o : ℚ) (ops between : List Op) (tic toc : Int)
    (hb : ∀ op ∈ between, ∀ now, op ≠ .start now) :
    (stop unit toc (run unit (new offset) (ops ++ .start tic :: between ++ [.reset o]))).1 = cast unit (toc - tic) := by
  have e : ops ++ .start tic :: between ++ [.reset o] = ops ++ (.start tic :: (between ++ [.reset o])) := by simp
  rw [e, run_append]
  have step : run unit (run unit (new offset) ops) (.start tic :: (between ++ [.reset o])) =
    run unit (start tic (run unit (new offset) ops)) (between ++ [.reset o]) := rfl
  rw [step]
  simp only [stop]
  rw [tic_of_no_start]
  · rfl
  · intro op hop now
    rcases List.mem_append.1 hop with hop | hop
    · exact hb op hop now
    · simp at hop; subst hop; simp

/-- **C56**: a stop of a chronometer which was never started is not detected either: the time is measured from the epoch of
the clock (a large increment which is appended like any other). -/
theorem C56_stop_never_started (unit : Unit) (offset : ℚ) (ops : List Op) (toc : Int)
    (h : ∀ op ∈ ops, ∀ now, op ≠ .start now) :
    (stop unit toc (run unit (new offset) ops)).1 = cast unit toc := by
  simp only [stop]
  rw [tic_of_no_start unit ops _ h]
  simp [new, reset]

/-- Example for C56: a millisecond chronometer stopped and reset but never started. -/
example : (stop milliseconds 5000000 (run milliseconds (new 3) [.stop 1000000, .reset 2])).1 = cast milliseconds 5000000 :=
  C56_stop_never_started _ _ _ _ (by simp)

/-! ## Statistics -/

theorem foldl_add (l : List ℚ) (x : ℚ) : l.foldl (· + ·) x = x + l.sum := by
  induction l generalizing x with
  | nil => simp
  | cons a l ih => simp only [List.foldl_cons, List.sum_cons]; rw [ih]; ring

/-- **C56**: the mean of the increments times their number is their sum, i.e. the elapsed time minus the offset;
it is not a number iff there are no increments. -/
theorem C56_mean (unit : Unit) (offset : ℚ) (ops : List Op) :
    let c := run unit (new offset) ops
    (mean c = none ↔ stops (sinceReset ops) = 0) ∧
    ∀ m, mean c = some m → m * stops (sinceReset ops) = c.elapsed - lastOffset offset ops := by
  intro c
  have hc : count c = stops (sinceReset ops) := C56_count unit offset ops
  unfold mean
  rw [hc]
  constructor
  · by_cases h : stops (sinceReset ops) = 0 <;> simp [h]
  · intro m hm
    by_cases h : stops (sinceReset ops) = 0
    · simp [h] at hm
    · rw [if_neg h] at hm
      simp only [Option.some.injEq] at hm
      rw [← hm, C56_elapsed, foldl_add, zero_add]
      have : (stops (sinceReset ops) : ℚ) ≠ 0 := by exact_mod_cast h
      field_simp
      ring_nf
      rfl

theorem sum_sub_sq (l : List ℚ) (m : ℚ) :
    (l.map fun x => (x - m) * (x - m)).sum = (l.map fun x => x * x).sum - 2 * m * l.sum + l.length * (m * m) := by
  induction l with
  | nil => simp
  | cons x l ih => simp only [List.map_cons, List.sum_cons, List.length_cons, ih]; push_cast; ring

/-- **C56**: without increments, the mean and the standard deviation are not numbers. -/
theorem C56_empty (c : State) (h : c.container = []) : mean c = none ∧ stdev c = none := by
  have hm : mean c = none := by rw [mean, if_pos (by rw [count, h]; rfl)]
  exact ⟨hm, by rw [stdev, variance, hm]; rfl⟩

/-- **C56**: the standard deviation is the square root of the mean squared distance to the mean;
the argument of the square root is never negative. -/
theorem C56_stdev (c : State) (m : ℚ) (hm : mean c = some m) :
    variance c = some ((c.container.map fun x => (x - m) * (x - m)).sum / count c) ∧
    stdev c = some (Real.sqrt ((c.container.map fun x => (x - m) * (x - m)).sum / count c : ℚ)) := by
  have hz : List.zipWith (· * ·) c.container c.container = c.container.map fun x => x * x := by
    rw [List.zipWith_self]
  unfold mean at hm
  by_cases h : count c = 0
  · simp [h] at hm
  rw [if_neg h] at hm
  have hn : (count c : ℚ) ≠ 0 := by exact_mod_cast h
  have hm' : c.container.sum = m * count c := by
    simp only [Option.some.injEq, foldl_add, zero_add] at hm
    rw [← hm]; field_simp
  have hv : variance c = some ((c.container.map fun x => (x - m) * (x - m)).sum / count c) := by
    unfold variance mean
    rw [if_neg h, hm, Option.map_some, hz, foldl_add, zero_add, sum_sub_sq, hm']
    congr 1
    have : (c.container.length : ℚ) = count c := rfl
    rw [this]
    field_simp
    ring
  refine ⟨hv, ?_⟩
  unfold stdev
  rw [hv]
  dsimp only
  rw [if_neg]
  rw [not_lt]
  refine div_nonneg (List.sum_nonneg ?_) (by positivity)
  intro x hx
  obtain ⟨y, _, rfl⟩ := List.mem_map.1 hx
  exact mul_self_nonneg _

theorem foldl_min (l : List ℚ) (x : ℚ) :
    let m := l.foldl (fun m y => if y < m then y else m) x
    (m = x ∨ m ∈ l) ∧ m ≤ x ∧ ∀ y ∈ l, m ≤ y := by
  induction l generalizing x with
  | nil => simp
  | cons a l ih =>
    simp only [List.foldl_cons]
    obtain ⟨h1, h2, h3⟩ := ih (if a < x then a else x)
    by_cases ha : a < x
    · rw [if_pos ha] at h1 h2 h3 ⊢
      refine ⟨?_, by linarith, ?_⟩
      · rcases h1 with h1 | h1
        · right; rw [h1]; simp
        · right; simp [h1]
      · intro y hy
        rcases List.mem_cons.1 hy with rfl | hy
        · exact h2
        · exact h3 y hy
    · rw [if_neg ha] at h1 h2 h3 ⊢
      refine ⟨?_, h2, ?_⟩
      · rcases h1 with h1 | h1
        · left; exact h1
        · right; simp [h1]
      · intro y hy
        rcases List.mem_cons.1 hy with rfl | hy
        · linarith
        · exact h3 y hy

theorem foldl_max (l : List ℚ) (x : ℚ) :
    let m := l.foldl (fun m y => if m < y then y else m) x
    (m = x ∨ m ∈ l) ∧ x ≤ m ∧ ∀ y ∈ l, y ≤ m := by
  induction l generalizing x with
  | nil => simp
  | cons a l ih =>
    simp only [List.foldl_cons]
    obtain ⟨h1, h2, h3⟩ := ih (if x < a then a else x)
    by_cases ha : x < a
    · rw [if_pos ha] at h1 h2 h3 ⊢
      refine ⟨?_, by linarith, ?_⟩
      · rcases h1 with h1 | h1
        · right; rw [h1]; simp
        · right; simp [h1]
      · intro y hy
        rcases List.mem_cons.1 hy with rfl | hy
        · exact h2
        · exact h3 y hy
    · rw [if_neg ha] at h1 h2 h3 ⊢
      refine ⟨?_, h2, ?_⟩
      · rcases h1 with h1 | h1
        · left; exact h1
        · right; simp [h1]
      · intro y hy
        rcases List.mem_cons.1 hy with rfl | hy
        · linarith
        · exact h3 y hy

/-- **C56**: `min()`, `max()` and `last()` are defined iff there has been a stop since the last reset, in which case
the two former are the least and greatest increments. -/
theorem C56_min_max (unit : Unit) (offset : ℚ) (ops : List Op) :
    let c := run unit (new offset) ops
    (stops (sinceReset ops) = 0 → min c = .error .ub ∧ max c = .error .ub ∧ last c = .error .ub) ∧
    (stops (sinceReset ops) ≠ 0 → ∃ lo hi inc, min c = .ok lo ∧ max c = .ok hi ∧ last c = .ok inc ∧
      lo ∈ c.container ∧ hi ∈ c.container ∧ (∀ x ∈ c.container, lo ≤ x ∧ x ≤ hi) ∧ c.container.getLast? = some inc) := by
  intro c
  rw [← C56_count unit offset ops]
  change (count c = 0 → _) ∧ (count c ≠ 0 → _)
  unfold count min max last
  cases hc : c.container with
  | nil => simp
  | cons x l =>
    refine ⟨fun h => absurd h (by simp), fun _ => ?_⟩
    obtain ⟨a1, a2, a3⟩ := foldl_min l x
    obtain ⟨b1, b2, b3⟩ := foldl_max l x
    refine ⟨_, _, (x :: l).getLast (by simp), rfl, rfl, by simp [List.getLast?_eq_some_getLast], ?_, ?_, ?_,
      List.getLast?_eq_some_getLast (by simp)⟩
    · rcases a1 with h | h
      · rw [h]; simp
      · simp [h]
    · rcases b1 with h | h
      · rw [h]; simp
      · simp [h]
    · intro y hy
      rcases List.mem_cons.1 hy with rfl | hy
      · exact ⟨a2, b2⟩
      · exact ⟨a3 y hy, b3 y hy⟩

/-! ## Non-vacuity -/

/-- Two measures of 2 and 3 ms, with an offset of 10 ms and after a reset. -/
example :
    let l : List (Int × Int) := [(1000000, 3000000), (4000000, 7000000)]
    let c := run milliseconds (new 1) ([.start 0, .stop 500000, .start 600000] ++ .reset 10 :: laps l)
    NonDecreasing l ∧ (∀ p ∈ l, (milliseconds.den : Int) ∣ (p.2 - p.1) * milliseconds.num) ∧
    c.elapsed = 15 ∧ count c = 2 ∧ c.container = [2, 3] ∧ mean c = some (5 / 2) ∧ variance c = some (1 / 4) ∧
    min c = .ok 2 ∧ max c = .ok 3 ∧ last c = .ok 3 := by
  refine ⟨by unfold NonDecreasing; decide, by decide, ?_⟩
  decide +kernel

/-- A measure of 1.5 ms is rounded down to 1 ms, and stopping after a reset measures since before the reset. -/
example : (run milliseconds (new 0) [.start 0, .stop 1500000]).container = [1] ∧
    (run milliseconds (new 0) ([] ++ .start 0 :: [.stop 1500000] ++ [.reset 0] ++ [.stop 4000000])).container = [4] := by
  decide +kernel

end Litl.Chronometer
