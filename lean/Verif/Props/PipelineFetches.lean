import Verif.Props.Pipeline
import Mathlib.Tactic.Linarith

/-!
# How many times the values of steps are fetched (C132)
-/

namespace Litl.Pipeline

namespace Spec

/-- `PathsAll graph p l n` : there are `n` paths from the steps of `l` to step `p` in the graph of prerequisites, such that from a
step to itself there is the empty path. -/
inductive PathsAll (graph : Graph) (p : Step) : List Step → Nat → Prop where
  | nil : PathsAll graph p [] 0
  | cons {step : Step} {l : List Step} {n m : Nat} : PathsAll graph p (graph step) n → PathsAll graph p l m →
      PathsAll graph p (step :: l) ((if step = p then 1 else 0) + n + m)

/-- The number of paths from a step to another one. -/
def Paths (graph : Graph) (step p : Step) (n : Nat) : Prop := PathsAll graph p [step] n

end Spec

open Spec

/-- C132: `get<S>()` fetches the values of `S` and of each of its direct and indirect prerequisites once. -/
def C132_Statement : Prop :=
  ∀ (graph : Graph) (s s' : State) (tr : List Event) (step p : Step), Runs graph (fun _ _ => False) (.get step) s tr true s' →
    (p = step ∨ Upstream graph p step) → tr.count (.fetched p) = 1

/-- What is fetched by calls, at least, or exactly if evaluations do not call `get()`. -/
theorem runs_fetches {graph : Graph} {calls : Step → Step → Prop} {c : Call} {s s' : State} {tr : List Event} {ok : Bool}
    (h : Runs graph calls c s tr ok s') (p : Step) : ok = true →
    (match c with
    | .get step => ∃ n, PathsAll graph p (graph step) n ∧ (if step = p then 1 else 0) + n ≤ tr.count (.fetched p)
    | .all steps => ∃ n, PathsAll graph p steps n ∧ n ≤ tr.count (.fetched p)
    | .evaluateGet step => (if step = p then 1 else 0) ≤ tr.count (.fetched p)
    | .body _ => True) := by
  induction h with
  | getFails => intro h; cases h
  | get _ _ ih1 ih2 =>
    intro hok
    obtain ⟨n, hn, h1⟩ := ih1 rfl
    have h2 := ih2 hok
    refine ⟨n, hn, ?_⟩
    simp only at h2
    rw [List.count_append]
    omega
  | allNil => intro _; exact ⟨0, .nil, Nat.zero_le _⟩
  | allFails => intro h; cases h
  | allCons _ _ ih1 ih2 =>
    intro hok
    obtain ⟨n, hn, h1⟩ := ih1 rfl
    obtain ⟨m, hm, h2⟩ := ih2 hok
    refine ⟨_, .cons hn hm, ?_⟩
    rw [List.count_append]
    omega
  | @fetch step s _ =>
    intro _
    by_cases h : step = p <;> simp [h]
  | fetchFails => intro h; cases h
  | evaluateFails => intro h; cases h
  | @evaluate step s s' tr tic toc _ _ _ =>
    intro _
    by_cases h : step = p <;> simp [h]
  | evaluateFetchFails => intro h; cases h
  | bodyEnds => intro _; trivial
  | bodyGets => intro _; trivial

theorem runs_fetches_exact {graph : Graph} {c : Call} {s s' : State} {tr : List Event} {ok : Bool}
    (h : Runs graph (fun _ _ => False) c s tr ok s') (p : Step) :
    (match c with
    | .get step => ok = true → ∃ n, PathsAll graph p (graph step) n ∧ tr.count (.fetched p) = (if step = p then 1 else 0) + n
    | .all steps => ok = true → ∃ n, PathsAll graph p steps n ∧ tr.count (.fetched p) = n
    | .evaluateGet step => ok = true → tr.count (.fetched p) = (if step = p then 1 else 0)
    | .body _ => tr = []) := by
  induction h with
  | getFails => intro h; cases h
  | get _ _ ih1 ih2 =>
    intro hok
    obtain ⟨n, hn, h1⟩ := ih1 rfl
    have h2 := ih2 hok
    refine ⟨n, hn, ?_⟩
    rw [List.count_append]
    omega
  | allNil => intro _; exact ⟨0, .nil, rfl⟩
  | allFails => intro h; cases h
  | allCons _ _ ih1 ih2 =>
    intro hok
    obtain ⟨n, hn, h1⟩ := ih1 rfl
    obtain ⟨m, hm, h2⟩ := ih2 hok
    refine ⟨_, .cons hn hm, ?_⟩
    rw [List.count_append]
    omega
  | @fetch step s _ =>
    intro _
    by_cases h : step = p <;> simp [h]
  | fetchFails => intro h; cases h
  | evaluateFails => intro h; cases h
  | @evaluate step s s' tr tic toc _ _ ih =>
    intro _
    rw [ih]
    by_cases h : step = p <;> simp [h]
  | evaluateFetchFails => intro h; cases h
  | bodyEnds => rfl
  | bodyGets h => exact h.elim

/-- There is one number of paths. -/
theorem paths_unique {graph : Graph} {p : Step} {l : List Step} {n m : Nat} (h : PathsAll graph p l n) (h' : PathsAll graph p l m) :
    n = m := by
  induction h generalizing m with
  | nil => cases h'; rfl
  | cons _ _ ih1 ih2 =>
    cases h' with
    | cons a b => rw [ih1 a, ih2 b]

/-- **C132**: the value of a step is fetched as many times as there are paths to it, whatever has been evaluated before. -/
theorem C132_exact {graph : Graph} {s s' : State} {tr : List Event} {step : Step}
    (h : Runs graph (fun _ _ => False) (.get step) s tr true s') (p : Step) : Paths graph step p (tr.count (.fetched p)) := by
  obtain ⟨n, hn, e⟩ := runs_fetches_exact h p rfl
  rw [e]
  exact .cons hn .nil

/-- **C132**: if evaluations call `get()`, then it is fetched at least as many times as there are paths. -/
theorem C132_least {graph : Graph} {calls : Step → Step → Prop} {s s' : State} {tr : List Event} {step : Step}
    (h : Runs graph calls (.get step) s tr true s') {p : Step} {n : Nat} (hn : Paths graph step p n) :
    n ≤ tr.count (.fetched p) := by
  obtain ⟨m, hm, e⟩ := runs_fetches h p rfl
  rw [paths_unique hn (.cons hm .nil)]
  exact e

/-- **C132** for steps to which there is one path.
Missing: the other ones, which are fetched once for each of the paths (`C132_exact`). -/
theorem C132_partial {graph : Graph} {s s' : State} {tr : List Event} {step p : Step}
    (h : Runs graph (fun _ _ => False) (.get step) s tr true s') (hp : Paths graph step p 1) :
    tr.count (.fetched p) = 1 := paths_unique (C132_exact h p) hp

/-- A chain of diamonds: the prerequisites of step `3 k + 3` are `3 k + 1` and `3 k + 2`, that of which is `3 k`. -/
def chain : Graph := fun (step : Nat) =>
  if step = 0 then [] else if step % 3 = 0 then [step - 2, step - 1] else [step / 3 * 3]

theorem chain_zero : chain 0 = [] := rfl

theorem chain_one (k : Nat) : chain (3 * k + 1) = [3 * k] := by
  have h0 : (3 * k + 1 : Nat) ≠ 0 := by omega
  have h1 : (3 * k + 1 : Nat) % 3 ≠ 0 := by omega
  unfold chain
  rw [if_neg h0, if_neg h1, show (3 * k + 1) / 3 * 3 = 3 * k by omega]

theorem chain_two (k : Nat) : chain (3 * k + 2) = [3 * k] := by
  have h0 : (3 * k + 2 : Nat) ≠ 0 := by omega
  have h1 : (3 * k + 2 : Nat) % 3 ≠ 0 := by omega
  unfold chain
  rw [if_neg h0, if_neg h1, show (3 * k + 2) / 3 * 3 = 3 * k by omega]

theorem chain_three (k : Nat) : chain (3 * (k + 1)) = [3 * k + 1, 3 * k + 2] := by
  have h0 : (3 * (k + 1) : Nat) ≠ 0 := by omega
  have h1 : (3 * (k + 1) : Nat) % 3 = 0 := by omega
  unfold chain
  rw [if_neg h0, if_pos h1, show 3 * (k + 1) - 2 = 3 * k + 1 by omega,
    show 3 * (k + 1) - 1 = 3 * k + 2 by omega]

/-- There are `2 ^ k` paths from step `3 k` to step 0. -/
theorem paths_chain (k : Nat) : Paths chain (3 * k) 0 (2 ^ k) := by
  induction k with
  | zero => exact .cons (n := 0) (m := 0) (by rw [chain_zero]; exact .nil) .nil
  | succ k ih =>
    have h1 : PathsAll chain 0 (chain (3 * k + 1)) (2 ^ k) := by rw [chain_one]; exact ih
    have h2 : PathsAll chain 0 (chain (3 * k + 2)) (2 ^ k) := by rw [chain_two]; exact ih
    have h3 : PathsAll chain 0 (chain (3 * (k + 1))) (2 ^ (k + 1)) := by
      rw [chain_three]
      have := PathsAll.cons (step := 3 * k + 1) h1 (.cons (step := 3 * k + 2) h2 .nil)
      have e1 : (3 * k + 1 : Nat) ≠ 0 := by omega
      have e2 : (3 * k + 2 : Nat) ≠ 0 := by omega
      rw [if_neg e1, if_neg e2] at this
      rw [show 2 ^ (k + 1) = 0 + 2 ^ k + (0 + 2 ^ k + 0) by omega]
      exact this
    have := PathsAll.cons (step := 3 * (k + 1)) h3 .nil
    have e3 : (3 * (k + 1) : Nat) ≠ 0 := by omega
    rw [if_neg e3] at this
    rw [show 2 ^ (k + 1) = 0 + 2 ^ (k + 1) + 0 by omega]
    exact this

/-- **C132**: the number of fetches is exponential in the number of steps, even if they have all been evaluated before: with
`3 k + 1` steps, the first one is fetched `2 ^ k` times. -/
theorem C132_exponential (k : Nat) {s s' : State} {tr : List Event}
    (h : Runs chain (fun _ _ => False) (.get (3 * k)) s tr true s') : tr.count (.fetched 0) = 2 ^ k :=
  paths_unique (C132_exact h 0) (paths_chain k)

/-- If all of the steps have been evaluated, they can be fetched. -/
theorem chain_runs {s : State} {n : Nat} (hs : ∀ step : Nat, step ≤ 3 * n → evaluated s step = true) (k : Nat) (hk : k ≤ n) :
    ∃ tr, Runs chain (fun _ _ => False) (.get (3 * k)) s tr true s := by
  induction k with
  | zero => exact ⟨_, .get (s' := s) (tr := []) (by rw [chain_zero]; exact .allNil) (.fetch (hs 0 (by omega)))⟩
  | succ k ih =>
    obtain ⟨tr, h⟩ := ih (by omega)
    have h0 := Runs.allCons h .allNil
    have a1 := h0
    rw [← chain_one] at a1
    have a2 := h0
    rw [← chain_two] at a2
    have h1 := Runs.get a1 (.fetch (hs (3 * k + 1) (by omega)))
    have h2 := Runs.get a2 (.fetch (hs (3 * k + 2) (by omega)))
    have h3 := Runs.allCons h1 (.allCons h2 .allNil)
    rw [← chain_three] at h3
    exact ⟨_, Runs.get h3 (.fetch (hs (3 * (k + 1)) (by omega)))⟩

/-- Non-vacuity of `C132_exponential`: for any length, there are such runs. -/
example (k : Nat) : ∃ s tr, Runs chain (fun _ _ => False) (.get (3 * k)) s tr true s := by
  refine ⟨(List.range (3 * k + 1)).map fun i => (i, 0), chain_runs (n := k) (fun step h => ?_) k le_rfl⟩
  unfold evaluated
  rw [Option.isSome_iff_ne_none]
  intro hc
  rw [List.lookup_eq_none_iff] at hc
  have hm : (step, (0 : ℚ)) ∈ (List.range (3 * k + 1)).map fun i => (i, (0 : ℚ)) :=
    List.mem_map.2 ⟨step, List.mem_range.2 (by omega), rfl⟩
  have := hc _ hm
  simp at this

/-- Non-vacuity of `C132_partial`: there is one path from step 3 to step 1. -/
example : Paths chain 3 1 1 := by
  have h0 : PathsAll chain 1 [0] 0 := .cons (step := 0) (n := 0) (m := 0) .nil .nil
  exact .cons (step := 3) (n := 1) (m := 0) (.cons (step := 1) (n := 0) (m := 0) h0 (.cons (step := 2) (n := 0) (m := 0) h0 .nil)) .nil

/-- **C132** does not hold: the common prerequisite of two prerequisites is fetched twice. -/
theorem C132_violated : ¬ C132_Statement := by
  intro h
  obtain ⟨tr, hr⟩ := chain_runs (n := 1) (s := [(0, 0), (1, 0), (2, 0), (3, 0)]) (fun step h => by
    match step, h with
    | 0, _ => rfl
    | 1, _ => rfl
    | 2, _ => rfl
    | 3, _ => rfl) 1 le_rfl
  have h1 := C132_exponential 1 hr
  have h2 := h _ _ _ _ _ 0 hr (.inr (.tail (.single (b := 1) (by simp [chain])) (by simp [chain])))
  rw [h1] at h2
  cases h2

end Litl.Pipeline
