import Verif.Props.Pipeline
import Mathlib.Tactic.Linarith

/-!
# The total time of pipelines and the elapsed time (C133)
-/

namespace Litl.Pipeline

namespace Spec

/-- `Clocked open t tr t'`: events `tr` take place between times `t` and `t'` of a clock which does not go backwards, and which
is read when evaluations start and end. The times of the starts of the evaluations which are going on are those of `open`. -/
inductive Clocked : List ℚ → ℚ → List Event → ℚ → Prop where
  | nil {l : List ℚ} {t t' : ℚ} : t ≤ t' → Clocked l t [] t'
  | start {l : List ℚ} {t tic t' : ℚ} {step : Step} {tr : List Event} : t ≤ tic → Clocked (tic :: l) tic tr t' →
      Clocked l t (.start step :: tr) t'
  | done {l : List ℚ} {t tic toc t' : ℚ} {step : Step} {tr : List Event} : t ≤ toc → Clocked l toc tr t' →
      Clocked (tic :: l) t (.done step tic toc :: tr) t'
  | failed {l : List ℚ} {t tic t' : ℚ} {step : Step} {tr : List Event} : Clocked l t tr t' →
      Clocked (tic :: l) t (.failed step :: tr) t'
  | fetched {l : List ℚ} {t t' : ℚ} {step : Step} {tr : List Event} : Clocked l t tr t' →
      Clocked l t (.fetched step :: tr) t'
  | reset {l : List ℚ} {t t' : ℚ} {tr : List Event} : Clocked l t tr t' → Clocked l t (.reset :: tr) t'

end Spec

open Spec

/-- C133: the total time is not more than the time since the construction of the pipeline, whatever the steps which evaluations
get, as long as there is no cycle. -/
def C133_Statement : Prop :=
  ∀ (graph : Graph) (calls : Step → Step → Prop), (∀ s p, p ∈ graph s ∨ calls s p → p < s) →
    ∀ tr s t t', History graph calls tr s → Clocked [] t tr t' → totalMilliseconds s ≤ t' - t

/-- Values are fetched, and nothing else. -/
def Quiet (tr : List Event) : Prop := ∀ e ∈ tr, ∃ p, e = .fetched p

theorem Quiet.append {tr tr' : List Event} (h : Quiet tr) (h' : Quiet tr') : Quiet (tr ++ tr') := by
  intro e he
  rcases List.mem_append.1 he with he | he
  · exact h e he
  · exact h' e he

/-- The step and its prerequisites have been evaluated. -/
def Ready (graph : Graph) (s : State) (step : Step) : Prop :=
  evaluated s step = true ∧ ∀ p, Upstream graph p step → evaluated s p = true

theorem Ready.upstream {graph : Graph} {s : State} {step p : Step} (h : Ready graph s step) (hp : Upstream graph p step) :
    Ready graph s p := ⟨h.2 p hp, fun q hq => h.2 q (hq.trans hp)⟩

/-- Nothing is evaluated if everything is. -/
theorem runs_quiet {graph : Graph} {calls : Step → Step → Prop} (hg : Sound graph calls) {c : Call} {s s' : State}
    {tr : List Event} {ok : Bool} (h : Runs graph calls c s tr ok s') :
    (match c with
    | .get step => Ready graph s step
    | .all steps => ∀ step ∈ steps, Ready graph s step
    | .evaluateGet step => Ready graph s step
    | .body step => ∀ p, Upstream graph p step → Ready graph s p) → s' = s ∧ Quiet tr := by
  induction h with
  | getFails _ ih => exact fun h => ih fun p hp => h.upstream (.single hp)
  | get _ _ ih1 ih2 =>
    intro h
    obtain ⟨rfl, q1⟩ := ih1 fun p hp => h.upstream (.single hp)
    obtain ⟨rfl, q2⟩ := ih2 h
    exact ⟨rfl, q1.append q2⟩
  | allNil => exact fun _ => ⟨rfl, by intro e he; cases he⟩
  | allFails _ ih => exact fun h => ih (h _ List.mem_cons_self)
  | allCons _ _ ih1 ih2 =>
    intro h
    obtain ⟨rfl, q1⟩ := ih1 (h _ List.mem_cons_self)
    obtain ⟨rfl, q2⟩ := ih2 fun p hp => h p (List.mem_cons_of_mem _ hp)
    exact ⟨rfl, q1.append q2⟩
  | fetch => exact fun _ => ⟨rfl, by intro e he; rw [List.mem_singleton.1 he]; exact ⟨_, rfl⟩⟩
  | fetchFails => exact fun _ => ⟨rfl, by intro e he; cases he⟩
  | evaluateFails hn => intro h; rw [h.1] at hn; cases hn
  | evaluate hn => intro h; rw [h.1] at hn; cases hn
  | evaluateFetchFails hn => intro h; rw [h.1] at hn; cases hn
  | bodyEnds => exact fun _ => ⟨rfl, by intro e he; cases he⟩
  | bodyGets hc _ _ ih1 ih2 =>
    intro h
    obtain ⟨rfl, q1⟩ := ih1 (h _ (hg.calls _ _ hc))
    obtain ⟨rfl, q2⟩ := ih2 h
    exact ⟨rfl, q1.append q2⟩

/-- Evaluations are not nested: only values are fetched between the start and the end of an evaluation. -/
inductive Flat : List Event → Prop where
  | nil : Flat []
  | fetched {step : Step} {tr : List Event} : Flat tr → Flat (.fetched step :: tr)
  | reset {tr : List Event} : Flat tr → Flat (.reset :: tr)
  | done {step : Step} {q tr : List Event} {tic toc : ℚ} : Quiet q → Flat tr →
      Flat (.start step :: (q ++ .done step tic toc :: tr))
  | failed {step : Step} {q tr : List Event} : Quiet q → Flat tr → Flat (.start step :: (q ++ .failed step :: tr))

theorem Flat.append {tr tr' : List Event} (h : Flat tr) (h' : Flat tr') : Flat (tr ++ tr') := by
  induction h with
  | nil => exact h'
  | fetched _ ih => exact .fetched ih
  | reset _ ih => exact .reset ih
  | done q _ ih => rw [List.cons_append, List.append_assoc]; exact .done q ih
  | failed q _ ih => rw [List.cons_append, List.append_assoc]; exact .failed q ih

theorem evaluated_after {s : State} {step p : Step} {v : ℚ} (h : evaluated s p = true ∨ p = step) :
    evaluated (assign step v s) p = true := by
  unfold evaluated at *
  rw [lookup_assign]
  split
  · rfl
  · rcases h with h | h
    · exact h
    · contradiction

theorem runs_flat {graph : Graph} {calls : Step → Step → Prop} (hg : Sound graph calls) {c : Call} {s s' : State}
    {tr : List Event} {ok : Bool} (h : Runs graph calls c s tr ok s') :
    (match c with
    | .evaluateGet step => ∀ p, Upstream graph p step → Ready graph s p
    | .body step => ∀ p, Upstream graph p step → Ready graph s p
    | _ => True) → Flat tr ∧ (∀ p, evaluated s p = true → evaluated s' p = true) ∧
    (ok = true → match c with
      | .get step => Ready graph s' step
      | .all steps => ∀ step ∈ steps, Ready graph s' step
      | .evaluateGet step => evaluated s' step = true
      | .body _ => True) := by
  induction h with
  | getFails _ ih =>
    intro _
    obtain ⟨h1, h2, _⟩ := ih trivial
    exact ⟨h1, h2, by simp⟩
  | @get step s s' s'' tr tr' ok _ _ ih1 ih2 =>
    intro _
    obtain ⟨h1, h2, h3⟩ := ih1 trivial
    have hup : ∀ p, Upstream graph p step → Ready graph s' p := by
      intro p hp
      rcases Relation.TransGen.tail'_iff.1 hp with ⟨q, hq, hqs⟩
      have hr := h3 rfl q hqs
      rcases Relation.reflTransGen_iff_eq_or_transGen.1 hq with e | hq
      · subst e; exact hr
      · exact hr.upstream hq
    obtain ⟨g1, g2, g3⟩ := ih2 hup
    exact ⟨h1.append g1, fun p hp => g2 p (h2 p hp), fun hok => ⟨g3 hok, fun p hp => g2 p (hup p hp).1⟩⟩
  | allNil => exact fun _ => ⟨.nil, fun _ h => h, fun _ p hp => by cases hp⟩
  | allFails _ ih =>
    intro _
    obtain ⟨h1, h2, _⟩ := ih trivial
    exact ⟨h1, h2, by simp⟩
  | allCons _ _ ih1 ih2 =>
    intro _
    obtain ⟨h1, h2, h3⟩ := ih1 trivial
    obtain ⟨g1, g2, g3⟩ := ih2 trivial
    refine ⟨h1.append g1, fun p hp => g2 p (h2 p hp), fun hok p hp => ?_⟩
    rcases List.mem_cons.1 hp with rfl | hp
    · exact ⟨g2 _ (h3 rfl).1, fun q hq => g2 _ ((h3 rfl).2 q hq)⟩
    · exact g3 hok p hp
  | fetch he => exact fun _ => ⟨.fetched .nil, fun _ h => h, fun _ => he⟩
  | fetchFails => exact fun _ => ⟨.nil, fun _ h => h, by simp⟩
  | evaluateFails _ hb _ =>
    intro h
    obtain ⟨rfl, q⟩ := runs_quiet hg hb h
    exact ⟨by rw [List.cons_append]; exact .failed q .nil, fun _ h => h, by simp⟩
  | evaluate _ hb _ =>
    intro h
    obtain ⟨rfl, q⟩ := runs_quiet hg hb h
    exact ⟨by rw [List.cons_append]; exact .done q (.fetched .nil), fun p hp => evaluated_after (.inl hp),
      fun _ => evaluated_after (.inr rfl)⟩
  | evaluateFetchFails _ hb _ =>
    intro h
    obtain ⟨rfl, q⟩ := runs_quiet hg hb h
    exact ⟨by rw [List.cons_append]; exact .done q .nil, fun p hp => evaluated_after (.inl hp), by simp⟩
  | @bodyEnds step s ok => exact fun _ => ⟨.nil, fun _ h => h, fun _ => trivial⟩
  | bodyGets _ _ _ ih1 ih2 =>
    intro h
    obtain ⟨h1, h2, _⟩ := ih1 trivial
    obtain ⟨g1, g2, _⟩ := ih2 fun p hp => ⟨h2 _ (h p hp).1, fun q hq => h2 _ ((h p hp).2 q hq)⟩
    exact ⟨h1.append g1, fun p hp => g2 p (h2 p hp), fun _ => trivial⟩

theorem history_flat {graph : Graph} {calls : Step → Step → Prop} (hg : Sound graph calls) {tr : List Event} {s : State}
    (h : History graph calls tr s) : Flat tr := by
  induction h with
  | new => exact .nil
  | get _ hr ih => exact ih.append (runs_flat hg hr trivial).1
  | reset _ ih => exact ih.append (.reset .nil)

theorem clocked_le {l : List ℚ} {t t' : ℚ} {tr : List Event} (h : Clocked l t tr t') : t ≤ t' := by
  induction h with
  | nil h => exact h
  | start h _ ih => exact h.trans ih
  | done h _ ih => exact h.trans ih
  | failed _ ih => exact ih
  | fetched _ ih => exact ih
  | reset _ ih => exact ih

theorem clocked_quiet {l : List ℚ} {t t' : ℚ} {q tr : List Event} (hq : Quiet q) (h : Clocked l t (q ++ tr) t') :
    Clocked l t tr t' := by
  induction q with
  | nil => exact h
  | cons e q ih =>
    obtain ⟨p, rfl⟩ := hq e List.mem_cons_self
    cases h with
    | fetched h => exact ih (fun e he => hq e (List.mem_cons_of_mem _ he)) h

/-- The fold of `timeSince`. -/
def add (sum : ℚ) (e : Event) : ℚ :=
  match e with
  | .reset => 0
  | .done _ tic toc => sum + (toc - tic)
  | _ => sum

theorem foldl_quiet {q : List Event} (hq : Quiet q) (x : ℚ) : q.foldl add x = x := by
  induction q with
  | nil => rfl
  | cons e q ih =>
    obtain ⟨p, rfl⟩ := hq e List.mem_cons_self
    exact ih fun e he => hq e (List.mem_cons_of_mem _ he)

theorem flat_time {tr : List Event} (hf : Flat tr) {l : List ℚ} {t t' : ℚ} (h : Clocked l t tr t') {x : ℚ} (hx : 0 ≤ x) :
    tr.foldl add x ≤ x + (t' - t) := by
  induction hf generalizing l t x with
  | nil => have := clocked_le h; simp only [List.foldl_nil]; linarith
  | fetched _ ih =>
    cases h with
    | fetched h => exact ih h hx
  | reset _ ih =>
    cases h with
    | reset h => have := ih h (le_refl 0); simp only [List.foldl_cons, add]; linarith
  | @done step _ _ tic toc q _ ih =>
    cases h with
    | start h0 h =>
      cases clocked_quiet q h with
      | done h1 h2 =>
        rw [List.foldl_cons, List.foldl_append, foldl_quiet q, List.foldl_cons]
        have := ih h2 (x := add (add x (.start step)) (.done step tic toc)) (by simp only [add]; linarith)
        refine this.trans ?_
        simp only [add]
        linarith
  | failed q _ ih =>
    cases h with
    | start h0 h =>
      cases clocked_quiet q h with
      | failed h2 =>
        rw [List.foldl_cons, List.foldl_append, foldl_quiet q, List.foldl_cons]
        have := ih h2 (x := x) hx
        simp only [add]
        linarith

/-- **C133** if evaluations only get the values of prerequisites.
Missing: evaluations which get the values of other steps, whose times are counted twice (`C133_nested`). -/
theorem C133_partial {graph : Graph} {calls : Step → Step → Prop} (hg : Sound graph calls) {tr : List Event} {s : State}
    {t t' : ℚ} (h : History graph calls tr s) (hc : Clocked [] t tr t') : totalMilliseconds s ≤ t' - t := by
  rw [C55_total hg h]
  have := flat_time (history_flat hg h) hc (le_refl 0)
  rw [zero_add] at this
  exact this

/-- Non-vacuity: the first step of the diamond of C54 is evaluated between times 1 and 3. -/
example : Sound diamond (fun s p => p ∈ diamond s) ∧
    History diamond (fun s p => p ∈ diamond s) [.start 0, .done 0 1 3, .fetched 0] (assign 0 (3 - 1) []) ∧
    Clocked [] 0 [.start 0, .done 0 1 3, .fetched 0] 4 :=
  ⟨diamond_sound, .get .new (.get (tr := []) .allNil (.evaluate (tr := []) rfl (.bodyEnds true))),
    .start (by norm_num) (.done (by norm_num) (.fetched (.nil (by norm_num))))⟩

/-- The evaluation of step `n + 1` gets step `n`, for which it waits. -/
def nested : Step → Step → Prop := fun s p => s = p + 1

/-- The state after the evaluation of `n` nested steps, the innermost of which takes `d`. -/
def times (n : Nat) (d : ℚ) : State := (List.range n).map fun i => (i, d)

theorem assign_times (n : Nat) (d v : ℚ) : assign n v (times n d) = times n d ++ [(n, v)] := by
  have key : ∀ l : State, (∀ x ∈ l, x.1 < n) → assign n v l = l ++ [(n, v)] := by
    intro l
    induction l with
    | nil => intro _; rfl
    | cons x l ih =>
      intro h
      have hx := h x List.mem_cons_self
      obtain ⟨k, w⟩ := x
      unfold assign
      rw [if_neg (Nat.lt_asymm hx), if_neg (Nat.ne_of_gt hx), ih fun y hy => h y (List.mem_cons_of_mem _ hy)]
      rfl
  refine key _ fun x hx => ?_
  obtain ⟨i, hi, rfl⟩ := List.mem_map.1 hx
  exact List.mem_range.1 hi

theorem times_succ (n : Nat) (d : ℚ) : times (n + 1) d = times n d ++ [(n, d)] := by
  simp [times, List.range_succ]

theorem evaluated_times (n : Nat) (d : ℚ) : evaluated (times n d) n = false := by
  unfold evaluated
  rw [Option.isSome_eq_false_iff, Option.isNone_iff_eq_none, List.lookup_eq_none_iff]
  intro x hx
  obtain ⟨i, hi, rfl⟩ := List.mem_map.1 hx
  have := List.mem_range.1 hi
  simp only [ne_eq, bne_iff_ne]
  intro h
  subst h
  exact absurd this (lt_irrefl _)

/-- **C133**: with nested evaluations, the total time may be any multiple of the elapsed time. -/
theorem C133_nested (n : Nat) (d : ℚ) (hd : 0 ≤ d) : ∃ tr s, History (fun _ => []) nested tr s ∧ Clocked [] 0 tr d ∧
    totalMilliseconds s = (n + 1) * d := by
  have key : ∀ n : Nat, ∃ tr, Runs (fun _ => []) nested (.get n) [] tr true (times (n + 1) d) ∧
      ∀ (l : List ℚ) (tr' : List Event), Clocked l d tr' d → Clocked l 0 (tr ++ tr') d := by
    intro n
    induction n with
    | zero =>
      have h := Runs.get (graph := fun _ => []) (calls := nested) (step := 0) .allNil
        (.evaluate (s := []) (tic := 0) (toc := d) rfl (.bodyEnds true))
      refine ⟨_, by simpa [assign, times] using h, fun l tr' hc => ?_⟩
      exact .start (le_refl 0) (.done hd (.fetched hc))
    | succ n ih =>
      obtain ⟨tr, h1, h2⟩ := ih
      have h := Runs.get (graph := fun _ => []) (calls := nested) (step := n + 1) .allNil
        (.evaluate (s := []) (tic := 0) (toc := d) rfl (.bodyGets rfl h1 (.bodyEnds true)))
      rw [sub_zero, assign_times, ← times_succ] at h
      refine ⟨_, h, fun l tr' hc => ?_⟩
      simp only [List.nil_append, List.append_nil, List.cons_append, List.append_assoc]
      exact .start (le_refl 0) (h2 _ _ (.done (le_refl d) (.fetched hc)))
  obtain ⟨tr, h1, h2⟩ := key n
  refine ⟨tr, _, History.get .new h1, ?_, ?_⟩
  · have := h2 [] [] (.nil (le_refl d))
    simpa using this
  · have hsum : ∀ (k : Nat) , totalMilliseconds (times k d) = k * d := by
      intro k
      induction k with
      | zero => simp [times, totalMilliseconds]
      | succ k ih =>
        unfold totalMilliseconds at *
        rw [times_succ, List.foldl_append, ih]
        push_cast
        simp only [List.foldl_cons, List.foldl_nil]
        ring
    rw [hsum]
    push_cast
    rfl

/-- **C133** does not hold. -/
theorem C133_violated : ¬ C133_Statement := by
  intro h
  obtain ⟨tr, s, h1, h2, h3⟩ := C133_nested 1 1 (by norm_num)
  have := h _ _ (by
    rintro s p (hp | hp)
    · cases hp
    · rw [show s = p + 1 from hp]; exact Nat.lt_succ_self p) _ _ _ _ h1 h2
  rw [h3] at this
  norm_num at this

end Litl.Pipeline
