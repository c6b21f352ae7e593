import Verif.Model.Pipeline
import Mathlib.Logic.Relation
import Mathlib.Tactic.Linarith
import Mathlib.Tactic.Ring

/-!
# Properties of pipelines
-/

namespace Litl.Pipeline

/-! ## Specification -/

/-- `p` is a direct or indirect prerequisite of `s`. -/
def Upstream (graph : Graph) (p s : Step) : Prop := Relation.TransGen (fun p s => p ∈ graph s) p s

/-- The graph has no cycle, and `doEvaluate<S>()` does not get other values than that of prerequisites of `S`. -/
structure Sound (graph : Graph) (calls : Step → Step → Prop) : Prop where
  acyclic : ∀ s, ¬ Upstream graph s s
  calls : ∀ s p, calls s p → Upstream graph p s

/-- The step has been evaluated since the last reset. -/
def DoneSince (tr : List Event) (s : Step) : Prop :=
  ∃ a b tic toc, tr = a ++ .done s tic toc :: b ∧ .reset ∉ b

/-- The total time of the evaluations since the last reset. -/
def timeSince (tr : List Event) : ℚ :=
  tr.foldl (fun sum e => match e with
    | .reset => 0
    | .done _ tic toc => sum + (toc - tic)
    | _ => sum) 0

/-! ## Lemmas -/

theorem doneSince_append {tr tr' : List Event} {s : Step} (h : .reset ∉ tr') :
    DoneSince (tr ++ tr') s ↔ DoneSince tr s ∨ ∃ tic toc, .done s tic toc ∈ tr' := by
  constructor
  · rintro ⟨a, b, tic, toc, e, hb⟩
    rcases List.append_eq_append_iff.1 e with ⟨c, rfl, e'⟩ | ⟨c, rfl, e'⟩
    · right; rw [e']; exact ⟨tic, toc, by simp⟩
    · cases c with
      | nil =>
        right; simp only [List.nil_append] at e'
        rw [← e']; exact ⟨tic, toc, by simp⟩
      | cons x c =>
        simp only [List.cons_append, List.cons.injEq] at e'
        obtain ⟨rfl, rfl⟩ := e'
        left
        exact ⟨a, c, tic, toc, rfl, fun hc => hb (by simp [hc])⟩
  · rintro (⟨a, b, tic, toc, rfl, hb⟩ | ⟨tic, toc, hm⟩)
    · exact ⟨a, b ++ tr', tic, toc, by simp, by simp [hb, h]⟩
    · obtain ⟨a, b, rfl⟩ := List.append_of_mem hm
      exact ⟨tr ++ a, b, tic, toc, by simp, fun hb => h (by simp [hb])⟩

theorem doneSince_reset {tr : List Event} {s : Step} : ¬ DoneSince (tr ++ [.reset]) s := by
  rintro ⟨a, b, tic, toc, e, hb⟩
  rcases List.eq_nil_or_concat b with rfl | ⟨b', x, rfl⟩
  · have := (List.append_inj' e rfl).2
    simp at this
  · rw [List.concat_eq_append, ← List.cons_append, ← List.append_assoc] at e
    have := (List.append_inj' e rfl).2
    simp only [List.cons.injEq, and_true] at this
    subst this
    exact hb (by simp)

/-- What must hold before each event. -/
def Good (graph : Graph) (a : List Event) : Event → Prop
  | .start s => ¬ DoneSince a s ∧ ∀ p, Upstream graph p s → DoneSince a p
  | .done s _ _ => ¬ DoneSince a s ∧ ∀ p, Upstream graph p s → DoneSince a p
  | .failed s => ¬ DoneSince a s
  | .fetched s => DoneSince a s
  | .reset => True

/-- What must hold before each event of a trace. -/
def AllGood (graph : Graph) (tr : List Event) : Prop := ∀ a e c, tr = a ++ e :: c → Good graph a e

theorem allGood_snoc {graph : Graph} {tr : List Event} {e : Event} (h : AllGood graph tr) (he : Good graph tr e) :
    AllGood graph (tr ++ [e]) := by
  intro a x c hc
  rcases List.eq_nil_or_concat c with rfl | ⟨c', y, rfl⟩
  · have := List.append_inj' hc rfl
    simp only [List.cons.injEq, and_true] at this
    rw [← this.1, ← this.2]; exact he
  · rw [List.concat_eq_append, ← List.cons_append, ← List.append_assoc] at hc
    exact h a x c' (List.append_inj' hc rfl).1

/-- The map tells which steps have been evaluated. -/
def Agree (tr : List Event) (s : State) : Prop := ∀ step, evaluated s step = true ↔ DoneSince tr step

theorem lookup_assign (key : Step) (v : ℚ) : ∀ (s : State) (i : Step),
    (assign key v s).lookup i = if i = key then some v else s.lookup i := by
  intro s
  induction s with
  | nil =>
    intro i
    by_cases h : i = key
    · subst h; simp [assign]
    · simp [assign, List.lookup_cons, beq_eq_false_iff_ne.2 h, h]
  | cons e s ih =>
    intro i
    obtain ⟨k, w⟩ := e
    unfold assign
    by_cases h1 : key < k
    · rw [if_pos h1]
      by_cases h : i = key
      · subst h; simp
      · rw [List.lookup_cons, beq_eq_false_iff_ne.2 h, if_neg h]
    · rw [if_neg h1]
      by_cases h2 : key = k
      · subst h2
        rw [if_pos rfl]
        by_cases h : i = key
        · subst h; simp
        · rw [List.lookup_cons, List.lookup_cons, beq_eq_false_iff_ne.2 h, if_neg h]
      · rw [if_neg h2, List.lookup_cons, List.lookup_cons, ih]
        by_cases h : i = key
        · subst h; rw [beq_eq_false_iff_ne.2 h2]
        · simp [h]

theorem evaluated_assign (key : Step) (v : ℚ) (s : State) (i : Step) :
    evaluated (assign key v s) i = true ↔ i = key ∨ evaluated s i = true := by
  unfold evaluated
  rw [lookup_assign]
  by_cases h : i = key <;> simp [h]

theorem foldl_sum (s : State) (x : ℚ) : s.foldl (fun sum e => sum + e.2) x = x + (s.map Prod.snd).sum := by
  induction s generalizing x with
  | nil => simp
  | cons e s ih => simp only [List.foldl_cons, List.map_cons, List.sum_cons]; rw [ih]; ring

theorem total_assign {key : Step} {v : ℚ} : ∀ {s : State}, evaluated s key = false →
    totalMilliseconds (assign key v s) = totalMilliseconds s + v := by
  intro s h
  simp only [totalMilliseconds, foldl_sum, zero_add]
  induction s with
  | nil => simp [assign]
  | cons e s ih =>
    obtain ⟨k, w⟩ := e
    have hk : key ≠ k := by
      rintro rfl; simp [evaluated] at h
    have hs : evaluated s key = false := by
      simpa [evaluated, List.lookup_cons, beq_eq_false_iff_ne.2 hk] using h
    unfold assign
    by_cases h1 : key < k
    · rw [if_pos h1]; simp; ring
    · rw [if_neg h1, if_neg hk, List.map_cons, List.sum_cons, ih hs]; simp; ring

/-! ### Runs -/

/-- The steps which a call may evaluate. -/
def Scope (graph : Graph) : Call → Step → Prop
  | .get s, p => p = s ∨ Upstream graph p s
  | .all l, p => ∃ s ∈ l, p = s ∨ Upstream graph p s
  | .evaluateGet s, p => p = s
  | .body s, p => Upstream graph p s

/-- What must hold before a call. -/
def Pre (graph : Graph) : Call → List Event → Prop
  | .get _, _ => True
  | .all _, _ => True
  | .evaluateGet s, tr => ∀ p, Upstream graph p s → DoneSince tr p
  | .body s, tr => ∀ p, Upstream graph p s → DoneSince tr p

/-- What holds after a call which has returned. -/
def Post (graph : Graph) : Call → List Event → Prop
  | .get s, tr => DoneSince tr s ∧ ∀ p, Upstream graph p s → DoneSince tr p
  | .all l, tr => ∀ s ∈ l, DoneSince tr s ∧ ∀ p, Upstream graph p s → DoneSince tr p
  | .evaluateGet s, tr => DoneSince tr s
  | .body _, _ => True

/-- The time spent evaluating in a trace without reset. -/
def spent (tr : List Event) : ℚ := (tr.map fun e => match e with
    | .done _ tic toc => toc - tic
    | _ => 0).sum

theorem runs_inv {graph : Graph} {calls : Step → Step → Prop} (hg : Sound graph calls) {c : Call} {s s' : State}
    {tr : List Event} {ok : Bool} (h : Runs graph calls c s tr ok s') :
    ∀ P, Agree P s → AllGood graph P → Pre graph c P →
      .reset ∉ tr ∧ (∀ step tic toc, .done step tic toc ∈ tr → Scope graph c step) ∧
      Agree (P ++ tr) s' ∧ AllGood graph (P ++ tr) ∧ (ok = true → Post graph c (P ++ tr)) ∧
      totalMilliseconds s' = totalMilliseconds s + spent tr := by
  induction h with
  | getFails h ih =>
    intro P h1 h2 h3
    obtain ⟨a1, a2, a3, a4, a5, a6⟩ := ih P h1 h2 trivial
    refine ⟨a1, ?_, a3, a4, by simp, a6⟩
    intro step tic toc hm
    obtain ⟨x, hx, hs | hs⟩ := a2 _ _ _ hm
    · subst hs; right; exact .single hx
    · right; exact hs.tail hx
  | get h h' ih ih' =>
    rename_i step s s' s'' tr tr' ok
    intro P h1 h2 h3
    obtain ⟨a1, a2, a3, a4, a5, a6⟩ := ih P h1 h2 trivial
    have hup : ∀ p, Upstream graph p step → DoneSince (P ++ tr) p := by
      intro p hp
      rcases Relation.TransGen.tail'_iff.1 hp with ⟨q, hq, hqs⟩
      have := a5 rfl q hqs
      rcases Relation.reflTransGen_iff_eq_or_transGen.1 hq with e | hq
      · subst e; exact this.1
      · exact this.2 p hq
    obtain ⟨b1, b2, b3, b4, b5, b6⟩ := ih' (P ++ tr) a3 a4 hup
    rw [List.append_assoc] at b3 b4 b5
    refine ⟨by simp [a1, b1], ?_, b3, b4, ?_, by rw [b6, a6]; simp [spent]; ring⟩
    · intro x tic toc hm
      rcases List.mem_append.1 hm with hm | hm
      · obtain ⟨y, hy, hs | hs⟩ := a2 _ _ _ hm
        · subst hs; right; exact .single hy
        · right; exact hs.tail hy
      · left; exact b2 _ _ _ hm
    · intro hok
      refine ⟨b5 hok, fun p hp => ?_⟩
      rw [← List.append_assoc]
      exact (doneSince_append b1).2 (.inl (hup p hp))
  | allNil =>
    intro P h1 h2 h3
    simp only [List.append_nil]
    exact ⟨by simp, by simp, h1, h2, by simp [Post], by simp [spent]⟩
  | allFails h ih =>
    intro P h1 h2 h3
    obtain ⟨a1, a2, a3, a4, a5, a6⟩ := ih P h1 h2 trivial
    exact ⟨a1, fun _ _ _ hm => ⟨_, by simp, a2 _ _ _ hm⟩, a3, a4, by simp, a6⟩
  | allCons h h' ih ih' =>
    rename_i step steps s s' s'' tr tr' ok
    intro P h1 h2 h3
    obtain ⟨a1, a2, a3, a4, a5, a6⟩ := ih P h1 h2 trivial
    obtain ⟨b1, b2, b3, b4, b5, b6⟩ := ih' (P ++ tr) a3 a4 trivial
    rw [List.append_assoc] at b3 b4 b5
    refine ⟨by simp [a1, b1], ?_, b3, b4, ?_, by rw [b6, a6]; simp [spent]; ring⟩
    · intro x tic toc hm
      rcases List.mem_append.1 hm with hm | hm
      · exact ⟨_, by simp, a2 _ _ _ hm⟩
      · obtain ⟨y, hy, hs⟩ := b2 _ _ _ hm
        exact ⟨y, by simp [hy], hs⟩
    · intro hok x hx
      rcases List.mem_cons.1 hx with rfl | hx
      · have := a5 rfl
        rw [← List.append_assoc]
        exact ⟨(doneSince_append b1).2 (.inl this.1), fun p hp => (doneSince_append b1).2 (.inl (this.2 p hp))⟩
      · exact b5 hok x hx
  | fetch he =>
    intro P h1 h2 h3
    have hd := (h1 _).1 he
    refine ⟨by simp, by simp, ?_, allGood_snoc h2 hd, fun _ => ?_, by simp [spent]⟩
    · intro x; rw [h1, doneSince_append (by simp)]; simp
    · exact (doneSince_append (by simp)).2 (.inl hd)
  | fetchFails he =>
    intro P h1 h2 h3
    simp only [List.append_nil]
    exact ⟨by simp, by simp, h1, h2, by simp, by simp [spent]⟩
  | evaluateFails he h ih =>
    rename_i step s s' tr
    intro P h1 h2 h3
    have hnd : ¬ DoneSince P step := by rw [← h1]; simp [he]
    have hag : Agree (P ++ [.start step]) s := by intro x; rw [h1, doneSince_append (by simp)]; simp
    have hgo : AllGood graph (P ++ [.start step]) := allGood_snoc h2 ⟨hnd, h3⟩
    obtain ⟨a1, a2, a3, a4, a5, a6⟩ := ih (P ++ [.start step]) hag hgo
      (fun p hp => (doneSince_append (by simp)).2 (.inl (h3 p hp)))
    have hnd' : ¬ DoneSince (P ++ [.start step] ++ tr) step := by
      rw [doneSince_append a1, doneSince_append (by simp)]
      rintro ((hh | ⟨_, _, hh⟩) | ⟨_, _, hh⟩)
      · exact hnd hh
      · simp at hh
      · exact hg.acyclic _ (a2 _ _ _ hh)
    have e : P ++ (.start step :: tr ++ [.failed step]) = P ++ [.start step] ++ tr ++ [.failed step] := by simp
    rw [e]
    refine ⟨by simp [a1], ?_, ?_, allGood_snoc a4 hnd', by simp, ?_⟩
    · intro x tic toc hm
      simp at hm
      exact absurd (h3 x (a2 _ _ _ hm)) (fun hd => by
        have hb := ((h1 x).2 hd)
        have hs := a4
        obtain ⟨u, w, hw⟩ := List.append_of_mem hm
        have := hs (P ++ [.start step] ++ u) (.done x tic toc) w (by rw [hw]; simp)
        refine this.1 ?_
        rw [doneSince_append, doneSince_append (by simp)]
        · exact .inl (.inl hd)
        · intro hu; exact a1 (by rw [hw]; simp [hu]))
    · intro x; rw [a3, doneSince_append (tr' := [.failed step]) (by simp)]; simp
    · rw [a6]; simp [spent]
  | evaluate he h ih =>
    rename_i step s s' tr tic toc
    intro P h1 h2 h3
    have hnd : ¬ DoneSince P step := by rw [← h1]; simp [he]
    have hag : Agree (P ++ [.start step]) s := by intro x; rw [h1, doneSince_append (by simp)]; simp
    have hgo : AllGood graph (P ++ [.start step]) := allGood_snoc h2 ⟨hnd, h3⟩
    obtain ⟨a1, a2, a3, a4, a5, a6⟩ := ih (P ++ [.start step]) hag hgo
      (fun p hp => (doneSince_append (by simp)).2 (.inl (h3 p hp)))
    have hnd' : ¬ DoneSince (P ++ [.start step] ++ tr) step := by
      rw [doneSince_append a1, doneSince_append (by simp)]
      rintro ((hh | ⟨_, _, hh⟩) | ⟨_, _, hh⟩)
      · exact hnd hh
      · simp at hh
      · exact hg.acyclic _ (a2 _ _ _ hh)
    have hup : ∀ p, Upstream graph p step → DoneSince (P ++ [.start step] ++ tr) p := fun p hp =>
      (doneSince_append a1).2 (.inl ((doneSince_append (by simp)).2 (.inl (h3 p hp))))
    have e : P ++ (.start step :: tr ++ [.done step tic toc, .fetched step]) =
        P ++ [.start step] ++ tr ++ [.done step tic toc] ++ [.fetched step] := by simp
    have hd : DoneSince (P ++ [.start step] ++ tr ++ [.done step tic toc]) step :=
      (doneSince_append (by simp)).2 (.inr ⟨tic, toc, by simp⟩)
    rw [e]
    refine ⟨by simp [a1], ?_, ?_, allGood_snoc (allGood_snoc a4 ⟨hnd', hup⟩) hd, fun _ => ?_, ?_⟩
    · intro x t t' hm
      simp at hm
      rcases hm with hm | hm
      · exact absurd (h3 x (a2 _ _ _ hm)) (fun hd => by
          obtain ⟨u, w, hw⟩ := List.append_of_mem hm
          have := a4 (P ++ [.start step] ++ u) (.done x t t') w (by rw [hw]; simp)
          refine this.1 ?_
          rw [doneSince_append, doneSince_append (by simp)]
          · exact .inl (.inl hd)
          · intro hu; exact a1 (by rw [hw]; simp [hu]))
      · exact hm.1
    · intro x
      rw [evaluated_assign, a3, doneSince_append (tr' := [.fetched step]) (by simp),
        doneSince_append (tr' := [.done step tic toc]) (by simp)]
      constructor
      · rintro (rfl | hh)
        · exact .inl (.inr ⟨tic, toc, by simp⟩)
        · exact .inl (.inl hh)
      · rintro ((hh | ⟨_, _, hh⟩) | ⟨_, _, hh⟩)
        · exact .inr hh
        · simp at hh; exact .inl hh.1
        · simp at hh
    · exact (doneSince_append (by simp)).2 (.inl hd)
    · rw [total_assign, a6]
      · simp [spent]; ring
      · rw [← Bool.not_eq_true, a3]; exact hnd'
  | evaluateFetchFails he h ih =>
    rename_i step s s' tr tic toc
    intro P h1 h2 h3
    have hnd : ¬ DoneSince P step := by rw [← h1]; simp [he]
    have hag : Agree (P ++ [.start step]) s := by intro x; rw [h1, doneSince_append (by simp)]; simp
    have hgo : AllGood graph (P ++ [.start step]) := allGood_snoc h2 ⟨hnd, h3⟩
    obtain ⟨a1, a2, a3, a4, a5, a6⟩ := ih (P ++ [.start step]) hag hgo
      (fun p hp => (doneSince_append (by simp)).2 (.inl (h3 p hp)))
    have hnd' : ¬ DoneSince (P ++ [.start step] ++ tr) step := by
      rw [doneSince_append a1, doneSince_append (by simp)]
      rintro ((hh | ⟨_, _, hh⟩) | ⟨_, _, hh⟩)
      · exact hnd hh
      · simp at hh
      · exact hg.acyclic _ (a2 _ _ _ hh)
    have hup : ∀ p, Upstream graph p step → DoneSince (P ++ [.start step] ++ tr) p := fun p hp =>
      (doneSince_append a1).2 (.inl ((doneSince_append (by simp)).2 (.inl (h3 p hp))))
    have e : P ++ (.start step :: tr ++ [.done step tic toc]) =
        P ++ [.start step] ++ tr ++ [.done step tic toc] := by simp
    rw [e]
    refine ⟨by simp [a1], ?_, ?_, allGood_snoc a4 ⟨hnd', hup⟩, by simp, ?_⟩
    · intro x t t' hm
      simp at hm
      rcases hm with hm | hm
      · exact absurd (h3 x (a2 _ _ _ hm)) (fun hd => by
          obtain ⟨u, w, hw⟩ := List.append_of_mem hm
          have := a4 (P ++ [.start step] ++ u) (.done x t t') w (by rw [hw]; simp)
          refine this.1 ?_
          rw [doneSince_append, doneSince_append (by simp)]
          · exact .inl (.inl hd)
          · intro hu; exact a1 (by rw [hw]; simp [hu]))
      · exact hm.1
    · intro x
      rw [evaluated_assign, a3, doneSince_append (tr' := [.done step tic toc]) (by simp)]
      constructor
      · rintro (rfl | hh)
        · exact .inr ⟨tic, toc, by simp⟩
        · exact .inl hh
      · rintro (hh | ⟨_, _, hh⟩)
        · exact .inr hh
        · simp at hh; exact .inl hh.1
    · rw [total_assign, a6]
      · simp [spent]; ring
      · rw [← Bool.not_eq_true, a3]; exact hnd'
  | bodyEnds ok =>
    intro P h1 h2 h3
    simp only [List.append_nil]
    exact ⟨by simp, by simp, h1, h2, by simp [Post], by simp [spent]⟩
  | bodyGets hc h h' ih ih' =>
    rename_i step other s s' s'' tr tr' ok ok'
    intro P h1 h2 h3
    obtain ⟨a1, a2, a3, a4, a5, a6⟩ := ih P h1 h2 trivial
    obtain ⟨b1, b2, b3, b4, b5, b6⟩ := ih' (P ++ tr) a3 a4
      (fun p hp => (doneSince_append a1).2 (.inl (h3 p hp)))
    rw [List.append_assoc] at b3 b4 b5
    refine ⟨by simp [a1, b1], ?_, b3, b4, b5, by rw [b6, a6]; simp [spent]; ring⟩
    intro x tic toc hm
    rcases List.mem_append.1 hm with hm | hm
    · rcases a2 _ _ _ hm with rfl | hs
      · exact hg.calls _ _ hc
      · exact hs.trans (hg.calls _ _ hc)
    · exact b2 _ _ _ hm

theorem foldl_timeSince (tr : List Event) (x : ℚ) (h : .reset ∉ tr) :
    tr.foldl (fun sum e => match e with
      | .reset => 0
      | .done _ tic toc => sum + (toc - tic)
      | _ => sum) x = x + spent tr := by
  induction tr generalizing x with
  | nil => simp [spent]
  | cons e tr ih =>
    rw [List.foldl_cons, ih _ (fun hm => h (by simp [hm]))]
    cases e with
    | reset => simp at h
    | done s a b => simp [spent]; ring
    | start s => simp [spent]
    | failed s => simp [spent]
    | fetched s => simp [spent]

theorem history_inv {graph : Graph} {calls : Step → Step → Prop} (hg : Sound graph calls) {tr : List Event}
    {s : State} (h : History graph calls tr s) :
    Agree tr s ∧ AllGood graph tr ∧ totalMilliseconds s = timeSince tr := by
  induction h with
  | new =>
    refine ⟨fun x => ?_, fun a e c he => ?_, rfl⟩
    · simp only [evaluated, List.lookup_nil, Option.isSome_none, Bool.false_eq_true, false_iff]
      rintro ⟨a, b, _, _, e, _⟩; simp at e
    · simp at he
  | get h hr ih =>
    obtain ⟨h1, h2, h3⟩ := ih
    obtain ⟨a1, _, a3, a4, _, a6⟩ := runs_inv hg hr _ h1 h2 trivial
    refine ⟨a3, a4, ?_⟩
    rw [a6, h3, timeSince, timeSince, List.foldl_append, foldl_timeSince _ _ a1]
  | reset h ih =>
    obtain ⟨h1, h2, h3⟩ := ih
    refine ⟨fun x => ?_, allGood_snoc h2 trivial, by simp [timeSince, reset, totalMilliseconds]⟩
    have := doneSince_reset (tr := ‹List Event›) (s := x)
    simp [evaluated, reset, this]

/-! ## C54 -/

/-- **C54**: a step which has been evaluated is not evaluated again before a reset. -/
theorem C54_not_reevaluated {graph : Graph} {calls : Step → Step → Prop} (hg : Sound graph calls) {tr : List Event}
    {s : State} (h : History graph calls tr s) {step : Step} {tic toc : ℚ} {a b c : List Event}
    (e : tr = a ++ .done step tic toc :: b ++ .start step :: c) : .reset ∈ b := by
  by_contra hb
  exact ((history_inv hg h).2.1 _ _ _ e).1 ⟨a, b, tic, toc, rfl, hb⟩

/-- **C54**: a step is evaluated at most once between resets. -/
theorem C54_at_most_once {graph : Graph} {calls : Step → Step → Prop} (hg : Sound graph calls) {tr : List Event}
    {s : State} (h : History graph calls tr s) {step : Step} {tic toc tic' toc' : ℚ} {a b c : List Event}
    (e : tr = a ++ .done step tic toc :: b ++ .done step tic' toc' :: c) : .reset ∈ b := by
  by_contra hb
  exact ((history_inv hg h).2.1 _ _ _ e).1 ⟨a, b, tic, toc, rfl, hb⟩

/-- **C54**: when the evaluation of a step starts, all of its direct and indirect prerequisites have been evaluated, since
the last reset. -/
theorem C54_after_prerequisites {graph : Graph} {calls : Step → Step → Prop} (hg : Sound graph calls)
    {tr : List Event} {s : State} (h : History graph calls tr s) {step p : Step} {a c : List Event}
    (e : tr = a ++ .start step :: c) (hp : Upstream graph p step) : DoneSince a p :=
  ((history_inv hg h).2.1 _ _ _ e).2 p hp

/-- **C54**: when `get<S>()` returns, the step and its prerequisites have been evaluated since the last reset. -/
theorem C54_get {graph : Graph} {calls : Step → Step → Prop} (hg : Sound graph calls) {tr tr' : List Event}
    {s s' : State} (h : History graph calls tr s) {step p : Step} (hr : Runs graph calls (.get step) s tr' true s')
    (hp : p = step ∨ Upstream graph p step) : DoneSince (tr ++ tr') p := by
  obtain ⟨h1, h2, _⟩ := history_inv hg h
  have := (runs_inv hg hr _ h1 h2 trivial).2.2.2.2.1 rfl
  rcases hp with rfl | hp
  · exact this.1
  · exact this.2 p hp

/-- **C54**: values are fetched only once the step has been evaluated. -/
theorem C54_fetch {graph : Graph} {calls : Step → Step → Prop} (hg : Sound graph calls) {tr : List Event}
    {s : State} (h : History graph calls tr s) {step : Step} {a c : List Event}
    (e : tr = a ++ .fetched step :: c) : DoneSince a step :=
  (history_inv hg h).2.1 _ _ _ e

/-- **C54**: `evaluated<S>()` tells whether the step has been evaluated since the last reset. -/
theorem C54_evaluated {graph : Graph} {calls : Step → Step → Prop} (hg : Sound graph calls) {tr : List Event}
    {s : State} (h : History graph calls tr s) (step : Step) : evaluated s step = true ↔ DoneSince tr step :=
  (history_inv hg h).1 step

/-- **C54**: the prerequisites of evaluated steps have been evaluated. -/
theorem C54_upstream_evaluated {graph : Graph} {calls : Step → Step → Prop} (hg : Sound graph calls)
    {tr : List Event} {s : State} (h : History graph calls tr s) {step p : Step} (he : evaluated s step = true)
    (hp : Upstream graph p step) : evaluated s p = true := by
  obtain ⟨h1, h2, _⟩ := history_inv hg h
  obtain ⟨a, b, tic, toc, e, hb⟩ := (h1 step).1 he
  rw [h1]
  have := (h2 _ _ _ e).2 p hp
  rw [e, doneSince_append (by simp [hb])]
  exact .inl this

/-- **C54**: a step of which the evaluation has failed, and not succeeded since, is not considered as evaluated, nor
those of which it is a prerequisite. -/
theorem C54_failed {graph : Graph} {calls : Step → Step → Prop} (hg : Sound graph calls) {tr : List Event}
    {s : State} (h : History graph calls tr s) {step : Step} {a b : List Event} (e : tr = a ++ .failed step :: b)
    (hb : ∀ tic toc, .done step tic toc ∉ b) :
    evaluated s step = false ∧ ∀ d, Upstream graph step d → evaluated s d = false := by
  obtain ⟨h1, h2, _⟩ := history_inv hg h
  have hn : ¬ DoneSince tr step := by
    have hna : ¬ DoneSince a step := h2 _ _ _ e
    rintro ⟨u, w, tic, toc, e', hw⟩
    rw [e] at e'
    rcases List.append_eq_append_iff.1 e' with ⟨x, rfl, hx⟩ | ⟨x, rfl, hx⟩
    · cases x with
      | nil => simp at hx
      | cons y x =>
        simp only [List.cons_append, List.cons.injEq] at hx
        exact hb tic toc (by rw [hx.2]; simp)
    · cases x with
      | nil => simp at hx
      | cons y x =>
        simp only [List.cons_append, List.cons.injEq] at hx
        obtain ⟨rfl, rfl⟩ := hx
        exact hna ⟨u, x, tic, toc, rfl, fun hm => hw (by simp [hm])⟩
  have hs : evaluated s step = false := by rw [← Bool.not_eq_true, h1]; exact hn
  refine ⟨hs, fun d hd => ?_⟩
  cases hev : evaluated s d with
  | false => rfl
  | true =>
    have := C54_upstream_evaluated hg h hev hd
    rw [hs] at this; cases this

/-- **C54**: it is retried: if a step is not considered as evaluated and its value is got, then it is evaluated. -/
theorem C54_retried {graph : Graph} {calls : Step → Step → Prop} (hg : Sound graph calls) {tr tr' : List Event}
    {s s' : State} (h : History graph calls tr s) {step : Step} (hn : evaluated s step = false)
    (hr : Runs graph calls (.get step) s tr' true s') : ∃ tic toc, .done step tic toc ∈ tr' := by
  obtain ⟨h1, h2, _⟩ := history_inv hg h
  obtain ⟨a1, _, _, _, a5, _⟩ := runs_inv hg hr _ h1 h2 trivial
  rcases (doneSince_append a1).1 (a5 rfl).1 with hd | hd
  · rw [← h1, hn] at hd; cases hd
  · exact hd

/-! ## C55 -/

/-- **C55** (as stated in properties.jsonl). -/
def C55_Statement : Prop :=
  ∀ (graph : Graph) (calls : Step → Step → Prop), Sound graph calls → ∀ (tr : List Event) (s : State),
    History graph calls tr s →
    (∀ step, milliseconds s step < 0 ↔ ¬ DoneSince tr step) ∧ totalMilliseconds s = timeSince tr

theorem runs_lookup {graph : Graph} {calls : Step → Step → Prop} {c : Call} {s s' : State}
    {tr : List Event} {ok : Bool} (h : Runs graph calls c s tr ok s') :
    ∀ step v, s'.lookup step = some v → s.lookup step = some v ∨ ∃ tic toc, .done step tic toc ∈ tr ∧ v = toc - tic := by
  induction h with
  | getFails h ih => exact ih
  | get h h' ih ih' =>
    intro step v hv
    rcases ih' step v hv with h1 | ⟨tic, toc, h1, h2⟩
    · rcases ih step v h1 with h3 | ⟨tic, toc, h3, h4⟩
      · exact .inl h3
      · exact .inr ⟨tic, toc, by simp [h3], h4⟩
    · exact .inr ⟨tic, toc, by simp [h1], h2⟩
  | allNil => intro step v hv; exact .inl hv
  | allFails h ih => exact ih
  | allCons h h' ih ih' =>
    intro step v hv
    rcases ih' step v hv with h1 | ⟨tic, toc, h1, h2⟩
    · rcases ih step v h1 with h3 | ⟨tic, toc, h3, h4⟩
      · exact .inl h3
      · exact .inr ⟨tic, toc, by simp [h3], h4⟩
    · exact .inr ⟨tic, toc, by simp [h1], h2⟩
  | fetch => intro step v hv; exact .inl hv
  | fetchFails => intro step v hv; exact .inl hv
  | evaluateFails he h ih =>
    intro step v hv
    rcases ih step v hv with h1 | ⟨tic, toc, h1, h2⟩
    · exact .inl h1
    · exact .inr ⟨tic, toc, by simp [h1], h2⟩
  | evaluate he h ih =>
    rename_i tic toc
    intro step v hv
    rw [lookup_assign] at hv
    split_ifs at hv with hs
    · subst hs; exact .inr ⟨tic, toc, by simp, by simpa using hv.symm⟩
    · rcases ih step v hv with h1 | ⟨tic, toc, h1, h2⟩
      · exact .inl h1
      · exact .inr ⟨tic, toc, by simp [h1], h2⟩
  | evaluateFetchFails he h ih =>
    rename_i tic toc
    intro step v hv
    rw [lookup_assign] at hv
    split_ifs at hv with hs
    · subst hs; exact .inr ⟨tic, toc, by simp, by simpa using hv.symm⟩
    · rcases ih step v hv with h1 | ⟨tic, toc, h1, h2⟩
      · exact .inl h1
      · exact .inr ⟨tic, toc, by simp [h1], h2⟩
  | bodyEnds => intro step v hv; exact .inl hv
  | bodyGets hc h h' ih ih' =>
    intro step v hv
    rcases ih' step v hv with h1 | ⟨tic, toc, h1, h2⟩
    · rcases ih step v h1 with h3 | ⟨tic, toc, h3, h4⟩
      · exact .inl h3
      · exact .inr ⟨tic, toc, by simp [h3], h4⟩
    · exact .inr ⟨tic, toc, by simp [h1], h2⟩

theorem history_lookup {graph : Graph} {calls : Step → Step → Prop} (hg : Sound graph calls) {tr : List Event}
    {s : State} (h : History graph calls tr s) : ∀ step v, s.lookup step = some v →
      ∃ a b tic toc, tr = a ++ .done step tic toc :: b ∧ .reset ∉ b ∧ v = toc - tic := by
  induction h with
  | new => intro step v hv; simp at hv
  | get h hr ih =>
    rename_i step' tr tr' s s' ok
    intro step v hv
    obtain ⟨h1, h2, h3⟩ := history_inv hg h
    have a1 := (runs_inv hg hr _ h1 h2 trivial).1
    rcases runs_lookup hr step v hv with hl | ⟨tic, toc, hm, e⟩
    · obtain ⟨a, b, tic, toc, rfl, hb, e⟩ := ih step v hl
      exact ⟨a, b ++ tr', tic, toc, by simp, by simp [hb, a1], e⟩
    · obtain ⟨a, b, rfl⟩ := List.append_of_mem hm
      exact ⟨tr ++ a, b, tic, toc, by simp, fun hb => a1 (by simp [hb]), e⟩
  | reset h ih => intro step v hv; simp [reset] at hv

/-- **C55**: the time of a step which has been evaluated since the last reset is that of its evaluation, and -1 is returned
for the other steps. -/
theorem C55_milliseconds {graph : Graph} {calls : Step → Step → Prop} (hg : Sound graph calls) {tr : List Event}
    {s : State} (h : History graph calls tr s) (step : Step) :
    (∀ a b tic toc, tr = a ++ .done step tic toc :: b → .reset ∉ b → milliseconds s step = toc - tic) ∧
    (¬ DoneSince tr step → milliseconds s step = -1) := by
  have hev := C54_evaluated hg h step
  constructor
  · intro a b tic toc e hb
    have he := hev.2 ⟨a, b, tic, toc, e, hb⟩
    unfold evaluated at he
    obtain ⟨v, hv⟩ := Option.isSome_iff_exists.1 he
    obtain ⟨a', b', tic', toc', e', hb', rfl⟩ := history_lookup hg h step v hv
    unfold milliseconds
    rw [hv]
    dsimp only
    -- there is only one such evaluation
    rw [e] at e'
    rcases List.append_eq_append_iff.1 e' with ⟨x, rfl, hx⟩ | ⟨x, rfl, hx⟩
    · cases x with
      | nil => simp at hx; rw [hx.1.1, hx.1.2]
      | cons y x =>
        simp only [List.cons_append, List.cons.injEq] at hx
        obtain ⟨rfl, rfl⟩ := hx
        exact absurd (C54_at_most_once hg h (step := step) (a := a) (b := x) (c := b')
          (tic := tic) (toc := toc) (tic' := tic') (toc' := toc') (by rw [e]; simp)) (fun hm => hb (by simp [hm]))
    · cases x with
      | nil => simp at hx; rw [hx.1.1, hx.1.2]
      | cons y x =>
        simp only [List.cons_append, List.cons.injEq] at hx
        obtain ⟨rfl, rfl⟩ := hx
        exact absurd (C54_at_most_once hg h (step := step) (a := a') (b := x) (c := b)
          (tic := tic') (toc := toc') (tic' := tic) (toc' := toc) (by rw [e])) (fun hm => hb' (by simp [hm]))
  · intro hn
    have : evaluated s step = false := by rw [← Bool.not_eq_true, hev]; exact hn
    unfold evaluated at this
    unfold milliseconds
    rw [Option.isSome_eq_false_iff.1 this |> Option.isNone_iff_eq_none.1]

/-- **C55**: the total is the sum of the times of the evaluations since the last reset. -/
theorem C55_total {graph : Graph} {calls : Step → Step → Prop} (hg : Sound graph calls) {tr : List Event}
    {s : State} (h : History graph calls tr s) : totalMilliseconds s = timeSince tr :=
  (history_inv hg h).2.2

/-- **C55** if the clock does not go backwards during evaluations.
Missing: the clock is `std::chrono::high_resolution_clock`, which may go backwards, in which case the property does not
hold (`C55_violated`). -/
theorem C55_partial {graph : Graph} {calls : Step → Step → Prop} (hg : Sound graph calls) {tr : List Event}
    {s : State} (h : History graph calls tr s) (hc : ∀ step tic toc, .done step tic toc ∈ tr → tic ≤ toc)
    (step : Step) : milliseconds s step < 0 ↔ ¬ DoneSince tr step := by
  obtain ⟨h1, h2⟩ := C55_milliseconds hg h step
  constructor
  · rintro hlt ⟨a, b, tic, toc, e, hb⟩
    rw [h1 a b tic toc e hb] at hlt
    have := hc step tic toc (by rw [e]; simp)
    linarith
  · intro hn; rw [h2 hn]; norm_num

/-! ## Non-vacuity -/

/-- A diamond: 1 and 2 require 0, and 3 requires 1 and 2. -/
def diamond : Graph
  | 1 => [0]
  | 2 => [0]
  | 3 => [1, 2]
  | _ => []

theorem diamond_lt {p s : Step} (h : p ∈ diamond s) : p < s := by
  unfold diamond at h
  split at h
  · simp at h; subst h; decide
  · simp at h; subst h; decide
  · simp at h; rcases h with h | h <;> subst h <;> decide
  · simp at h

theorem diamond_sound : Sound diamond (fun s p => p ∈ diamond s) where
  acyclic := by
    have : ∀ p s, Upstream diamond p s → p < s := by
      intro p s h
      induction h with
      | single h => exact diamond_lt h
      | tail _ h ih => exact lt_trans ih (diamond_lt h)
    exact fun s h => absurd (this s s h) (lt_irrefl s)
  calls := fun s p h => .single h

/-- An evaluation with a clock which goes backwards. -/
theorem history_backwards : History diamond (fun s p => p ∈ diamond s) [.start 0, .done 0 1 0, .fetched 0]
    [(0, -1)] := by
  have h : Runs diamond (fun s p => p ∈ diamond s) (.get 0) [] ([] ++ (.start 0 :: [] ++ [.done 0 1 0, .fetched 0])) true
      (assign 0 (0 - 1) []) := .get .allNil (.evaluate rfl (.bodyEnds true))
  have := History.get .new h
  simpa [assign] using this

/-- **C55** does not hold: if the clock goes backwards during an evaluation, the time is negative although the step has
been evaluated. -/
theorem C55_violated : ¬ C55_Statement := by
  intro h
  have := ((h diamond _ diamond_sound _ _ history_backwards).1 0).1 (by decide +kernel)
  exact this ⟨[.start 0], [.fetched 0], 1, 0, rfl, by simp⟩

/-- A history of the diamond: getting 3 fails because the evaluation of 2 does; the second time, 0 and 1 are not
evaluated again. Step 1 gets the value of 0 in its evaluation. -/
example : ∃ s s' tr',
    History diamond (fun s p => p ∈ diamond s)
      [.start 0, .done 0 0 5, .fetched 0, .start 1, .fetched 0, .done 1 5 7, .fetched 1, .fetched 0, .start 2, .failed 2]
      s ∧ evaluated s 1 = true ∧ evaluated s 2 = false ∧ totalMilliseconds s = 7 ∧ milliseconds s 1 = 2 ∧
    Runs diamond (fun s p => p ∈ diamond s) (.get 3) s tr' true s' ∧
    tr' = [.fetched 0, .fetched 1, .fetched 0, .start 2, .done 2 8 9, .fetched 2, .start 3, .done 3 9 10, .fetched 3] := by
  refine ⟨[(0, 5), (1, 2)], [(0, 5), (1, 2), (2, 1), (3, 1)], _, ?_, by decide, by decide, by decide +kernel,
    by decide +kernel, ?_, rfl⟩
  · refine History.get (step := 3) (ok := false) (tr := []) .new (.getFails ?_)
    refine .allCons (tr := [.start 0, .done 0 0 5, .fetched 0, .start 1, .fetched 0, .done 1 5 7, .fetched 1])
      (tr' := [.fetched 0, .start 2, .failed 2]) (s' := [(0, 5), (1, 2)]) ?_ (.allFails ?_)
    · refine .get (tr := [.start 0, .done 0 0 5, .fetched 0]) (s' := [(0, 5)]) ?_ ?_
      · refine Runs.allCons (step := 0) (steps := []) (tr := [.start 0, .done 0 0 5, .fetched 0]) (tr' := [])
          (s' := [(0, 5)]) ?_ .allNil
        exact .get (tr := []) .allNil (by
          have := Runs.evaluate (graph := diamond) (calls := fun s p => p ∈ diamond s) (step := 0) (s := [])
            (tic := 0) (toc := 5) rfl (.bodyEnds true)
          simpa [assign] using this)
      · have h0 : Runs diamond (fun s p => p ∈ diamond s) (.get 0) [(0, 5)] ([] ++ [.fetched 0]) true [(0, 5)] :=
          .get .allNil (.fetch rfl)
        have := Runs.evaluate (graph := diamond) (calls := fun s p => p ∈ diamond s) (step := 1) (s := [(0, 5)])
          (tic := 5) (toc := 7) rfl (.bodyGets (other := 0) (by simp [diamond]) h0 (.bodyEnds true))
        norm_num [assign] at this
        exact this
    · refine .get (tr := [.fetched 0]) (s' := [(0, 5), (1, 2)]) ?_ ?_
      · exact .allCons (tr' := []) (.get (tr := []) .allNil (.fetch rfl)) .allNil
      · exact .evaluateFails rfl (.bodyEnds false)
  · refine .get (tr := [.fetched 0, .fetched 1, .fetched 0, .start 2, .done 2 8 9, .fetched 2])
      (s' := [(0, 5), (1, 2), (2, 1)]) ?_ ?_
    · refine .allCons (tr := [.fetched 0, .fetched 1]) (s' := [(0, 5), (1, 2)]) ?_ ?_
      · exact .get (tr := [.fetched 0]) (.allCons (tr' := []) (.get (tr := []) .allNil (.fetch rfl)) .allNil) (.fetch rfl)
      · refine Runs.allCons (step := 2) (steps := [])
          (tr := [.fetched 0, .start 2, .done 2 8 9, .fetched 2]) (tr' := []) (s' := [(0, 5), (1, 2), (2, 1)]) ?_ .allNil
        refine .get (tr := [.fetched 0]) (.allCons (tr' := []) (.get (tr := []) .allNil (.fetch rfl)) .allNil) ?_
        have := Runs.evaluate (graph := diamond) (calls := fun s p => p ∈ diamond s) (step := 2)
          (s := [(0, 5), (1, 2)]) (tic := 8) (toc := 9) rfl (.bodyEnds true)
        norm_num [assign] at this
        exact this
    · have := Runs.evaluate (graph := diamond) (calls := fun s p => p ∈ diamond s) (step := 3)
        (s := [(0, 5), (1, 2), (2, 1)]) (tic := 9) (toc := 10) rfl (.bodyEnds true)
      norm_num [assign] at this
      exact this

end Litl.Pipeline
