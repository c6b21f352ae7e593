import Verif.Model.PipelineParallel
import Verif.Props.Pipeline

/-!
# Pipelines which are shared by threads (C134)
-/

namespace Litl.PipelineParallel

open Pipeline

/-- C134: whatever threads get on the same pipeline, there is no data race and each step is evaluated at most once. -/
def C134_Statement : Prop :=
  ∀ graph evaluated gets c c', Starts graph evaluated gets c → Reaches c c' → ¬ Race c' ∧ c'.started.Nodup

/-- What is visited is what is got, and the direct and indirect prerequisites. -/
theorem mem_visits {graph : Graph} {l order : List Step} (h : Visits graph l order) (p : Step) :
    p ∈ order ↔ ∃ step ∈ l, p = step ∨ Upstream graph p step := by
  induction h with
  | nil => simp
  | @cons step steps order order' _ _ ih1 ih2 =>
    rw [List.mem_append, List.mem_cons, ih1, ih2]
    constructor
    · rintro (⟨q, hq, rfl | h⟩ | rfl | ⟨q, hq, h⟩)
      · exact ⟨step, List.mem_cons_self, .inr (.single hq)⟩
      · exact ⟨step, List.mem_cons_self, .inr (h.tail hq)⟩
      · exact ⟨_, List.mem_cons_self, .inl rfl⟩
      · exact ⟨q, List.mem_cons_of_mem _ hq, h⟩
    · rintro ⟨q, hq, h⟩
      rcases List.mem_cons.1 hq with rfl | hq
      · rcases h with rfl | h
        · exact .inr (.inl rfl)
        · rcases Relation.TransGen.tail'_iff.1 h with ⟨r, hr, hrs⟩
          rcases Relation.reflTransGen_iff_eq_or_transGen.1 hr with e | hr
          · subst e; exact .inl ⟨_, hrs, .inl rfl⟩
          · exact .inl ⟨r, hrs, .inr hr⟩
      · exact .inr (.inr ⟨q, hq, h⟩)

theorem visits_nil {graph : Graph} {l order : List Step} (h : Visits graph l order) : order = [] ↔ l = [] := by
  cases h <;> simp

@[simp] theorem set_self (c : Config) (i : Nat) (t : Thread) : (c.set i t).threads i = t := by simp [Config.set]

theorem set_other (c : Config) {i j : Nat} (t : Thread) (h : j ≠ i) : (c.set i t).threads j = c.threads j := by
  simp [Config.set, h]

/-- The thread finds all of its steps evaluated. -/
def Reads (c : Config) (i : Nat) : Prop :=
  (∀ p ∈ (c.threads i).todo, c.evaluated p = true) ∧ ((c.threads i).phase = .check ∨ (c.threads i).phase = .fetch)

/-- The effect of an action: one thread, which has something to do, changes; evaluated steps remain so. -/
theorem steps_spec {c c' : Config} (h : Steps c c') : ∃ i, (c.threads i).todo ≠ [] ∧
    (∀ j, j ≠ i → c'.threads j = c.threads j) ∧ (∀ p, c.evaluated p = true → c'.evaluated p = true) ∧
    (Reads c i → Reads c' i ∧ c'.started = c.started) := by
  cases h with
  | @hit i step rest h he =>
    exact ⟨i, by simp [h], fun j hj => set_other c _ hj, fun _ h => h,
      fun hr => ⟨⟨by rw [set_self]; rw [Reads, h] at hr; exact hr.1, .inr (by simp)⟩, rfl⟩⟩
  | @miss i step rest h he =>
    refine ⟨i, by simp [h], fun j hj => set_other c _ hj, fun _ h => h, fun hr => ?_⟩
    have := hr.1 step (by simp [h])
    rw [he] at this
    cases this
  | @returns i step rest h =>
    refine ⟨i, by simp [h], fun j hj => set_other c _ hj, fun _ h => h, fun hr => ?_⟩
    have := hr.2
    simp [h] at this
  | @throws i step rest h =>
    refine ⟨i, by simp [h], fun j hj => set_other c _ hj, fun _ h => h, fun hr => ?_⟩
    have := hr.2
    simp [h] at this
  | @record i step rest h =>
    refine ⟨i, by simp [h], fun j hj => set_other c _ hj, fun p h => by simp [h], fun hr => ?_⟩
    have := hr.2
    simp [h] at this
  | @fetch i step rest h =>
    refine ⟨i, by simp [h], fun j hj => set_other c _ hj, fun _ h => h, fun hr => ⟨⟨?_, .inl (by simp)⟩, rfl⟩⟩
    intro p hp
    rw [set_self] at hp
    exact hr.1 p (by rw [h]; exact List.mem_cons_of_mem _ hp)
  | @fetchThrows i step rest h =>
    refine ⟨i, by simp [h], fun j hj => set_other c _ hj, fun _ h => h, fun hr => ⟨⟨?_, .inl (by simp)⟩, rfl⟩⟩
    intro p hp
    rw [set_self] at hp
    cases hp

theorem Reads.mono {c c' : Config} {i : Nat} (h : Reads c i) (ht : c'.threads i = c.threads i)
    (he : ∀ p, c.evaluated p = true → c'.evaluated p = true) : Reads c' i := by
  rw [Reads, ht]
  exact ⟨fun p hp => he p (h.1 p hp), h.2⟩

/-- Of two threads, the first one only reads, or the second one has nothing to do. -/
def Apart (c : Config) : Prop := ∀ i j, i ≠ j → Reads c i ∨ (c.threads j).todo = []

theorem apart_steps {c c' : Config} (h : Apart c) (hs : Steps c c') : Apart c' := by
  obtain ⟨k, hk, hother, hmono, hreads⟩ := steps_spec hs
  intro i j hij
  rcases h i j hij with hr | hj
  · left
    by_cases hi : i = k
    · subst hi; exact (hreads hr).1
    · exact hr.mono (hother i hi) hmono
  · right
    by_cases hjk : j = k
    · subst hjk; exact absurd hj hk
    · rw [hother j hjk]; exact hj

/-- A thread can go on, alone, up to the evaluation of a step. -/
theorem reaches_record {c : Config} {i : Nat} {l : List Step} (hi : c.threads i = ⟨l, .check⟩)
    (hl : ∃ p ∈ l, c.evaluated p = false) : ∃ c', Reaches c c' ∧ (c'.threads i).todo ≠ [] ∧ (c'.threads i).phase = .record ∧
      ∀ j, j ≠ i → c'.threads j = c.threads j := by
  induction l generalizing c with
  | nil => obtain ⟨p, hp, _⟩ := hl; cases hp
  | cons step l ih =>
    cases he : c.evaluated step with
    | false =>
      have h1 := Steps.miss hi he
      have h2 := Steps.returns (c := { c.set i ⟨step :: l, .evaluate⟩ with started := c.started ++ [step] }) (i := i)
        (step := step) (rest := l) (by simp [Config.set])
      refine ⟨_, (Relation.ReflTransGen.single h1).tail h2, by simp, by simp, fun j hj => ?_⟩
      simp [Config.set, hj]
    | true =>
      have h1 := Steps.hit hi he
      have h2 := Steps.fetch (c := c.set i ⟨step :: l, .fetch⟩) (i := i) (step := step) (rest := l) (by simp)
      have hl' : ∃ p ∈ l, ((c.set i ⟨step :: l, .fetch⟩).set i ⟨l, .check⟩).evaluated p = false := by
        obtain ⟨p, hp, hf⟩ := hl
        rcases List.mem_cons.1 hp with rfl | hp
        · rw [he] at hf; cases hf
        · exact ⟨p, hp, hf⟩
      obtain ⟨c', hr, h3, h4, h5⟩ := ih (c := (c.set i ⟨step :: l, .fetch⟩).set i ⟨l, .check⟩) (by simp) hl'
      refine ⟨c', (((Relation.ReflTransGen.single h1).tail h2).trans hr), h3, h4, fun j hj => ?_⟩
      rw [h5 j hj]
      simp [Config.set, hj]

/-- **C134**: there may be a data race if and only if a thread gets a step which has not been evaluated, or of which a direct or
indirect prerequisite has not, while another one gets any step. -/
theorem C134_exact {graph : Graph} {evaluated : Step → Bool} {gets : Nat → List Step} {c : Config}
    (h : Starts graph evaluated gets c) : (∃ c', Reaches c c' ∧ Race c') ↔
      ∃ i j, i ≠ j ∧ (∃ step ∈ gets i, ∃ p, (p = step ∨ Upstream graph p step) ∧ evaluated p = false) ∧ gets j ≠ [] := by
  obtain ⟨he, -, ht⟩ := h
  have hmem : ∀ i, (∃ p ∈ (c.threads i).todo, c.evaluated p = false) ↔
      ∃ step ∈ gets i, ∃ p, (p = step ∨ Upstream graph p step) ∧ evaluated p = false := by
    intro i
    rw [he]
    constructor
    · rintro ⟨p, hp, hf⟩
      obtain ⟨step, hs, hp⟩ := (mem_visits (ht i).2 p).1 hp
      exact ⟨step, hs, p, hp, hf⟩
    · rintro ⟨step, hs, p, hp, hf⟩
      exact ⟨p, (mem_visits (ht i).2 p).2 ⟨step, hs, hp⟩, hf⟩
  constructor
  · rintro ⟨c', hr, i, j, hij, hi, hp, hj, -⟩
    by_contra hc
    push Not at hc
    have ha : Apart c := by
      intro i j hij
      by_cases hg : gets j = []
      · right; exact (visits_nil (ht j).2).2 hg
      · left
        refine ⟨fun p hp => ?_, .inl (ht i).1⟩
        by_contra hf
        rw [Bool.not_eq_true] at hf
        obtain ⟨step, hs, q, hq, hqf⟩ := (hmem i).1 ⟨p, hp, hf⟩
        exact hg (hc i j hij ⟨step, hs, q, hq, hqf⟩)
    have ha' : Apart c' := by
      clear hi hp hj hij
      induction hr with
      | refl => exact ha
      | tail _ hs ih => exact apart_steps ih hs
    rcases ha' i j hij with hr' | hj'
    · have := hr'.2
      rw [hp] at this
      rcases this with h | h <;> cases h
    · exact hj hj'
  · rintro ⟨i, j, hij, hi, hj⟩
    obtain ⟨c', hr, h1, h2, h3⟩ := reaches_record (c := c) (i := i) (l := (c.threads i).todo)
      (by rw [← (ht i).1]) ((hmem i).2 hi)
    refine ⟨c', hr, i, j, hij, h1, h2, ?_, .inl ?_⟩
    · rw [h3 j (Ne.symm hij)]
      exact fun h => hj ((visits_nil (ht j).2).1 h)
    · rw [h3 j (Ne.symm hij)]
      exact (ht j).1

/-- **C134** if what is got has been evaluated beforehand, with the prerequisites: then nothing is evaluated.
Missing: steps which have not been evaluated, for which there is a data race (`C134_exact`) and which may be evaluated by all of
the threads (`C134_twice`). -/
theorem C134_partial {graph : Graph} {evaluated : Step → Bool} {gets : Nat → List Step} {c c' : Config}
    (h : Starts graph evaluated gets c)
    (hev : ∀ i, ∀ step ∈ gets i, ∀ p, (p = step ∨ Upstream graph p step) → evaluated p = true) (hr : Reaches c c') :
    ¬ Race c' ∧ c'.started = [] := by
  refine ⟨fun hrace => ?_, ?_⟩
  · obtain ⟨i, j, -, ⟨step, hs, p, hp, hf⟩, -⟩ := (C134_exact h).1 ⟨c', hr, hrace⟩
    rw [hev i step hs p hp] at hf
    cases hf
  · obtain ⟨he, hst, ht⟩ := h
    have h0 : ∀ i, Reads c i := by
      intro i
      refine ⟨fun p hp => ?_, .inl (ht i).1⟩
      obtain ⟨step, hs, hp⟩ := (mem_visits (ht i).2 p).1 hp
      rw [he]
      exact hev i step hs p hp
    have : (∀ i, Reads c' i) ∧ c'.started = [] := by
      induction hr with
      | refl => exact ⟨h0, hst⟩
      | tail _ hs ih =>
        obtain ⟨k, _, hother, hmono, hreads⟩ := steps_spec hs
        refine ⟨fun i => ?_, by rw [(hreads (ih.1 k)).2, ih.2]⟩
        by_cases hi : i = k
        · subst hi; exact (hreads (ih.1 i)).1
        · exact (ih.1 i).mono (hother i hi) hmono
    exact this.2

/-- **C134**: a step without prerequisite which has not been evaluated can be evaluated by all of the threads which get it. -/
theorem C134_twice {graph : Graph} {step : Step} (hg : graph step = []) {evaluated : Step → Bool} (he : evaluated step = false)
    (n : Nat) {c : Config} (h : Starts graph evaluated (fun i => if i < n then [step] else []) c) :
    ∃ c', Reaches c c' ∧ c'.started = List.replicate n step := by
  obtain ⟨hev, hst, ht⟩ := h
  have htodo : ∀ i, i < n → c.threads i = ⟨[step], .check⟩ := by
    intro i hi
    obtain ⟨h1, h2⟩ := ht i
    simp only [hi, if_true] at h2
    have h3 : (c.threads i).todo = [step] := by
      generalize (c.threads i).todo = o at h2
      cases h2 with
      | cons a b =>
        rw [hg] at a
        cases a
        cases b
        rfl
    rw [← h1, ← h3]
  have key : ∀ k, k ≤ n → ∃ c', Reaches c c' ∧ c'.started = List.replicate k step ∧ c'.evaluated = evaluated ∧
      ∀ i, k ≤ i → c'.threads i = c.threads i := by
    intro k
    induction k with
    | zero => exact fun _ => ⟨c, .refl, by rw [hst]; rfl, hev, fun _ _ => rfl⟩
    | succ k ih =>
      intro hk
      obtain ⟨c', hr, h1, h2, h3⟩ := ih (by omega)
      have hs := Steps.miss (c := c') (i := k) (step := step) (rest := [])
        (by rw [h3 k (le_refl k), htodo k (by omega)]) (by rw [h2, he])
      refine ⟨_, hr.tail hs, ?_, h2, fun i hi => ?_⟩
      · simp [h1, List.replicate_succ']
      · have : i ≠ k := by omega
        simp only [Config.set, this, if_false]
        exact h3 i (by omega)
  obtain ⟨c', hr, h1, -⟩ := key n (le_refl n)
  exact ⟨c', hr, h1⟩

/-- Non-vacuity: two threads get the same step, or twice the same evaluated step. -/
theorem starts_two (evaluated : Step → Bool) :
    Starts (fun _ => []) evaluated (fun i => if i < 2 then [0] else [])
      ⟨evaluated, fun i => ⟨if i < 2 then [0] else [], .check⟩, []⟩ := by
  refine ⟨rfl, rfl, fun i => ⟨rfl, ?_⟩⟩
  by_cases hi : i < 2
  · simp only [hi, if_true]
    exact .cons (order := []) .nil .nil
  · simp only [hi, if_false]
    exact .nil

/-- Non-vacuity of `C134_partial`. -/
example : ∃ c, Starts (fun _ => []) (fun _ => true) (fun i => if i < 2 then [0] else []) c := ⟨_, starts_two _⟩

/-- **C134** does not hold. -/
theorem C134_violated : ¬ C134_Statement := by
  intro h
  obtain ⟨c', hr, hs⟩ := C134_twice (graph := fun _ => []) (step := 0) rfl (evaluated := fun _ => false) rfl 2 (starts_two _)
  have := (h _ _ _ _ _ (starts_two _) hr).2
  rw [hs] at this
  simp at this

end Litl.PipelineParallel
