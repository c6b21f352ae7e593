import Verif.Lemmas.DftThreads
import Verif.Props.Dft

/-!
# Properties of Fourier transforms in several threads
-/

namespace Litl

open DftThreads

/-- The two plans use a same buffer. -/
def SharesBuffer (d d' : DftPlan) : Prop :=
  ∃ x, (x = d.input.address ∨ x = d.output.address) ∧ (x = d'.input.address ∨ x = d'.output.address)

/-- The actions of users on their plans: buffers are filled with as many values as needed. -/
def OnPlans (ps : List DftPlan) : Action → Prop
  | .transform d => d ∈ ps
  | .normalize d => d ∈ ps
  | .fill d x => d ∈ ps ∧ x.isReal = d.transform.inReal ∧ (x.length : Int) = shapeSize (d.transform.inShape d.shape)
  | .function .. => False

/-- What happens when plans are constructed, possibly as inverse or composition of others, and used, in any order. -/
inductive Workspace : List DftPlan → Memory → Prop where
  | empty {m : Memory} : Workspace [] m
  | construct {ps : List DftPlan} {m m' : Memory} {d : DftPlan} {t : Transform} {shape : Position} : Workspace ps m →
      DftPlan.Constructs t shape none none m d m' → Workspace (d :: ps) m'
  | invert {ps : List DftPlan} {m m' : Memory} {d i : DftPlan} : Workspace ps m → d ∈ ps → d.Inverts m i m' →
      Workspace (i :: ps) m'
  | compose {ps : List DftPlan} {m m' : Memory} {d c : DftPlan} {t : Transform} {shape : Position} : Workspace ps m → d ∈ ps →
      t.inReal = d.transform.outReal → t.inShape shape = d.output.shape → d.Composes t shape m c m' → Workspace (c :: ps) m'
  | act {ps : List DftPlan} {m m' : Memory} {a : Action} : Workspace ps m → OnPlans ps a → a.Does m (.ok m') → Workspace ps m'

theorem inverse_shapes (t : Transform) (shape : Position) : t.inverse.inReal = t.outReal ∧ t.inverse.outReal = t.inReal ∧
    t.inverse.inShape shape = t.outShape shape ∧ t.inverse.outShape shape = t.inShape shape := by
  obtain ⟨r, i⟩ := t
  cases r <;> cases i <;> exact ⟨rfl, rfl, rfl, rfl⟩

theorem keeps_does {ps : List DftPlan} {a : Action} {m m' : Memory} (ha : OnPlans ps a) (h : a.Does m (.ok m')) :
    Keeps m m' := by
  cases a with
  | transform d => exact keeps_executes h
  | normalize d => exact keeps_normalize h.symm
  | fill d x =>
    rcases h with ⟨_, ⟨v, hv, hg, rfl⟩, e⟩ | ⟨_, e⟩
    · cases e
      refine (Keeps.refl m).set fun w hw => ?_
      rw [hv] at hw; cases hw; exact hg
    · cases e
  | function => exact ha.elim

theorem workspace_ready {ps : List DftPlan} {m : Memory} (h : Workspace ps m) : ∀ d ∈ ps, Ready m d := by
  induction h with
  | empty => simp
  | construct _ hc ih =>
    obtain ⟨h1, h2, _⟩ := constructs_ready hc (fun _ h => nomatch h) (fun _ h => nomatch h) (fun _ h => nomatch h)
    intro d hd
    rcases List.mem_cons.1 hd with rfl | hd
    · exact h1
    · exact (ih d hd).keeps h2
  | invert _ hd hc ih =>
    rename_i d i _
    have hr := ih d hd
    obtain ⟨s1, s2, s3, s4⟩ := inverse_shapes d.transform d.shape
    obtain ⟨h1, h2, _⟩ := constructs_ready hc
      (fun _ h => by cases h; rw [s1, s3]; exact hr.output) (fun _ h => by cases h; rw [s2, s4]; exact hr.input)
      (fun _ h h' => by cases h; exact hr.ne (Option.some.inj h'))
    intro e he
    rcases List.mem_cons.1 he with rfl | he
    · exact h1
    · exact (ih e he).keeps h2
  | compose _ hd ht hs hc ih =>
    have hr := ih _ hd
    obtain ⟨h1, h2, _⟩ := constructs_ready hc
      (fun _ h => by cases h; rw [ht, hs, hr.outShape]; exact hr.output) (fun _ h => nomatch h) (fun _ _ h => nomatch h)
    intro e he
    rcases List.mem_cons.1 he with rfl | he
    · exact h1
    · exact (ih e he).keeps h2
  | act _ ha hd ih => exact fun d hd' => (ih d hd').keeps (keeps_does ha hd)

/-- Filling an input is defined for values of the same type and number as the input, and undefined otherwise. -/
theorem C107_fill (d : DftPlan) (x : Values) (m : Memory) (r : Res Memory) : (Action.fill d x).Does m r ↔
    (∃ v, m d.input.address = some v ∧ Fftw.Garbage v x ∧ r = .ok (m.set d.input.address x)) ∨
    ((∀ v, m d.input.address = some v → ¬ Fftw.Garbage v x) ∧ r = .error .ub) := by
  constructor
  · rintro (⟨m', ⟨v, h1, h2, rfl⟩, rfl⟩ | ⟨h, rfl⟩)
    · exact .inl ⟨v, h1, h2, rfl⟩
    · exact .inr ⟨fun v h1 h2 => h ⟨_, v, h1, h2, rfl⟩, rfl⟩
  · rintro (⟨v, h1, h2, rfl⟩ | ⟨h, rfl⟩)
    · exact .inl ⟨_, ⟨v, h1, h2, rfl⟩, rfl⟩
    · exact .inr ⟨fun ⟨_, v, h1, h2, _⟩ => h v h1 h2, rfl⟩

/-- Actions on plans succeed. -/
theorem does_ok {ps : List DftPlan} {m : Memory} {a : Action} (h : ∀ d ∈ ps, Ready m d) (hs : ∀ d ∈ ps, Supported d.shape)
    (ha : OnPlans ps a) : (∃ m', a.Does m (.ok m')) ∧ ∀ r, a.Does m r → ∃ m', r = .ok m' := by
  cases a with
  | transform d =>
    obtain ⟨_, _, _, _, h1, h2⟩ := (h d ha).on
    exact ⟨executes_exists h1 h2 (hs d ha), fun r hr => executes_ok h1 h2 (hs d ha) hr⟩
  | normalize d =>
    have hr := h d ha
    obtain ⟨v, v1, _, v3⟩ := hr.output
    have : ∃ m', d.normalize m = .ok m' := by
      unfold DftPlan.normalize
      rw [v1]
      dsimp only
      rw [if_neg (by rw [hr.outShape]; omega)]
      exact ⟨_, rfl⟩
    obtain ⟨m', e⟩ := this
    exact ⟨⟨m', e.symm⟩, fun r hr => ⟨m', hr.trans e⟩⟩
  | fill d x =>
    obtain ⟨hd, h1, h2⟩ := ha
    obtain ⟨v, v1, v2, v3⟩ := (h d hd).input
    have hf : ∃ m', d.Fills x m m' := ⟨_, v, v1, ⟨h1.trans v2.symm, by omega⟩, rfl⟩
    refine ⟨?_, fun r hr => ?_⟩
    · obtain ⟨m', hf'⟩ := hf; exact ⟨m', .inl ⟨m', hf', rfl⟩⟩
    · rcases hr with ⟨m', _, e⟩ | ⟨hn, _⟩
      · exact ⟨m', e⟩
      · exact absurd hf hn
  | function => exact ha.elim

/-- Threads on plans succeed. -/
theorem runs_ok {ps : List DftPlan} (hs : ∀ d ∈ ps, Supported d.shape) : ∀ {t : Thread} {m : Memory},
    (∀ d ∈ ps, Ready m d) → (∀ a ∈ t, OnPlans ps a) → (∃ m', Runs t m (.ok m')) ∧ ∀ r, Runs t m r → ∃ m', r = .ok m' := by
  intro t
  induction t with
  | nil => intro m _ _; exact ⟨⟨m, .nil⟩, fun r hr => by cases hr; exact ⟨m, rfl⟩⟩
  | cons a t ih =>
    intro m h ha
    obtain ⟨⟨m₁, h1⟩, h2⟩ := does_ok h hs (ha a (by simp))
    refine ⟨?_, fun r hr => ?_⟩
    · obtain ⟨⟨m', h3⟩, _⟩ := ih (m := m₁) (fun d hd => (h d hd).keeps (keeps_does (ha a (by simp)) h1))
        fun b hb => ha b (by simp [hb])
      exact ⟨m', .next h1 h3⟩
    · cases hr with
      | next h3 h4 =>
        exact (ih (fun d hd => (h d hd).keeps (keeps_does (ha a (by simp)) h3)) fun b hb => ha b (by simp [hb])).2 r h4
      | fail h3 => obtain ⟨_, e⟩ := h2 _ h3; cases e

theorem workspace_runs {ps : List DftPlan} {t : Thread} {m : Memory} {r : Res Memory} (h : Runs t m r) : ∀ {m' : Memory},
    r = .ok m' → (∀ a ∈ t, OnPlans ps a) → Workspace ps m → Workspace ps m' := by
  induction h with
  | nil => intro m' hr _ hw; cases hr; exact hw
  | fail => intro m' hr; cases hr
  | next hd _ ih => intro m' hr ha hw; exact ih hr (fun b hb => ha b (by simp [hb])) (hw.act (ha _ (by simp)) hd)

/-! ## C107: threads -/

/-- **C107**: without data races, the memory after the parallel execution of threads is what it is if each thread is executed alone:
each buffer is as the thread which modifies it, if any, leaves it. -/
theorem C107_isolated {ts : List Thread} {m m' : Memory} (hf : RaceFree ts) :
    Parallel ts m (.ok m') ↔ (∀ x, (∀ t ∈ ts, ∀ a ∈ t, x ∉ a.writes) → m' x = m x) ∧
      ∀ t ∈ ts, ∃ mt, Runs t m (.ok mt) ∧ ∀ x, (∃ a ∈ t, x ∈ a.writes) → m' x = mt x := by
  have : Parallel ts m (.ok m') ↔ Interleaves ts m (.ok m') :=
    ⟨fun h => by rcases h with h | h; exacts [h.2, absurd hf h.1], fun h => .inl ⟨hf, h⟩⟩
  rw [this, interleaves_iff hf]
  unfold Isolated Modifies
  constructor
  · rintro ⟨h1, h2⟩
    exact ⟨fun x hx => h1 x fun t ht ⟨a, ha, hxa⟩ => hx t ht a ha hxa, h2⟩
  · rintro ⟨h1, h2⟩
    exact ⟨fun x hx => h1 x fun t ht a ha hxa => hx t ht ⟨a, ha, hxa⟩, h2⟩

/-- **C107**: without data races, the parallel execution of threads can fail if and only if one of them can fail alone. -/
theorem C107_failure {ts : List Thread} {m : Memory} {e : Fail} (hf : RaceFree ts) :
    Parallel ts m (.error e) ↔ ∃ t ∈ ts, Runs t m (.error e) := by
  have : Parallel ts m (.error e) ↔ Interleaves ts m (.error e) :=
    ⟨fun h => by rcases h with h | h; exacts [h.2, absurd hf h.1], fun h => .inl ⟨hf, h⟩⟩
  rw [this, interleaves_error_iff hf]

/-- **C107**: without data races, the threads might as well be executed one after the other. -/
theorem C107_sequential {ts : List Thread} {m m' : Memory} (hf : RaceFree ts) :
    Parallel ts m (.ok m') ↔ Runs ts.flatten m (.ok m') := by
  have : Parallel ts m (.ok m') ↔ Interleaves ts m (.ok m') :=
    ⟨fun h => by rcases h with h | h; exacts [h.2, absurd hf h.1], fun h => .inl ⟨hf, h⟩⟩
  rw [this]
  exact ⟨fun h => isolated_runs hf (interleaves_isolated h rfl hf), runs_interleaves⟩

/-- **C107**: the order of the threads is irrelevant. -/
theorem C107_order {ts us : List Thread} (h : ts.Perm us) {m : Memory} {r : Res Memory} : Parallel ts m r ↔ Parallel us m r := by
  have hf : RaceFree ts ↔ RaceFree us := h.pairwise_iff (fun h a ha b hb hc => h b hb a ha (conflict_comm hc))
  by_cases ht : RaceFree ts
  · cases r with
    | ok m' => rw [C107_isolated ht, C107_isolated (hf.1 ht)]; simp only [h.mem_iff]
    | error e => rw [C107_failure ht, C107_failure (hf.1 ht)]; simp only [h.mem_iff]
  · have hu : ¬ RaceFree us := fun h => ht (hf.2 h)
    simp [Parallel, ht, hu]

/-! ## C107: plans -/

/-- **C107** (full statement): two plans can be executed in parallel. -/
def C107_Statement : Prop :=
  ∀ ps m, Workspace ps m → (∀ d ∈ ps, Supported d.shape) → ∀ d ∈ ps, ∀ d' ∈ ps, d ≠ d' →
    ¬ Parallel [[.transform d], [.transform d']] m (.error .ub)

/-- **C107**: whatever threads do with the plans, without data races, nothing fails, the plans can still be used afterwards, and each thread
gets what it would get alone. -/
theorem C107_plans {ps : List DftPlan} {m : Memory} {ts : List Thread} (hw : Workspace ps m)
    (hs : ∀ d ∈ ps, Supported d.shape) (ha : ∀ t ∈ ts, ∀ a ∈ t, OnPlans ps a) (hf : RaceFree ts) :
    (∃ m', Parallel ts m (.ok m')) ∧ ∀ r, Parallel ts m r → ∃ m', r = .ok m' ∧ Workspace ps m' ∧
      ∀ t ∈ ts, ∃ mt, Runs t m (.ok mt) ∧ ∀ x, (∃ a ∈ t, x ∈ a.reads ∨ x ∈ a.writes) → m' x = mt x := by
  have hr := workspace_ready hw
  have hfl : ∀ a ∈ ts.flatten, OnPlans ps a := fun a h => by
    obtain ⟨t, ht, h⟩ := List.mem_flatten.1 h
    exact ha t ht a h
  obtain ⟨⟨m₁, h1⟩, _⟩ := runs_ok hs hr hfl
  refine ⟨⟨m₁, (C107_sequential hf).2 h1⟩, fun r h => ?_⟩
  cases r with
  | error e =>
    obtain ⟨t, ht, hrun⟩ := (C107_failure hf).1 h
    obtain ⟨_, e⟩ := (runs_ok hs hr (ha t ht)).2 _ hrun
    cases e
  | ok m' =>
    refine ⟨m', rfl, workspace_runs ((C107_sequential hf).1 h) rfl hfl hw, fun t ht => ?_⟩
    obtain ⟨i1, i2⟩ := (C107_isolated hf).1 h
    obtain ⟨mt, r1, r2⟩ := i2 t ht
    refine ⟨mt, r1, fun x ⟨a, hat, hx⟩ => ?_⟩
    rcases hx with hx | hx
    · exfalso
      have := ha t ht a hat
      cases a with
      | function => exact this
      | transform => simp [Action.reads] at hx
      | normalize => simp [Action.reads] at hx
      | fill => simp [Action.reads] at hx
    · exact r2 x ⟨a, hat, hx⟩

/-- The plan on which a thread acts. -/
def Action.Of (d : DftPlan) : Action → Prop
  | .transform e => e = d
  | .normalize e => e = d
  | .fill e _ => e = d
  | .function .. => False

theorem of_writes {m : Memory} {d : DftPlan} (h : Ready m d) {a : Action} (ha : Action.Of d a) :
    a.reads = [] ∧ a.planner = false ∧ ∀ x ∈ a.writes, x = d.input.address ∨ x = d.output.address := by
  cases a with
  | function => exact ha.elim
  | transform e =>
    cases ha
    refine ⟨rfl, rfl, fun x hx => ?_⟩
    simpa [Action.writes, h.ports.1, h.ports.2] using hx
  | normalize e =>
    cases ha
    exact ⟨rfl, rfl, fun x hx => .inr (by simpa [Action.writes] using hx)⟩
  | fill e x =>
    cases ha
    exact ⟨rfl, rfl, fun x hx => .inl (by simpa [Action.writes] using hx)⟩

/-- **C107**: there are no data races if each thread uses its own plan and plans share no buffer. -/
theorem C107_disjoint {ps : List DftPlan} {m : Memory} (hw : Workspace ps m) {ts : List (DftPlan × Thread)}
    (hp : ∀ q ∈ ts, q.1 ∈ ps ∧ ∀ a ∈ q.2, Action.Of q.1 a) (hd : ts.Pairwise fun q q' => ¬ SharesBuffer q.1 q'.1) :
    RaceFree (ts.map Prod.snd) := by
  have hr := workspace_ready hw
  unfold RaceFree
  rw [List.pairwise_map]
  refine (List.Pairwise.and_mem.1 hd).imp ?_
  rintro q q' ⟨hq, hq', hn⟩ a ha b hb hc
  obtain ⟨a1, a2, a3⟩ := of_writes (hr _ (hp q hq).1) ((hp q hq).2 a ha)
  obtain ⟨b1, b2, b3⟩ := of_writes (hr _ (hp q' hq').1) ((hp q' hq').2 b hb)
  rcases hc with ⟨hc, _⟩ | ⟨x, h1, h2⟩ | ⟨x, h1, h2⟩
  · rw [a2] at hc; cases hc
  · rw [b1] at h2
    rcases h2 with h2 | h2
    · cases h2
    · exact hn ⟨x, a3 x h1, b3 x h2⟩
  · rw [a1] at h2
    rcases h2 with h2 | h2
    · cases h2
    · exact hn ⟨x, a3 x h2, b3 x h1⟩

/-- **C107**: plans which own their buffers share none. -/
theorem C107_owners {ps : List DftPlan} {m : Memory} (hw : Workspace ps m) {d d' : DftPlan} (hd : d ∈ ps) (hd' : d' ∈ ps)
    (ho : d.input.owns = true ∧ d.output.owns = true) (ho' : d'.input.owns = true ∧ d'.output.owns = true) (hne : d ≠ d') :
    ¬ SharesBuffer d d' := by
  have key : ∀ {ps : List DftPlan} {m : Memory}, Workspace ps m → ∀ d ∈ ps, ∀ d' ∈ ps, d.input.owns = true → d'.input.owns = true →
      d.output.owns = true → d'.output.owns = true → d ≠ d' → ¬ SharesBuffer d d' := by
    intro ps m hw
    induction hw with
    | empty => simp
    | act _ _ _ ih => exact ih
    | construct hw hc ih =>
      rename_i ps m m' d _ _
      obtain ⟨_, _, h3, h4⟩ := constructs_ready hc (fun _ h => nomatch h) (fun _ h => nomatch h) (fun _ h => nomatch h)
      have fresh : ∀ e ∈ ps, ¬ SharesBuffer d e := by
        rintro e he ⟨x, hx, hx'⟩
        have hr := workspace_ready hw e he
        have h5 : m x = none := by rcases hx with rfl | rfl; exacts [h3 rfl, h4 rfl]
        obtain ⟨v, hv, _⟩ := hr.input
        obtain ⟨w, hw, _⟩ := hr.output
        rcases hx' with rfl | rfl
        · rw [hv] at h5; cases h5
        · rw [hw] at h5; cases h5
      intro e he f hf o1 o2 o3 o4 hne
      rcases List.mem_cons.1 he with rfl | he'
      · rcases List.mem_cons.1 hf with rfl | hf'
        · exact absurd rfl hne
        · exact fresh f hf'
      · rcases List.mem_cons.1 hf with rfl | hf'
        · rintro ⟨x, h, h'⟩; exact fresh e he' ⟨x, h', h⟩
        · exact ih e he' f hf' o1 o2 o3 o4 hne
    | invert hw hd hc ih =>
      have hn : ∀ {d i : DftPlan} {m m' : Memory}, d.Inverts m i m' → i.input.owns ≠ true := by
        intro d i m m' h
        unfold DftPlan.Inverts at h
        cases h with
        | mk h1 h2 h3 => cases h1; simp
      intro e he f hf o1 o2 o3 o4 hne
      rcases List.mem_cons.1 he with rfl | he
      · exact absurd o1 (hn hc)
      · rcases List.mem_cons.1 hf with rfl | hf
        · exact absurd o2 (hn hc)
        · exact ih e he f hf o1 o2 o3 o4 hne
    | compose hw hd _ _ hc ih =>
      have hn : ∀ {d i : DftPlan} {t : Transform} {shape : Position} {m m' : Memory}, d.Composes t shape m i m' →
          i.input.owns ≠ true := by
        intro d i t shape m m' h
        unfold DftPlan.Composes at h
        cases h with
        | mk h1 h2 h3 => cases h1; simp
      intro e he f hf o1 o2 o3 o4 hne
      rcases List.mem_cons.1 he with rfl | he
      · exact absurd o1 (hn hc)
      · rcases List.mem_cons.1 hf with rfl | hf
        · exact absurd o2 (hn hc)
        · exact ih e he f hf o1 o2 o3 o4 hne
  exact key hw d hd d' hd' ho.1 ho'.1 ho.2 ho'.2 hne

/-- **C107** for plans which own their buffers: however many can be executed in parallel, and each output is that of the execution of the
plan alone.
Missing: plans which share buffers, for which the property does not hold (`C107_violated`). -/
theorem C107_executions_partial {ps ds : List DftPlan} {m : Memory} (hw : Workspace ps m) (hs : ∀ d ∈ ps, Supported d.shape)
    (hds : ds.Nodup) (hd : ∀ d ∈ ds, d ∈ ps ∧ d.input.owns = true ∧ d.output.owns = true) :
    (∃ m', Parallel (ds.map fun d => [.transform d]) m (.ok m')) ∧
      ∀ r, Parallel (ds.map fun d => [.transform d]) m r → ∃ m', r = .ok m' ∧ Workspace ps m' ∧
        ∀ d ∈ ds, ∃ md, d.Transforms m (.ok md) ∧ m' d.output.address = md d.output.address := by
  have hf : RaceFree (ds.map fun d => [.transform d]) := by
    have := C107_disjoint hw (ts := ds.map fun d => (d, [.transform d])) ?_ ?_
    · simpa [List.map_map, Function.comp_def] using this
    · intro q hq
      obtain ⟨d, hd', rfl⟩ := List.mem_map.1 hq
      refine ⟨(hd d hd').1, fun a ha => ?_⟩
      simp only [List.mem_singleton] at ha
      subst ha; rfl
    · rw [List.pairwise_map]
      refine (List.Pairwise.and_mem.1 hds).imp ?_
      rintro d d' ⟨h1, h2, h3⟩
      exact C107_owners hw (hd d h1).1 (hd d' h2).1 (hd d h1).2 (hd d' h2).2 h3
  obtain ⟨h1, h2⟩ := C107_plans hw hs (ts := ds.map fun d => [.transform d]) (fun t ht a ha => by
    obtain ⟨d, hd', rfl⟩ := List.mem_map.1 ht
    simp only [List.mem_singleton] at ha
    subst ha; exact (hd d hd').1) hf
  refine ⟨h1, fun r hr => ?_⟩
  obtain ⟨m', e, h3, h4⟩ := h2 r hr
  refine ⟨m', e, h3, fun d hd' => ?_⟩
  obtain ⟨mt, r1, r2⟩ := h4 [.transform d] (List.mem_map.2 ⟨d, hd', rfl⟩)
  cases r1 with
  | next r1 r3 =>
    cases r3
    refine ⟨mt, r1, r2 _ ⟨.transform d, by simp, .inr ?_⟩⟩
    rw [Action.writes, ← (workspace_ready hw d (hd d hd').1).ports.2]
    simp

/-- **C107**: exactly when two plans can be executed in parallel. -/
theorem C107_two {ps : List DftPlan} {m : Memory} (hw : Workspace ps m) (hs : ∀ d ∈ ps, Supported d.shape) {d d' : DftPlan}
    (hd : d ∈ ps) (hd' : d' ∈ ps) :
    (Parallel [[.transform d], [.transform d']] m (.error .ub) ↔ SharesBuffer d d') ∧
      ((∃ m', Parallel [[.transform d], [.transform d']] m (.ok m')) ↔ ¬ SharesBuffer d d') := by
  have hr := (workspace_ready hw d hd).ports
  have hr' := (workspace_ready hw d' hd').ports
  have hf : RaceFree [[.transform d], [.transform d']] ↔ ¬ SharesBuffer d d' := by
    simp only [RaceFree, List.pairwise_cons, forall_eq, List.not_mem_nil, false_imp_iff, implies_true,
      List.Pairwise.nil, and_true, Action.Conflict, Action.planner, Action.writes, Action.reads, List.mem_cons, or_false,
      false_or, hr.1, hr.2, hr'.1, hr'.2, SharesBuffer, Bool.false_eq_true, false_and]
    constructor
    · rintro h ⟨x, h1, h2⟩; exact h (.inl ⟨x, h1, h2⟩)
    · rintro h (⟨x, h1, h2⟩ | ⟨x, h1, h2⟩)
      · exact h ⟨x, h1, h2⟩
      · exact h ⟨x, h2, h1⟩
  have ha : ∀ t ∈ [[Action.transform d], [Action.transform d']], ∀ a ∈ t, OnPlans ps a := by
    simp only [List.mem_cons, List.not_mem_nil, or_false, forall_eq_or_imp, forall_eq]
    exact ⟨hd, hd'⟩
  by_cases h : SharesBuffer d d'
  · have hn : ¬ RaceFree [[Action.transform d], [Action.transform d']] := fun h' => hf.1 h' h
    refine ⟨⟨fun _ => h, fun _ => .inr ⟨hn, rfl⟩⟩, ⟨?_, fun h' => absurd h h'⟩⟩
    rintro ⟨m', hp⟩
    rcases hp with hp | ⟨_, hp⟩
    · exact absurd hp.1 hn
    · cases hp
  · obtain ⟨h1, h2⟩ := C107_plans hw hs ha (hf.2 h)
    refine ⟨⟨fun hp => ?_, fun h' => absurd h' h⟩, ⟨fun _ => h, fun _ => h1⟩⟩
    obtain ⟨_, e, _⟩ := h2 _ hp
    cases e

/-- **C107**: a plan and its inverse cannot be executed in parallel. -/
theorem C107_inverse {ps : List DftPlan} {m m' : Memory} {d i : DftPlan} (hw : Workspace ps m) (hd : d ∈ ps)
    (hi : d.Inverts m i m') (r : Res Memory) : Parallel [[.transform d], [.transform i]] m' r ↔ r = .error .ub := by
  have hw' := hw.invert hd hi
  have hr := (workspace_ready hw' d (by simp [hd])).ports
  have hr' := (workspace_ready hw' i (by simp)).ports
  have he : i.input.address = d.output.address := by
    unfold DftPlan.Inverts at hi
    cases hi with
    | mk h1 h2 h3 => cases h1; rfl
  have hn : ¬ RaceFree [[Action.transform d], [Action.transform i]] := by
    intro h
    refine List.rel_of_pairwise_cons h (a' := [.transform i]) (by simp) (.transform d) (by simp) (.transform i) (by simp) ?_
    refine .inr (.inl ⟨d.output.address, ?_, .inr ?_⟩)
    · simp [Action.writes, hr.2]
    · simp [Action.writes, hr'.1, he]
  simp [Parallel, hn]

/-- **C107**: a plan and a plan which is composed with it cannot be executed in parallel. -/
theorem C107_compose {ps : List DftPlan} {m m' : Memory} {d c : DftPlan} {t : Transform} {shape : Position} (hw : Workspace ps m)
    (hd : d ∈ ps) (ht : t.inReal = d.transform.outReal) (hs : t.inShape shape = d.output.shape) (hc : d.Composes t shape m c m')
    (r : Res Memory) : Parallel [[.transform d], [.transform c]] m' r ↔ r = .error .ub := by
  have hw' := hw.compose hd ht hs hc
  have hr := (workspace_ready hw' d (by simp [hd])).ports
  have hr' := (workspace_ready hw' c (by simp)).ports
  have he : c.input.address = d.output.address := by
    unfold DftPlan.Composes at hc
    cases hc with
    | mk h1 h2 h3 => cases h1; rfl
  have hn : ¬ RaceFree [[Action.transform d], [Action.transform c]] := by
    intro h
    refine List.rel_of_pairwise_cons h (a' := [.transform c]) (by simp) (.transform d) (by simp) (.transform c) (by simp) ?_
    refine .inr (.inl ⟨d.output.address, ?_, .inr ?_⟩)
    · simp [Action.writes, hr.2]
    · simp [Action.writes, hr'.1, he]
  simp [Parallel, hn]

/-- **C107**: a plan cannot be executed by two threads in parallel. -/
theorem C107_same (d : DftPlan) (m : Memory) (r : Res Memory) :
    Parallel [[.transform d], [.transform d]] m r ↔ r = .error .ub := by
  have hn : ¬ RaceFree [[Action.transform d], [Action.transform d]] := by
    intro h
    refine List.rel_of_pairwise_cons h (a' := [.transform d]) (by simp) (.transform d) (by simp) (.transform d) (by simp) ?_
    exact .inr (.inl ⟨d.plan.input, by simp [Action.writes], .inr (by simp [Action.writes])⟩)
  simp [Parallel, hn]

/-- **C107**: as they construct plans, the functions cannot be called by two threads in parallel, even if the rasters are distinct. -/
theorem C107_functions (t t' : Transform) (shape shape' : Position) (i o i' o' : Nat) (m : Memory) (r : Res Memory) :
    Parallel [[.function t shape i o], [.function t' shape' i' o']] m r ↔ r = .error .ub := by
  have hn : ¬ RaceFree [[Action.function t shape i o], [Action.function t' shape' i' o']] := by
    intro h
    exact List.rel_of_pairwise_cons h (a' := [.function t' shape' i' o']) (by simp)
      (.function t shape i o) (by simp) (.function t' shape' i' o') (by simp) (.inl ⟨rfl, rfl⟩)
  simp [Parallel, hn]

/-- **C107**: one of the threads can call the functions while others use plans, provided that they do not use the same memory. -/
theorem C107_function_plans {t : Transform} {shape : Position} {i o : Nat} {ts : List Thread} (hf : RaceFree ts)
    (hp : ∀ u ∈ ts, ∀ a ∈ u, a.planner = false ∧ i ∉ a.writes ∧ o ∉ a.writes ∧ o ∉ a.reads) (n : Nat) :
    RaceFree (List.replicate n (.function t shape i o) :: ts) := by
  refine List.pairwise_cons.2 ⟨fun u hu a ha b hb hc => ?_, hf⟩
  obtain rfl := List.eq_of_mem_replicate ha
  obtain ⟨h1, h2, h3, h4⟩ := hp u hu b hb
  rcases hc with ⟨_, hc⟩ | ⟨x, hx, hx'⟩ | ⟨x, hx, hx'⟩
  · rw [h1] at hc; cases hc
  · simp only [Action.writes, List.mem_singleton] at hx
    subst hx
    rcases hx' with h | h
    · exact h4 h
    · exact h3 h
  · simp only [Action.writes, Action.reads, List.mem_singleton] at hx'
    rcases hx' with rfl | rfl
    · exact h2 hx
    · exact h3 hx

/-! ## C107: round trips in parallel -/

/-- A round trip: `d.in() = x`, `d.transform()`, `i.transform().normalize()`. -/
def roundTrip (d i : DftPlan) (x : Values) : Thread := [.fill d x, .transform d, .transform i, .normalize i]

theorem runs_roundTrip {ps : List DftPlan} {m m' : Memory} {d i : DftPlan} {x : Values} (hw : ∀ e ∈ ps, Ready m e)
    (hs : Supported d.shape) (hd : d ∈ ps) (hi : i ∈ ps) (hdi : d.transform.inverted = false)
    (ht : i.transform = d.transform.inverse) (hsh : i.shape = d.shape)
    (hx : x.isReal = d.transform.inReal ∧ (x.length : Int) = shapeSize (d.transform.inShape d.shape))
    (h1 : i.input.address = d.output.address) (hr : Runs (roundTrip d i x) m (.ok m')) : m' i.output.address = some x := by
  have hii : i.transform.inverted = true := by rw [ht, Transform.inverse, hdi]; rfl
  have hreal : i.transform.real = d.transform.real := by rw [ht]; rfl
  cases hr with
  | next hf hr =>
    rename_i m₁
    cases hr with
    | next htd hr =>
      rename_i m₂
      cases hr with
      | next hti hr =>
        rename_i m₃
        cases hr with
        | next hn hr =>
          cases hr
          have k1 : Keeps m m₁ := keeps_does (ps := ps) (a := .fill d x) ⟨hd, hx⟩ hf
          have k2 : Keeps m₁ m₂ := keeps_executes htd
          have r1 : Ready m₁ d := (hw d hd).keeps k1
          have r2 : Ready m₂ i := ((hw i hi).keeps k1).keeps k2
          obtain ⟨a, b, ea, eb, p1, p2⟩ := r1.on
          obtain ⟨a', b', ea', eb', q1, q2⟩ := r2.on
          rcases hf with ⟨_, ⟨v, _, _, rfl⟩, e⟩ | ⟨_, e⟩
          swap
          · cases e
          cases e
          obtain ⟨y, y1, x1, x2, _, hy⟩ := spectrum_of_direct p1 p2 hs hdi (Memory.set_same _ _ _) htd
          obtain ⟨m₄, hn', ho⟩ := inverse_of_spectrum (x := x) (y := y) q1 q2 (by rw [hsh]; exact hs) hii (by rw [h1]; exact y1)
            (by rw [x1, hreal]) (by rw [hsh]; exact x2) (by rw [hsh]; exact hy) hti
          change .ok m' = i.normalize m₃ at hn
          rw [hn'] at hn
          cases hn
          exact ho

/-- **C107**: round trips of several plans, which own their buffers, and their inverses, in as many threads, give back the signals. -/
theorem C107_round_trips {ps : List DftPlan} {m : Memory} (hw : Workspace ps m) (hs : ∀ d ∈ ps, Supported d.shape)
    {qs : List (DftPlan × DftPlan × Values)} (hn : (qs.map Prod.fst).Nodup)
    (hq : ∀ d i x, (d, i, x) ∈ qs → d ∈ ps ∧ i ∈ ps ∧ d.transform.inverted = false ∧
      (d.input.owns = true ∧ d.output.owns = true) ∧ (x.isReal = d.transform.inReal ∧
        (x.length : Int) = shapeSize (d.transform.inShape d.shape)) ∧ ∃ n n', d.Inverts n i n') :
    (∃ m', Parallel (qs.map fun q => roundTrip q.1 q.2.1 q.2.2) m (.ok m')) ∧
      ∀ r, Parallel (qs.map fun q => roundTrip q.1 q.2.1 q.2.2) m r → ∃ m', r = .ok m' ∧
        ∀ d i x, (d, i, x) ∈ qs → m' i.output.address = some x := by
  have hrd := workspace_ready hw
  have inv : ∀ {d i : DftPlan} {n n' : Memory}, d.Inverts n i n' → i.input.address = d.output.address ∧
      i.output.address = d.input.address ∧ i.transform = d.transform.inverse ∧ i.shape = d.shape := by
    intro d i n n' h
    unfold DftPlan.Inverts at h
    cases h with
    | mk h1 h2 h3 => cases h1; cases h2; exact ⟨rfl, rfl, rfl, rfl⟩
  have hbuf : ∀ d i x, (d, i, x) ∈ qs → ∀ a ∈ roundTrip d i x, OnPlans ps a ∧ a.reads = [] ∧ a.planner = false ∧
      ∀ y ∈ a.writes, y = d.input.address ∨ y = d.output.address := by
    intro d i x h a ha
    obtain ⟨hd, hi, _, _, hx, n, n', hinv⟩ := hq d i x h
    obtain ⟨e1, e2, _⟩ := inv hinv
    have p1 := (hrd d hd).ports
    have p2 := (hrd i hi).ports
    simp only [roundTrip, List.mem_cons, List.not_mem_nil, or_false] at ha
    rcases ha with rfl | rfl | rfl | rfl
    · refine ⟨⟨hd, hx⟩, rfl, rfl, fun y hy => .inl (by simpa [Action.writes] using hy)⟩
    · refine ⟨hd, rfl, rfl, fun y hy => by simpa [Action.writes, p1.1, p1.2] using hy⟩
    · refine ⟨hi, rfl, rfl, fun y hy => ?_⟩
      simp only [Action.writes, p2.1, p2.2, e1, e2, List.mem_cons, List.not_mem_nil, or_false] at hy
      exact hy.symm
    · refine ⟨hi, rfl, rfl, fun y hy => .inl ?_⟩
      simpa [Action.writes, e2] using hy
  have hf : RaceFree (qs.map fun q => roundTrip q.1 q.2.1 q.2.2) := by
    unfold RaceFree
    rw [List.pairwise_map]
    have hn' : qs.Pairwise fun q q' => q.1 ≠ q'.1 := by
      have := hn
      unfold List.Nodup at this
      rwa [List.pairwise_map] at this
    refine (List.Pairwise.and_mem.1 hn').imp ?_
    rintro ⟨d, i, x⟩ ⟨d', i', x'⟩ ⟨hm, hm', hne⟩ a ha b hb hc
    obtain ⟨_, a1, a2, a3⟩ := hbuf d i x hm a ha
    obtain ⟨_, b1, b2, b3⟩ := hbuf d' i' x' hm' b hb
    have hsh := C107_owners hw (hq d i x hm).1 (hq d' i' x' hm').1 (hq d i x hm).2.2.2.1 (hq d' i' x' hm').2.2.2.1 hne
    rcases hc with ⟨hc, _⟩ | ⟨y, h1, h2⟩ | ⟨y, h1, h2⟩
    · rw [a2] at hc; cases hc
    · rw [b1] at h2
      rcases h2 with h2 | h2
      · cases h2
      · exact hsh ⟨y, a3 y h1, b3 y h2⟩
    · rw [a1] at h2
      rcases h2 with h2 | h2
      · cases h2
      · exact hsh ⟨y, a3 y h2, b3 y h1⟩
  obtain ⟨h1, h2⟩ := C107_plans hw hs (ts := qs.map fun q => roundTrip q.1 q.2.1 q.2.2) (fun t ht a ha => by
    obtain ⟨⟨d, i, x⟩, hm, rfl⟩ := List.mem_map.1 ht
    exact (hbuf d i x hm a ha).1) hf
  refine ⟨h1, fun r hr => ?_⟩
  obtain ⟨m', e, _, h4⟩ := h2 r hr
  refine ⟨m', e, fun d i x hm => ?_⟩
  obtain ⟨mt, r1, r2⟩ := h4 (roundTrip d i x) (List.mem_map.2 ⟨(d, i, x), hm, rfl⟩)
  obtain ⟨hd, hi, hdi, _, hx, n, n', hinv⟩ := hq d i x hm
  obtain ⟨e1, e2, e3, e4⟩ := inv hinv
  rw [r2 i.output.address ⟨.normalize i, by simp [roundTrip], .inr (by simp [Action.writes])⟩]
  exact runs_roundTrip hrd (hs d hd) hd hi hdi e3 e4 hx e1 r1

/-! ## Examples -/

/-- Plans can be constructed as long as there is free memory. -/
theorem constructs_more (t : Transform) {shape : Position} (h : Supported shape) {m : Memory} {N : Nat}
    (hN : ∀ a, N ≤ a → m a = none) : ∃ d m', DftPlan.Constructs t shape none none m d m' ∧ ∀ a, N + 2 ≤ a → m' a = none := by
  have mk : ∀ (real : Bool) (n : Int), 0 ≤ n → ∃ v : Values, v.isReal = real ∧ (v.length : Int) = n := by
    intro real n hn
    cases real
    · exact ⟨.complex (List.replicate n.toNat 0), rfl, by simp [Values.length, hn]⟩
    · exact ⟨.real (List.replicate n.toNat 0), rfl, by simp [Values.length, hn]⟩
  obtain ⟨v, v1, v2⟩ := mk t.inReal _ (shapeSize_nonneg h t).1
  obtain ⟨w, w1, w2⟩ := mk t.outReal _ (shapeSize_nonneg h t).2
  have h1 : N + 1 ≠ N := by omega
  refine ⟨_, _, .mk (.own (a := N) (hN N le_rfl) v1 v2) (.own (a := N + 1) ?_ w1 w2) (.mk (v := v) (w := w) ?_ ?_
    (garbage_refl _) (garbage_refl _)), fun a ha => ?_⟩
  · rw [Memory.set_ne _ h1]; exact hN _ (by omega)
  · simp [Memory.set, allocateFftwPlan]
  · simp [Memory.set, allocateFftwPlan]
  · have e1 : a ≠ N := by omega
    have e2 : a ≠ N + 1 := by omega
    simp only [allocateFftwPlan]
    rw [Memory.set_ne _ e2, Memory.set_ne _ e1, Memory.set_ne _ e2, Memory.set_ne _ e1]
    exact hN _ (by omega)

/-- Inverse plans can be constructed. -/
theorem inverts_more {d : DftPlan} {m : Memory} (h : Ready m d) : ∃ i m', d.Inverts m i m' := by
  obtain ⟨v, hv, _⟩ := h.output
  obtain ⟨w, hw, _⟩ := h.input
  exact ⟨_, _, .mk .share .share (.mk hv hw (garbage_refl v) (garbage_refl w))⟩

theorem inverts_fields {d i : DftPlan} {m m' : Memory} (h : d.Inverts m i m') :
    i.shape = d.shape ∧ i.transform = d.transform.inverse := by
  unfold DftPlan.Inverts at h
  cases h
  exact ⟨rfl, rfl⟩

/-- A real plan of 4 × 3 pixels and a complex one of 5 × 2 pixels, and their inverses. -/
theorem example_workspace : ∃ d₁ i₁ d₂ i₂ m, Workspace [i₂, i₁, d₂, d₁] m ∧ (∀ d ∈ [i₂, i₁, d₂, d₁], Supported d.shape) ∧
    (d₁.shape = [4, 3] ∧ d₁.transform = ⟨true, false⟩ ∧ d₁.input.owns = true ∧ d₁.output.owns = true ∧
      ∃ n n', d₁.Inverts n i₁ n') ∧
    d₂.shape = [5, 2] ∧ d₂.transform = ⟨false, false⟩ ∧ d₂.input.owns = true ∧ d₂.output.owns = true ∧
      ∃ n n', d₂.Inverts n i₂ n' := by
  have sup : Supported [5, 2] := ⟨by simp, by intro s hs; simp at hs; omega, by intro s hs; simp at hs; omega⟩
  obtain ⟨d₁, m₁, c₁, f₁⟩ := constructs_more ⟨true, false⟩ example_supported (m := fun _ => none) (N := 0) (fun _ _ => rfl)
  obtain ⟨d₂, m₂, c₂, f₂⟩ := constructs_more ⟨false, false⟩ sup f₁
  have w₁ := (Workspace.empty.construct c₁).construct c₂
  obtain ⟨i₁, m₃, v₁⟩ := inverts_more (workspace_ready w₁ d₁ (by simp))
  have w₂ := w₁.invert (by simp) v₁
  obtain ⟨i₂, m₄, v₂⟩ := inverts_more (workspace_ready w₂ d₂ (by simp))
  have w₃ := w₂.invert (by simp) v₂
  have a₁ := C52_construct c₁
  have a₂ := C52_construct c₂
  have s₁ : d₁.shape = [4, 3] := a₁.1
  have s₂ : d₂.shape = [5, 2] := a₂.1
  refine ⟨d₁, i₁, d₂, i₂, m₄, w₃, ?_, ⟨s₁, (constructs_none c₁).1, a₁.2.2.2.2.2.2.2.2.1, a₁.2.2.2.2.2.2.2.2.2, _, _, v₁⟩, s₂,
    (constructs_none c₂).1, a₂.2.2.2.2.2.2.2.2.1, a₂.2.2.2.2.2.2.2.2.2, _, _, v₂⟩
  simp only [List.mem_cons, List.not_mem_nil, or_false, forall_eq_or_imp, forall_eq]
  rw [(inverts_fields v₁).1, (inverts_fields v₂).1, s₁, s₂]
  exact ⟨sup, example_supported, sup, example_supported⟩

/-- Two round trips in parallel, of different signals. -/
example : ∃ d₁ i₁ d₂ i₂ m m', Workspace [i₂, i₁, d₂, d₁] m ∧
    Parallel [roundTrip d₁ i₁ (.real [0, 1, 2, 3, 4, 5, 6, 7, 8, 9, 10, 11]),
      roundTrip d₂ i₂ (.complex (List.replicate 10 Complex.I))] m (.ok m') ∧
    m' i₁.output.address = some (.real [0, 1, 2, 3, 4, 5, 6, 7, 8, 9, 10, 11]) ∧
    m' i₂.output.address = some (.complex (List.replicate 10 Complex.I)) := by
  obtain ⟨d₁, i₁, d₂, i₂, m, hw, hs, ⟨s₁, t₁, o₁, o₁', v₁⟩, s₂, t₂, o₂, o₂', v₂⟩ := example_workspace
  have key := C107_round_trips hw hs (qs := [(d₁, i₁, .real [0, 1, 2, 3, 4, 5, 6, 7, 8, 9, 10, 11]),
    (d₂, i₂, .complex (List.replicate 10 Complex.I))]) ?_ ?_
  · obtain ⟨⟨m', h1⟩, h2⟩ := key
    obtain ⟨_, e, h3⟩ := h2 _ h1
    cases e
    exact ⟨d₁, i₁, d₂, i₂, m, m', hw, h1, h3 d₁ i₁ _ (by simp), h3 d₂ i₂ _ (by simp)⟩
  · have hne : d₁ ≠ d₂ := by rintro rfl; rw [t₁] at t₂; cases t₂
    simp [hne]
  · intro d i x h
    simp only [List.mem_cons, List.not_mem_nil, or_false, Prod.mk.injEq] at h
    rcases h with ⟨rfl, rfl, rfl⟩ | ⟨rfl, rfl, rfl⟩
    · refine ⟨by simp, by simp, by rw [t₁], ⟨o₁, o₁'⟩, ?_, v₁⟩
      rw [t₁, s₁]
      exact ⟨rfl, rfl⟩
    · refine ⟨by simp, by simp, by rw [t₂], ⟨o₂, o₂'⟩, ?_, v₂⟩
      rw [t₂, s₂]
      exact ⟨rfl, by simp only [Values.length, List.length_replicate]; rfl⟩

/-- Both plans can be executed in parallel: they share no buffer. -/
example : ∃ d₁ i₁ d₂ i₂ m, Workspace [i₂, i₁, d₂, d₁] m ∧ ¬ SharesBuffer d₁ d₂ ∧ SharesBuffer d₁ i₁ ∧
    RaceFree [[.transform d₁], [.fill d₂ (.complex []), .transform d₂]] := by
  obtain ⟨d₁, i₁, d₂, i₂, m, hw, hs, ⟨s₁, t₁, o₁, o₁', n, n', v₁⟩, s₂, t₂, o₂, o₂', _⟩ := example_workspace
  have hne : d₁ ≠ d₂ := by rintro rfl; rw [t₁] at t₂; cases t₂
  have hn := C107_owners hw (d := d₁) (d' := d₂) (by simp) (by simp) ⟨o₁, o₁'⟩ ⟨o₂, o₂'⟩ hne
  refine ⟨d₁, i₁, d₂, i₂, m, hw, hn, ?_, ?_⟩
  · unfold DftPlan.Inverts at v₁
    cases v₁ with
    | mk h1 h2 h3 => cases h1; exact ⟨_, .inr rfl, .inl rfl⟩
  · refine C107_disjoint hw (ts := [(d₁, [.transform d₁]), (d₂, [.fill d₂ (.complex []), .transform d₂])]) ?_ (by simp [hn])
    simp [Action.Of]

/-- A composition: the real spectrum of 4 × 3 pixels, of 3 × 3 coefficients, is in turn transformed. -/
example : ∃ d c m m' m'', Workspace [d] m ∧ d.Composes ⟨false, false⟩ [3, 3] m c m' ∧
    (∀ r, Parallel [[.transform d], [.transform c]] m' r ↔ r = .error .ub) ∧ Parallel [[.transform d, .transform c]] m' (.ok m'') := by
  obtain ⟨d, m, hc, hm⟩ := constructs_more ⟨true, false⟩ example_supported (m := fun _ => none) (N := 0) (fun _ _ => rfl)
  have hw := Workspace.empty.construct hc
  have hr := workspace_ready hw d (by simp)
  have hsh : d.shape = [4, 3] := (C52_construct hc).1
  have ht : d.transform = ⟨true, false⟩ := (constructs_none hc).1
  obtain ⟨v, hv, _⟩ := hr.output
  have hcp : ∃ c m', d.Composes ⟨false, false⟩ [3, 3] m c m' := by
    have hne : d.output.address ≠ 2 := by
      intro h; rw [h, hm 2 (by omega)] at hv; cases hv
    refine ⟨_, _, .mk .share (.own (a := 2) (v := .complex (List.replicate 9 0)) (hm 2 (by omega)) rfl ?_) (.mk (v := v) (w := .complex (List.replicate 9 0)) ?_ ?_
      (garbage_refl _) (garbage_refl _))⟩
    · simp only [Values.length, List.length_replicate]; rfl
    · change (m.set 2 _) d.output.address = _; rw [Memory.set_ne _ hne]; exact hv
    · exact Memory.set_same _ _ _
  obtain ⟨c, m', hcp⟩ := hcp
  have h1 : (⟨false, false⟩ : Transform).inReal = d.transform.outReal := by rw [ht]; rfl
  have h2 : (⟨false, false⟩ : Transform).inShape [3, 3] = d.output.shape := by rw [hr.outShape, hsh, ht]; rfl
  have hw' := hw.compose (by simp) h1 h2 hcp
  have hsup : ∀ e ∈ [c, d], Supported e.shape := by
    have : c.shape = [3, 3] := by
      have h := hcp
      unfold DftPlan.Composes at h
      cases h; rfl
    simp only [List.mem_cons, List.not_mem_nil, or_false, forall_eq_or_imp, forall_eq]
    rw [this, hsh]
    exact ⟨⟨by simp, by intro s hs; simp at hs; omega, by intro s hs; simp at hs; omega⟩, example_supported⟩
  obtain ⟨⟨m'', h3⟩, _⟩ := C107_plans hw' hsup (ts := [[.transform d, .transform c]]) (by
    simp only [List.mem_cons, List.not_mem_nil, or_false, forall_eq, forall_eq_or_imp]
    exact ⟨by simp [OnPlans], by simp [OnPlans]⟩) (by simp [RaceFree])
  exact ⟨d, c, m, m', m'', hw, hcp, C107_compose hw (by simp) h1 h2 hcp, h3⟩

/-- One thread calls a function while another one executes a plan. -/
example (d : DftPlan) (h : d.plan.input = 0 ∧ d.plan.output = 1) :
    RaceFree (List.replicate 3 (.function ⟨true, false⟩ [4, 3] 2 3) :: [[.transform d]]) :=
  C107_function_plans (by simp [RaceFree]) (by simp [Action.planner, Action.writes, Action.reads, h.1, h.2]) 3

/-- **C107** does not hold: plans share buffers with their inverses. -/
theorem C107_violated : ¬ C107_Statement := by
  intro h
  obtain ⟨d, m, hc, _⟩ := constructs_more ⟨true, false⟩ example_supported (m := fun _ => none) (N := 0) (fun _ _ => rfl)
  have hw := Workspace.empty.construct hc
  obtain ⟨i, m', hi⟩ := inverts_more (workspace_ready hw d (by simp))
  obtain ⟨e1, e2⟩ := inverts_fields hi
  have hsh : d.shape = [4, 3] := (C52_construct hc).1
  have hs : ∀ e ∈ [i, d], Supported e.shape := by
    simp only [List.mem_cons, List.not_mem_nil, or_false, forall_eq_or_imp, forall_eq]
    rw [e1, hsh]
    exact ⟨example_supported, example_supported⟩
  refine h _ _ (hw.invert (by simp) hi) hs d (by simp) i (by simp) ?_ ((C107_inverse hw (by simp) hi _).2 rfl)
  rintro rfl
  rw [(constructs_none hc).1] at e2
  simp [Transform.inverse] at e2

end Litl
