import Verif.Model.DftThreads
import Verif.Lemmas.DftPlan
import Mathlib.Data.List.Pairwise

/-!
# Lemmas on Fourier transforms in several threads
-/

namespace Litl.DftThreads

/-- The memory which a thread accesses. -/
def Uses (t : Thread) (x : Nat) : Prop := ∃ a ∈ t, x ∈ a.reads ∨ x ∈ a.writes

/-- The memory which a thread modifies. -/
def Modifies (t : Thread) (x : Nat) : Prop := ∃ a ∈ t, x ∈ a.writes

/-- No data race between two threads. -/
def Compatible (s t : Thread) : Prop := ∀ a ∈ s, ∀ b ∈ t, ¬ a.Conflict b

theorem conflict_comm {a b : Action} (h : a.Conflict b) : b.Conflict a := by
  rcases h with ⟨h, h'⟩ | h | h
  · exact .inl ⟨h', h⟩
  · exact .inr (.inr h)
  · exact .inr (.inl h)

theorem compatible_comm {s t : Thread} (h : Compatible s t) : Compatible t s :=
  fun a ha b hb hc => h b hb a ha (conflict_comm hc)

theorem not_uses_of_modifies {s t : Thread} (h : Compatible s t) {x : Nat} (hx : Modifies s x) : ¬ Uses t x := by
  obtain ⟨a, ha, hxa⟩ := hx
  rintro ⟨b, hb, hxb⟩
  exact h a ha b hb (.inr (.inl ⟨x, hxa, hxb⟩))

theorem Modifies.uses {t : Thread} {x : Nat} (h : Modifies t x) : Uses t x := by
  obtain ⟨a, ha, hx⟩ := h
  exact ⟨a, ha, .inr hx⟩

/-- A memory access at two addresses. -/
theorem set_agree {m n : Memory} {x : Nat} (h : n x = m x) (c : Nat) (v : Values) : (n.set c v) x = (m.set c v) x := by
  by_cases hx : x = c
  · subst hx; rw [Memory.set_same, Memory.set_same]
  · rw [Memory.set_ne _ hx, Memory.set_ne _ hx, h]

/-- An action depends on what it accesses only, and changes what it writes only. -/
theorem does_local {a : Action} {m n m' : Memory} (h : a.Does m (.ok m'))
    (hn : ∀ x, x ∈ a.reads ∨ x ∈ a.writes → n x = m x) :
    ∃ n', a.Does n (.ok n') ∧ (∀ x, n x = m x → n' x = m' x) ∧ ∀ x, x ∉ a.writes → n' x = n x := by
  cases a with
  | transform d =>
    have hi : n d.plan.input = m d.plan.input := hn _ (by simp [Action.writes])
    have ho : n d.plan.output = m d.plan.output := hn _ (by simp [Action.writes])
    have frame : ∀ (v w : Values) (x : Nat), x ∉ (Action.transform d).writes →
        ((n.set d.plan.input v).set d.plan.output w) x = n x := by
      intro v w x hx
      simp only [Action.writes, List.mem_cons, List.not_mem_nil, or_false, not_or] at hx
      rw [Memory.set_ne _ hx.2, Memory.set_ne _ hx.1]
    change Fftw.Executes d.plan m (.ok m') at h
    cases h with
    | c2c e1 e2 e3 e4 e5 e6 e7 e8 =>
      exact ⟨_, Fftw.Executes.c2c e1 (hi.trans e2) (ho.trans e3) e4 e5 e6 e7 e8,
        fun x hx => set_agree (set_agree hx _ _) _ _, frame _ _⟩
    | r2c e1 e1' e2 e3 e4 e5 e6 e7 e8 =>
      exact ⟨_, Fftw.Executes.r2c e1 e1' (hi.trans e2) (ho.trans e3) e4 e5 e6 e7 e8,
        fun x hx => set_agree (set_agree hx _ _) _ _, frame _ _⟩
    | c2r e1 e1' e2 e3 e4 e5 e6 e7 e8 =>
      exact ⟨_, Fftw.Executes.c2r e1 e1' (hi.trans e2) (ho.trans e3) e4 e5 e6 e7 e8,
        fun x hx => set_agree (set_agree hx _ _) _ _, frame _ _⟩
  | normalize d =>
    have ho : n d.output.address = m d.output.address := hn _ (by simp [Action.writes])
    change .ok m' = d.normalize m at h
    unfold DftPlan.normalize at h
    split at h
    · cases h
    · rename_i v hv
      split at h
      · cases h
      · rename_i hl
        cases h
        refine ⟨n.set d.output.address _, ?_, fun x hx => set_agree hx _ _, ?_⟩
        · change _ = d.normalize n
          unfold DftPlan.normalize
          rw [ho.trans hv]
          dsimp only
          rw [if_neg hl]
        · intro x hx
          simp only [Action.writes, List.mem_singleton] at hx
          rw [Memory.set_ne _ hx]
  | fill d v =>
    have ho : n d.input.address = m d.input.address := hn _ (by simp [Action.writes])
    rcases h with ⟨m'', ⟨w, hw, hg, rfl⟩, e⟩ | ⟨_, e⟩
    · cases e
      refine ⟨n.set d.input.address v, .inl ⟨_, ⟨w, ho.trans hw, hg, rfl⟩, rfl⟩, fun x hx => set_agree hx _ _, ?_⟩
      intro x hx
      simp only [Action.writes, List.mem_singleton] at hx
      rw [Memory.set_ne _ hx]
    · cases e
  | function t shape i o =>
    have hi : n i = m i := hn _ (by simp [Action.reads])
    simp only [Action.Does] at h ⊢
    rw [hi]
    cases hv : m i with
    | none => rw [hv] at h; cases h
    | some v =>
      rw [hv] at h
      obtain ⟨q, hq, e⟩ := h
      cases q with
      | error e' => cases e
      | ok y =>
        cases e
        refine ⟨n.set o y.2, ⟨_, hq, rfl⟩, fun x hx => set_agree hx _ _, ?_⟩
        intro x hx
        simp only [Action.writes, List.mem_singleton] at hx
        rw [Memory.set_ne _ hx]

theorem does_frame {a : Action} {m m' : Memory} (h : a.Does m (.ok m')) {x : Nat} (hx : x ∉ a.writes) : m' x = m x := by
  obtain ⟨n', _, h2, h3⟩ := does_local (n := m) h (fun _ _ => rfl)
  rw [← h2 x rfl, h3 x hx]

/-- Failures depend on what is accessed only. -/
theorem does_local_error {a : Action} {m n : Memory} {e : Fail} (h : a.Does m (.error e))
    (hn : ∀ x, x ∈ a.reads ∨ x ∈ a.writes → n x = m x) : a.Does n (.error e) := by
  cases a with
  | transform d =>
    have hi : n d.plan.input = m d.plan.input := hn _ (by simp [Action.writes])
    have ho : n d.plan.output = m d.plan.output := hn _ (by simp [Action.writes])
    change Fftw.Executes d.plan m (.error e) at h
    change Fftw.Executes d.plan n (.error e)
    cases h with
    | input h => exact .input (by rw [hi]; exact h)
    | output h => exact .output (by rw [ho]; exact h)
  | normalize d =>
    have ho : n d.output.address = m d.output.address := hn _ (by simp [Action.writes])
    change .error e = d.normalize m at h
    change .error e = d.normalize n
    unfold DftPlan.normalize at h ⊢
    rw [ho]
    cases hv : m d.output.address with
    | none => rw [hv] at h; exact h
    | some v =>
      rw [hv] at h
      dsimp only at h ⊢
      split at h
      · rename_i hl; rw [if_pos hl]; exact h
      · cases h
  | fill d v =>
    have ho : n d.input.address = m d.input.address := hn _ (by simp [Action.writes])
    rcases h with ⟨m'', _, e⟩ | ⟨h, e⟩
    · cases e
    · refine .inr ⟨?_, e⟩
      rintro ⟨_, w, hw, hg, _⟩
      exact h ⟨_, w, ho.symm.trans hw, hg, rfl⟩
  | function t shape i o =>
    have hi : n i = m i := hn _ (by simp [Action.reads])
    simp only [Action.Does] at h ⊢
    rw [hi]
    cases hv : m i with
    | none => rw [hv] at h; exact h
    | some v =>
      rw [hv] at h
      obtain ⟨q, hq, e⟩ := h
      cases q with
      | ok y => cases e
      | error e' => exact ⟨_, hq, e⟩

/-- A thread depends on what it accesses only, and changes what it writes only. -/
theorem runs_local {t : Thread} {m m' : Memory} {r : Res Memory} (h : Runs t m r) (hr : r = .ok m') : ∀ {n : Memory},
    (∀ x, Uses t x → n x = m x) →
    ∃ n', Runs t n (.ok n') ∧ (∀ x, n x = m x → n' x = m' x) ∧ ∀ x, ¬ Modifies t x → n' x = n x := by
  induction h with
  | nil => intro n _; cases hr; exact ⟨n, .nil, fun _ h => h, fun _ _ => rfl⟩
  | fail => cases hr
  | next ha _ ih =>
    rename_i a t m m₁ r _
    intro n hn
    obtain ⟨n₁, a1, a2, a3⟩ := does_local (n := n) ha fun x hx => hn x ⟨a, by simp, hx⟩
    obtain ⟨n', b1, b2, b3⟩ := ih hr (n := n₁) fun x ⟨b, hb, hx⟩ => a2 x (hn x ⟨b, by simp [hb], hx⟩)
    refine ⟨n', .next a1 b1, fun x hx => b2 x (a2 x hx), fun x hx => ?_⟩
    rw [b3 x fun ⟨b, hb, hx'⟩ => hx ⟨b, by simp [hb], hx'⟩, a3 x fun hx' => hx ⟨a, by simp, hx'⟩]

theorem runs_frame {t : Thread} {m m' : Memory} (h : Runs t m (.ok m')) {x : Nat} (hx : ¬ Modifies t x) : m' x = m x := by
  obtain ⟨n', _, h2, h3⟩ := runs_local h rfl (n := m) (fun _ _ => rfl)
  rw [← h2 x rfl, h3 x hx]

theorem runs_local_error {t : Thread} {m : Memory} {r : Res Memory} (h : Runs t m r) : ∀ {n : Memory} {e : Fail}, r = .error e →
    (∀ x, Uses t x → n x = m x) → Runs t n (.error e) := by
  induction h with
  | nil => intro n e hr; cases hr
  | fail ha =>
    rename_i a t m e'
    intro n e hr hn
    cases hr
    exact .fail (does_local_error ha fun x hx => hn x ⟨a, by simp, hx⟩)
  | next ha _ ih =>
    rename_i a t m m₁ r _
    intro n e hr hn
    obtain ⟨n₁, a1, a2, a3⟩ := does_local (n := n) ha fun x hx => hn x ⟨a, by simp, hx⟩
    exact .next a1 (ih (n := n₁) hr fun x ⟨b, hb, hx⟩ => a2 x (hn x ⟨b, by simp [hb], hx⟩))

/-! ## Interleavings -/

theorem raceFree_middle {pre post : List Thread} {t : Thread} :
    RaceFree (pre ++ t :: post) ↔ (∀ u ∈ pre ++ post, Compatible t u) ∧ RaceFree (pre ++ post) := by
  change List.Pairwise Compatible _ ↔ _ ∧ List.Pairwise Compatible _
  rw [List.pairwise_middle (R := Compatible) (fun h => compatible_comm h), List.pairwise_cons]

theorem compatible_tail {a : Action} {t u : Thread} (h : Compatible (a :: t) u) : Compatible t u :=
  fun b hb => h b (by simp [hb])

theorem compatible_head {a : Action} {t u : Thread} (h : Compatible (a :: t) u) : Compatible [a] u := by
  intro b hb
  simp only [List.mem_singleton] at hb
  subst hb
  exact h b (by simp)

theorem does_runs {a : Action} {m : Memory} {r : Res Memory} (h : a.Does m r) : Runs [a] m r := by
  cases r with
  | ok m' => exact .next h .nil
  | error e => exact .fail h

/-- What the parallel execution of threads does to the memory: each of them behaves as if it was alone. -/
def Isolated (ts : List Thread) (m m' : Memory) : Prop :=
  (∀ x, (∀ t ∈ ts, ¬ Modifies t x) → m' x = m x) ∧
    ∀ t ∈ ts, ∃ mt, Runs t m (.ok mt) ∧ ∀ x, Modifies t x → m' x = mt x

theorem interleaves_isolated {ts : List Thread} {m : Memory} {r : Res Memory} (h : Interleaves ts m r) :
    ∀ {m' : Memory}, r = .ok m' → RaceFree ts → Isolated ts m m' := by
  induction h with
  | done ht =>
    rename_i ts m
    intro m' hr _
    cases hr
    refine ⟨fun _ _ => rfl, fun t h => ?_⟩
    rw [ht t h]
    exact ⟨m, .nil, fun _ _ => rfl⟩
  | fail => intro m' hr; cases hr
  | next ha _ ih =>
    rename_i pre post a t m m₁ r _
    intro m' hr hf
    obtain ⟨f1, f2⟩ := raceFree_middle.1 hf
    obtain ⟨i1, i2⟩ := ih hr (raceFree_middle.2 ⟨fun u hu => compatible_tail (f1 u hu), f2⟩)
    have other : ∀ u ∈ pre ++ post, ∀ x, Uses u x → m₁ x = m x := by
      intro u hu x hx
      refine does_frame ha fun hxa => ?_
      exact not_uses_of_modifies (f1 u hu) (x := x) ⟨a, by simp, hxa⟩ hx
    refine ⟨fun x hx => ?_, fun u hu => ?_⟩
    · have hxa : x ∉ a.writes := fun h => hx (a :: t) (by simp) ⟨a, by simp, h⟩
      rw [i1 x ?_, does_frame ha hxa]
      intro u hu
      rcases List.mem_append.1 hu with hu | hu
      · exact hx u (by simp [hu])
      · rcases List.mem_cons.1 hu with rfl | hu
        · exact fun ⟨b, hb, hxb⟩ => hx (a :: u) (by simp) ⟨b, by simp [hb], hxb⟩
        · exact hx u (by simp [hu])
    · have cases' : u = a :: t ∨ u ∈ pre ++ post := by
        simp only [List.mem_append, List.mem_cons] at hu ⊢; tauto
      rcases cases' with rfl | hu'
      · obtain ⟨mt, r1, r2⟩ := i2 t (by simp)
        refine ⟨mt, .next ha r1, fun x hx => ?_⟩
        by_cases hxt : Modifies t x
        · exact r2 x hxt
        · rw [runs_frame r1 hxt, i1 x]
          intro v hv
          have : v = t ∨ v ∈ pre ++ post := by
            simp only [List.mem_append, List.mem_cons] at hv ⊢; tauto
          rcases this with rfl | hv
          · exact hxt
          · exact fun h => not_uses_of_modifies (f1 v hv) hx h.uses
      · obtain ⟨mt, r1, r2⟩ := i2 u (by simp only [List.mem_append, List.mem_cons] at hu' ⊢; tauto)
        obtain ⟨n', s1, s2, _⟩ := runs_local r1 rfl (n := m) fun x hx => (other u hu' x hx).symm
        exact ⟨n', s1, fun x hx => by rw [r2 x hx, s2 x (other u hu' x hx.uses).symm]⟩

theorem interleaves_error {ts : List Thread} {m : Memory} {r : Res Memory} (h : Interleaves ts m r) :
    ∀ {e : Fail}, r = .error e → RaceFree ts → ∃ t ∈ ts, Runs t m (.error e) := by
  induction h with
  | done => intro e hr; cases hr
  | fail ha =>
    intro e hr _
    cases hr
    exact ⟨_, List.mem_append_right _ (List.mem_cons_self ..), .fail ha⟩
  | next ha _ ih =>
    rename_i pre post a t m m₁ r _
    intro e hr hf
    obtain ⟨f1, f2⟩ := raceFree_middle.1 hf
    obtain ⟨u, hu, hru⟩ := ih hr (raceFree_middle.2 ⟨fun u hu => compatible_tail (f1 u hu), f2⟩)
    have : u = t ∨ u ∈ pre ++ post := by
      simp only [List.mem_append, List.mem_cons] at hu ⊢; tauto
    rcases this with rfl | hu
    · exact ⟨_, by simp, .next ha hru⟩
    · refine ⟨u, by simp only [List.mem_append, List.mem_cons] at hu ⊢; tauto, runs_local_error hru rfl fun x hx => ?_⟩
      refine (does_frame ha fun hxa => ?_).symm
      exact not_uses_of_modifies (f1 u hu) (x := x) ⟨a, by simp, hxa⟩ hx

/-- One of the threads is executed first. -/
theorem interleaves_first {t : Thread} {m : Memory} {r : Res Memory} (h : Runs t m r) (pre post : List Thread) :
    (∀ {m' : Memory} {q : Res Memory}, r = .ok m' → Interleaves (pre ++ [] :: post) m' q → Interleaves (pre ++ t :: post) m q) ∧
      ∀ {e : Fail}, r = .error e → Interleaves (pre ++ t :: post) m (.error e) := by
  induction h with
  | nil => exact ⟨fun hr h => by cases hr; exact h, fun hr => by cases hr⟩
  | fail ha => exact ⟨fun hr _ => (by cases hr), fun hr => (by cases hr; exact .fail ha)⟩
  | next ha _ ih => exact ⟨fun hr h => .next ha (ih.1 hr h), fun hr => .next ha (ih.2 hr)⟩

theorem interleaves_nil {ts : List Thread} {m : Memory} {r : Res Memory} (h : Interleaves ts m r) :
    Interleaves ([] :: ts) m r := by
  induction h with
  | done ht => exact .done (by simpa using ht)
  | fail ha => rw [← List.cons_append]; exact .fail ha
  | next ha _ ih => rw [← List.cons_append] at ih ⊢; exact .next ha ih

theorem runs_append {s t : Thread} {m m₁ : Memory} {r q : Res Memory} (h : Runs s m r) :
    r = .ok m₁ → Runs t m₁ q → Runs (s ++ t) m q := by
  induction h with
  | nil => intro hr ht; cases hr; exact ht
  | fail => intro hr; cases hr
  | next ha _ ih => intro hr ht; exact .next ha (ih hr ht)

theorem runs_of_append : ∀ {s t : Thread} {m m' : Memory}, Runs (s ++ t) m (.ok m') →
    ∃ m₁, Runs s m (.ok m₁) ∧ Runs t m₁ (.ok m') := by
  intro s
  induction s with
  | nil => intro t m m' h; exact ⟨m, .nil, h⟩
  | cons a s ih =>
    intro t m m' h
    rw [List.cons_append] at h
    cases h with
    | next ha h =>
      obtain ⟨m₁, h1, h2⟩ := ih h
      exact ⟨m₁, .next ha h1, h2⟩

/-- Without data races, the threads may be executed one after the other. -/
theorem isolated_runs : ∀ {ts : List Thread} {m m' : Memory}, RaceFree ts → Isolated ts m m' →
    Runs ts.flatten m (.ok m') := by
  intro ts
  induction ts with
  | nil =>
    rintro m m' _ ⟨h, _⟩
    have : m' = m := funext fun x => h x (by simp)
    subst this
    exact .nil
  | cons t ts ih =>
    rintro m m' hf ⟨i1, i2⟩
    obtain ⟨f1, f2⟩ := List.pairwise_cons.1 hf
    obtain ⟨mt, r1, r2⟩ := i2 t (by simp)
    rw [List.flatten_cons]
    refine runs_append r1 rfl (ih f2 ⟨fun x hx => ?_, fun u hu => ?_⟩)
    · by_cases hxt : Modifies t x
      · exact r2 x hxt
      · rw [runs_frame r1 hxt, i1 x]
        intro u hu
        rcases List.mem_cons.1 hu with rfl | hu
        · exact hxt
        · exact hx u hu
    · obtain ⟨mu, s1, s2⟩ := i2 u (by simp [hu])
      have agree : ∀ x, Uses u x → mt x = m x := fun x hx =>
        runs_frame r1 fun hxt => not_uses_of_modifies (f1 u hu) hxt hx
      obtain ⟨n', q1, q2, _⟩ := runs_local s1 rfl (n := mt) agree
      exact ⟨n', q1, fun x hx => by rw [s2 x hx, q2 x (agree x hx.uses)]⟩

/-- One after the other is one of the interleavings. -/
theorem runs_interleaves : ∀ {ts : List Thread} {m m' : Memory}, Runs ts.flatten m (.ok m') →
    Interleaves ts m (.ok m') := by
  intro ts
  induction ts with
  | nil => intro m m' h; cases h; exact .done (by simp)
  | cons t ts ih =>
    intro m m' h
    rw [List.flatten_cons] at h
    obtain ⟨m₁, h1, h2⟩ := runs_of_append h
    exact (interleaves_first h1 [] ts).1 rfl (interleaves_nil (ih h2))

theorem interleaves_iff {ts : List Thread} {m m' : Memory} (hf : RaceFree ts) :
    Interleaves ts m (.ok m') ↔ Isolated ts m m' :=
  ⟨fun h => interleaves_isolated h rfl hf, fun h => runs_interleaves (isolated_runs hf h)⟩

theorem interleaves_error_iff {ts : List Thread} {m : Memory} {e : Fail} (hf : RaceFree ts) :
    Interleaves ts m (.error e) ↔ ∃ t ∈ ts, Runs t m (.error e) := by
  refine ⟨fun h => interleaves_error h rfl hf, ?_⟩
  rintro ⟨t, ht, hr⟩
  obtain ⟨pre, post, rfl⟩ := List.append_of_mem ht
  exact (interleaves_first hr pre post).2 rfl

/-! ## Plans which are ready to be executed -/

/-- Types and lengths of the buffers are unchanged. -/
def Keeps (m m' : Memory) : Prop := ∀ x v, m x = some v → ∃ w, m' x = some w ∧ Fftw.Garbage v w

theorem Keeps.refl (m : Memory) : Keeps m m := fun _ v h => ⟨v, h, garbage_refl v⟩

theorem Keeps.set {m m' : Memory} (h : Keeps m m') {c : Nat} {w : Values} (hw : ∀ v, m c = some v → Fftw.Garbage v w) :
    Keeps m (m'.set c w) := by
  intro x v hx
  by_cases hc : x = c
  · subst hc; exact ⟨w, Memory.set_same _ _ _, hw v hx⟩
  · obtain ⟨u, h1, h2⟩ := h x v hx
    exact ⟨u, by rw [Memory.set_ne _ hc, h1], h2⟩

theorem Keeps.holds {m m' : Memory} (h : Keeps m m') {x : Nat} {real : Bool} {size : Int} (hx : Holds m x real size) :
    Holds m' x real size := by
  obtain ⟨v, h1, h2, h3⟩ := hx
  obtain ⟨w, h4, h5, h6⟩ := h x v h1
  exact ⟨w, h4, h5.trans h2, by omega⟩

theorem keeps_measures {p : Fftw.Plan} {m m' : Memory} (h : Fftw.Measures p m m') : Keeps m m' := by
  cases h with
  | mk h1 h2 g1 g2 =>
    refine ((Keeps.refl m).set ?_).set ?_
    · intro v hv; rw [h1] at hv; cases hv; exact g1
    · intro v hv; rw [h2] at hv; cases hv; exact g2

theorem keeps_executes {p : Fftw.Plan} {m m' : Memory} (h : Fftw.Executes p m (.ok m')) : Keeps m m' := by
  cases h with
  | c2c e1 e2 e3 e4 e5 e6 e7 e8 =>
    refine ((Keeps.refl m).set ?_).set ?_
    · intro v hv; rw [e2] at hv; cases hv; exact e8
    · intro v hv; rw [e3] at hv; cases hv; exact ⟨rfl, e6⟩
  | r2c e1 e1' e2 e3 e4 e5 e6 e7 e8 =>
    refine ((Keeps.refl m).set ?_).set ?_
    · intro v hv; rw [e2] at hv; cases hv; exact e8
    · intro v hv; rw [e3] at hv; cases hv; exact ⟨rfl, e6⟩
  | c2r e1 e1' e2 e3 e4 e5 e6 e7 e8 =>
    refine ((Keeps.refl m).set ?_).set ?_
    · intro v hv; rw [e2] at hv; cases hv; exact e8
    · intro v hv; rw [e3] at hv; cases hv; exact ⟨rfl, e6⟩

theorem keeps_normalize {d : DftPlan} {m m' : Memory} (h : d.normalize m = .ok m') : Keeps m m' := by
  unfold DftPlan.normalize at h
  split at h
  · cases h
  · rename_i v hv
    split at h
    · cases h
    · cases h
      refine (Keeps.refl m).set fun w hw => ?_
      rw [hv] at hw; cases hw
      exact garbage_scale _ _ _

/-- The buffers of the plan are allocated and of the right types and sizes. -/
structure Ready (m : Memory) (d : DftPlan) : Prop where
  inShape : d.input.shape = d.transform.inShape d.shape
  outShape : d.output.shape = d.transform.outShape d.shape
  plan : d.plan = allocateFftwPlan d.transform d.input d.output
  ne : d.input.address ≠ d.output.address
  input : Holds m d.input.address d.transform.inReal (shapeSize (d.transform.inShape d.shape))
  output : Holds m d.output.address d.transform.outReal (shapeSize (d.transform.outShape d.shape))

theorem Ready.keeps {m m' : Memory} {d : DftPlan} (h : Ready m d) (hk : Keeps m m') : Ready m' d :=
  ⟨h.inShape, h.outShape, h.plan, h.ne, hk.holds h.input, hk.holds h.output⟩

theorem Ready.ports {m : Memory} {d : DftPlan} (h : Ready m d) :
    d.plan.input = d.input.address ∧ d.plan.output = d.output.address := by
  rw [h.plan]; exact ⟨rfl, rfl⟩

/-- The buffers of signals and spectra. -/
theorem Ready.on {m : Memory} {d : DftPlan} (h : Ready m d) :
    ∃ a b, a = (if d.transform.inverted then d.output.address else d.input.address) ∧
      b = (if d.transform.inverted then d.input.address else d.output.address) ∧
      PlanOn d.transform.real d.shape a b d ∧ BuffersOn d.transform.real d.shape a b m := by
  have h1 := h.input
  have h2 := h.output
  refine ⟨_, _, rfl, rfl, ⟨rfl, rfl, h.inShape, h.outShape, ?_, ?_, h.plan⟩, ?_⟩
  · by_cases hi : d.transform.inverted = true <;> simp [hi]
  · by_cases hi : d.transform.inverted = true <;> simp [hi]
  · simp only [Transform.inReal, Transform.outReal, Transform.inShape, Transform.outShape,
      Transform.directOutShape] at h1 h2
    by_cases hi : d.transform.inverted = true
    · simp only [hi, if_true, Bool.not_true, Bool.and_false, Bool.and_true] at h1 h2 ⊢
      exact ⟨h.ne.symm, h2, by simpa [Transform.outShape, Transform.directOutShape] using h1⟩
    · simp only [hi] at h1 h2 ⊢
      simp only [if_false, Bool.not_false, Bool.and_true, Bool.and_false, Bool.false_eq_true] at h1 h2 ⊢
      exact ⟨h.ne, h1, by simpa [Transform.outShape, Transform.directOutShape] using h2⟩

/-- The constructor, whether it allocates the buffers or not. -/
theorem constructs_ready {t : Transform} {shape : Position} {i o : Option Nat} {m m' : Memory} {d : DftPlan}
    (h : DftPlan.Constructs t shape i o m d m') (hi : ∀ a, i = some a → Holds m a t.inReal (shapeSize (t.inShape shape)))
    (ho : ∀ a, o = some a → Holds m a t.outReal (shapeSize (t.outShape shape))) (hio : ∀ a, i = some a → o ≠ some a) :
    Ready m' d ∧ Keeps m m' ∧ (i = none → m d.input.address = none) ∧ (o = none → m d.output.address = none) := by
  have fresh : ∀ {n n' : Memory} {a : Nat} {v : Values}, Keeps n n' → n' a = none → Keeps n (n'.set a v) := by
    intro n n' a v hk ha
    refine hk.set fun w hw => ?_
    obtain ⟨u, hu, _⟩ := hk a w hw
    rw [ha] at hu; cases hu
  cases h with
  | mk h1 h2 h3 =>
    have hk := keeps_measures h3
    cases h1 with
    | own a1 a2 a3 =>
      rename_i a v
      have k1 : Keeps m (m.set a v) := fresh (Keeps.refl m) a1
      have ha : Holds (m.set a v) a t.inReal (shapeSize (t.inShape shape)) := Holds.set_same a2 a3
      cases h2 with
      | own b1 b2 b3 =>
        rename_i b w
        have hab : b ≠ a := by rintro rfl; rw [Memory.set_same] at b1; cases b1
        have k2 : Keeps (m.set a v) ((m.set a v).set b w) := fresh (Keeps.refl _) b1
        have k3 : Keeps m ((m.set a v).set b w) := fresh k1 b1
        refine ⟨⟨rfl, rfl, rfl, hab.symm, hk.holds (k2.holds ha), hk.holds (Holds.set_same b2 b3)⟩, ?_, fun _ => a1, fun _ => ?_⟩
        · intro x u hx
          obtain ⟨u', e1, e2⟩ := k3 x u hx
          obtain ⟨u'', e3, e4⟩ := hk x u' e1
          exact ⟨u'', e3, e4.1.trans e2.1, e4.2.trans e2.2⟩
        · rw [Memory.set_ne _ hab] at b1; exact b1
      | share =>
        rename_i b
        have hb := ho b rfl
        have hab : a ≠ b := by rintro rfl; obtain ⟨u, hu, _⟩ := hb; rw [a1] at hu; cases hu
        refine ⟨⟨rfl, rfl, rfl, hab, hk.holds ha, hk.holds (k1.holds hb)⟩, ?_, fun _ => a1, fun h => nomatch h⟩
        intro x u hx
        obtain ⟨u', e1, e2⟩ := k1 x u hx
        obtain ⟨u'', e3, e4⟩ := hk x u' e1
        exact ⟨u'', e3, e4.1.trans e2.1, e4.2.trans e2.2⟩
    | share =>
      rename_i a
      have ha := hi a rfl
      cases h2 with
      | own b1 b2 b3 =>
        rename_i b w
        have hab : a ≠ b := by rintro rfl; obtain ⟨u, hu, _⟩ := ha; rw [b1] at hu; cases hu
        have k1 : Keeps m (m.set b w) := fresh (Keeps.refl m) b1
        refine ⟨⟨rfl, rfl, rfl, hab, hk.holds (k1.holds ha), hk.holds (Holds.set_same b2 b3)⟩, ?_, (fun h => nomatch h), fun _ => b1⟩
        intro x u hx
        obtain ⟨u', e1, e2⟩ := k1 x u hx
        obtain ⟨u'', e3, e4⟩ := hk x u' e1
        exact ⟨u'', e3, e4.1.trans e2.1, e4.2.trans e2.2⟩
      | share =>
        rename_i b
        refine ⟨⟨rfl, rfl, rfl, fun h => hio a rfl (congrArg some h.symm), hk.holds ha, hk.holds (ho b rfl)⟩, hk, (fun h => nomatch h),
          fun h => nomatch h⟩

end Litl.DftThreads
