import Verif.Model.DftMemory
import Verif.Props.AlignedBuffer

/-!
# C73: life cycle of DFT plans
-/

namespace Litl

namespace DftMemory

open Aligned (Region Ptr Buffer Owns)

/-! ## Buffers -/

theorem buffers_ok {s t : State} {ops : List (Aligned.Op Unit)} (h : buffers s ops = .ok t) :
    ∃ mem, Aligned.run s.mem ops = .ok mem ∧ t = { s with mem := mem } := by
  unfold buffers at h
  cases hc : Aligned.run s.mem ops with
  | error e => simp [hc, bind, Except.bind] at h
  | ok mem =>
    simp only [hc, bind, Except.bind, pure, Except.pure] at h
    cases h
    exact ⟨mem, rfl, rfl⟩

theorem createPlan_ok {s t : State} {i : Nat} (h : createPlan s i = .ok t) :
    ∃ a b, data s (3 * i) = some a ∧ data s (3 * i + 1) = some b ∧ Accessible s.mem a ∧ Accessible s.mem b ∧
      t = setPlan { s with
        plans := s.next :: s.plans, next := s.next + 1,
        arrays := fun p => if p = s.next then (a, b) else s.arrays p } i (some (some s.next)) := by
  unfold createPlan at h
  split at h
  · next a b ha hb =>
    split at h
    · next hc =>
      cases h
      exact ⟨a, b, ha, hb, hc.1, hc.2, rfl⟩
    · cases h
  · cases h

theorem construct_ok {s t : State} {i nIn nOut : Nat} {inData outData : Option Ptr} {okIn okOut : Bool}
    (h : construct s i nIn nOut inData outData okIn okOut = .ok t) :
    s.plan i = none ∧ ∃ mem, Aligned.run s.mem
        [.construct (3 * i) nIn inData okIn, .construct (3 * i + 1) nOut outData okOut] = .ok mem ∧
      createPlan { s with mem := mem } i = .ok t := by
  unfold construct at h
  cases hp : s.plan i with
  | some p => rw [hp] at h; cases h
  | none =>
    rw [hp] at h
    refine ⟨rfl, ?_⟩
    dsimp only at h
    cases hc : buffers s [.construct (3 * i) nIn inData okIn, .construct (3 * i + 1) nOut outData okOut] with
    | error e => simp [hc, bind, Except.bind] at h
    | ok u =>
      simp only [hc, bind, Except.bind] at h
      obtain ⟨mem, h1, rfl⟩ := buffers_ok hc
      exact ⟨mem, h1, h⟩

/-- What an operation does, in terms of operations on buffers and plans. -/
inductive Effect (s : State) : Op → State → Prop where
  | construct {op : Op} {i nIn nOut : Nat} {inData outData : Option Ptr} {okIn okOut : Bool} {mem : Aligned.State Unit}
      {a b : Ptr} :
      (op = .construct i nIn nOut inData outData okIn okOut ∨
        (∃ other, (s.plan other).isSome ∧ op = .inverse i other nIn nOut okIn okOut ∧
          inData = data s (3 * other + 1) ∧ outData = data s (3 * other)) ∨
        (∃ other, (s.plan other).isSome ∧ op = .compose i other nIn nOut okOut ∧ inData = data s (3 * other + 1) ∧
          outData = none ∧ okIn = true)) →
      s.plan i = none →
      Aligned.run s.mem [.construct (3 * i) nIn inData okIn, .construct (3 * i + 1) nOut outData okOut] = .ok mem →
      (mem.objs (3 * i)).bind Buffer.data = some a → (mem.objs (3 * i + 1)).bind Buffer.data = some b →
      Accessible mem a → Accessible mem b →
      Effect s op (setPlan { s with
        mem := mem, plans := s.next :: s.plans, next := s.next + 1,
        arrays := fun p => if p = s.next then (a, b) else s.arrays p } i (some (some s.next)))
  | moveConstruct {i other : Nat} {p : Option Nat} {mem : Aligned.State Unit} : s.plan i = none →
      s.plan other = some p →
      Aligned.run s.mem [.moveConstruct (3 * i) (3 * other), .moveConstruct (3 * i + 1) (3 * other + 1)] = .ok mem →
      Effect s (.moveConstruct i other) (setPlan (setPlan { s with mem := mem } other (some none)) i (some p))
  | moveAssign {i other : Nat} {p q : Option Nat} {mem : Aligned.State Unit} : s.plan i = some q →
      s.plan other = some p →
      Aligned.run s.mem [.moveAssign (3 * i) (3 * other), .moveAssign (3 * i + 1) (3 * other + 1)] = .ok mem →
      Effect s (.moveAssign i other) (setPlan (setPlan { s with mem := mem } other (some none)) i (some p))
  | destroy {i : Nat} {p : Option Nat} {mem : Aligned.State Unit} : s.plan i = some p →
      Aligned.run s.mem [.destroy (3 * i + 1), .destroy (3 * i)] = .ok mem →
      Effect s (.destroy i) (setPlan { destroyPlan s p with mem := mem } i none)
  | transform {i p : Nat} : s.plan i = some (some p) → p ∈ s.plans → Accessible s.mem (s.arrays p).1 →
      Accessible s.mem (s.arrays p).2 → Effect s (.transform i) { s with executed := some (s.arrays p) }
  | buffer {op : Aligned.Op Unit} {mem : Aligned.State Unit} : (∀ k, lifetime op = some k → k % 3 = 2) →
      Aligned.run s.mem [op] = .ok mem → Effect s (.buffer op) { s with mem := mem }

theorem destroyPlan_mem (s : State) (p : Option Nat) : (destroyPlan s p).mem = s.mem := by
  unfold destroyPlan
  cases p with
  | none => rfl
  | some p => dsimp only; split <;> rfl

theorem effect_of_step {s t : State} {op : Op} (h : step s op = .ok t) : Effect s op t := by
  have con : ∀ {i nIn nOut inData outData okIn okOut},
      (op = .construct i nIn nOut inData outData okIn okOut ∨
        (∃ other, (s.plan other).isSome ∧ op = .inverse i other nIn nOut okIn okOut ∧
          inData = data s (3 * other + 1) ∧ outData = data s (3 * other)) ∨
        (∃ other, (s.plan other).isSome ∧ op = .compose i other nIn nOut okOut ∧ inData = data s (3 * other + 1) ∧
          outData = none ∧ okIn = true)) →
      construct s i nIn nOut inData outData okIn okOut = .ok t → Effect s op t := by
    intro i nIn nOut inData outData okIn okOut hop h
    obtain ⟨h1, mem, h2, h3⟩ := construct_ok h
    obtain ⟨a, b, ha, hb, ha', hb', rfl⟩ := createPlan_ok h3
    exact .construct hop h1 h2 ha hb ha' hb'
  cases op with
  | construct i nIn nOut inData outData okIn okOut => exact con (.inl rfl) h
  | moveConstruct i other =>
    simp only [step] at h
    split at h
    · next p h1 h2 =>
      cases hc : buffers s [.moveConstruct (3 * i) (3 * other), .moveConstruct (3 * i + 1) (3 * other + 1)] with
      | error e => simp [hc, bind, Except.bind] at h
      | ok u =>
        simp only [hc, bind, Except.bind, pure, Except.pure] at h
        cases h
        obtain ⟨mem, h3, rfl⟩ := buffers_ok hc
        exact .moveConstruct h1 h2 h3
    · cases h
  | moveAssign i other =>
    simp only [step] at h
    split at h
    · next p h1 h2 =>
      cases hc : buffers s [.moveAssign (3 * i) (3 * other), .moveAssign (3 * i + 1) (3 * other + 1)] with
      | error e => simp [hc, bind, Except.bind] at h
      | ok u =>
        simp only [hc, bind, Except.bind, pure, Except.pure] at h
        cases h
        obtain ⟨mem, h3, rfl⟩ := buffers_ok hc
        exact .moveAssign h1 h2 h3
    · cases h
  | destroy i =>
    simp only [step] at h
    split at h
    · next p h1 =>
      cases hc : buffers (destroyPlan s p) [.destroy (3 * i + 1), .destroy (3 * i)] with
      | error e => simp [hc, bind, Except.bind] at h
      | ok u =>
        simp only [hc, bind, Except.bind, pure, Except.pure] at h
        cases h
        obtain ⟨mem, h3, rfl⟩ := buffers_ok hc
        rw [destroyPlan_mem] at h3
        exact .destroy h1 h3
    · cases h
  | inverse i other nIn nOut okIn okOut =>
    simp only [step] at h
    split at h
    · next p h1 => exact con (.inr (.inl ⟨other, by simp [h1], rfl, rfl, rfl⟩)) h
    · cases h
  | compose i other nIn nOut okOut =>
    simp only [step] at h
    split at h
    · next p h1 => exact con (.inr (.inr ⟨other, by simp [h1], rfl, rfl, rfl, rfl⟩)) h
    · cases h
  | transform i =>
    simp only [step] at h
    split at h
    · next p h1 =>
      split at h
      · next hc =>
        cases h
        exact .transform h1 hc.1 hc.2.1 hc.2.2
      · cases h
    · cases h
    · cases h
  | buffer op =>
    simp only [step] at h
    split at h
    · next k h1 =>
      split at h
      · next hk =>
        obtain ⟨mem, h2, rfl⟩ := buffers_ok h
        exact .buffer (fun k' h' => by rw [h1] at h'; cases h'; exact hk) h2
      · cases h
    · next h1 =>
      obtain ⟨mem, h2, rfl⟩ := buffers_ok h
      exact .buffer (fun k' h' => by rw [h1] at h'; cases h') h2

/-- Invariants of histories. -/
theorem run_inv {P : State → Prop} (hP : ∀ s t op, P s → step s op = .ok t → P t) :
    ∀ (ops : List Op) (s t : State), P s → run s ops = .ok t → P t := by
  intro ops
  induction ops with
  | nil => intro s t hs h; cases h; exact hs
  | cons op ops ih =>
    intro s t hs h
    cases hc : step s op with
    | error e => simp [run, hc, bind, Except.bind] at h
    | ok u =>
      simp only [run, hc, bind, Except.bind] at h
      exact ih u t (hP s u op hs hc) h

/-! ## FFTW plans -/

/-- The invariant on FFTW plans: those which are held exist, and each one is held by one object only. -/
structure Inv (s : State) : Prop where
  held : ∀ i p, s.plan i = some (some p) → p ∈ s.plans
  unique : ∀ i j p, s.plan i = some (some p) → s.plan j = some (some p) → i = j
  nodup : s.plans.Nodup
  fresh : ∀ p ∈ s.plans, p < s.next
  good : s.badDestroys = []
  mem : Aligned.Inv s.mem

theorem Inv.init : Inv init := by
  constructor <;> simp [DftMemory.init, Aligned.Inv.init]

/-- The plan of an object is given to another one, or dropped. -/
theorem Inv.give {s : State} (hs : Inv s) {i other : Nat} {p : Option Nat} {mem : Aligned.State Unit}
    (ho : s.plan other = some p) (hm : Aligned.Inv mem) :
    Inv (setPlan (setPlan { s with mem := mem } other (some none)) i (some p)) := by
  have key : ∀ j q, (setPlan (setPlan { s with mem := mem } other (some none)) i (some p)).plan j = some (some q) →
      (j = i ∧ s.plan other = some (some q)) ∨ (j ≠ i ∧ j ≠ other ∧ s.plan j = some (some q)) := by
    intro j q h
    simp only [setPlan] at h
    split at h
    · next e => left; exact ⟨e, by rw [ho]; exact h⟩
    · next e =>
      split at h
      · cases h
      · next e' => right; exact ⟨e, e', h⟩
  refine ⟨fun j q h => ?_, fun j k q h h' => ?_, hs.nodup, hs.fresh, hs.good, hm⟩
  · rcases key j q h with ⟨_, g⟩ | ⟨_, _, g⟩
    · exact hs.held _ _ g
    · exact hs.held _ _ g
  · rcases key j q h with ⟨e, g⟩ | ⟨_, e, g⟩ <;> rcases key k q h' with ⟨e', g'⟩ | ⟨_, e', g'⟩
    · rw [e, e']
    · exact absurd (hs.unique _ _ _ g' g) e'
    · exact absurd (hs.unique _ _ _ g g') e
    · exact hs.unique _ _ _ g g'

theorem destroyPlan_eq {s : State} (hs : Inv s) {i : Nat} {p : Option Nat} (h : s.plan i = some p) :
    destroyPlan s p = { s with plans := p.elim s.plans s.plans.erase } := by
  unfold destroyPlan
  cases p with
  | none => rfl
  | some p =>
    dsimp only
    rw [if_pos (hs.held i p h)]
    rfl

theorem Inv.step {s t : State} (hs : Inv s) (op : Op) (h : step s op = .ok t) : Inv t := by
  cases effect_of_step h with
  | @construct _ i nIn nOut inData outData okIn okOut mem a b hop hp hm =>
    have hm' := hs.mem.run _ hm
    have hn : s.next ∉ s.plans := fun h => absurd (hs.fresh _ h) (by simp)
    have key : ∀ j q, (if j = i then some (some s.next) else s.plan j) = some (some q) →
        (j = i ∧ q = s.next) ∨ (j ≠ i ∧ s.plan j = some (some q)) := by
      intro j q h
      split at h
      · next e => cases h; exact .inl ⟨e, rfl⟩
      · next e => exact .inr ⟨e, h⟩
    refine ⟨fun j q h => ?_, fun j k q h h' => ?_, ?_, ?_, hs.good, hm'⟩
    · rcases key j q h with ⟨_, rfl⟩ | ⟨_, g⟩
      · exact List.mem_cons_self
      · exact List.mem_cons_of_mem _ (hs.held _ _ g)
    · rcases key j q h with ⟨e, e2⟩ | ⟨_, g⟩ <;> rcases key k q h' with ⟨e', e2'⟩ | ⟨_, g'⟩
      · rw [e, e']
      · rw [e2] at g'; exact absurd (hs.held _ _ g') hn
      · rw [e2'] at g; exact absurd (hs.held _ _ g) hn
      · exact hs.unique _ _ _ g g'
    · exact List.nodup_cons.2 ⟨hn, hs.nodup⟩
    · intro q hq
      rcases List.mem_cons.1 hq with rfl | hq
      · exact Nat.lt_succ_self _
      · exact Nat.lt_succ_of_lt (hs.fresh q hq)
  | moveConstruct _ ho hm => exact hs.give ho (hs.mem.run _ hm)
  | moveAssign _ ho hm => exact hs.give ho (hs.mem.run _ hm)
  | @destroy i p mem hp hm =>
    rw [destroyPlan_eq hs hp]
    have key : ∀ j q, (if j = i then none else s.plan j) = some (some q) → j ≠ i ∧ s.plan j = some (some q) := by
      intro j q h
      split at h
      · cases h
      · next e => exact ⟨e, h⟩
    have hle : ∀ q ∈ p.elim s.plans s.plans.erase, q ∈ s.plans := by
      cases p with
      | none => exact fun q h => h
      | some p => exact fun q h => List.mem_of_mem_erase h
    refine ⟨fun j q h => ?_, fun j k q h h' => hs.unique _ _ _ (key j q h).2 (key k q h').2, ?_,
      fun q hq => hs.fresh q (hle q hq), hs.good, hs.mem.run _ hm⟩
    · obtain ⟨e, g⟩ := key j q h
      cases p with
      | none => exact hs.held _ _ g
      | some p =>
        refine (List.mem_erase_of_ne ?_).2 (hs.held _ _ g)
        rintro rfl
        exact e (hs.unique _ _ _ g hp)
    · cases p with
      | none => exact hs.nodup
      | some p => exact hs.nodup.erase p
  | transform _ _ _ _ => exact ⟨hs.held, hs.unique, hs.nodup, hs.fresh, hs.good, hs.mem⟩
  | buffer _ hm => exact ⟨hs.held, hs.unique, hs.nodup, hs.fresh, hs.good, hs.mem.run _ hm⟩

theorem Inv.run {s t : State} (hs : Inv s) (ops : List Op) (h : run s ops = .ok t) : Inv t :=
  run_inv (fun _ _ op hs h => Inv.step hs op h) ops s t hs h

/-- An FFTW plan which no object holds any more. -/
def Lost (s : State) (p : Nat) : Prop := p ∈ s.plans ∧ ∀ i, s.plan i ≠ some (some p)

theorem lost_step_iff {s t : State} (hs : Inv s) (op : Op) (h : step s op = .ok t) (p : Nat) :
    Lost t p ↔ Lost s p ∨ ∃ i other, op = .moveAssign i other ∧ i ≠ other ∧ s.plan i = some (some p) := by
  have ht := hs.step op h
  cases effect_of_step h with
  | @construct _ i nIn nOut inData outData okIn okOut mem a b hop hp hm =>
    have hne : ¬ ∃ i other, op = .moveAssign i other ∧ i ≠ other ∧ s.plan i = some (some p) := by
      rintro ⟨i, other, e, -⟩
      rcases hop with g | ⟨_, _, g, -⟩ | ⟨_, _, g, -⟩ <;> rw [e] at g <;> cases g
    rw [or_iff_left hne]
    constructor
    · rintro ⟨h1, h2⟩
      have hpn : p ≠ s.next := by
        rintro rfl
        exact h2 i (by simp [setPlan])
      refine ⟨(List.mem_cons.1 h1).resolve_left hpn, fun j hj => h2 j ?_⟩
      have : j ≠ i := by rintro rfl; rw [hp] at hj; cases hj
      simp [setPlan, this, hj]
    · rintro ⟨h1, h2⟩
      refine ⟨List.mem_cons_of_mem _ h1, fun j hj => ?_⟩
      simp only [setPlan] at hj
      split at hj
      · cases hj; exact absurd (hs.fresh _ h1) (by simp)
      · exact h2 j hj
  | @moveConstruct i other q mem hi ho hm =>
    have hne : ¬ ∃ i' other', Op.moveConstruct i other = .moveAssign i' other' ∧ i' ≠ other' ∧
        s.plan i' = some (some p) := by
      rintro ⟨_, _, e, -⟩; cases e
    rw [or_iff_left hne]
    refine and_congr Iff.rfl ⟨fun h2 j hj => ?_, fun h2 j hj => ?_⟩
    · by_cases e : j = other
      · subst e
        exact h2 i (by simp only [setPlan, if_true]; rw [← ho, hj])
      · have : j ≠ i := by rintro rfl; rw [hi] at hj; cases hj
        exact h2 j (by simp [setPlan, this, e, hj])
    · simp only [setPlan] at hj
      split at hj
      · exact h2 other (by rw [ho, hj])
      · split at hj
        · cases hj
        · exact h2 j hj
  | @moveAssign i other q q' mem hi ho hm =>
    constructor
    · rintro ⟨h1, h2⟩
      by_cases hl : Lost s p
      · exact .inl hl
      · right
        unfold Lost at hl
        push Not at hl
        obtain ⟨j, hj⟩ := hl h1
        refine ⟨i, other, rfl, ?_, ?_⟩
        · rintro rfl
          refine h2 j ?_
          simp only [setPlan]
          by_cases e : j = i
          · rw [if_pos e, ← ho, ← e, hj]
          · rw [if_neg e, if_neg e, hj]
        · by_cases e : j = i
          · rw [← e, hj]
          · exfalso
            by_cases e' : j = other
            · subst e'
              exact h2 i (by simp only [setPlan, if_true]; rw [← ho, hj])
            · exact h2 j (by simp [setPlan, e, e', hj])
    · rintro (⟨h1, h2⟩ | ⟨i', other', e, hne, hj⟩)
      · refine ⟨h1, fun j hj => ?_⟩
        simp only [setPlan] at hj
        split at hj
        · exact h2 other (by rw [ho, hj])
        · split at hj
          · cases hj
          · exact h2 j hj
      · cases e
        refine ⟨hs.held _ _ hj, fun k hk => ?_⟩
        simp only [setPlan] at hk
        split at hk
        · exact hne (hs.unique _ _ _ hj (by rw [ho, hk]))
        · next e =>
          split at hk
          · cases hk
          · exact e (hs.unique _ _ _ hk hj)
  | @destroy i q mem hq hm =>
    have hne : ¬ ∃ i' other', Op.destroy i = .moveAssign i' other' ∧ i' ≠ other' ∧ s.plan i' = some (some p) := by
      rintro ⟨_, _, e, -⟩; cases e
    rw [or_iff_left hne, destroyPlan_eq hs hq]
    constructor
    · rintro ⟨h1, h2⟩
      have h1' : p ∈ s.plans ∧ q ≠ some p := by
        cases q with
        | none => exact ⟨h1, by simp⟩
        | some q =>
          have h1 : p ∈ s.plans.erase q := h1
          exact ⟨List.mem_of_mem_erase h1, by
            rintro e; cases e
            exact (List.Nodup.not_mem_erase hs.nodup) h1⟩
      refine ⟨h1'.1, fun j hj => ?_⟩
      by_cases e : j = i
      · rw [e, hq] at hj
        exact h1'.2 (Option.some.inj hj)
      · exact h2 j (by simp [setPlan, e, hj])
    · rintro ⟨h1, h2⟩
      refine ⟨?_, fun j hj => ?_⟩
      · cases q with
        | none => exact h1
        | some q =>
          refine (List.mem_erase_of_ne ?_).2 h1
          rintro rfl
          exact h2 i hq
      · simp only [setPlan] at hj
        split at hj
        · cases hj
        · exact h2 j hj
  | transform _ _ _ _ =>
    rw [or_iff_left (by rintro ⟨_, _, e, -⟩; cases e)]
    exact Iff.rfl
  | buffer _ hm =>
    rw [or_iff_left (by rintro ⟨_, _, e, -⟩; cases e)]
    exact Iff.rfl

/-! ## Arrays -/

/-- The arrays of a plan are the buffers of the object which holds it. -/
def Matching (s : State) : Prop :=
  ∀ i p, s.plan i = some (some p) →
    data s (3 * i) = some (s.arrays p).1 ∧ data s (3 * i + 1) = some (s.arrays p).2

/-- The operations by which the user gives other memory to the buffers of plan objects: assignments to, or from by moving,
and resets. -/
def Rebinds : Op → Prop
  | .buffer (.copyAssign k _ _) => k % 3 ≠ 2
  | .buffer (.moveAssign k other) => k % 3 ≠ 2 ∨ other % 3 ≠ 2
  | .buffer (.moveConstruct _ other) => other % 3 ≠ 2
  | .buffer (.reset k) => k % 3 ≠ 2
  | _ => False

theorem run_two {s t : Aligned.State Unit} {a b : Aligned.Op Unit} (h : Aligned.run s [a, b] = .ok t) :
    ∃ u, Aligned.step s a = .ok u ∧ Aligned.step u b = .ok t := by
  simp only [Aligned.run, bind, Except.bind] at h
  cases hc : Aligned.step s a with
  | error e => simp [hc] at h
  | ok u =>
    simp only [hc] at h
    cases hc' : Aligned.step u b with
    | error e => simp [hc'] at h
    | ok v =>
      simp only [hc'] at h
      cases h
      exact ⟨u, rfl, hc'⟩

theorem run_one {s t : Aligned.State Unit} {a : Aligned.Op Unit} (h : Aligned.run s [a] = .ok t) :
    Aligned.step s a = .ok t := by
  simp only [Aligned.run, bind, Except.bind] at h
  cases hc : Aligned.step s a with
  | error e => simp [hc] at h
  | ok u =>
    simp only [hc] at h
    exact h

/-- The effect of operations on other buffers. -/
theorem objs_other {s t : Aligned.State Unit} {op : Aligned.Op Unit} (h : Aligned.step s op = .ok t) (k : Nat)
    (hk : match op with
      | .construct i _ _ _ => k ≠ i
      | .copyConstruct i _ _ => k ≠ i
      | .moveConstruct i other => k ≠ i ∧ k ≠ other
      | .copyAssign i _ _ => k ≠ i
      | .moveAssign i other => k ≠ i ∧ k ≠ other
      | .destroy i => k ≠ i
      | .reset i => k ≠ i
      | _ => True) : (t.objs k).bind Buffer.data = (s.objs k).bind Buffer.data := by
  have hmal : ∀ ok, (Aligned.malloc s ok).1.objs = s.objs := by
    intro ok; cases ok <;> rfl
  have hfree : ∀ (u : Aligned.State Unit) b, (Aligned.free u b).objs = u.objs := by
    intro u b; unfold Aligned.free; split <;> rfl
  cases op with
  | construct i size d ok =>
    simp only [Aligned.step] at h
    split at h
    · cases h
    · cases h; simp [Aligned.setObj, hk]
    · cases h; simp [Aligned.setObj, hk, hmal]
  | copyConstruct i other ok =>
    simp only [Aligned.step] at h
    split at h
    · next o _ _ =>
      split at h
      · cases h; simp [Aligned.setObj, hk]
      · cases h; simp [Aligned.setObj, hk, hmal]
      · cases hc : Aligned.copyTo (Aligned.malloc s ok).1 o.data (Aligned.malloc s ok).2 o.size with
        | error e => simp [hc, bind, Except.bind] at h
        | ok u =>
          simp only [hc, bind, Except.bind] at h
          cases h
          simp [Aligned.setObj, hk, (Aligned.copyTo_same hc).1, hmal]
    · cases h
  | moveConstruct i other =>
    simp only [Aligned.step] at h
    split at h
    · cases h; simp [Aligned.reset, Aligned.setObj, hk.1, hk.2]
    · cases h
  | copyAssign i other ok =>
    simp only [Aligned.step] at h
    split at h
    · next _ o _ ho =>
      split at h
      · cases h; rfl
      · split at h
        · cases hc : Aligned.copyTo (Aligned.malloc s ok).1 o.data (Aligned.malloc s ok).2 o.size with
          | error e => simp [hc, bind, Except.bind] at h
          | ok u =>
            simp only [hc, bind, Except.bind] at h
            cases h
            simp [Aligned.setObj, hk, (Aligned.copyTo_same hc).1, hmal]
        · cases h; simp [Aligned.setObj, hk]
    · cases h
  | moveAssign i other =>
    simp only [Aligned.step] at h
    split at h
    · split at h
      · cases h; rfl
      · cases h; simp [Aligned.reset, Aligned.setObj, hk.1, hk.2]
    · cases h
  | destroy i =>
    simp only [Aligned.step] at h
    split at h
    · cases h
      unfold Aligned.reset
      simp only [Aligned.setObj, if_neg hk]
      split <;> simp [hfree]
    · cases h
  | release i =>
    simp only [Aligned.step] at h
    split at h
    · next b hb =>
      cases h
      simp only [Aligned.setObj]
      split
      · next e => rw [e, hb]; rfl
      · rfl
    · cases h
  | reset i =>
    simp only [Aligned.step] at h
    split at h
    · cases h
      unfold Aligned.reset
      simp only [Aligned.setObj, if_neg hk]
      split <;> simp [hfree]
    · cases h
  | userFree b =>
    simp only [Aligned.step] at h
    split at h
    · cases h; simp [hfree]
    · cases h
  | write i j v =>
    simp only [Aligned.step] at h
    split at h
    · split at h
      · cases h; rfl
      · cases h
    · cases h

/-- The data pointer goes to the target of moves. -/
theorem objs_moveConstruct {s t : Aligned.State Unit} {i other : Nat}
    (h : Aligned.step s (.moveConstruct i other) = .ok t) :
    i ≠ other ∧ (t.objs i).bind Buffer.data = (s.objs other).bind Buffer.data := by
  simp only [Aligned.step] at h
  split at h
  · next o h1 h2 =>
    cases h
    have : i ≠ other := by rintro rfl; rw [h1] at h2; cases h2
    simp [Aligned.reset, Aligned.setObj, this, h2]
  · cases h

theorem objs_moveAssign {s t : Aligned.State Unit} {i other : Nat}
    (h : Aligned.step s (.moveAssign i other) = .ok t) :
    (t.objs i).bind Buffer.data = (s.objs other).bind Buffer.data := by
  simp only [Aligned.step] at h
  split at h
  · next _ o h1 h2 =>
    split at h
    · next e => cases h; rw [e]
    · next e => cases h; simp [Aligned.reset, Aligned.setObj, e, h2]
  · cases h

theorem Matching.step {s t : State} (hi : Inv s) (hs : Matching s) (op : Op) (hr : ¬ Rebinds op)
    (h : step s op = .ok t) : Matching t := by
  cases effect_of_step h with
  | @construct _ i nIn nOut inData outData okIn okOut mem a b hop hp hm ha hb =>
    obtain ⟨u, hu, hu'⟩ := run_two hm
    intro j q hj
    simp only [setPlan] at hj
    by_cases e : j = i
    · rw [if_pos e] at hj
      cases hj
      subst e
      simp only [data, setPlan, if_true]
      exact ⟨ha, hb⟩
    · rw [if_neg e] at hj
      have hq : q ≠ s.next := by
        rintro rfl
        exact absurd (hi.fresh _ (hi.held _ _ hj)) (by simp)
      have := hs j q hj
      simp only [data, setPlan, if_neg hq] at this ⊢
      rw [objs_other hu' _ (by dsimp only; omega), objs_other hu' _ (by dsimp only; omega),
        objs_other hu _ (by dsimp only; omega), objs_other hu _ (by dsimp only; omega)]
      exact this
  | @moveConstruct i other q mem hi' ho hm =>
    obtain ⟨u, hu, hu'⟩ := run_two hm
    have hio : i ≠ other := by rintro rfl; rw [hi'] at ho; cases ho
    intro j p hj
    simp only [setPlan] at hj
    by_cases e : j = i
    · rw [if_pos e] at hj
      cases hj
      subst e
      have := hs other p ho
      simp only [data, setPlan] at this ⊢
      rw [objs_other hu' _ (by dsimp only; omega), (objs_moveConstruct hu).2, (objs_moveConstruct hu').2,
        objs_other hu _ (by dsimp only; omega)]
      exact this
    · rw [if_neg e] at hj
      split at hj
      · cases hj
      · next e' =>
        have := hs j p hj
        simp only [data, setPlan] at this ⊢
        rw [objs_other hu' _ (by dsimp only; omega), objs_other hu' _ (by dsimp only; omega),
          objs_other hu _ (by dsimp only; omega), objs_other hu _ (by dsimp only; omega)]
        exact this
  | @moveAssign i other q q' mem hi' ho hm =>
    obtain ⟨u, hu, hu'⟩ := run_two hm
    intro j p hj
    simp only [setPlan] at hj
    by_cases e : j = i
    · rw [if_pos e] at hj
      cases hj
      subst e
      have := hs other p ho
      simp only [data, setPlan] at this ⊢
      rw [objs_other hu' _ (by dsimp only; omega), objs_moveAssign hu, objs_moveAssign hu',
        objs_other hu _ (by dsimp only; omega)]
      exact this
    · rw [if_neg e] at hj
      split at hj
      · cases hj
      · next e' =>
        have := hs j p hj
        simp only [data, setPlan] at this ⊢
        rw [objs_other hu' _ (by dsimp only; omega), objs_other hu' _ (by dsimp only; omega),
          objs_other hu _ (by dsimp only; omega), objs_other hu _ (by dsimp only; omega)]
        exact this
  | @destroy i q mem hq hm =>
    obtain ⟨u, hu, hu'⟩ := run_two hm
    rw [destroyPlan_eq hi hq]
    intro j p hj
    simp only [setPlan] at hj
    split at hj
    · cases hj
    · next e =>
      have := hs j p hj
      simp only [data, setPlan] at this ⊢
      rw [objs_other hu' _ (by dsimp only; omega), objs_other hu' _ (by dsimp only; omega),
        objs_other hu _ (by dsimp only; omega), objs_other hu _ (by dsimp only; omega)]
      exact this
  | transform _ _ _ _ => exact hs
  | @buffer bop mem hl hm =>
    have h1 := run_one hm
    intro j p hj
    have := hs j p hj
    have other : ∀ k, k % 3 ≠ 2 → (mem.objs k).bind Buffer.data = (s.mem.objs k).bind Buffer.data := by
      intro k hk
      refine objs_other h1 k ?_
      cases bop <;> simp only [lifetime, Option.some.injEq, forall_eq', Rebinds] at hl hr ⊢ <;>
        first
        | (intro e; subst e; omega)
        | (constructor <;> (intro e; subst e; omega))
    simp only [data] at this ⊢
    rw [other _ (by omega), other _ (by omega)]
    exact this

theorem objs_construct {s t : Aligned.State Unit} {i n : Nat} {d : Option Ptr} {ok : Bool}
    (h : Aligned.step s (.construct i n d ok) = .ok t) :
    (∀ k ≠ i, t.objs k = s.objs k) ∧ ∀ p, d = some p → (t.objs i).bind Buffer.data = some p := by
  simp only [Aligned.step] at h
  split at h
  · cases h
  · cases h
    exact ⟨fun k hk => by simp [Aligned.setObj, hk], fun p hp => by cases hp; simp [Aligned.setObj]⟩
  · cases h
    refine ⟨fun k hk => ?_, fun p hp => by cases hp⟩
    cases ok <;> simp [Aligned.setObj, hk, Aligned.malloc]

theorem objs_destroy {s t : Aligned.State Unit} {i : Nat} (h : Aligned.step s (.destroy i) = .ok t) :
    ∀ k ≠ i, t.objs k = s.objs k := by
  intro k hk
  have hfree : ∀ (u : Aligned.State Unit) b, (Aligned.free u b).objs = u.objs := by
    intro u b; unfold Aligned.free; split <;> rfl
  simp only [Aligned.step] at h
  split at h
  · cases h
    unfold Aligned.reset
    simp only [Aligned.setObj, if_neg hk]
    split <;> simp [hfree]
  · cases h

theorem live_destroy {s t : Aligned.State Unit} {i b : Nat} (hs : Aligned.Inv s)
    (h : Aligned.step s (.destroy i) = .ok t) (hb : Owns s i b) : b ∉ t.live := by
  obtain ⟨o, ho, hc⟩ := hb
  simp only [Aligned.step, ho] at h
  cases h
  intro hl
  exact ((Aligned.reset_live hs i o ho b).1 hl).2 hc

theorem matching_run (ops : List Op) (s : State) (h : run init ops = .ok s) (hr : ∀ op ∈ ops, ¬ Rebinds op) :
    Matching s := by
  have key : ∀ (ops : List Op) (u : State), Inv u → Matching u →
      (∀ op ∈ ops, ¬ Rebinds op) → run u ops = .ok s → Matching s := by
    intro ops
    induction ops with
    | nil => intro u _ hm _ h; cases h; exact hm
    | cons op ops ih =>
      intro u hu hm hr h
      cases hc : step u op with
      | error e => simp [run, hc, bind, Except.bind] at h
      | ok w =>
        simp only [run, hc, bind, Except.bind] at h
        exact ih w (hu.step op hc) (hm.step hu op (hr op List.mem_cons_self) hc)
          (fun op g => hr op (List.mem_cons_of_mem _ g)) h
  exact key ops _ Inv.init (fun i p hp => by simp [init] at hp) hr h

theorem transform_ok {s t : State} {i : Nat} (h : step s (.transform i) = .ok t) :
    ∃ p, s.plan i = some (some p) ∧ p ∈ s.plans ∧ Accessible s.mem (s.arrays p).1 ∧ Accessible s.mem (s.arrays p).2 ∧
      t = { s with executed := some (s.arrays p) } := by
  cases effect_of_step h with
  | construct hop =>
    rcases hop with g | ⟨_, _, g, -⟩ | ⟨_, _, g, -⟩ <;> cases g
  | @transform i p h1 h2 h3 h4 => exact ⟨p, h1, h2, h3, h4, rfl⟩

end DftMemory

open DftMemory
open Aligned (Region Ptr Owns)

/-- **C73**, in full: whatever the history, FFTW plans are destroyed at most once and when no object remains they all were;
and the transform of a plan object is from `in()` to `out()`. -/
def C73_Statement : Prop :=
  ∀ (ops : List DftMemory.Op) (s : DftMemory.State), DftMemory.run DftMemory.init ops = .ok s →
    s.badDestroys = [] ∧ ((∀ i, s.plan i = none) → s.plans = []) ∧
    ∀ i t, DftMemory.step s (.transform i) = .ok t →
      ∃ a b, data t (3 * i) = some a ∧ data t (3 * i + 1) = some b ∧ t.executed = some (a, b)

/-- **C73**: FFTW plans are destroyed at most once, in all histories; each one which exists is held by at most one object;
and memory is managed as in C36. -/
theorem C73_destroyed_once (ops : List DftMemory.Op) (s : DftMemory.State)
    (h : DftMemory.run DftMemory.init ops = .ok s) :
    s.badDestroys = [] ∧ (∀ i p, s.plan i = some (some p) → p ∈ s.plans) ∧
      (∀ i j p, s.plan i = some (some p) → s.plan j = some (some p) → i = j) ∧ s.mem.badFrees = [] := by
  have := DftMemory.Inv.init.run ops h
  exact ⟨this.good, this.held, this.unique, this.mem.good⟩

/-- **C73**, exact result: an FFTW plan is lost, i.e. not destroyed and not held by any object any more, iff another plan
object was move-assigned to its holder. -/
theorem C73_losses (ops : List DftMemory.Op) (op : DftMemory.Op) (s t : DftMemory.State)
    (h : DftMemory.run DftMemory.init ops = .ok s) (hop : DftMemory.step s op = .ok t) (p : Nat) :
    (p ∈ t.plans ∧ ∀ i, t.plan i ≠ some (some p)) ↔
      (p ∈ s.plans ∧ ∀ i, s.plan i ≠ some (some p)) ∨
      ∃ i other, op = .moveAssign i other ∧ i ≠ other ∧ s.plan i = some (some p) :=
  lost_step_iff (DftMemory.Inv.init.run ops h) op hop p

/-- **C73**, partial: if there is no move assignment, all FFTW plans were destroyed when no object remains.
Missing: move assignments, which lose plans (`C73_losses`). -/
theorem C73_no_leak_partial (ops : List DftMemory.Op) (s : DftMemory.State)
    (h : DftMemory.run DftMemory.init ops = .ok s) (hm : ∀ i other, DftMemory.Op.moveAssign i other ∉ ops)
    (hs : ∀ i, s.plan i = none) : s.plans = [] := by
  have key : ∀ (ops : List DftMemory.Op) (u : DftMemory.State), DftMemory.Inv u → (∀ p, ¬ Lost u p) →
      (∀ i other, DftMemory.Op.moveAssign i other ∉ ops) → DftMemory.run u ops = .ok s → ∀ p, ¬ Lost s p := by
    intro ops
    induction ops with
    | nil => intro u _ hl _ h; cases h; exact hl
    | cons op ops ih =>
      intro u hu hl hm h
      cases hc : DftMemory.step u op with
      | error e => simp [DftMemory.run, hc, bind, Except.bind] at h
      | ok w =>
        simp only [DftMemory.run, hc, bind, Except.bind] at h
        refine ih w (hu.step op hc) (fun p => ?_) (fun i o g => hm i o (List.mem_cons_of_mem _ g)) h
        rw [lost_step_iff hu op hc p]
        rintro (g | ⟨i, other, rfl, -⟩)
        · exact hl p g
        · exact hm i other List.mem_cons_self
  have hl := key ops _ DftMemory.Inv.init (fun p hp => by simp [Lost, DftMemory.init] at hp) hm h
  refine List.eq_nil_iff_forall_not_mem.2 fun p hp => hl p ⟨hp, fun i hi => ?_⟩
  rw [hs i] at hi
  cases hi

/-- **C73**, partial: if the user does not assign, move nor reset the buffers, transforms are from `in()` to `out()`.
Missing: assignments to `in()` and `out()`, e.g. `dft.in() = raster` (`C73_assigned`). -/
theorem C73_arrays_partial (ops : List DftMemory.Op) (s t : DftMemory.State) (i : Nat)
    (h : DftMemory.run DftMemory.init ops = .ok s) (hr : ∀ op ∈ ops, ¬ Rebinds op)
    (ht : DftMemory.step s (.transform i) = .ok t) :
    ∃ a b, data t (3 * i) = some a ∧ data t (3 * i + 1) = some b ∧ t.executed = some (a, b) := by
  have hm := matching_run ops s h hr
  obtain ⟨p, h1, -, -, -, rfl⟩ := transform_ok ht
  exact ⟨_, _, (hm i p h1).1, (hm i p h1).2, rfl⟩

/-- **C73**, negative result: after `dft.in() = raster`, where `raster` owns its data, the transform does not read `in()`:
its input is the former buffer. -/
theorem C73_assigned (ops : List DftMemory.Op) (s s' t : DftMemory.State) (i other b : Nat) (ok : Bool)
    (h : DftMemory.run DftMemory.init ops = .ok s) (hr : ∀ op ∈ ops, ¬ Rebinds op)
    (hs : DftMemory.step s (.transform i) = .ok s') (hb : Owns s.mem other b) (hn : other ≠ 3 * i)
    (ht : DftMemory.step s (.buffer (.copyAssign (3 * i) other ok)) = .ok t) :
    ∃ u, DftMemory.step t (.transform i) = .ok u ∧ u.executed = s'.executed ∧
      data u (3 * i) ≠ data s (3 * i) ∧ u.executed.map Prod.fst ≠ data u (3 * i) := by
  have hi := DftMemory.Inv.init.run ops h
  have hm := matching_run ops s h hr
  obtain ⟨p, h1, h2, h3, h4, rfl⟩ := transform_ok hs
  obtain ⟨m1, -⟩ := hm i p h1
  cases effect_of_step ht with
  | construct hop =>
    rcases hop with g | ⟨_, _, g, -⟩ | ⟨_, _, g, -⟩ <;> cases g
  | @buffer _ mem _ hm =>
    have hst := run_one hm
    obtain ⟨o, ho, hc⟩ := hb
    have hobj : ∃ c, s.mem.objs (3 * i) = some c := by
      unfold data at m1
      cases hc : s.mem.objs (3 * i) with
      | none => rw [hc] at m1; cases m1
      | some c => exact ⟨c, rfl⟩
    obtain ⟨c, hobj⟩ := hobj
    simp only [Aligned.step, hobj, ho, if_neg hn.symm, hc] at hst
    cases hcp : Aligned.copyTo (Aligned.malloc s.mem ok).1 o.data (Aligned.malloc s.mem ok).2 o.size with
    | error e => simp [hcp, bind, Except.bind] at hst
    | ok v =>
      simp only [hcp, bind, Except.bind] at hst
      cases hst
      obtain ⟨e1, e2, -⟩ := Aligned.copyTo_same hcp
      have hlive : ∀ q, Accessible s.mem q → Accessible
          (Aligned.setObj v (3 * i) (some ⟨o.size, (Aligned.malloc s.mem ok).2,
            (Aligned.malloc s.mem ok).2.map fun b => (.heap b, 0)⟩)) q := by
        intro q hq
        unfold Accessible at hq ⊢
        cases hq1 : q.1 with
        | foreign k => trivial
        | heap d =>
          rw [hq1] at hq
          dsimp only at hq ⊢
          simp only [Aligned.setObj, e2]
          cases ok
          · exact hq
          · exact List.mem_cons_of_mem _ hq
      have suff : ∀ {d : Option Ptr}, d ≠ some (s.arrays p).1 →
          d ≠ data s (3 * i) ∧ (some (s.arrays p)).map Prod.fst ≠ d :=
        fun hd => ⟨by rw [m1]; exact hd, fun e => hd e.symm⟩
      refine ⟨{ s with
        mem := Aligned.setObj v (3 * i) (some ⟨o.size, (Aligned.malloc s.mem ok).2,
          (Aligned.malloc s.mem ok).2.map fun b => (.heap b, 0)⟩)
        executed := some (s.arrays p) }, ?_, rfl, suff ?_⟩
      · simp only [DftMemory.step, h1]
        rw [if_pos ⟨h2, hlive _ h3, hlive _ h4⟩]
      simp only [data, Aligned.setObj, if_true]
      cases ok with
      | false => simp [Aligned.malloc]
      | true =>
        simp only [Aligned.malloc, if_true, Option.bind_some, Option.map_some, ne_eq, Option.some.injEq]
        intro e
        rw [← e] at h3
        have : s.mem.next ∈ s.mem.live := h3
        exact absurd (hi.mem.fresh _ this) (by simp)

/-- **C73** is refuted: a plan object is assigned to another one, and both are destroyed. -/
theorem C73_violated : ¬ C73_Statement := by
  intro h
  have := h [.construct 0 2 2 none none true true, .construct 1 2 2 none none true true, .moveAssign 0 1,
    .destroy 0, .destroy 1] _ rfl
  have := this.2.1 (fun i => match i with
    | 0 => rfl
    | 1 => rfl
    | _ + 2 => rfl)
  revert this
  decide

/-- **C73** is refuted for another reason, as soon as one object is assigned to `in()`. -/
theorem C73_violated_assigned : ∃ s t, DftMemory.run DftMemory.init
    [.construct 0 2 2 none none true true, .buffer (.construct 2 2 none true), .buffer (.copyAssign 0 2 true)] = .ok s ∧
    DftMemory.step s (.transform 0) = .ok t ∧ t.executed.map Prod.fst ≠ data t 0 :=
  ⟨_, _, rfl, rfl, by decide⟩

/-- **C73**: a transform is safe as long as its buffers are owned by some objects, e.g. its own buffers, or those of the plan
of which this is the inverse. -/
theorem C73_owned (ops : List DftMemory.Op) (s : DftMemory.State) (i p k l a b oa ob : Nat)
    (h : DftMemory.run DftMemory.init ops = .ok s) (hr : ∀ op ∈ ops, ¬ Rebinds op) (hp : s.plan i = some (some p))
    (ha : data s (3 * i) = some (.heap a, oa)) (hb : data s (3 * i + 1) = some (.heap b, ob))
    (hka : Owns s.mem k a) (hlb : Owns s.mem l b) :
    DftMemory.step s (.transform i) = .ok { s with executed := some ((.heap a, oa), (.heap b, ob)) } := by
  have hi := DftMemory.Inv.init.run ops h
  obtain ⟨m1, m2⟩ := matching_run ops s h hr i p hp
  have e : s.arrays p = ((.heap a, oa), (.heap b, ob)) := by
    rw [ha] at m1; rw [hb] at m2
    exact Prod.ext (Option.some.inj m1).symm (Option.some.inj m2).symm
  simp only [DftMemory.step, hp, e]
  rw [if_pos ⟨hi.held _ _ hp, hi.mem.owned_live _ _ hka, hi.mem.owned_live _ _ hlb⟩]

/-- **C73**: the transform of the inverse plan has undefined behaviour once the plan which owns the buffers is destroyed. -/
theorem C73_dangling (ops : List DftMemory.Op) (s t u : DftMemory.State) (i other b nIn nOut : Nat) (okIn okOut : Bool)
    (h : DftMemory.run DftMemory.init ops = .ok s) (hb : Owns s.mem (3 * other) b)
    (ht : DftMemory.step s (.inverse i other nIn nOut okIn okOut) = .ok t)
    (hu : DftMemory.step t (.destroy other) = .ok u) : DftMemory.step u (.transform i) = .error .ub := by
  have hi := DftMemory.Inv.init.run ops h
  have hti := hi.step _ ht
  cases effect_of_step ht with
  | @construct _ i' nIn' nOut' inData outData okIn' okOut' mem a b' hop hp hm ha hb' =>
    rcases hop with g | ⟨o', ho', g, g1, g2⟩ | ⟨_, _, g, -⟩
    · cases g
    · cases g
      have hio : other ≠ i := by rintro rfl; rw [hp] at ho'; cases ho'
      obtain ⟨v, hv, hv'⟩ := run_two hm
      have hob : mem.objs (3 * other) = s.mem.objs (3 * other) := by
        rw [(objs_construct hv').1 _ (by omega), (objs_construct hv).1 _ (by omega)]
      have hbm : Owns mem (3 * other) b := by
        unfold Owns at hb ⊢; rw [hob]; exact hb
      have hd : data s (3 * other) = some (.heap b, 0) := by
        obtain ⟨o, ho, hc⟩ := hb
        simp only [data, ho, Option.bind_some]
        exact hi.mem.owned_data _ _ _ ho hc
      have hbb : b' = (.heap b, 0) := by
        have := (objs_construct hv').2 _ (g2.trans hd)
        rw [hb'] at this
        exact Option.some.inj this
      cases effect_of_step hu with
      | construct hop =>
        rcases hop with g | ⟨_, _, g, -⟩ | ⟨_, _, g, -⟩ <;> cases g
      | @destroy _ q mem' hq hm' =>
        obtain ⟨w, hw, hw'⟩ := run_two hm'
        have hmi : Aligned.Inv mem := hti.mem
        have how : Owns w (3 * other) b := by
          unfold Owns at hbm ⊢
          rw [objs_destroy hw _ (by omega)]
          exact hbm
        have hl := live_destroy (hmi.step _ hw) hw' how
        rw [destroyPlan_eq hti hq]
        simp only [DftMemory.step, setPlan, if_neg hio.symm, if_true]
        rw [if_neg]
        rintro ⟨-, -, hacc⟩
        rw [hbb] at hacc
        exact hl hacc
    · cases g

/-- **C73**: the transform of a plan object which was moved has undefined behaviour. -/
theorem C73_moved (s t : DftMemory.State) (i other : Nat)
    (ht : DftMemory.step s (.moveConstruct i other) = .ok t ∨
      (i ≠ other ∧ DftMemory.step s (.moveAssign i other) = .ok t)) :
    DftMemory.step t (.transform other) = .error .ub := by
  have key : t.plan other = some none := by
    rcases ht with ht | ⟨hn, ht⟩
    · cases effect_of_step ht with
      | construct hop =>
        rcases hop with g | ⟨_, _, g, -⟩ | ⟨_, _, g, -⟩ <;> cases g
      | moveConstruct h1 h2 _ =>
        have : other ≠ i := by rintro rfl; rw [h1] at h2; cases h2
        simp [setPlan, this]
    · cases effect_of_step ht with
      | construct hop =>
        rcases hop with g | ⟨_, _, g, -⟩ | ⟨_, _, g, -⟩ <;> cases g
      | moveAssign h1 h2 _ => simp [setPlan, hn.symm]
  simp [DftMemory.step, key]

/-- **C73**: failures of allocation are not detected, and the planner is given null pointers. -/
theorem C73_allocation_failure (s : DftMemory.State) (i nIn nOut : Nat) (inData outData : Option Ptr) (okIn okOut : Bool)
    (hi : s.plan i = none) (h1 : s.mem.objs (3 * i) = none) (h2 : s.mem.objs (3 * i + 1) = none)
    (h : inData = none ∧ okIn = false ∨ outData = none ∧ okOut = false) :
    DftMemory.step s (.construct i nIn nOut inData outData okIn okOut) = .error .ub := by
  have e1 : 3 * i ≠ 3 * i + 1 := by omega
  rcases h with ⟨rfl, rfl⟩ | ⟨rfl, rfl⟩
  · cases outData <;> cases okOut <;>
      simp [DftMemory.step, DftMemory.construct, hi, buffers, Aligned.run, Aligned.step, h1, h2, Aligned.malloc, Aligned.setObj,
        createPlan, data, bind, Except.bind, pure, Except.pure]
  · cases inData <;> cases okIn <;>
      simp [DftMemory.step, DftMemory.construct, hi, buffers, Aligned.run, Aligned.step, h1, h2, Aligned.malloc, Aligned.setObj,
        createPlan, data, bind, Except.bind, pure, Except.pure]

/-- **C73**: nor is memory which was freed: the planner writes the arrays. -/
theorem C73_planner (s : DftMemory.State) (i nIn nOut : Nat) (p q : Ptr) (okIn okOut : Bool)
    (hi : s.plan i = none) (h1 : s.mem.objs (3 * i) = none) (h2 : s.mem.objs (3 * i + 1) = none) :
    (∃ t, DftMemory.step s (.construct i nIn nOut (some p) (some q) okIn okOut) = .ok t) ∧ Accessible s.mem p ∧ Accessible s.mem q ∨
    DftMemory.step s (.construct i nIn nOut (some p) (some q) okIn okOut) = .error .ub ∧ ¬ (Accessible s.mem p ∧ Accessible s.mem q) := by
  by_cases h : Accessible s.mem p ∧ Accessible s.mem q
  · refine .inl ⟨?_, h⟩
    obtain ⟨hp, hq⟩ := h
    simp only [Accessible] at hp hq
    simp [DftMemory.step, DftMemory.construct, hi, buffers, Aligned.run, Aligned.step, h1, h2, Aligned.setObj,
        createPlan, data, Accessible, hp, hq, bind, Except.bind, pure, Except.pure]
  · refine .inr ⟨?_, h⟩
    simp only [Accessible] at h
    simp [DftMemory.step, DftMemory.construct, hi, buffers, Aligned.run, Aligned.step, h1, h2, Aligned.setObj,
        createPlan, data, Accessible, h, bind, Except.bind, pure, Except.pure]

/-- Non-vacuity: the first allocation of the program fails. -/
example : DftMemory.step DftMemory.init (.construct 0 4 4 none none false true) = .error .ub :=
  C73_allocation_failure _ 0 4 4 none none false true rfl rfl rfl (Or.inl ⟨rfl, rfl⟩)

/-- **C73**: the functions which transform a raster are safe, execute and destroy their FFTW plan, and return the output, but
the memory of the raster which
they return is not owned by any object, and will never be freed. -/
theorem C73_functions (ops : List DftMemory.Op) (s : DftMemory.State) (i k nIn nOut : Nat)
    (h : DftMemory.run DftMemory.init ops = .ok s) (hi : s.plan i = none) (h1 : s.mem.objs (3 * i) = none)
    (h2 : s.mem.objs (3 * i + 1) = none) (hk : s.mem.objs (3 * k + 2) = none) :
    ∃ t b, DftMemory.run s (dftFunction i (3 * k + 2) nIn nOut) = .ok t ∧ t.plans = s.plans ∧
      t.executed = some ((.heap s.mem.next, 0), (.heap b, 0)) ∧ data t (3 * k + 2) = some (.heap b, 0) ∧ t.mem.live = b :: s.mem.live ∧ b ∉ s.mem.live ∧ b ∉ t.mem.released ∧
      ∀ j, ¬ Owns t.mem j b := by
  have hs := DftMemory.Inv.init.run ops h
  have e1 : 3 * i + 1 ≠ 3 * i := by omega
  have e2 : 3 * k + 2 ≠ 3 * i := by omega
  have e3 : 3 * k + 2 ≠ 3 * i + 1 := by omega
  have e4 : 3 * i ≠ 3 * k + 2 := e2.symm
  have hn : s.mem.next ∉ s.mem.live := fun hm => absurd (hs.mem.fresh _ hm) (by simp)
  have hn1 : s.mem.next + 1 ∉ s.mem.live := fun hm => absurd (hs.mem.fresh _ hm) (by simp)
  have hr : ∀ b, b ∉ s.mem.live → b ∉ s.mem.released := fun b hb hm => hb (hs.mem.released_live b hm)
  have ho : ∀ j o b, b ∉ s.mem.live → s.mem.objs j = some o → o.container ≠ some b :=
    fun j o b hb hj hc => hb (hs.mem.owned_live j b ⟨o, hj, hc⟩)
  have hrun : ∃ t, DftMemory.run s (dftFunction i (3 * k + 2) nIn nOut) = .ok t ∧ t.plans = s.plans ∧
      t.executed = some ((.heap s.mem.next, 0), (.heap (s.mem.next + 1), 0)) ∧
      t.mem.live = (s.mem.next + 1) :: s.mem.live ∧ t.mem.released = s.mem.released ∧
      ∀ j, t.mem.objs j = if j = 3 * k + 2 then some ⟨nOut, none, some (.heap (s.mem.next + 1), 0)⟩ else
        if j = 3 * i ∨ j = 3 * i + 1 then none else s.mem.objs j := by
    simp only [DftMemory.run, dftFunction, DftMemory.step, DftMemory.construct, hi, buffers, Aligned.run, Aligned.step,
      h1, Aligned.malloc, Aligned.setObj, createPlan, data, Accessible, setPlan, bind,
      Except.bind, pure, Except.pure, lifetime, Aligned.reset, DftMemory.destroyPlan, Aligned.free]
    simp [e2, e3, e4, h2, hk]
    intro j
    by_cases j1 : j = 3 * i
    · simp [j1, e4]
    · by_cases j2 : j = 3 * i + 1
      · simp [j2]
        omega
      · simp [j1, j2]
  obtain ⟨t, ht, t1, te, t2, t3, t4⟩ := hrun
  refine ⟨t, s.mem.next + 1, ht, t1, te, by simp [data, t4], t2, hn1, by rw [t3]; exact hr _ hn1, ?_⟩
  rintro j ⟨o, hj, hc⟩
  rw [t4] at hj
  split at hj
  · cases hj; cases hc
  · split at hj
    · cases hj
    · exact ho j o _ hn1 hj hc

/-! ## Non-vacuity -/

/-- A history with sharing, moves and destructions, all of which is fine. -/
example : ∃ s t, DftMemory.run DftMemory.init
    [.construct 0 4 4 none none true true, .inverse 1 0 4 4 true true, .compose 2 0 4 4 true, .moveConstruct 3 1,
      .transform 0, .transform 2] = .ok s ∧ DftMemory.step s (.transform 3) = .ok t ∧
    s.executed = some ((.heap 1, 0), (.heap 2, 0)) ∧ t.executed = some ((.heap 1, 0), (.heap 0, 0)) ∧
    s.plans = [2, 1, 0] :=
  ⟨_, _, rfl, rfl, rfl, rfl, rfl⟩

/-- The hypotheses of `C73_assigned`. -/
example : ∃ s s' t, DftMemory.run DftMemory.init
    [.construct 0 4 4 none none true true, .buffer (.construct 2 4 none true)] = .ok s ∧
    DftMemory.step s (.transform 0) = .ok s' ∧ Owns s.mem 2 2 ∧
    DftMemory.step s (.buffer (.copyAssign (3 * 0) 2 true)) = .ok t :=
  ⟨_, _, _, rfl, rfl, ⟨_, rfl, rfl⟩, rfl⟩

/-- The hypotheses of `C73_owned`, for the inverse of a plan. -/
example : ∃ s, DftMemory.run DftMemory.init [.construct 0 4 4 none none true true, .inverse 1 0 4 4 true true] = .ok s ∧
    s.plan 1 = some (some 1) ∧ data s (3 * 1) = some (.heap 1, 0) ∧ data s (3 * 1 + 1) = some (.heap 0, 0) ∧
    Owns s.mem 1 1 ∧ Owns s.mem 0 0 :=
  ⟨_, rfl, rfl, rfl, rfl, ⟨_, rfl, rfl⟩, ⟨_, rfl, rfl⟩⟩

/-- The hypotheses of `C73_dangling`. -/
example : ∃ s t u, DftMemory.run DftMemory.init [.construct 0 4 4 none none true true] = .ok s ∧ Owns s.mem (3 * 0) 0 ∧
    DftMemory.step s (.inverse 1 0 4 4 true true) = .ok t ∧ DftMemory.step t (.destroy 0) = .ok u :=
  ⟨_, _, _, rfl, ⟨_, rfl, rfl⟩, rfl, rfl⟩

/-- The hypotheses of `C73_moved` and `C73_losses`. -/
example : ∃ s t, DftMemory.run DftMemory.init
    [.construct 0 4 4 none none true true, .construct 1 4 4 none none true true] = .ok s ∧
    DftMemory.step s (.moveAssign 0 1) = .ok t ∧ s.plan 0 = some (some 0) ∧ t.plan 0 = some (some 1) ∧
    t.plans = [1, 0] :=
  ⟨_, _, rfl, rfl, rfl, rfl, rfl⟩

/-- The hypotheses of `C73_no_leak_partial`. -/
example : ∃ s, DftMemory.run DftMemory.init
    [.construct 0 4 4 none none true true, .moveConstruct 1 0, .destroy 0, .destroy 1] = .ok s ∧
    (∀ i, s.plan i = none) ∧ s.plans = [] :=
  ⟨_, rfl, fun i => match i with
    | 0 => rfl
    | 1 => rfl
    | _ + 2 => rfl, rfl⟩

/-- The hypotheses of `C73_functions`. -/
example : ∃ s, DftMemory.run DftMemory.init [.construct 0 4 4 none none true true] = .ok s ∧ s.plan 1 = none ∧
    s.mem.objs (3 * 1) = none ∧ s.mem.objs (3 * 1 + 1) = none ∧ s.mem.objs (3 * 0 + 2) = none :=
  ⟨_, rfl, rfl, rfl, rfl, rfl⟩

end Litl
