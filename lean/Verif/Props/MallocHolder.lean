import Verif.Model.MallocHolder
import Verif.Lemmas.Arithmetic
import Mathlib.Tactic.Push

/-!
# C123: rasters with the custom holder of the documentation
-/

namespace Litl

namespace Spec

open MallocHolder (Op)

/-- What programs expect: rasters are values.  Elements are not initialized, or have a value. -/
structure Values (α : Type) where
  objs : Nat → Option (List (Option α))
  out : List α

/-- Modify an object. -/
def Values.set {α : Type} (a : Values α) (i : Nat) (l : Option (List (Option α))) : Values α :=
  { a with objs := fun j => if j = i then l else a.objs j }

/-- What one operation is expected to do, for well-formed programs: objects are constructed once, are used while they are alive, within
bounds, and elements are not read before they are written. Objects are empty once they are moved. -/
inductive Executes {α : Type} : Values α → Op α → Values α → Prop
  | construct {a : Values α} {i n : Nat} {ok : Bool} : a.objs i = none →
    Executes a (.construct i n ok) (a.set i (some (List.replicate n none)))
  | constructFrom {a : Values α} {i : Nat} {l : List α} {ok : Bool} : a.objs i = none →
    Executes a (.constructFrom i l ok) (a.set i (some (l.map some)))
  | copyConstruct {a : Values α} {i j : Nat} {l : List (Option α)} : a.objs i = none → a.objs j = some l →
    Executes a (.copyConstruct i j) (a.set i (some l))
  | moveConstruct {a : Values α} {i j : Nat} {l : List (Option α)} : a.objs i = none → a.objs j = some l →
    Executes a (.moveConstruct i j) ((a.set i (some l)).set j (some []))
  | copyAssign {a : Values α} {i j : Nat} {l m : List (Option α)} : a.objs i = some m → a.objs j = some l →
    Executes a (.copyAssign i j) (a.set i (some l))
  | moveAssign {a : Values α} {i j : Nat} {l m : List (Option α)} : i ≠ j → a.objs i = some m → a.objs j = some l →
    Executes a (.moveAssign i j) ((a.set i (some l)).set j (some []))
  | destroy {a : Values α} {i : Nat} {l : List (Option α)} : a.objs i = some l → Executes a (.destroy i) (a.set i none)
  | write {a : Values α} {i k : Nat} {v : α} {l : List (Option α)} : a.objs i = some l → k < l.length →
    Executes a (.write i k v) (a.set i (some (l.set k (some v))))
  | read {a : Values α} {i k : Nat} {v : α} {l : List (Option α)} : a.objs i = some l → l[k]? = some (some v) →
    Executes a (.read i k) { a with out := v :: a.out }

/-- What programs are expected to do. -/
inductive ExecutesAll {α : Type} : Values α → List (Op α) → Values α → Prop
  | nil {a : Values α} : ExecutesAll a [] a
  | cons {a b c : Values α} {op : Op α} {ops : List (Op α)} : Executes a op b → ExecutesAll b ops c → ExecutesAll a (op :: ops) c

/-- No objects. -/
def noValues {α : Type} : Values α := ⟨fun _ => none, []⟩

/-- There is enough memory: the numbers of bytes are values of type `std::size_t`, and allocations succeed. -/
def Allocates {α : Type} (elem : Nat) : Op α → Prop
  | .construct _ n ok => n * elem < 2 ^ 64 ∧ ok = true
  | .constructFrom _ l ok => l.length * elem < 2 ^ 64 ∧ ok = true
  | _ => True

/-- The operations which copy or move a raster to another one. -/
def Copies {α : Type} : Op α → Prop
  | .copyConstruct _ _ => True
  | .moveConstruct _ _ => True
  | .copyAssign i j => i ≠ j
  | .moveAssign i j => i ≠ j
  | _ => False

end Spec

/-- **C123**: whatever the program, provided that there is enough memory, rasters with the holder of the documentation are values, the
behaviour is defined, and the memory is freed once there are no more rasters. -/
def C123_Statement : Prop :=
  ∀ (α : Type) (elem : Nat) (ops : List (MallocHolder.Op α)) (a : Spec.Values α), 0 < elem →
    (∀ op ∈ ops, Spec.Allocates elem op) → Spec.ExecutesAll Spec.noValues ops a →
    ∃ s, MallocHolder.run elem MallocHolder.init ops = .ok s ∧ s.out = a.out ∧
      ((∀ i, a.objs i = none) → ∀ b, s.heap b = none)

namespace MallocHolder

open Spec Container

variable {α : Type}

/-! ## Programs without copies -/

/-- The states are those which are expected, each object owns one block, and there are no other blocks. -/
structure Refines (s : State α) (a : Values α) : Prop where
  out : s.out = a.out
  dead : ∀ i, a.objs i = none → s.objs i = none
  alive : ∀ i l, a.objs i = some l → ∃ b, s.objs i = some ⟨l.length, some b⟩ ∧ s.heap b = some l
  inj : ∀ i j o p b, s.objs i = some o → s.objs j = some p → o.data = some b → p.data = some b → i = j
  owned : ∀ b, s.heap b ≠ none → b < s.next ∧ ∃ i o, s.objs i = some o ∧ o.data = some b

theorem refines_init : Refines (init : State α) noValues where
  out := rfl
  dead _ _ := rfl
  alive _ _ h := by cases h
  inj _ _ _ _ _ h := by cases h
  owned _ h := absurd rfl h

/-- Writing some values to a block. -/
theorem copyFrom_ok : ∀ (values : List α) (s : State α) (b k : Nat) (l : List (Option α)), s.heap b = some l →
    k + values.length ≤ l.length →
    copyFrom s (some b) k values = .ok (setBlock s b (some (l.take k ++ values.map some ++ l.drop (k + values.length))))
  | [], s, b, k, l, h, _ => by
    simp only [copyFrom, List.map_nil, List.append_nil, List.length_nil, Nat.add_zero, List.take_append_drop, setBlock]
    congr 2
    cases s
    congr
    funext c
    split
    · subst c; exact h
    · rfl
  | v :: values, s, b, k, l, h, hk => by
    simp only [List.length_cons] at hk
    have hlt : k < l.length := by omega
    have hstep : poke s (some b) k v = .ok (setBlock s b (some (l.set k (some v)))) := by simp [poke, h, hlt]
    rw [copyFrom, hstep, ok_bind,
      copyFrom_ok values _ b (k + 1) (l.set k (some v)) (by simp [setBlock]) (by simp only [List.length_set]; omega)]
    congr 1
    simp only [setBlock]
    congr 1
    funext c
    split
    · congr 1
      rw [List.take_set, List.drop_set_of_lt (by omega), List.take_add_one, List.set_append]
      simp only [List.length_take, Nat.min_eq_left (Nat.le_of_lt hlt), Nat.lt_irrefl, if_false, Nat.sub_self,
        List.getElem?_eq_getElem hlt, Option.toList_some, List.set_cons_zero, List.map_cons, List.length_cons]
      simp [Nat.add_assoc, Nat.add_comm 1]
    · simp_all

/-- Construction of an object, the elements of which are initialized or not. -/
theorem construct_ok {elem : Nat} (he : 0 < elem) {s : State α} {a : Values α} (h : Refines s a) {i size : Nat} {values : List α}
    (hi : a.objs i = none) (hv : values = [] ∨ values.length = size) (hn : size * elem < 2 ^ 64) :
    ∃ s', construct elem s i size values true = .ok s' ∧
      Refines s' (a.set i (some (values.map some ++ List.replicate (size - values.length) none))) := by
  have hcap : size * elem % 2 ^ 64 / elem = size := by
    rw [Nat.mod_eq_of_lt hn, Nat.mul_div_cancel _ he]
  have hle : values.length ≤ size := by rcases hv with rfl | hv <;> simp_all
  unfold construct malloc
  rw [h.dead i hi]
  simp only [if_true, hcap]
  rw [copyFrom_ok values _ s.next 0 (List.replicate size none) (by simp [setBlock]) (by simpa using hle), ok_bind]
  refine ⟨_, rfl, ?_⟩
  have hfresh : ∀ j o b, s.objs j = some o → o.data = some b → b ≠ s.next := by
    intro j o b hj hb
    rcases ha : a.objs j with _ | l
    · rw [h.dead j ha] at hj; cases hj
    · obtain ⟨c, hc, hl⟩ := h.alive j l ha
      rw [hc] at hj
      cases hj
      cases hb
      have := (h.owned b (by simp [hl])).1
      omega
  refine ⟨h.out, ?_, ?_, ?_, ?_⟩
  · intro j hj
    simp only [Values.set] at hj
    split at hj
    · cases hj
    · next hne => simpa [setObj, setBlock, hne] using h.dead j hj
  · intro j l hj
    simp only [Values.set] at hj
    split at hj
    · next e =>
      cases hj
      refine ⟨s.next, ?_, ?_⟩
      · simp [setObj, setBlock, e, Nat.add_sub_cancel' hle]
      · simp [setObj, setBlock]
    · next hne =>
      obtain ⟨b, hb, hl⟩ := h.alive j l hj
      refine ⟨b, by simpa [setObj, setBlock, hne] using hb, ?_⟩
      have := hfresh j _ b hb rfl
      simpa [setObj, setBlock, this] using hl
  · intro j k o p b hj hk ho hp
    simp only [setObj, setBlock] at hj hk
    split at hj <;> split at hk
    · simp_all
    · cases hj; cases ho; exact absurd rfl (hfresh k p _ hk hp)
    · cases hk; cases hp; exact absurd rfl (hfresh j o _ hj ho)
    · exact h.inj j k o p b hj hk ho hp
  · intro b hb
    by_cases e : b = s.next
    · subst e
      exact ⟨by simp [setObj, setBlock], i, ⟨size, some s.next⟩, by simp [setObj, setBlock], rfl⟩
    · simp only [setObj, setBlock, if_neg e] at hb
      obtain ⟨h1, j, o, hj, ho⟩ := h.owned b hb
      refine ⟨Nat.lt_succ_of_lt h1, j, o, ?_, ho⟩
      simp only [setObj, setBlock]
      rw [if_neg]
      · exact hj
      · rintro rfl
        rw [h.dead _ hi] at hj
        cases hj

/-- One operation which is not a copy. -/
theorem step_ok {elem : Nat} (he : 0 < elem) {s : State α} {a a' : Values α} {op : Op α} (h : Refines s a)
    (hop : Executes a op a') (hc : ¬ Copies op) (hm : Allocates elem op) : ∃ s', step elem s op = .ok s' ∧ Refines s' a' := by
  cases hop with
  | @construct i n ok hi =>
    obtain ⟨hn, rfl⟩ := hm
    simpa [step] using construct_ok he h hi (.inl rfl) hn
  | @constructFrom i l ok hi =>
    obtain ⟨hn, rfl⟩ := hm
    simpa [step] using construct_ok he h hi (.inr rfl) hn
  | copyConstruct => exact absurd trivial hc
  | moveConstruct => exact absurd trivial hc
  | @copyAssign i j l m hi hj =>
    have e : i = j := by by_contra e; exact hc e
    subst e
    obtain ⟨b, hb, hl⟩ := h.alive i l hj
    refine ⟨s, ?_, ?_⟩
    · simp only [step, copyAssign, hb, setObj]
      congr 1
      cases s
      congr
      funext k
      split
      · next e => subst e; exact hb.symm
      · rfl
    · have : a.set i (some l) = a := by
        cases a
        simp only [Values.set]
        congr
        funext k
        split
        · next e => subst e; exact hj.symm
        · rfl
      rwa [this]
  | moveAssign hne => exact absurd hne hc
  | @destroy i l hi =>
    obtain ⟨b, hb, hl⟩ := h.alive i l hi
    refine ⟨setObj (setBlock s b none) i none, by simp only [step, hb, free, hl, ok_bind]; rfl, h.out, ?_, ?_, ?_, ?_⟩
    · intro j hj
      simp only [Values.set] at hj
      simp only [setObj, setBlock]
      split at hj
      · next e => rw [if_pos e]
      · next e => rw [if_neg e]; exact h.dead j hj
    · intro j m hj
      simp only [Values.set] at hj
      split at hj
      · cases hj
      · next e =>
        obtain ⟨c, hc, hm⟩ := h.alive j m hj
        refine ⟨c, by simpa [setObj, setBlock, e] using hc, ?_⟩
        have : c ≠ b := by
          rintro rfl
          exact e (h.inj j i _ _ c hc hb rfl rfl)
        simpa [setObj, setBlock, this] using hm
    · intro j k o p c hj hk
      simp only [setObj, setBlock] at hj hk
      split at hj
      · cases hj
      · split at hk
        · cases hk
        · exact h.inj j k o p c hj hk
    · intro c hc
      simp only [setObj, setBlock] at hc
      split at hc
      · exact absurd rfl hc
      · next e =>
        obtain ⟨h1, j, o, hj, ho⟩ := h.owned c hc
        refine ⟨h1, j, o, ?_, ho⟩
        simp only [setObj, setBlock]
        rw [if_neg]
        · exact hj
        · rintro rfl
          rw [hb] at hj
          cases hj
          cases ho
          exact e rfl
  | @write i k v l hi hk =>
    obtain ⟨b, hb, hl⟩ := h.alive i l hi
    refine ⟨setBlock s b (some (l.set k (some v))), by simp [step, hb, hk, poke, hl], h.out, ?_, ?_, ?_, ?_⟩
    · intro j hj
      simp only [Values.set] at hj
      split at hj
      · cases hj
      · exact h.dead j hj
    · intro j m hj
      simp only [Values.set] at hj
      split at hj
      · next e =>
        cases hj
        exact ⟨b, by simpa [setBlock, e] using hb, by simp [setBlock]⟩
      · next e =>
        obtain ⟨c, hc, hm⟩ := h.alive j m hj
        refine ⟨c, hc, ?_⟩
        have : c ≠ b := by
          rintro rfl
          exact e (h.inj j i _ _ c hc hb rfl rfl)
        simpa [setBlock, this] using hm
    · exact h.inj
    · intro c hc
      refine h.owned c ?_
      simp only [setBlock] at hc
      split at hc
      · next e => subst e; simp [hl]
      · exact hc
  | @read i k v l hi hk =>
    obtain ⟨b, hb, hl⟩ := h.alive i l hi
    have hlt : k < l.length := by
      by_contra e
      rw [List.getElem?_eq_none (by omega)] at hk
      cases hk
    refine ⟨{ s with out := v :: s.out }, by simp only [step, hb, hlt, if_true, peek, hl, hk, ok_bind]; rfl, ?_, h.dead,
      h.alive, h.inj, h.owned⟩
    simp [h.out]

theorem run_ok {elem : Nat} (he : 0 < elem) : ∀ {ops : List (Op α)} {s : State α} {a a' : Values α}, Refines s a →
    ExecutesAll a ops a' → (∀ op ∈ ops, ¬ Copies op) → (∀ op ∈ ops, Allocates elem op) →
    ∃ s', run elem s ops = .ok s' ∧ Refines s' a' := by
  intro ops
  induction ops with
  | nil =>
    intro s a a' h hops _ _
    cases hops
    exact ⟨s, rfl, h⟩
  | cons op ops ih =>
    intro s a a' h hops hc hm
    cases hops with
    | cons h1 h2 =>
      obtain ⟨s1, e1, r1⟩ := step_ok he h h1 (hc op (by simp)) (hm op (by simp))
      obtain ⟨s2, e2, r2⟩ := ih r1 h2 (fun o ho => hc o (by simp [ho])) (fun o ho => hm o (by simp [ho]))
      exact ⟨s2, by rw [run, e1, ok_bind, e2], r2⟩

/-! ## Programs with copies -/

/-- An object points to a block. -/
def Points (s : State α) (i b : Nat) : Prop := ∃ o, s.objs i = some o ∧ o.data = some b

/-- All objects point to blocks which are or have been allocated. -/
def NonNull (s : State α) : Prop := ∀ i o, s.objs i = some o → ∃ b, o.data = some b ∧ b < s.next

/-- A block is shared, or is dangling. -/
def Shared (s : State α) : Prop := ∃ b, (∃ i j, i ≠ j ∧ Points s i b ∧ Points s j b) ∨ (s.heap b = none ∧ ∃ i, Points s i b)

theorem poke_objs {s s' : State α} {d : Option Nat} {k : Nat} {v : α} (h : poke s d k v = .ok s') :
    s'.objs = s.objs ∧ s'.next = s.next ∧ ∀ b, s'.heap b = none ↔ s.heap b = none := by
  unfold poke at h
  split at h
  · cases h
  · split at h
    · cases h
    · next hl =>
      split at h
      · cases h
        refine ⟨rfl, rfl, fun b => ?_⟩
        simp only [setBlock]
        split
        · next e => subst e; simp [hl]
        · rfl
      · cases h

theorem copyFrom_objs : ∀ {values : List α} {s s' : State α} {d : Option Nat} {k : Nat}, copyFrom s d k values = .ok s' →
    s'.objs = s.objs ∧ s'.next = s.next ∧ ∀ b, s'.heap b = none ↔ s.heap b = none
  | [], s, s', d, k, h => by
    cases h
    exact ⟨rfl, rfl, fun _ => Iff.rfl⟩
  | v :: l, s, s', d, k, h => by
    rw [copyFrom] at h
    rcases hp : poke s d k v with e | s1
    · rw [hp] at h; cases h
    · rw [hp, ok_bind] at h
      obtain ⟨a1, a2, a3⟩ := poke_objs hp
      obtain ⟨b1, b2, b3⟩ := copyFrom_objs h
      exact ⟨b1.trans a1, b2.trans a2, fun b => (b3 b).trans (a3 b)⟩

/-- What matters in the state once an object is constructed. -/
theorem construct_objs {elem : Nat} {s s' : State α} {i n : Nat} {values : List α} (h : construct elem s i n values true = .ok s') :
    s.objs i = none ∧ s'.objs = (fun j => if j = i then some ⟨n, some s.next⟩ else s.objs j) ∧ s'.next = s.next + 1 ∧
    ∀ b, b ≠ s.next → (s'.heap b = none ↔ s.heap b = none) := by
  unfold construct at h
  split at h
  · cases h
  · next hi =>
    simp only [malloc, if_true] at h
    rcases hp : copyFrom { setBlock s s.next (some (List.replicate (n * elem % 2 ^ 64 / elem) none)) with next := s.next + 1 }
      (some s.next) 0 values with e | s1
    · rw [hp] at h; cases h
    · rw [hp, ok_bind] at h
      cases h
      obtain ⟨a1, a2, a3⟩ := copyFrom_objs hp
      refine ⟨hi, ?_, a2, fun b hb => ?_⟩
      · funext j
        simp only [setObj, a1]
        rfl
      · simpa [setObj, setBlock, hb] using a3 b

theorem construct_shared {elem : Nat} {s s' : State α} {i n : Nat} {values : List α} (h : construct elem s i n values true = .ok s')
    (hn : NonNull s) : NonNull s' ∧ (Shared s → Shared s') := by
  obtain ⟨hi, ho, hx, hh⟩ := construct_objs h
  have hp : ∀ j b, Points s j b → Points s' j b ∧ b < s.next := by
    rintro j b ⟨o, hj, hb⟩
    refine ⟨⟨o, ?_, hb⟩, ?_⟩
    · rw [ho]
      dsimp only
      rw [if_neg, hj]
      rintro rfl
      rw [hi] at hj
      cases hj
    · obtain ⟨c, hc, hlt⟩ := hn j o hj
      rw [hb] at hc
      cases hc
      exact hlt
  constructor
  · intro j o hj
    rw [ho] at hj
    dsimp only at hj
    rw [hx]
    split at hj
    · cases hj; exact ⟨s.next, rfl, by omega⟩
    · obtain ⟨b, hb, hlt⟩ := hn j o hj
      exact ⟨b, hb, by omega⟩
  · rintro ⟨b, ⟨j, k, hne, hj, hk⟩ | ⟨hb, j, hj⟩⟩
    · exact ⟨b, .inl ⟨j, k, hne, (hp j b hj).1, (hp k b hk).1⟩⟩
    · refine ⟨b, .inr ⟨(hh b ?_).2 hb, j, (hp j b hj).1⟩⟩
      have := (hp j b hj).2
      omega

/-- Copying the members to another object, which is new or not. -/
theorem setObj_shared {s : State α} {i j : Nat} {o : Holder} (hne : i ≠ j) (hj : s.objs j = some o) (hn : NonNull s) :
    NonNull (setObj s i (some o)) ∧ Shared (setObj s i (some o)) := by
  constructor
  · intro k p hk
    simp only [setObj] at hk
    split at hk
    · cases hk; exact hn j o hj
    · exact hn k p hk
  · obtain ⟨b, hb, _⟩ := hn j o hj
    exact ⟨b, .inl ⟨i, j, hne, ⟨o, by simp [setObj], hb⟩, ⟨o, by simp [setObj, Ne.symm hne, hj], hb⟩⟩⟩

theorem step_shared {elem : Nat} {s s' : State α} {op : Op α} (h : step elem s op = .ok s') (hm : Allocates elem op)
    (hn : NonNull s) : NonNull s' ∧ (Shared s ∨ Copies op → Shared s') := by
  have hcopy : ∀ i j, copyConstruct s i j = .ok s' → NonNull s' ∧ Shared s' := by
    intro i j h
    unfold copyConstruct at h
    split at h
    · next hi hj =>
      cases h
      refine setObj_shared ?_ hj hn
      rintro rfl
      rw [hi] at hj
      cases hj
    · cases h
  have hassign : ∀ i j, copyAssign s i j = .ok s' → NonNull s' ∧ (Shared s ∨ i ≠ j → Shared s') := by
    intro i j h
    unfold copyAssign at h
    split at h
    · next o hi hj =>
      cases h
      by_cases e : i = j
      · subst e
        have : setObj s i (some o) = s := by
          cases s
          simp only [setObj]
          congr
          funext k
          split
          · next e => subst e; exact hj.symm
          · rfl
        rw [this]
        exact ⟨hn, fun h => h.resolve_right (· rfl)⟩
      · obtain ⟨h1, h2⟩ := setObj_shared e hj hn
        exact ⟨h1, fun _ => h2⟩
    · cases h
  cases op with
  | construct i n ok =>
    obtain ⟨_, rfl⟩ := hm
    obtain ⟨h1, h2⟩ := construct_shared h hn
    exact ⟨h1, fun h => h2 (h.resolve_right id)⟩
  | constructFrom i l ok =>
    obtain ⟨_, rfl⟩ := hm
    obtain ⟨h1, h2⟩ := construct_shared h hn
    exact ⟨h1, fun h => h2 (h.resolve_right id)⟩
  | copyConstruct i j => exact ⟨(hcopy i j h).1, fun _ => (hcopy i j h).2⟩
  | moveConstruct i j => exact ⟨(hcopy i j h).1, fun _ => (hcopy i j h).2⟩
  | copyAssign i j => exact hassign i j h
  | moveAssign i j => exact hassign i j h
  | destroy i =>
    simp only [step] at h
    split at h
    · next o hi =>
      obtain ⟨b, hb, hlt⟩ := hn i o hi
      simp only [free, hb] at h
      split at h
      · next l hl =>
        rw [ok_bind] at h
        cases h
        constructor
        · intro j p hj
          simp only [setObj, setBlock] at hj ⊢
          split at hj
          · cases hj
          · exact hn j p hj
        · have hp : ∀ j c, j ≠ i → Points s j c → Points (setObj (setBlock s b none) i none) j c := by
            rintro j c hne ⟨p, hj, hc⟩
            exact ⟨p, by simpa [setObj, setBlock, hne] using hj, hc⟩
          have hself : ∀ c, Points s i c → c = b := by
            rintro c ⟨p, hj, hc⟩
            rw [hi] at hj
            cases hj
            rw [hb] at hc
            exact (Option.some.inj hc).symm
          rintro (⟨c, ⟨j, k, hne, hj, hk⟩ | ⟨hc, j, hj⟩⟩ | hc)
          · by_cases e : j = i
            · subst e
              have := hself c hj
              subst this
              exact ⟨c, .inr ⟨by simp [setObj, setBlock], k, hp k c (Ne.symm hne) hk⟩⟩
            · by_cases e' : k = i
              · subst e'
                have := hself c hk
                subst this
                exact ⟨c, .inr ⟨by simp [setObj, setBlock], j, hp j c hne hj⟩⟩
              · exact ⟨c, .inl ⟨j, k, hne, hp j c e hj, hp k c e' hk⟩⟩
          · have e : j ≠ i := by
              rintro rfl
              have := hself c hj
              subst this
              rw [hl] at hc
              cases hc
            refine ⟨c, .inr ⟨?_, j, hp j c e hj⟩⟩
            simp only [setObj, setBlock]
            split
            · rfl
            · exact hc
          · exact absurd hc id
      · cases h
    · cases h
  | write i k v =>
    simp only [step] at h
    split at h
    · split at h
      · obtain ⟨h1, h2, h3⟩ := poke_objs h
        refine ⟨fun j o hj => ?_, ?_⟩
        · rw [h1] at hj
          rw [h2]
          exact hn j o hj
        · rintro (⟨c, ⟨j, k, hne, hj, hk⟩ | ⟨hc, j, hj⟩⟩ | hc)
          · exact ⟨c, .inl ⟨j, k, hne, by simpa [Points, h1] using hj, by simpa [Points, h1] using hk⟩⟩
          · exact ⟨c, .inr ⟨(h3 c).2 hc, j, by simpa [Points, h1] using hj⟩⟩
          · exact absurd hc id
      · cases h
    · cases h
  | read i k =>
    simp only [step] at h
    split at h
    · next o _ =>
      split at h
      · rcases hp : peek s o.data k with e | v
        · rw [hp] at h; cases h
        · rw [hp, ok_bind] at h
          cases h
          exact ⟨hn, fun h => h.resolve_right id⟩
      · cases h
    · cases h

theorem run_shared {elem : Nat} : ∀ {ops : List (Op α)} {s s' : State α}, run elem s ops = .ok s' →
    (∀ op ∈ ops, Allocates elem op) → NonNull s → (Shared s ∨ ∃ op ∈ ops, Copies op) → Shared s' := by
  intro ops
  induction ops with
  | nil =>
    intro s s' h _ _ hs
    cases h
    simpa using hs
  | cons op ops ih =>
    intro s s' h hm hn hs
    rw [run] at h
    rcases hp : step elem s op with e | s1
    · rw [hp] at h; cases h
    · rw [hp, ok_bind] at h
      obtain ⟨h1, h2⟩ := step_shared hp (hm op (by simp)) hn
      refine ih h (fun o ho => hm o (by simp [ho])) h1 ?_
      rcases hs with hs | ⟨o, ho, hc⟩
      · exact .inl (h2 (.inl hs))
      · rcases List.mem_cons.1 ho with rfl | ho
        · exact .inl (h2 (.inr hc))
        · exact .inr ⟨o, ho, hc⟩

end MallocHolder

open MallocHolder Spec

/-- **C123** for programs which do not copy rasters, nor move them (but possibly to themselves).
Missing: programs which do, for which the property does not hold, as soon as the rasters are destroyed (`C123_copy`). -/
theorem C123_partial {α : Type} {elem : Nat} {ops : List (Op α)} {a : Values α} (he : 0 < elem)
    (hm : ∀ op ∈ ops, Allocates elem op) (h : ExecutesAll noValues ops a) (hc : ∀ op ∈ ops, ¬ Copies op) :
    ∃ s, run elem init ops = .ok s ∧ s.out = a.out ∧ ((∀ i, a.objs i = none) → ∀ b, s.heap b = none) := by
  obtain ⟨s, hs, r⟩ := run_ok he refines_init h hc hm
  refine ⟨s, hs, r.out, fun hd b => ?_⟩
  by_contra hb
  obtain ⟨_, i, o, hi, _⟩ := r.owned b hb
  rw [r.dead i (hd i)] at hi
  cases hi

/-- **C123**, negative result: whatever the program, if a raster is ever copied or moved to another one, then the program does not
reach a state where there are no more rasters: the behaviour is undefined before. -/
theorem C123_copy {α : Type} {elem : Nat} {ops : List (Op α)} (hm : ∀ op ∈ ops, Allocates elem op) (hc : ∃ op ∈ ops, Copies op)
    {s : State α} (h : run elem init ops = .ok s) : ∃ i, s.objs i ≠ none := by
  obtain ⟨b, ⟨i, _, _, ⟨o, hi, _⟩, _⟩ | ⟨_, i, o, hi, _⟩⟩ := run_shared h hm (fun i o h => by cases h) (.inr hc)
  all_goals exact ⟨i, by simp [hi]⟩

/-- **C123**, exact result for complete programs, i.e. all the rasters of which are destroyed: the behaviour is defined if and only if
no raster is copied or moved to another one. -/
theorem C123_exact {α : Type} {elem : Nat} {ops : List (Op α)} {a : Values α} (he : 0 < elem)
    (hm : ∀ op ∈ ops, Allocates elem op) (h : ExecutesAll noValues ops a) (hd : ∀ i, a.objs i = none) :
    (∃ s, run elem init ops = .ok s ∧ ∀ i, s.objs i = none) ↔ ∀ op ∈ ops, ¬ Copies op := by
  constructor
  · rintro ⟨s, hs, hn⟩ op ho hc
    obtain ⟨i, hi⟩ := C123_copy hm ⟨op, ho, hc⟩ hs
    exact hi (hn i)
  · intro hc
    obtain ⟨s, hs, r⟩ := run_ok he refines_init h hc hm
    exact ⟨s, hs, fun i => r.dead i (hd i)⟩

/-- **C123** does not hold: copying a raster, be it empty, makes the behaviour undefined. -/
theorem C123_violated : ¬ C123_Statement := by
  intro h
  obtain ⟨s, hs, _⟩ := h Unit 1 [.construct 0 0 true, .copyConstruct 1 0, .destroy 0, .destroy 1] _ (by decide)
    (by simp [Allocates]) (.cons (.construct rfl) (.cons (.copyConstruct rfl rfl) (.cons (.destroy rfl) (.cons (.destroy rfl) .nil))))
  have e : run 1 (init : State Unit) [.construct 0 0 true, .copyConstruct 1 0, .destroy 0, .destroy 1] = .error .ub := rfl
  rw [e] at hs
  cases hs

/-- **C123**, negative result: whatever the state, if the allocation fails, there is no exception; the raster has the right size, and
using any element is undefined. -/
theorem C123_null {α : Type} {elem : Nat} {s : State α} {i : Nat} (hi : s.objs i = none) (n : Nat) :
    ∃ s', step elem s (.construct i n false) = .ok s' ∧ (∃ o, s'.objs i = some o ∧ o.size = n) ∧
      ∀ k < n, (∀ v, step elem s' (.write i k v) = .error .ub) ∧ step elem s' (.read i k) = .error .ub := by
  refine ⟨setObj s i (some ⟨n, none⟩), ?_, ⟨⟨n, none⟩, by simp [setObj], rfl⟩, ?_⟩
  · simp only [step, construct, hi, malloc, copyFrom, Container.ok_bind]; rfl
  intro k hk
  refine ⟨fun v => ?_, ?_⟩
  · simp [step, setObj, hk, poke]
  · simp [step, setObj, hk, peek]

/-- **C123**, negative result: whatever the state, if the number of bytes is not a value of type `std::size_t`, then the allocation may
succeed, and writing the last element is undefined. -/
theorem C123_overflow {α : Type} {elem : Nat} (he : 0 < elem) {s : State α} {i : Nat} (hi : s.objs i = none) {n : Nat}
    (hn : 2 ^ 64 ≤ n * elem) :
    ∃ s', step elem s (.construct i n true) = .ok s' ∧ (∃ o, s'.objs i = some o ∧ o.size = n) ∧
      ∀ v, step elem s' (.write i (n - 1) v) = .error .ub := by
  have hpos : 0 < n := by
    by_contra e
    simp [Nat.eq_zero_of_not_pos e] at hn
  refine ⟨_, by simp only [step, construct, hi, malloc, if_true, copyFrom, Container.ok_bind]; rfl,
    ⟨⟨n, some s.next⟩, by simp [setObj], rfl⟩, ?_⟩
  intro v
  have hcap : n * elem % 2 ^ 64 / elem ≤ n - 1 := by
    rw [Nat.div_le_iff_le_mul_add_pred he]
    have h1 : n * elem % 2 ^ 64 < n * elem := lt_of_lt_of_le (Nat.mod_lt _ (by norm_num)) hn
    obtain ⟨m, rfl⟩ : ∃ m, n = m + 1 := ⟨n - 1, by omega⟩
    simp only [Nat.add_sub_cancel]
    have h2 : (m + 1) * elem = m * elem + elem := by ring
    rw [Nat.mul_comm elem m]
    omega
  have h2 : ¬ n - 1 < n * elem % 2 ^ 64 / elem := by omega
  have h1 : n - 1 < n := by omega
  simp only [step, setObj, setBlock, if_true, h1, poke, List.length_replicate, if_neg h2]

/-! ## Examples -/

/-- A raster is filled, read and destroyed, as in the documentation, next to another one which is made from a list. -/
example : ∃ s, run 4 init [.construct 0 2 true, .constructFrom 1 [7, 8] true, .write 0 0 5, .write 0 1 6, .read 0 1, .read 1 0,
    .destroy 0, .destroy (1 : Nat)] = .ok s ∧ s.out = [7, 6] ∧ ∀ b, s.heap b = none := by
  obtain ⟨s, hs, ho, hf⟩ := C123_partial (elem := 4) (by norm_num) (by simp [Allocates])
    (.cons (.construct (i := 0) (n := 2) (ok := true) rfl) (.cons (.constructFrom (i := 1) (l := [7, 8]) (ok := true) rfl)
      (.cons (.write (i := 0) (k := 0) (v := 5) rfl (by decide)) (.cons (.write (i := 0) (k := 1) (v := 6) rfl (by decide))
        (.cons (.read (i := 0) (k := 1) (v := 6) rfl rfl) (.cons (.read (i := 1) (k := 0) (v := 7) rfl rfl)
          (.cons (.destroy (i := 0) rfl) (.cons (.destroy (i := 1) rfl) .nil)))))))) (by simp [Copies])
  refine ⟨s, hs, ho, hf fun i => ?_⟩
  simp only [Values.set, noValues]
  split_ifs <;> rfl

/-- `auto b = a + 1` (LitlContainer/LitlContainer/Arithmetic.h): the operand is copied and modified; `a` is modified as well, and
the behaviour is undefined at the end. -/
example : ∃ s, run 4 init [.constructFrom 0 [7, 8] true, .copyConstruct 1 0, .write 1 0 8, .write 1 1 9, .read 0 (0 : Nat)] = .ok s ∧
    s.out = [(8 : Nat)] ∧ run 4 s [.destroy 1, .destroy 0] = .error .ub := ⟨_, rfl, rfl, rfl⟩

end Litl
