import Verif.Model.MatrixEigen
import Mathlib.LinearAlgebra.Matrix.Determinant.Basic
import Mathlib.Tactic.NormNum
import Mathlib.Tactic.FinCases

/-!
# C80: matrices are values
-/

namespace Litl

namespace Spec

namespace MatrixValue

open Litl.MatrixEigen (Op)

/-- What a user expects: each live object has its own elements. -/
abbrev Values (α : Type) := Nat → Option (List α)

variable {α : Type}

/-- The effect of an operation on the values, when it is allowed: constructions at free addresses, and uses of live objects. -/
inductive Step (zeros : List α) : Values α → Op α → Values α → Prop where
  | construct {s : Values α} {a : Nat} : s a = none →
      Step zeros s (.construct a) (fun c => if c = a then some zeros else s c)
  | copy {s : Values α} {a b : Nat} {x : List α} : s a = none → s b = some x →
      Step zeros s (.copy a b) (fun c => if c = a then some x else s c)
  | assign {s : Values α} {a b : Nat} {x y : List α} : s a = some y → s b = some x →
      Step zeros s (.assign a b) (fun c => if c = a then some x else s c)
  | modify {s : Values α} {a : Nat} {f : List α → List α} {x : List α} : s a = some x →
      Step zeros s (.modify a f) (fun c => if c = a then some (f x) else s c)
  | combine {s : Values α} {a b : Nat} {f : List α → List α → List α} {x y : List α} : s a = some x → s b = some y →
      Step zeros s (.combine a b f) (fun c => if c = a then some (f x y) else s c)
  | inverse {s : Values α} {a : Nat} {x : List α} : s a = some x → Step zeros s (.inverse a) s
  | destroy {s : Values α} {a : Nat} {x : List α} : s a = some x →
      Step zeros s (.destroy a) (fun c => if c = a then none else s c)

/-- Successive operations, from no object. -/
inductive Runs (zeros : List α) : List (Op α) → Values α → Prop where
  | nil : Runs zeros [] (fun _ => none)
  | snoc {ops : List (Op α)} {op : Op α} {s s' : Values α} : Runs zeros ops s → Step zeros s op s' →
      Runs zeros (ops ++ [op]) s'

end MatrixValue

end Spec

namespace MatrixEigen

open Spec.MatrixValue

variable {α : Type}

/-- The empty heap. -/
def Heap.empty (α : Type) : Heap α := fun _ => none

/-- **C80**, full statement: matrices are values (an operation on a matrix changes that matrix only, and a copy or assigned matrix
has the elements of the right-hand side), and `determinant()` is that of the elements. -/
def C80_Statement : Prop :=
  ∀ (α β : Type) (det : List α → β) (zeros : List α) (ops : List (Op α)) (s : Values α), Runs zeros ops s →
    ∃ h, run zeros (Heap.empty α) ops = .ok h ∧ ∀ a x, s a = some x →
      elements h a = .ok x ∧ determinant det h a = .ok (det x)

theorem run_append (zeros : List α) (h : Heap α) (ops ops' : List (Op α)) :
    run zeros h (ops ++ ops') = (run zeros h ops).bind fun h => run zeros h ops' := by
  induction ops generalizing h with
  | nil => rfl
  | cons op ops ih =>
    simp only [List.cons_append, run, bind, Except.bind]
    cases exec zeros h op with
    | error e => rfl
    | ok h => exact ih h

/-- The operation is not the construction of a copy. -/
def NoCopy : Op α → Prop
  | .copy _ _ => False
  | _ => True

/-- The heap holds the values, and each object views its own elements. -/
def Represents (h : Heap α) (s : Values α) : Prop := ∀ a, h a = (s a).map fun x => ⟨x, a⟩

theorem represents_set {h : Heap α} {s : Values α} (hr : Represents h s) (a : Nat) (x : Option (List α)) :
    Represents (h.set a (x.map fun x => ⟨x, a⟩)) (fun c => if c = a then x else s c) := by
  intro c
  by_cases hc : c = a
  · subst hc; simp [Heap.set]
  · simp [Heap.set, hc, hr c]

theorem elements_of {h : Heap α} {s : Values α} (hr : Represents h s) {a : Nat} {x : List α} (ha : s a = some x) :
    elements h a = .ok x := by
  simp [elements, hr a, ha]

theorem view_of {h : Heap α} {s : Values α} (hr : Represents h s) {a : Nat} {x : List α} (ha : s a = some x) :
    view h a = .ok a := by
  simp [view, hr a, ha]

theorem write_of {h : Heap α} {s : Values α} (hr : Represents h s) {a : Nat} {x : List α} (ha : s a = some x)
    (y : List α) : ∃ h', write h a y = .ok h' ∧ Represents h' (fun c => if c = a then some y else s c) := by
  refine ⟨h.set a (some ⟨y, a⟩), by simp [write, hr a, ha], ?_⟩
  exact represents_set hr a (some y)

/-- One operation which is not the construction of a copy. -/
theorem exec_of {zeros : List α} {h : Heap α} {s s' : Values α} (hr : Represents h s) {op : Op α} (hn : NoCopy op)
    (hs : Step zeros s op s') : ∃ h', exec zeros h op = .ok h' ∧ Represents h' s' := by
  cases hs with
  | @construct a ha => exact ⟨_, rfl, represents_set hr a (some zeros)⟩
  | copy _ _ => exact absurd hn (by simp [NoCopy])
  | @assign a b x y ha hb =>
    obtain ⟨h1, e1, r1⟩ := write_of hr ha x
    have hb' : (fun c => if c = a then some x else s c) b = some x := by
      by_cases hba : b = a
      · simp [hba]
      · simp [hba, hb]
    have ha' : (fun c => if c = a then some x else s c) a = some x := by simp
    obtain ⟨h2, e2, r2⟩ := write_of r1 ha' x
    refine ⟨h2, ?_, ?_⟩
    · simp only [exec, assign, elements_of hr hb, e1, view_of r1 hb', view_of r1 ha', elements_of r1 hb', e2, bind, Except.bind]
    · intro c
      have := r2 c
      by_cases hc : c = a
      · simpa [hc] using this
      · simpa [hc] using this
  | @modify a f x ha =>
    obtain ⟨h1, e1, r1⟩ := write_of hr ha (f x)
    exact ⟨h1, by simp only [exec, elements_of hr ha, e1, bind, Except.bind], r1⟩
  | @combine a b f x y ha hb =>
    obtain ⟨h1, e1, r1⟩ := write_of hr ha (f x y)
    exact ⟨h1, by simp only [exec, elements_of hr ha, elements_of hr hb, e1, bind, Except.bind], r1⟩
  | @inverse a x ha =>
    exact ⟨h, by simp only [exec, elements_of hr ha, bind, Except.bind]; rfl, hr⟩
  | @destroy a x ha => exact ⟨_, rfl, represents_set hr a none⟩

/-- **C80**, partial: matrices are values, as long as no matrix is constructed as a copy of another one (which functions
returning matrices and binary operators do).
Missing: copies; see `C80_copy`, `C80_assign_sum`, `C80_assign_to_copy` and `C80_dangling`. -/
theorem C80_partial {β : Type} (det : List α → β) (zeros : List α) {ops : List (Op α)} {s : Values α}
    (h : Runs zeros ops s) (hn : ∀ op ∈ ops, NoCopy op) :
    ∃ h, run zeros (Heap.empty α) ops = .ok h ∧ ∀ a x, s a = some x →
      elements h a = .ok x ∧ determinant det h a = .ok (det x) := by
  have key : ∃ h, run zeros (Heap.empty α) ops = .ok h ∧ Represents h s := by
    induction h with
    | nil => exact ⟨_, rfl, fun a => rfl⟩
    | @snoc ops op s s' _ hs ih =>
      obtain ⟨h1, e1, r1⟩ := ih (fun o ho => hn o (by simp [ho]))
      obtain ⟨h2, e2, r2⟩ := exec_of r1 (hn op (by simp)) hs
      refine ⟨h2, ?_, r2⟩
      rw [run_append, e1]
      simp only [Except.bind, run, bind, e2]
  obtain ⟨h1, e1, r1⟩ := key
  refine ⟨h1, e1, fun a x ha => ⟨elements_of r1 ha, ?_⟩⟩
  simp only [determinant, view_of r1 ha, elements_of r1 ha, bind, Except.bind]
  rfl

/-! ## Copies -/

/-- The object at address `a` has elements `x` and views the elements at address `v`. -/
def At (h : Heap α) (a : Nat) (x : List α) (v : Nat) : Prop := h a = some ⟨x, v⟩

/-- **C80**: a copy has the right elements, but its determinant is that of the current elements of the object which is
viewed by the original one: changing the copy does not change its determinant, changing the original one does. -/
theorem C80_copy {β : Type} (det : List α → β) (zeros : List α) {h : Heap α} {a b : Nat} {x : List α} (hb : At h b x b)
    (hab : a ≠ b) (f g : List α → List α) :
    ∃ h', run zeros h [.copy a b, .modify a f, .modify b g] = .ok h' ∧ elements h' a = .ok (f x) ∧
      elements h' b = .ok (g x) ∧ determinant det h' a = .ok (det (g x)) := by
  have hb' : h b = some ⟨x, b⟩ := hb
  refine ⟨_, by simp [run, exec, elements, view, write, hb', Heap.set, bind, Except.bind, pure, Except.pure, hab.symm]; rfl, ?_⟩
  simp [elements, determinant, view, Heap.set, hab, bind, Except.bind, pure, Except.pure]

/-- **C80**: a copy of a copy views the elements of the first matrix, even when the first copy is destroyed. -/
theorem C80_copy_of_copy {β : Type} (det : List α → β) (zeros : List α) {h : Heap α} {a b c : Nat} {x z : List α} {v : Nat}
    (hb : At h b x c) (hc : At h c z v) (hab : a ≠ b) (hac : a ≠ c) (hbc : b ≠ c) :
    ∃ h', run zeros h [.copy a b, .destroy b] = .ok h' ∧ elements h' a = .ok x ∧
      determinant det h' a = .ok (det z) := by
  have hb' : h b = some ⟨x, c⟩ := hb
  have hc' : h c = some ⟨z, v⟩ := hc
  refine ⟨(h.set a (some ⟨x, c⟩)).set b none, by
    simp [run, exec, elements, view, hb', bind, Except.bind, pure, Except.pure], ?_⟩
  simp [elements, determinant, view, Heap.set, hab, hac.symm, hbc.symm, hc', bind, Except.bind, pure, Except.pure]

/-- A case: a matrix, 1, and its copy, which is changed to 2. -/
example : At (fun a => if a = 0 then some ⟨[1], 0⟩ else if a = 1 then some ⟨[2], 0⟩ else none : Heap Int) 1 [2] 0 ∧
    At (fun a => if a = 0 then some ⟨[1], 0⟩ else if a = 1 then some ⟨[2], 0⟩ else none : Heap Int) 0 [1] 0 := ⟨rfl, rfl⟩

/-- **C80**: `c = a op b` sets `c` to `a`, whatever the operation and `b`; and the determinant of `a op b` is that
of `a`. -/
theorem C80_assign_sum {β : Type} (det : List α → β) (zeros : List α) {h : Heap α} {a b c t : Nat} {x y z : List α} {vb : Nat}
    (ha : At h a x a) (hb : At h b y vb) (hc : At h c z c) (hac : a ≠ c) (hta : t ≠ a) (htb : t ≠ b) (htc : t ≠ c)
    (f : List α → List α → List α) :
    ∃ h1 h2, run zeros h (binary t a b f) = .ok h1 ∧ elements h1 t = .ok (f x y) ∧
      determinant det h1 t = .ok (det x) ∧
      run zeros h1 [.assign c t, .destroy t] = .ok h2 ∧ elements h2 c = .ok x := by
  have ha' : h a = some ⟨x, a⟩ := ha
  have hb' : h b = some ⟨y, vb⟩ := hb
  have hc' : h c = some ⟨z, c⟩ := hc
  refine ⟨(h.set t (some ⟨x, a⟩)).set t (some ⟨f x y, a⟩),
    ((((h.set t (some ⟨x, a⟩)).set t (some ⟨f x y, a⟩)).set c (some ⟨f x y, c⟩)).set c (some ⟨x, c⟩)).set t none, ?_, ?_, ?_, ?_, ?_⟩
  · simp [run, binary, exec, elements, view, write, ha', hb', Heap.set, bind, Except.bind, pure, Except.pure, htb.symm]
  · simp [elements, Heap.set]
  · simp [determinant, view, elements, Heap.set, hta.symm, ha', bind, Except.bind, pure, Except.pure]
  · simp [run, exec, assign, elements, view, write, Heap.set, bind, Except.bind, hta.symm, htc, htc.symm, hac, ha', hc']
  · simp [elements, Heap.set, htc.symm]

/-- **C80**: the assignment to a copy changes the original matrix too. -/
theorem C80_assign_to_copy (zeros : List α) {h : Heap α} {a b c : Nat} {x z : List α} (hb : At h b x b) (hc : At h c z c)
    (hab : a ≠ b) (hac : a ≠ c) :
    ∃ h', run zeros h [.copy a b, .assign a c] = .ok h' ∧ elements h' a = .ok z ∧ elements h' b = .ok z := by
  have hb' : h b = some ⟨x, b⟩ := hb
  have hc' : h c = some ⟨z, c⟩ := hc
  refine ⟨_, by
    simp [run, exec, assign, elements, view, write, hb', hc', Heap.set, bind, Except.bind, pure, Except.pure, hab.symm,
      hac.symm]; rfl, ?_, ?_⟩ <;>
  simp [elements, Heap.set, hab]

/-- **C80**: nothing can be asked to a matrix which was destroyed. -/
theorem C80_destroyed {β : Type} (det : List α → β) (zeros : List α) (h : Heap α) (a : Nat) :
    ∃ h', run zeros h [.destroy a] = .ok h' ∧ elements h' a = .error .ub ∧ determinant det h' a = .error .ub := by
  refine ⟨h.set a none, by simp [run, exec, bind, Except.bind], ?_, ?_⟩
  · simp [elements, Heap.set]
  · simp [determinant, view, Heap.set, bind, Except.bind]

/-- **C80**: when the original matrix goes out of scope, the determinant of a copy and the assignments to it are
undefined. -/
theorem C80_dangling {β : Type} (det : List α → β) (zeros : List α) {h : Heap α} {a b c : Nat} {x : List α} (hb : At h b x b)
    (hab : a ≠ b) (hcb : c ≠ b) :
    ∃ h', run zeros h [.copy a b, .destroy b] = .ok h' ∧ elements h' a = .ok x ∧
      determinant det h' a = .error .ub ∧ exec zeros h' (.assign a c) = .error .ub ∧ exec zeros h' (.assign c a) = .error .ub := by
  have hb' : h b = some ⟨x, b⟩ := hb
  refine ⟨(h.set a (some ⟨x, b⟩)).set b none, by
    simp [run, exec, elements, view, hb', bind, Except.bind, pure, Except.pure], ?_, ?_, ?_, ?_⟩
  · simp [elements, Heap.set, hab]
  · simp [determinant, view, elements, Heap.set, hab, bind, Except.bind]
  · by_cases hca : c = a
    · subst hca
      simp [exec, assign, elements, view, write, Heap.set, hab, hab.symm, bind, Except.bind]
    · cases hc : h c with
      | none => simp [exec, assign, elements, Heap.set, hcb, hca, hc, bind, Except.bind]
      | some o =>
        simp only [exec, assign, elements, view, write, Heap.set, hab, hab.symm, hcb, hca, hc, bind, Except.bind, if_true, if_false]
        by_cases hv : o.view = a
        · simp [hv]
        · by_cases hv' : o.view = b
          · simp [hv', hab.symm]
          · cases ho : h o.view <;> simp [hv, hv']
  · by_cases hca : c = a
    · subst hca
      simp [exec, assign, elements, view, write, Heap.set, hab, hab.symm, bind, Except.bind]
    · cases hc : h c with
      | none => simp [exec, assign, elements, write, Heap.set, hab, hcb, hca, hc, bind, Except.bind]
      | some o =>
        simp [exec, assign, elements, view, write, Heap.set, hab, hcb, hcb.symm, hca, Ne.symm hca, hc, bind, Except.bind]

/-! ## Programs with copies and without assignment -/

/-- The operation is not an assignment. -/
def NoAssign : Op α → Prop
  | .assign _ _ => False
  | _ => True

/-- The operation is not the construction of a copy at a given address. -/
def NoCopyAt (a : Nat) : Op α → Prop
  | .copy b _ => b ≠ a
  | _ => True

/-- The heap holds the values. -/
def Holds (h : Heap α) (s : Values α) : Prop := ∀ a, (h a).map Obj.data = s a

theorem Holds.elements {h : Heap α} {s : Values α} (hr : Holds h s) {a : Nat} {x : List α} (ha : s a = some x) :
    ∃ v, h a = some ⟨x, v⟩ := by
  have := hr a
  rw [ha] at this
  cases ho : h a with
  | none => simp [ho] at this
  | some o =>
    obtain ⟨y, v⟩ := o
    simp only [ho, Option.map_some, Option.some.injEq] at this
    exact ⟨v, by rw [this]⟩

theorem Holds.set {h : Heap α} {s : Values α} (hr : Holds h s) (a : Nat) (o : Option (Obj α)) :
    Holds (h.set a o) (fun c => if c = a then o.map Obj.data else s c) := by
  intro c
  by_cases hc : c = a
  · subst hc; simp [Heap.set]
  · simp [Heap.set, hc, hr c]

/-- The addresses of a set view their own elements. -/
def OwnView (own : Nat → Prop) (h : Heap α) : Prop := ∀ a o, own a → h a = some o → o.view = a

theorem exec_without_assign {zeros : List α} {h : Heap α} {s s' : Values α} {own : Nat → Prop} (hr : Holds h s)
    (ho : OwnView own h) {op : Op α} (hn : NoAssign op) (hc : ∀ a, own a → NoCopyAt a op) (hs : Step zeros s op s') :
    ∃ h', exec zeros h op = .ok h' ∧ Holds h' s' ∧ OwnView own h' := by
  have own_set : ∀ (a : Nat) (o : Option (Obj α)), (∀ o', o = some o' → own a → o'.view = a) → OwnView own (h.set a o) := by
    intro a o hao b o' hb e
    by_cases hba : b = a
    · subst hba
      exact hao o' (by simpa [Heap.set] using e) hb
    · exact ho b o' hb (by simpa [Heap.set, hba] using e)
  cases hs with
  | @construct a ha =>
    exact ⟨_, rfl, hr.set a (some ⟨zeros, a⟩), own_set a _ (fun o' e _ => by cases e; rfl)⟩
  | @copy a b x ha hb =>
    obtain ⟨v, e⟩ := hr.elements hb
    refine ⟨h.set a (some ⟨x, v⟩), ?_, hr.set a (some ⟨x, v⟩), own_set a _ (fun o' _ hown => ?_)⟩
    · simp [exec, MatrixEigen.elements, view, e, bind, Except.bind, pure, Except.pure]
    · exact absurd rfl (hc a hown)
  | assign _ _ => exact absurd hn (by simp [NoAssign])
  | @modify a f x ha =>
    obtain ⟨v, e⟩ := hr.elements ha
    refine ⟨h.set a (some ⟨f x, v⟩), ?_, hr.set a (some ⟨f x, v⟩), own_set a _ (fun o' e' hown => ?_)⟩
    · simp [exec, MatrixEigen.elements, write, e, bind, Except.bind]
    · cases e'; exact ho a ⟨x, v⟩ hown e
  | @combine a b f x y ha hb =>
    obtain ⟨v, e⟩ := hr.elements ha
    obtain ⟨v', e'⟩ := hr.elements hb
    refine ⟨h.set a (some ⟨f x y, v⟩), ?_, hr.set a (some ⟨f x y, v⟩), own_set a _ (fun o' e'' hown => ?_)⟩
    · simp [exec, MatrixEigen.elements, write, e, e', bind, Except.bind]
    · cases e''; exact ho a ⟨x, v⟩ hown e
  | @inverse a x ha =>
    obtain ⟨v, e⟩ := hr.elements ha
    exact ⟨h, by simp [exec, MatrixEigen.elements, e, bind, Except.bind, pure, Except.pure], hr, ho⟩
  | @destroy a x ha => exact ⟨_, rfl, hr.set a none, own_set a none (fun o' e _ => by cases e)⟩

/-- **C80**, partial: as long as there is no assignment, matrices have the right elements, and those which are not constructed
as copies have the right determinant.
Missing: assignments, see `C80_assign_sum` and `C80_assign_to_copy`; and the determinants of copies, see `C80_copy`. -/
theorem C80_without_assignment_partial {β : Type} (det : List α → β) (zeros : List α) {ops : List (Op α)} {s : Values α}
    (h : Runs zeros ops s) (hn : ∀ op ∈ ops, NoAssign op) :
    ∃ h, run zeros (Heap.empty α) ops = .ok h ∧ ∀ a x, s a = some x →
      elements h a = .ok x ∧ ((∀ op ∈ ops, NoCopyAt a op) → determinant det h a = .ok (det x)) := by
  have key : ∃ h, run zeros (Heap.empty α) ops = .ok h ∧ Holds h s ∧ OwnView (fun a => ∀ op ∈ ops, NoCopyAt a op) h := by
    have gen : ∀ own : Nat → Prop, (∀ a, own a → ∀ op ∈ ops, NoCopyAt a op) →
        ∃ h, run zeros (Heap.empty α) ops = .ok h ∧ Holds h s ∧ OwnView own h := by
      intro own hown
      induction h with
      | nil => exact ⟨_, rfl, fun a => rfl, fun a o _ e => by cases e⟩
      | @snoc ops op s s' _ hs ih =>
        obtain ⟨h1, e1, r1, o1⟩ := ih (fun o ho => hn o (by simp [ho])) (fun a ha o ho => hown a ha o (by simp [ho]))
        obtain ⟨h2, e2, r2, o2⟩ := exec_without_assign r1 o1 (hn op (by simp)) (fun a ha => hown a ha op (by simp)) hs
        refine ⟨h2, ?_, r2, o2⟩
        rw [run_append, e1]
        simp only [Except.bind, run, bind, e2]
    exact gen _ (fun a ha => ha)
  obtain ⟨h1, e1, r1, o1⟩ := key
  refine ⟨h1, e1, fun a x ha => ?_⟩
  obtain ⟨v, e⟩ := r1.elements ha
  refine ⟨by simp [elements, e], fun hc => ?_⟩
  have hv : v = a := o1 a _ hc e
  subst hv
  simp [determinant, view, elements, e, bind, Except.bind, pure, Except.pure]

/-! ## The statement is false -/

/-- A program: `Matrix a; Matrix b(a); b += 1; Matrix c; c = b;` for matrices of size 1. -/
def program : List (Op Int) :=
  [.construct 0, .copy 1 0, .modify 1 (fun x => x.map (· + 1)), .construct 2, .assign 2 1]

/-- It is allowed. -/
theorem program_runs : ∃ s, Runs [(0 : Int)] program s ∧ s 2 = some [1] := by
  exact ⟨_, Runs.snoc (ops := [_, _, _, _]) (Runs.snoc (ops := [_, _, _]) (Runs.snoc (ops := [_, _]) (Runs.snoc (ops := [_])
      (Runs.snoc (ops := []) .nil (.construct rfl)) (.copy (x := [0]) rfl rfl)) (.modify (x := [0]) rfl)) (.construct rfl))
      (.assign (x := [1]) (y := [0]) rfl rfl), rfl⟩

/-- **C80** does not hold: in the above program, `c` is not 1 but 0. -/
theorem C80_violated : ¬ C80_Statement := by
  intro h
  obtain ⟨s, hs, h2⟩ := program_runs
  obtain ⟨h1, e1, r⟩ := h Int Int (fun x => x.headD 0) [0] program s hs
  have e2 : ∃ h', run [(0 : Int)] (Heap.empty Int) program = .ok h' ∧ elements h' 2 = .ok [0] := ⟨_, rfl, rfl⟩
  obtain ⟨h', e2, e3⟩ := e2
  rw [e1] at e2
  cases e2
  have := (r 2 _ h2).1
  rw [e3] at this
  cases this

/-! ## Cases -/

/-- A case of `C80_partial`: `Matrix a; Matrix b; b += 1; a = b;`. -/
example : ∃ s, Runs [(0 : Int)] [.construct 0, .construct 1, .modify 1 (fun x => x.map (· + 1)), .assign 0 1] s ∧
    s 0 = some [1] ∧
    ∀ op ∈ [Op.construct 0, .construct 1, .modify 1 (fun x => x.map (· + (1 : Int))), .assign 0 1], NoCopy op := by
  refine ⟨_, Runs.snoc (ops := [_, _, _]) (Runs.snoc (ops := [_, _]) (Runs.snoc (ops := [_])
      (Runs.snoc (ops := []) .nil (.construct rfl)) (.construct rfl)) (.modify (x := [0]) rfl))
      (.assign (x := [1]) (y := [0]) rfl rfl), rfl, ?_⟩
  simp [NoCopy]

/-- A case of `C80_without_assignment_partial`: the beginning of the above program. -/
example : ∃ s, Runs [(0 : Int)] (program.take 3) s ∧ s 0 = some [0] ∧ s 1 = some [1] ∧
    (∀ op ∈ program.take 3, NoAssign op) ∧ ∀ op ∈ program.take 3, NoCopyAt 0 op := by
  refine ⟨_, Runs.snoc (ops := [_, _]) (Runs.snoc (ops := [_])
      (Runs.snoc (ops := []) .nil (.construct rfl)) (.copy (x := [0]) rfl rfl)) (.modify (x := [0]) rfl), rfl, rfl, ?_, ?_⟩ <;>
  simp [program, NoAssign, NoCopyAt]

/-- A heap for `C80_copy`, `C80_assign_sum`, `C80_assign_to_copy` and `C80_dangling`. -/
def threeMatrices : Heap Int := fun a => if a < 3 then some ⟨[(a : Int) + 1], a⟩ else none

example : At threeMatrices 0 [1] 0 ∧ At threeMatrices 1 [2] 1 ∧ At threeMatrices 2 [3] 2 := ⟨rfl, rfl, rfl⟩

/-- `c = a + b`, where `a` is 1 and `b` is 2, yields 1. -/
example : ∃ h1 h2, run [0] threeMatrices (binary 3 0 1 (List.zipWith (· + ·))) = .ok h1 ∧ elements h1 3 = .ok [3] ∧
    determinant (fun x => x.headD 0) h1 3 = .ok 1 ∧ run [0] h1 [.assign 2 3, .destroy 3] = .ok h2 ∧
    elements h2 2 = .ok [1] :=
  C80_assign_sum (fun x => x.headD 0) [0] (h := threeMatrices) (a := 0) (b := 1) (c := 2) (t := 3) (x := [1]) (y := [2]) (z := [3]) (vb := 1)
    rfl rfl rfl (by decide) (by decide) (by decide) (by decide) _

/-! # C81: the inverse -/

/-- The square matrix whose elements are stored row by row. -/
def toMatrix (n : Nat) (data : List Rat) : _root_.Matrix (Fin n) (Fin n) Rat := fun i j => data.getD (i * n + j) 0

/-- **C81**, full statement: `inverse()` inverts the invertible matrices. -/
def C81_Statement : Prop :=
  ∀ (n : Nat) (zeros : List Rat) (h : Heap Rat) (a : Nat) (x : List Rat), At h a x a → x.length = n * n →
    (toMatrix n x).det ≠ 0 →
    ∃ h' y, exec zeros h (.inverse a) = .ok h' ∧ elements h' a = .ok y ∧ toMatrix n x * toMatrix n y = 1

/-- **C81**: `inverse()` leaves the matrix unchanged. -/
theorem C81_unchanged (zeros : List α) {h : Heap α} {a v : Nat} {x : List α} (ha : At h a x v) :
    exec zeros h (.inverse a) = .ok h ∧ elements h a = .ok x := by
  have ha' : h a = some ⟨x, v⟩ := ha
  simp [exec, elements, ha', bind, Except.bind, pure, Except.pure]

/-- **C81**, partial: `inverse()` yields the inverse of exactly those matrices whose square is the identity.
Missing: the other matrices, whose inverse is not computed. -/
theorem C81_partial (n : Nat) (zeros : List Rat) {h : Heap Rat} {a v : Nat} {x : List Rat} (ha : At h a x v) :
    (∃ h' y, exec zeros h (.inverse a) = .ok h' ∧ elements h' a = .ok y ∧ toMatrix n x * toMatrix n y = 1) ↔
      toMatrix n x * toMatrix n x = 1 := by
  obtain ⟨e1, e2⟩ := C81_unchanged zeros ha
  constructor
  · rintro ⟨h', y, e, e', hm⟩
    rw [e1] at e; cases e
    rw [e2] at e'; cases e'
    exact hm
  · exact fun hm => ⟨h, x, e1, e2, hm⟩

/-- **C81** does not hold: that of the matrix of size 1 whose element is 2 is not computed. -/
theorem C81_violated : ¬ C81_Statement := by
  intro h
  have hd : (toMatrix 1 [2]).det = 2 := by
    rw [_root_.Matrix.det_unique]; rfl
  have ha : At (fun a => if a = 0 then some ⟨[(2 : Rat)], 0⟩ else none) 0 [2] 0 := rfl
  have := h 1 [0] _ 0 [2] ha rfl (by rw [hd]; norm_num)
  have := (C81_partial 1 [0] ha).1 this
  have hd' := congrArg _root_.Matrix.det this
  rw [_root_.Matrix.det_mul, hd, _root_.Matrix.det_one] at hd'
  norm_num at hd'

/-- A case of `C81_partial`: a permutation matrix. -/
example : toMatrix 2 [0, 1, 1, 0] * toMatrix 2 [0, 1, 1, 0] = 1 := by
  ext i j
  fin_cases i <;> fin_cases j <;> simp [toMatrix, _root_.Matrix.mul_apply, Fin.sum_univ_two]

end MatrixEigen

end Litl
