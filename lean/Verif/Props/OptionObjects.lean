import Verif.Model.OptionObjects
import Mathlib.Tactic.Common

/-!
# Copies of program options (C130) and order of positional options (C131)
-/

namespace Litl

namespace OptionObjects

/-! ## Specification -/

namespace Spec

/-- The living objects: whether they are made by the constructor, and their options. -/
abbrev State := Nat → Option (Bool × List String)

/-- The change of one object. -/
def State.set (s : State) (id : Nat) (x : Option (Bool × List String)) : State := fun i => if i = id then x else s i

/-- What is expected: a copy has the options of its source, an option is that of the object with which it is declared. -/
def after (s : State) : Op → State
  | .construct id => s.set id (some (true, []))
  | .copy src dst => s.set dst ((s src).map fun x => (false, x.2))
  | .move src dst => (s.set dst ((s src).map fun x => (false, x.2))).set src ((s src).map fun x => (x.1, []))
  | .destroy id => s.set id none
  | .named id name => s.set id ((s id).map fun x => (x.1, x.2 ++ [name]))
  | .positional id name _ => s.set id ((s id).map fun x => (x.1, x.2 ++ [name]))

/-- Only living objects are used, and objects are constructed out of them.  Positional options have one token. -/
def Uses (s : State) : Op → Prop
  | .construct id => s id = none
  | .copy src dst => (s src).isSome ∧ s dst = none
  | .move src dst => (s src).isSome ∧ s dst = none
  | .destroy id => (s id).isSome
  | .named id _ => (s id).isSome
  | .positional id _ n => (s id).isSome ∧ n = some 1

/-- All of the operations use living objects. -/
def Legal : State → List Op → Prop
  | _, [] => True
  | s, op :: ops => Uses s op ∧ Legal (after s op) ops

/-- Options are declared with objects which are neither copies nor moved to. -/
def Direct : State → List Op → Prop
  | _, [] => True
  | s, op :: ops =>
    (match op with
    | .named id _ => (s id).map Prod.fst = some true
    | .positional id _ _ => (s id).map Prod.fst = some true
    | _ => True) ∧ Direct (after s op) ops

/-- The options of an object at the end of a program. -/
def options (ops : List Op) (id : Nat) : Option (List String) := ((ops.foldl after fun _ => none) id).map Prod.snd

/-- Tokens are given to the options in the order of declaration, as many of them as each option accepts. -/
def assign : List (String × Option Nat) → List String → Option (List (String × String))
  | [], [] => some []
  | [], _ :: _ => none
  | (name, some k) :: os, ts => (assign os (ts.drop k)).map ((ts.take k).map (name, ·) ++ ·)
  | (name, none) :: _, ts => some (ts.map (name, ·))

end Spec

open Spec

/-- C130: programs which only use living objects are defined, and the options of each object are those which have been declared
with it, or with the object it is a copy of before the copy. -/
def C130_Statement : Prop :=
  ∀ ops, Legal (fun _ => none) ops → ∃ h, run Heap.init ops = .ok h ∧ ∀ id, (h id).map (·.named) = options ops id

/-- The objects are as expected, and those which are made by the constructor refer to themselves. -/
def Agrees (h : Heap) (s : State) : Prop :=
  ∀ id, (h id).map (·.named) = (s id).map Prod.snd ∧ ∀ o x, h id = some o → s id = some (true, x) → o.owner = id

theorem Agrees.some {h : Heap} {s : State} (a : Agrees h s) {id : Nat} (hs : (s id).isSome) :
    ∃ o b, h id = some o ∧ s id = some (b, o.named) := by
  obtain ⟨x, hx⟩ := Option.isSome_iff_exists.1 hs
  obtain ⟨b, l⟩ := x
  have h1 := (a id).1
  rw [hx] at h1
  cases ho : h id with
  | none => rw [ho] at h1; cases h1
  | some o =>
    rw [ho] at h1
    cases h1
    exact ⟨o, b, rfl, hx⟩

theorem Agrees.none {h : Heap} {s : State} (a : Agrees h s) {id : Nat} (hs : s id = .none) : h id = .none := by
  have h1 := (a id).1
  rw [hs] at h1
  cases ho : h id with
  | none => rfl
  | some o => rw [ho] at h1; cases h1

theorem Agrees.set {h : Heap} {s : State} (a : Agrees h s) (id : Nat) {o : Option Obj} {x : Option (Bool × List String)}
    (h1 : o.map (·.named) = x.map Prod.snd) (h2 : ∀ o' y, o = .some o' → x = .some (true, y) → o'.owner = id) :
    Agrees (h.set id o) (s.set id x) := by
  intro i
  unfold Heap.set State.set
  by_cases hi : i = id
  · subst hi
    simp only [if_pos]
    exact ⟨h1, h2⟩
  · simp only [if_neg hi]
    exact a i

/-- The effect of a declaration with an object which refers to itself. -/
theorem addOption_self {h : Heap} {id : Nat} {o : Obj} (ho : h id = some o) (hw : o.owner = id) (name : String) :
    addOption h id name = .ok (h.set id (some { o with named := o.named ++ [name] })) := by
  simp only [addOption, Heap.get, ho, hw, bind, Except.bind, pure, Except.pure]

theorem add_one (p : Positional) (name : String) : p.add name (some 1) = .ok { p with names := p.names ++ [name] } := rfl

theorem step_agrees {h : Heap} {s : State} (a : Agrees h s) {op : Op} {ops : List Op} (hl : Uses s op)
    (hd : Direct s (op :: ops)) : ∃ h', step h op = .ok h' ∧ Agrees h' (after s op) := by
  cases op with
  | construct id =>
    refine ⟨h.set id (some ⟨[], id, {}⟩), by simp only [step, a.none hl], a.set id rfl fun o' y h1 _ => ?_⟩
    cases h1; rfl
  | copy src dst =>
    obtain ⟨o, b, ho, hs⟩ := a.some hl.1
    refine ⟨h.set dst (some o), by simp [step, a.none hl.2, Heap.get, ho, bind, Except.bind, pure, Except.pure], ?_⟩
    refine a.set dst (by simp [hs]) fun o' y _ h2 => ?_
    simp [hs] at h2
  | move src dst =>
    obtain ⟨o, b, ho, hs⟩ := a.some hl.1
    refine ⟨(h.set dst (some o)).set src (some ⟨[], o.owner, {}⟩),
      by simp [step, a.none hl.2, Heap.get, ho, bind, Except.bind, pure, Except.pure], ?_⟩
    refine (a.set dst (by simp [hs]) fun o' y _ h2 => ?_).set src (by simp [hs]) fun o' y h1 h2 => ?_
    · simp [hs] at h2
    · cases h1
      simp only [hs, Option.map_some, Option.some.injEq, Prod.mk.injEq] at h2
      rw [h2.1] at hs
      exact (a src).2 o _ ho hs
  | destroy id =>
    obtain ⟨o, b, ho, hs⟩ := a.some hl
    exact ⟨h.set id none, by simp [step, Heap.get, ho, bind, Except.bind, pure, Except.pure],
      a.set id rfl fun _ _ h1 _ => by cases h1⟩
  | named id name =>
    obtain ⟨o, b, ho, hs⟩ := a.some hl
    have hb : b = true := by simpa [hs] using hd.1
    subst hb
    have hw := (a id).2 o _ ho hs
    refine ⟨_, addOption_self ho hw name, a.set id (by simp [hs]) fun o' y h1 _ => ?_⟩
    cases h1; exact hw
  | positional id name n =>
    obtain ⟨o, b, ho, hs⟩ := a.some hl.1
    have hb : b = true := by simpa [hs] using hd.1
    subst hb
    have hw := (a id).2 o _ ho hs
    have hn := hl.2
    subst hn
    have hset : ∀ x y, (h.set id x).set id y = h.set id y := by
      intro x y
      funext i
      unfold Heap.set
      split <;> rfl
    refine ⟨h.set id (some ⟨o.named ++ [name], o.owner, { o.positional with names := o.positional.names ++ [name] }⟩), ?_,
      a.set id (by simp [hs]) fun o' y h1 _ => ?_⟩
    · simp only [step, addOption_self ho hw name, bind, Except.bind]
      have hg : (h.set id (some { o with named := o.named ++ [name] })).get id = .ok { o with named := o.named ++ [name] } := by
        simp [Heap.get, Heap.set]
      rw [hg]
      simp only [add_one, pure, Except.pure, hset]
    · cases h1; exact hw

/-- **C130** if options are not declared with copies, nor with objects which are moved to.
Missing: these, whose options are those of another object (`C130_copy`, `C130_never`) which may be dead (`C130_dangling`). -/
theorem C130_partial {ops : List Op} (hl : Legal (fun _ => none) ops) (hd : Direct (fun _ => none) ops) :
    ∃ h, run Heap.init ops = .ok h ∧ ∀ id, (h id).map (·.named) = options ops id := by
  have key : ∀ ops h s, Agrees h s → Legal s ops → Direct s ops →
      ∃ h', run h ops = .ok h' ∧ Agrees h' (ops.foldl after s) := by
    intro ops
    induction ops with
    | nil => intro h s a _ _; exact ⟨h, rfl, a⟩
    | cons op ops ih =>
      intro h s a hl hd
      obtain ⟨h1, e1, a1⟩ := step_agrees a hl.1 hd
      obtain ⟨h2, e2, a2⟩ := ih h1 _ a1 hl.2 hd.2
      refine ⟨h2, ?_, a2⟩
      rw [run, List.foldlM_cons, e1]
      exact e2
  obtain ⟨h, e, a⟩ := key ops Heap.init (fun _ => none) (fun id => ⟨rfl, fun _ _ h => by cases h⟩) hl hd
  exact ⟨h, e, fun id => (a id).1⟩

/-- Non-vacuity: the original of a copy is completed, and then destroyed; the copy has the first option only. -/
example :
    let ops := [Op.construct 0, .named 0 "side", .copy 0 1, .positional 0 "input" (some 1), .destroy 0]
    Legal (fun _ => none) ops ∧ Direct (fun _ => none) ops ∧ options ops 1 = some ["side"] ∧ options ops 0 = none := by
  refine ⟨⟨rfl, rfl, ⟨rfl, rfl⟩, ⟨rfl, rfl⟩, rfl, trivial⟩, ⟨trivial, rfl, trivial, rfl, trivial, trivial⟩, rfl, rfl⟩

/-- **C130**: an option which is declared with a copy is that of the original, and not of the copy. -/
theorem C130_copy {h : Heap} {src dst : Nat} {o : Obj} (hs : h src = some o) (hd : h dst = none) (hw : o.owner = src)
    (name : String) : ∃ h', run h [.copy src dst, .named dst name] = .ok h' ∧
      (h' src).map (·.named) = some (o.named ++ [name]) ∧ (h' dst).map (·.named) = some o.named := by
  have hne : src ≠ dst := by rintro rfl; rw [hs] at hd; cases hd
  refine ⟨(h.set dst (some o)).set src (some { o with named := o.named ++ [name] }), ?_, by simp [Heap.set],
    by simp [Heap.set, hne.symm]⟩
  have h1 : step h (.copy src dst) = .ok (h.set dst (some o)) := by
    simp [step, hd, Heap.get, hs, bind, Except.bind, pure, Except.pure]
  have h2 : step (h.set dst (some o)) (.named dst name) =
      .ok ((h.set dst (some o)).set src (some { o with named := o.named ++ [name] })) := by
    have g1 : (h.set dst (some o)).get dst = .ok o := by simp [Heap.get, Heap.set]
    have g2 : (h.set dst (some o)).get src = .ok o := by simp [Heap.get, Heap.set, hne, hs]
    simp only [step, addOption, g1, hw, g2, bind, Except.bind, pure, Except.pure]
  rw [run, List.foldlM_cons, h1]
  show [Op.named dst name].foldlM step (h.set dst (some o)) = _
  rw [List.foldlM_cons, h2]
  rfl

/-- **C130**: a positional option which is declared with a copy is one of its positional options, and not one of its options, such
that tokens are bound to an unknown option; for the original, it is the opposite. -/
theorem C130_positional {h : Heap} {src dst : Nat} {o : Obj} (hs : h src = some o) (hd : h dst = none) (hw : o.owner = src)
    (name : String) : ∃ h', run h [.copy src dst, .positional dst name (some 1)] = .ok h' ∧
      h' src = some { o with named := o.named ++ [name] } ∧
      h' dst = some { o with positional := { o.positional with names := o.positional.names ++ [name] } } := by
  have hne : src ≠ dst := by rintro rfl; rw [hs] at hd; cases hd
  refine ⟨((h.set dst (some o)).set src (some { o with named := o.named ++ [name] })).set dst
    (some { o with positional := { o.positional with names := o.positional.names ++ [name] } }), ?_, by simp [Heap.set, hne],
    by simp [Heap.set]⟩
  have h1 : step h (.copy src dst) = .ok (h.set dst (some o)) := by
    simp [step, hd, Heap.get, hs, bind, Except.bind, pure, Except.pure]
  have h2 : addOption (h.set dst (some o)) dst name =
      .ok ((h.set dst (some o)).set src (some { o with named := o.named ++ [name] })) := by
    have g1 : (h.set dst (some o)).get dst = .ok o := by simp [Heap.get, Heap.set]
    have g2 : (h.set dst (some o)).get src = .ok o := by simp [Heap.get, Heap.set, hne, hs]
    simp only [addOption, g1, hw, g2, bind, Except.bind, pure, Except.pure]
  have h3 : ((h.set dst (some o)).set src (some { o with named := o.named ++ [name] })).get dst = .ok o := by
    simp [Heap.get, Heap.set, hne.symm]
  rw [run, List.foldlM_cons, h1]
  show [Op.positional dst name (some 1)].foldlM step (h.set dst (some o)) = _
  rw [List.foldlM_cons]
  simp only [step, h2, h3, add_one, bind, Except.bind, pure, Except.pure, List.foldlM_nil]

/-- Non-vacuity: an object without option. -/
example : ∃ h', run (Heap.init.set 0 (some ⟨[], 0, {}⟩)) [.copy 0 1, .positional 1 "input" (some 1)] = .ok h' ∧
    h' 0 = some ⟨["input"], 0, {}⟩ ∧ h' 1 = some ⟨[], 0, ⟨["input"], none⟩⟩ :=
  C130_positional (src := 0) (dst := 1) (o := ⟨[], 0, {}⟩) rfl rfl rfl "input"

/-- **C130** does not hold. -/
theorem C130_violated : ¬ C130_Statement := by
  intro hC
  obtain ⟨h, e, hn⟩ := hC [.construct 0, .copy 0 1, .named 1 "side"] ⟨rfl, ⟨rfl, rfl⟩, rfl, trivial⟩
  have h1 := hn 1
  have h2 : run Heap.init [.construct 0, .copy 0 1, .named 1 "side"] =
      .ok (((Heap.init.set 0 (some ⟨[], 0, {}⟩)).set 1 (some ⟨[], 0, {}⟩)).set 0 (some ⟨["side"], 0, {}⟩)) := rfl
  rw [h2] at e
  cases e
  cases h1

theorem get_ok {h : Heap} {id : Nat} {o : Obj} (e : h.get id = .ok o) : h id = some o := by
  unfold Heap.get at e
  split at e <;> cases e
  assumption

theorem addOption_ok {h h' : Heap} {id : Nat} {name : String} (e : addOption h id name = .ok h') :
    ∃ o w, h id = some o ∧ h o.owner = some w ∧ h' = h.set o.owner (some { w with named := w.named ++ [name] }) := by
  unfold addOption at e
  cases h1 : h.get id with
  | error x => simp [h1, bind, Except.bind] at e
  | ok o =>
    cases h2 : h.get o.owner with
    | error x => simp [h1, h2, bind, Except.bind] at e
    | ok w =>
      simp only [h1, h2, bind, Except.bind, pure, Except.pure, Except.ok.injEq] at e
      exact ⟨o, w, get_ok h1, get_ok h2, e.symm⟩

/-- No object refers to the given one, the options of which are given. -/
def Orphan (h : Heap) (id : Nat) (l : List String) : Prop :=
  (h id).map (·.named) = some l ∧ ∀ i o, h i = some o → o.owner ≠ id

theorem orphan_add {h h' : Heap} {dst id : Nat} {l : List String} {name : String} (ho : Orphan h dst l)
    (e : addOption h id name = .ok h') : Orphan h' dst l := by
  obtain ⟨o, w, h1, h2, rfl⟩ := addOption_ok e
  have hne := ho.2 _ _ h1
  refine ⟨by simpa [Heap.set, hne.symm] using ho.1, fun i x hx => ?_⟩
  unfold Heap.set at hx
  split at hx
  · cases hx; exact ho.2 _ w h2
  · exact ho.2 _ _ hx

theorem orphan_step {h h' : Heap} {dst : Nat} {l : List String} {op : Op} (ho : Orphan h dst l) (e : step h op = .ok h')
    (h1 : op ≠ .destroy dst) (h2 : ∀ i, op ≠ .move dst i) : Orphan h' dst l := by
  have hsome : h dst ≠ none := by intro hc; have := ho.1; rw [hc] at this; cases this
  have hset : ∀ {g : Heap}, Orphan g dst l → ∀ {i : Nat} {x : Option Obj}, dst ≠ i → (∀ o, x = some o → o.owner ≠ dst) →
      Orphan (g.set i x) dst l := by
    intro g hg i x hi hx
    refine ⟨by simpa [Heap.set, hi] using hg.1, fun j o hj => ?_⟩
    unfold Heap.set at hj
    split at hj
    · exact hx o hj
    · exact hg.2 j o hj
  cases op with
  | construct id =>
    simp only [step] at e
    split at e
    · cases e
    · rename_i hn
      cases e
      have : dst ≠ id := by rintro rfl; exact hsome hn
      exact hset ho this fun o h => by cases h; exact this.symm
  | copy src d =>
    simp only [step] at e
    split at e
    · cases e
    · rename_i hn
      cases hg : h.get src with
      | error x => simp [hg, bind, Except.bind] at e
      | ok o =>
        simp only [hg, bind, Except.bind, pure, Except.pure, Except.ok.injEq] at e
        subst e
        exact hset ho (by rintro rfl; exact hsome hn) fun o' h => by cases h; exact ho.2 _ _ (get_ok hg)
  | move src d =>
    simp only [step] at e
    split at e
    · cases e
    · rename_i hn
      cases hg : h.get src with
      | error x => simp [hg, bind, Except.bind] at e
      | ok o =>
        simp only [hg, bind, Except.bind, pure, Except.pure, Except.ok.injEq] at e
        subst e
        have hw := ho.2 _ _ (get_ok hg)
        refine hset (hset ho (by rintro rfl; exact hsome hn) fun o' h => by cases h; exact hw) ?_ fun o' h => by
          cases h; exact hw
        rintro rfl
        exact h2 d rfl
  | destroy id =>
    simp only [step] at e
    cases hg : h.get id with
    | error x => simp [hg, bind, Except.bind] at e
    | ok o =>
      simp only [hg, bind, Except.bind, pure, Except.pure, Except.ok.injEq] at e
      subst e
      exact hset ho (by rintro rfl; exact h1 rfl) fun o h => by cases h
  | named id name => exact orphan_add ho e
  | positional id name n =>
    simp only [step] at e
    cases ha : addOption h id name with
    | error x => simp [ha, bind, Except.bind] at e
    | ok g =>
      have hg := orphan_add ho ha
      cases hi : g.get id with
      | error x => simp [ha, hi, bind, Except.bind] at e
      | ok o =>
        cases hp : o.positional.add name n with
        | error x => simp [ha, hi, hp, bind, Except.bind] at e
        | ok p =>
          simp only [ha, hi, hp, bind, Except.bind, pure, Except.pure, Except.ok.injEq] at e
          subst e
          have hio := get_ok hi
          refine ⟨?_, fun j x hj => ?_⟩
          · by_cases hd : dst = id
            · subst hd
              have := hg.1
              rw [hio] at this
              simpa [Heap.set] using this
            · simpa [Heap.set, hd] using hg.1
          · unfold Heap.set at hj
            split at hj
            · cases hj; exact hg.2 _ o hio
            · exact hg.2 _ _ hj

/-- **C130**: the options of a copy never change, whatever is declared with it or with any other object, as long as it is neither
destroyed nor moved from. -/
theorem C130_never {h h0 h' : Heap} {src dst : Nat} {o : Obj} (hs : h src = some o) (hd : h dst = none)
    (hw : ∀ i x, h i = some x → x.owner ≠ dst) (h0e : step h (.copy src dst) = .ok h0) {ops : List Op}
    (hops : Op.destroy dst ∉ ops) (hmoves : ∀ i, Op.move dst i ∉ ops) (e : run h0 ops = .ok h') :
    (h' dst).map (·.named) = some o.named := by
  have h1 : Orphan h0 dst o.named := by
    have : step h (.copy src dst) = .ok (h.set dst (some o)) := by
      simp [step, hd, Heap.get, hs, bind, Except.bind, pure, Except.pure]
    rw [this] at h0e
    cases h0e
    refine ⟨by simp [Heap.set], fun i x hx => ?_⟩
    unfold Heap.set at hx
    split at hx
    · cases hx; exact hw _ _ hs
    · exact hw _ _ hx
  clear hs hd hw h0e
  induction ops generalizing h0 with
  | nil => cases e; exact h1.1
  | cons op ops ih =>
    rw [run, List.foldlM_cons] at e
    cases hstep : step h0 op with
    | error x => simp [hstep, bind, Except.bind] at e
    | ok g =>
      simp only [hstep, bind, Except.bind] at e
      simp only [List.mem_cons, not_or] at hops hmoves
      exact ih hops.2 (fun i => (hmoves i).2) e
        (orphan_step h1 hstep (fun h => hops.1 h.symm) fun i h => (hmoves i).1 h.symm)

/-- Non-vacuity: two options are declared with a copy. -/
example :
    let h := Heap.init.set 0 (some ⟨["side"], 0, {}⟩)
    ∃ h0 h', step h (.copy 0 1) = .ok h0 ∧ run h0 [.named 1 "a", .positional 1 "b" (some 1)] = .ok h' ∧
      (h' 1).map (·.named) = some ["side"] := by
  intro h
  refine ⟨_, _, rfl, rfl, ?_⟩
  exact C130_never (h := h) (src := 0) (dst := 1) (o := ⟨["side"], 0, {}⟩) rfl rfl (by
    intro i x hx
    simp only [h, Heap.set, Heap.init] at hx
    split at hx <;> cases hx
    decide) rfl (ops := [.named 1 "a", .positional 1 "b" (some 1)]) (by simp) (by simp) rfl

/-- **C130**: declaring options with a copy, or with an object which is moved to, is undefined once the original is destroyed. -/
theorem C130_dangling {h : Heap} {id : Nat} {o : Obj} (ho : h id = some o) (hw : h o.owner = none) (name : String) (n : Option Nat) :
    step h (.named id name) = .error .ub ∧ step h (.positional id name n) = .error .ub := by
  have : addOption h id name = .error .ub := by
    simp [addOption, Heap.get, ho, hw, bind, Except.bind]
  exact ⟨this, by simp [step, this, bind, Except.bind]⟩

/-- Non-vacuity: an object which is moved out of a function. -/
example : run Heap.init [.construct 0, .named 0 "side", .move 0 1, .destroy 0, .named 1 "input"] = .error .ub := rfl

/-! ## Positional options -/

/-- The declaration of positional options. -/
def declare (l : List (String × Option Nat)) : Res Positional := l.foldlM (fun p x => p.add x.1 x.2) {}

/-- The outcome of an assignment. -/
def ofAssign : Option (List (String × String)) → Res (List (String × String))
  | some l => .ok l
  | none => .error .stdError

/-- C131: the positional tokens of a command line are given to the options in the order of declaration. -/
def C131_Statement : Prop :=
  ∀ l : List (String × Option Nat), (l.filter fun x => x.2.isNone).length ≤ 1 →
    ∃ p, declare l = .ok p ∧ ∀ tokens, p.bind 0 tokens = ofAssign (assign l tokens)

theorem add_unlimited (p : Positional) (name : String) (h : p.trailing = none) :
    p.add name none = .ok { p with trailing := some name } := by
  simp only [Positional.add, h]

theorem add_twice (p : Positional) (name : String) {t : String} (h : p.trailing = some t) :
    p.add name none = .error .ub := by
  simp only [Positional.add, h]

/-- The names of limited options. -/
def limited (l : List (String × Option Nat)) : List String := l.flatMap fun x => List.replicate (x.2.getD 0) x.1

/-- The unlimited options. -/
def unlimited (l : List (String × Option Nat)) : List (String × Option Nat) := l.filter fun x => x.2.isNone

theorem declare_from (l : List (String × Option Nat)) (p : Positional)
    (hu : (unlimited l).length + p.trailing.toList.length ≤ 1) :
    l.foldlM (fun p x => p.add x.1 x.2) p = (.ok ⟨p.names ++ limited l,
      p.trailing.or ((unlimited l).head?.map Prod.fst)⟩ : Res Positional) := by
  induction l generalizing p with
  | nil => simp [limited, unlimited, pure, Except.pure]
  | cons x l ih =>
    obtain ⟨x, n⟩ := x
    rw [List.foldlM_cons]
    cases n with
    | some n =>
      have hf : unlimited ((x, some n) :: l) = unlimited l := by simp [unlimited]
      show l.foldlM _ _ = _
      rw [ih _ (by rw [hf] at hu; exact hu)]
      simp [limited, hf]
    | none =>
      have hf : unlimited ((x, none) :: l) = (x, none) :: unlimited l := by simp [unlimited]
      rw [hf] at hu
      have ht : p.trailing = none := by
        cases ht : p.trailing with
        | none => rfl
        | some t => rw [ht] at hu; simp at hu
      have h0 : unlimited l = [] := by
        rw [List.length_cons] at hu
        exact List.eq_nil_of_length_eq_zero (by omega)
      rw [add_unlimited p x ht]
      show l.foldlM _ _ = _
      rw [ih _ (by simp [h0])]
      simp [limited, hf, ht]

/-- How tokens are bound, from any position. -/
theorem bind_from (p : Positional) (tokens : List String) (k : Nat) :
    p.bind k tokens = ofAssign (assign ((p.names.drop k).map (fun n => (n, some 1)) ++
      p.trailing.toList.map (fun n => (n, none))) tokens) := by
  induction tokens generalizing k with
  | nil =>
    have : ∀ l : List String, assign (l.map (fun n => (n, some 1)) ++ p.trailing.toList.map (fun n => (n, none))) [] = some [] := by
      intro l
      induction l with
      | nil => cases p.trailing <;> rfl
      | cons a l ih => simp [assign, ih]
    rw [this]
    rfl
  | cons t ts ih =>
    rw [Positional.bind, Positional.nameFor]
    by_cases hk : k < p.names.length
    · rw [if_pos hk, List.getElem?_eq_getElem hk, List.drop_eq_getElem_cons hk]
      simp only [List.map_cons, List.cons_append, assign, List.drop_succ_cons, List.drop_zero, ih]
      cases assign ((p.names.drop (k + 1)).map (fun n => (n, some 1)) ++ p.trailing.toList.map (fun n => (n, none))) ts <;>
        simp [ofAssign, Except.map]
    · rw [if_neg hk, List.drop_eq_nil_of_le (by omega)]
      cases ht : p.trailing with
      | none => rfl
      | some n =>
        simp only [ih, ht]
        rw [List.drop_eq_nil_of_le (by omega)]
        simp [assign, ofAssign, Except.map]

/-- Repeating an option is increasing its limit. -/
theorem assign_replicate (name : String) (k : Nat) (os : List (String × Option Nat)) (ts : List String) :
    assign (List.replicate k (name, some 1) ++ os) ts = assign ((name, some k) :: os) ts := by
  induction k generalizing ts with
  | zero => simp [assign]
  | succ k ih =>
    rw [List.replicate_succ, List.cons_append, assign, ih, assign, assign, Option.map_map]
    cases ts with
    | nil => simp [Function.comp_def]
    | cons t ts =>
      simp only [List.drop_succ_cons, List.drop_zero, List.take_succ_cons, List.take_zero, List.map_cons, List.map_nil,
        List.cons_append, List.nil_append]
      rfl

theorem assign_congr {os os' : List (String × Option Nat)} (h : ∀ ts, assign os ts = assign os' ts) (x : String × Option Nat)
    (ts : List String) : assign (x :: os) ts = assign (x :: os') ts := by
  obtain ⟨n, k⟩ := x
  cases k with
  | none => rfl
  | some k => rw [assign, assign, h]

theorem assign_limited (l os : List (String × Option Nat)) (ts : List String) :
    assign ((limited l).map (fun n => (n, some 1)) ++ os) ts = assign ((l.filter fun x => x.2.isSome) ++ os) ts := by
  induction l generalizing ts with
  | nil => rfl
  | cons x l ih =>
    obtain ⟨x, n⟩ := x
    cases n with
    | some n =>
      have e1 : limited ((x, some n) :: l) = List.replicate n x ++ limited l := by simp [limited]
      have e2 : (((x, some n) :: l).filter fun x => x.2.isSome) = (x, some n) :: l.filter fun x => x.2.isSome := by simp
      rw [e1, e2, List.map_append, List.map_replicate, List.append_assoc, assign_replicate, List.cons_append]
      exact assign_congr ih _ ts
    | none =>
      have e1 : limited ((x, none) :: l) = limited l := by simp [limited]
      have e2 : (((x, none) :: l).filter fun x => x.2.isSome) = l.filter fun x => x.2.isSome := by simp
      rw [e1, e2]
      exact ih ts

/-- **C131**: tokens are given to the limited options first, in the order of declaration, and then to the unlimited one, wherever
it is declared. -/
theorem C131_exact {l : List (String × Option Nat)} (hu : (l.filter fun x => x.2.isNone).length ≤ 1) :
    ∃ p, declare l = .ok p ∧ ∀ tokens, p.bind 0 tokens =
      ofAssign (assign ((l.filter fun x => x.2.isSome) ++ l.filter fun x => x.2.isNone) tokens) := by
  refine ⟨_, declare_from l {} (by simp; exact hu), fun tokens => ?_⟩
  rw [bind_from, ← assign_limited l]
  congr 3
  change _ = unlimited l
  have hall : ∀ x ∈ unlimited l, x.2 = none := by
    intro x hx
    simpa using (List.mem_filter.1 hx).2
  have hu' : (unlimited l).length ≤ 1 := hu
  cases hl : unlimited l with
  | nil => rfl
  | cons x t =>
    rw [hl] at hu'
    have ht : t = [] := List.eq_nil_of_length_eq_zero (by simp at hu'; simp [hu'])
    subst ht
    have := hall x (by simp [hl])
    obtain ⟨x, n⟩ := x
    cases this
    rfl

/-- **C131** if the unlimited option is the last one.
Missing: unlimited options which are followed by limited ones, which get the first tokens (`C131_exact`), and several unlimited
options (`C131_unlimited`). -/
theorem C131_partial {l : List (String × Option Nat)} {last : String × Option Nat} (hl : ∀ x ∈ l, x.2.isSome) :
    ∃ p, declare (l ++ [last]) = .ok p ∧ ∀ tokens, p.bind 0 tokens = ofAssign (assign (l ++ [last]) tokens) := by
  have h1 : (l.filter fun x => x.2.isSome) = l := List.filter_eq_self.2 hl
  have h2 : (l.filter fun x => x.2.isNone) = [] := List.filter_eq_nil_iff.2 fun x hx => by
    have := hl x hx
    cases h : x.2 <;> simp_all
  have h3 : ((l ++ [last]).filter fun x => x.2.isSome) ++ ((l ++ [last]).filter fun x => x.2.isNone) = l ++ [last] := by
    rw [List.filter_append, List.filter_append, h1, h2]
    cases h : last.2 <;> simp [h]
  obtain ⟨p, e, hp⟩ := C131_exact (l := l ++ [last]) (by
    rw [List.filter_append, h2]
    exact Nat.le_trans (List.length_filter_le _ _) (by simp))
  exact ⟨p, e, fun tokens => by rw [hp, h3]⟩

/-- Non-vacuity: an output, followed by inputs. -/
example : ∃ p, declare [("output", some 1), ("inputs", none)] = .ok p ∧
    p.bind 0 ["a", "b", "c"] = .ok [("output", "a"), ("inputs", "b"), ("inputs", "c")] := ⟨_, rfl, rfl⟩

/-- **C131**: a second unlimited option is undefined. -/
theorem C131_unlimited {l : List (String × Option Nat)} (h : 2 ≤ (l.filter fun x => x.2.isNone).length) :
    declare l = .error .ub := by
  have key : ∀ (l : List (String × Option Nat)) (p : Positional),
      2 ≤ (unlimited l).length + p.trailing.toList.length → (unlimited l ≠ []) →
      l.foldlM (fun p x => p.add x.1 x.2) p = (.error .ub : Res Positional) := by
    intro l
    induction l with
    | nil => intro p _ hne; exact absurd rfl hne
    | cons x l ih =>
      intro p h hne
      obtain ⟨x, n⟩ := x
      rw [List.foldlM_cons]
      cases n with
      | some n =>
        have hf : unlimited ((x, some n) :: l) = unlimited l := by simp [unlimited]
        rw [hf] at h hne
        exact ih _ h hne
      | none =>
        have hf : unlimited ((x, none) :: l) = (x, none) :: unlimited l := by simp [unlimited]
        cases ht : p.trailing with
        | some t => rw [add_twice p x ht]; rfl
        | none =>
          rw [add_unlimited p x ht]
          show l.foldlM _ _ = _
          rw [hf, ht] at h
          refine ih _ (by simp at h ⊢; exact h) ?_
          intro hc
          rw [hc] at h
          simp at h
  refine key l {} (by simpa [unlimited] using h) ?_
  intro hc
  unfold unlimited at hc
  rw [hc] at h
  simp at h

/-- Non-vacuity: two options of several tokens. -/
example : declare [("images", none), ("output", some 1), ("kernels", none)] = .error .ub := rfl

/-- **C131** does not hold: with inputs followed by an output, the first token is the output. -/
theorem C131_violated : ¬ C131_Statement := by
  intro h
  obtain ⟨p, e, hp⟩ := h [("inputs", none), ("output", some 1)] (by decide)
  have h1 : declare [("inputs", none), ("output", some 1)] = .ok ⟨["output"], some "inputs"⟩ := rfl
  rw [h1] at e
  cases e
  have h2 := hp ["a"]
  rw [show (Positional.bind ⟨["output"], some "inputs"⟩ 0 ["a"]) = .ok [("output", "a")] from rfl] at h2
  rw [show ofAssign (assign [("inputs", none), ("output", some 1)] ["a"]) = .ok [("inputs", "a")] from rfl] at h2
  simp at h2

end OptionObjects

end Litl
