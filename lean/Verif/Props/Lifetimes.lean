import Mathlib.Logic.ExistsUnique
import Verif.Model.Lifetimes

/-!
# C76: life times of views, decorators and iterators
-/

namespace Litl

namespace Spec

namespace Lifetimes

open Litl.Lifetimes (Op)

/-- The name of the object made by an operation. -/
def made : Op → Option Nat
  | .region n | .vec n | .arr n | .slice n _ | .samples n _ | .subraster n _ | .decorate n _ | .boxIt n _
  | .ballIt n _ | .subIt n _ | .samplingIt n _ | .samplesIt n _ | .copy n _ | .move n _ => some n
  | .destroy _ => none

/-- Object `i` has been made and not destroyed in a history. -/
def Lives (h : List Op) (i : Nat) : Prop := (∃ op ∈ h, made op = some i) ∧ Op.destroy i ∉ h

/-- The object which the client has given to make object `i`, or the object of which `i` is a copy of a copy...,
in a history (last operation first). -/
def target : List Op → Nat → Option Nat
  | [], _ => none
  | op :: h, i =>
    match op with
    | .slice n r | .samples n r | .subraster n r | .decorate n r | .boxIt n r | .ballIt n r | .subIt n r
    | .samplingIt n r | .samplesIt n r => if i = n then some r else target h i
    | .copy n j | .move n j => if i = n then target h j else target h i
    | _ => target h i

/-- The object of which `i` is a copy of a copy..., which itself is not a copy. -/
def origin : List Op → Nat → Nat
  | [], i => i
  | op :: h, i =>
    match op with
    | .copy n j | .move n j => if i = n then origin h j else origin h i
    | _ => origin h i

/-- Object `i` lives, as well as the object which it has been made from, and so on. -/
inductive Sound (h : List Op) : Nat → Prop where
  | root {i : Nat} : Lives h i → target h i = none → Sound h i
  | view {i j : Nat} : Lives h i → target h i = some j → Sound h j → Sound h i

/-- The only objects which are moved are views, decorators and iterators. -/
def OnlyViewsMoved : List Op → Prop
  | [] => True
  | op :: h =>
    match op with
    | .move _ i => target h i ≠ none ∧ OnlyViewsMoved h
    | _ => OnlyViewsMoved h

/-- Object `i` is, or is a copy of a copy of..., an iterator over a ball or a subraster. -/
def IsCursor (h : List Op) (i : Nat) : Prop := ∃ b, Op.ballIt (origin h i) b ∈ h ∨ Op.subIt (origin h i) b ∈ h

end Lifetimes

end Spec

namespace Lifetimes

open Spec.Lifetimes

/-- **C76**, full statement: a view, a decorator or an iterator, or a copy of it, can be used as long as it lives and the
objects it has been made from live. -/
def C76_Statement : Prop :=
  ∀ h s, Run init h s → OnlyViewsMoved h → ∀ i, Sound h i → Usable s i

/-! ## Elementary facts -/

@[simp] theorem put_objs (s : State) (n : Nat) (o : Obj) (i : Nat) :
    (s.put n o).objs i = if i = n then some o else s.objs i := rfl
@[simp] theorem put_used (s : State) (n : Nat) (o : Obj) (i : Nat) :
    (s.put n o).used i = if i = n then true else s.used i := rfl
@[simp] theorem put_heap (s : State) (n : Nat) (o : Obj) : (s.put n o).heap = s.heap := rfl
@[simp] theorem block_objs (s : State) (n : Nat) (b : Bool) : (s.block n b).objs = s.objs := rfl
@[simp] theorem block_used (s : State) (n : Nat) (b : Bool) : (s.block n b).used = s.used := rfl
@[simp] theorem block_heap (s : State) (n : Nat) (b : Bool) (i : Nat) :
    (s.block n b).heap i = if i = n then b else s.heap i := rfl

/-- The objects referred to by `o`, of name `i`. -/
def refs : Obj → List Nat
  | .subraster r | .decorator r | .boxIt r | .samplingIt r | .samplesIt r => [r]
  | .ballIt b x | .subIt b x => [b, x]
  | .ptr (.inside r) | .samples (.inside r) => [r]
  | _ => []

/-- The blocks referred to by `o`. -/
def blocks : Obj → List Nat
  | .vec (some n) | .ptr (.heap n) | .samples (.heap n) => [n]
  | _ => []

/-- What holds in any history: names of living objects, of their references and of blocks have been given, and each
allocated block has one living owner. -/
structure Inv (s : State) : Prop where
  named : ∀ i o, s.objs i = some o → s.used i = true
  refs : ∀ i o, s.objs i = some o → ∀ r ∈ refs o, s.used r = true
  blocks : ∀ i o, s.objs i = some o → ∀ b ∈ blocks o, s.used b = true
  heap : ∀ b, s.heap b = true → s.used b = true
  owned : ∀ b, s.heap b = true → ∃ i, s.objs i = some (.vec (some b))
  owner : ∀ i b, s.objs i = some (.vec (some b)) → s.heap b = true
  unique : ∀ i j b, s.objs i = some (.vec (some b)) → s.objs j = some (.vec (some b)) → i = j

theorem inv_init : Inv init :=
  ⟨by simp [init], by simp [init], by simp [init], by simp [init], by simp [init], by simp [init], by simp [init]⟩

/-- A new object which is not a `VecRaster`. -/
theorem Inv.put {s : State} (h : Inv s) {n : Nat} {o : Obj} (hn : s.used n = false) (hv : ∀ d, o ≠ .vec (some d))
    (hr : ∀ r ∈ Lifetimes.refs o, s.used r = true ∨ r = n) (hb : ∀ b ∈ Lifetimes.blocks o, s.used b = true) :
    Inv (s.put n o) := by
  have hne : ∀ i o', s.objs i = some o' → i ≠ n := fun i o' hi e => by
    subst e; rw [h.named _ _ hi] at hn; cases hn
  refine ⟨?_, ?_, ?_, ?_, ?_, ?_, ?_⟩
  · intro i o' hi
    by_cases e : i = n
    · simp [e]
    · simp [e] at hi ⊢; exact h.named _ _ hi
  · intro i o' hi r hr'
    by_cases e : i = n
    · simp [e] at hi; subst hi
      rcases hr r hr' with h1 | h1 <;> simp [h1]
    · simp [e] at hi
      simp [h.refs _ _ hi r hr']
  · intro i o' hi b hb'
    by_cases e : i = n
    · simp [e] at hi; subst hi; simp [hb b hb']
    · simp [e] at hi; simp [h.blocks _ _ hi b hb']
  · intro b hb'
    simp at hb'; simp [h.heap b hb']
  · intro b hb'
    simp at hb'
    obtain ⟨i, hi⟩ := h.owned b hb'
    exact ⟨i, by simp [hne _ _ hi, hi]⟩
  · intro i b hi
    by_cases e : i = n
    · simp [e] at hi; exact absurd hi (hv b)
    · simp [e] at hi; exact h.owner i b hi
  · intro i j b hi hj
    by_cases e : i = n
    · simp [e] at hi; exact absurd hi (hv b)
    · by_cases e' : j = n
      · simp [e'] at hj; exact absurd hj (hv b)
      · simp [e] at hi; simp [e'] at hj; exact h.unique i j b hi hj

/-- A new `VecRaster` with a new block. -/
theorem Inv.alloc {s : State} (h : Inv s) {n : Nat} (hn : s.used n = false) :
    Inv ((s.put n (.vec (some n))).block n true) := by
  have hne : ∀ i o', s.objs i = some o' → i ≠ n := fun i o' hi e => by
    subst e; rw [h.named _ _ hi] at hn; cases hn
  have hnb : ∀ i o', s.objs i = some o' → n ∉ Lifetimes.blocks o' := fun i o' hi hm => by
    rw [h.blocks _ _ hi n hm] at hn; cases hn
  refine ⟨?_, ?_, ?_, ?_, ?_, ?_, ?_⟩
  · intro i o' hi
    by_cases e : i = n
    · simp [e]
    · simp [e] at hi ⊢; exact h.named _ _ hi
  · intro i o' hi r hr'
    by_cases e : i = n
    · simp [e] at hi; subst hi; simp [Lifetimes.refs] at hr'
    · simp [e] at hi
      simp [h.refs _ _ hi r hr']
  · intro i o' hi b hb'
    by_cases e : i = n
    · simp [e] at hi; subst hi; simp [Lifetimes.blocks] at hb'; simp [hb']
    · simp [e] at hi; simp [h.blocks _ _ hi b hb']
  · intro b hb'
    by_cases e : b = n
    · simp [e]
    · simp [e] at hb'; simp [h.heap b hb']
  · intro b hb'
    by_cases e : b = n
    · exact ⟨n, by simp [e]⟩
    · simp [e] at hb'
      obtain ⟨i, hi⟩ := h.owned b hb'
      exact ⟨i, by simp [hne _ _ hi, hi]⟩
  · intro i b hi
    by_cases e : i = n
    · simp [e] at hi; simp [hi]
    · simp [e] at hi; simp [h.owner i b hi]
  · intro i j b hi hj
    by_cases e : i = n
    · by_cases e' : j = n
      · rw [e, e']
      · simp [e] at hi; simp [e'] at hj; subst hi
        exact absurd (by simp [Lifetimes.blocks]) (hnb _ _ hj)
    · by_cases e' : j = n
      · simp [e] at hi; simp [e'] at hj; subst hj
        exact absurd (by simp [Lifetimes.blocks]) (hnb _ _ hi)
      · simp [e] at hi; simp [e'] at hj; exact h.unique i j b hi hj

/-- A moved `VecRaster`. -/
theorem Inv.transfer {s : State} (h : Inv s) {n i : Nat} {d : Option Nat} (hn : s.used n = false)
    (hi : s.objs i = some (.vec d)) : Inv ((s.put i (.vec none)).put n (.vec d)) := by
  have hne : ∀ i o', s.objs i = some o' → i ≠ n := fun i o' hi e => by
    subst e; rw [h.named _ _ hi] at hn; cases hn
  have hin := hne _ _ hi
  have hiu := h.named _ _ hi
  refine ⟨?_, ?_, ?_, ?_, ?_, ?_, ?_⟩
  · intro j o' hj
    by_cases e : j = n
    · simp [e]
    · by_cases e' : j = i
      · simp [e']
      · simp [e, e'] at hj ⊢; exact h.named _ _ hj
  · intro j o' hj r hr'
    by_cases e : j = n
    · simp [e] at hj; subst hj; cases d <;> simp [Lifetimes.refs] at hr'
    · by_cases e' : j = i
      · simp [e', hin] at hj; subst hj; simp [Lifetimes.refs] at hr'
      · simp [e, e'] at hj; simp [h.refs _ _ hj r hr']
  · intro j o' hj b hb'
    by_cases e : j = n
    · simp [e] at hj; subst hj; simp [h.blocks _ _ hi b hb']
    · by_cases e' : j = i
      · simp [e', hin] at hj; subst hj; simp [Lifetimes.blocks] at hb'
      · simp [e, e'] at hj; simp [h.blocks _ _ hj b hb']
  · intro b hb'
    simp at hb'; simp [h.heap b hb']
  · intro b hb'
    simp at hb'
    obtain ⟨j, hj⟩ := h.owned b hb'
    by_cases e : j = i
    · subst e; rw [hi] at hj; cases hj
      exact ⟨n, by simp⟩
    · exact ⟨j, by simp [hne _ _ hj, e, hj]⟩
  · intro j b hj
    by_cases e : j = n
    · simp [e] at hj; subst hj; exact h.owner i b hi
    · by_cases e' : j = i
      · simp [e', hin] at hj
      · simp [e, e'] at hj; exact h.owner j b hj
  · intro j k b hj hk
    by_cases e : j = n
    · by_cases e' : k = n
      · rw [e, e']
      · simp [e] at hj; subst hj
        by_cases e2 : k = i
        · simp [e2, hin] at hk
        · simp [e', e2] at hk; exact absurd (h.unique k i b hk hi) e2
    · by_cases e1 : j = i
      · simp [e1, hin] at hj
      · simp [e, e1] at hj
        by_cases e' : k = n
        · simp [e'] at hk; subst hk; exact absurd (h.unique j i b hj hi) e1
        · by_cases e2 : k = i
          · simp [e2, hin] at hk
          · simp [e', e2] at hk; exact h.unique j k b hj hk

theorem destroyed_objs (s : State) (i : Nat) (o : Obj) (j : Nat) :
    (destroyed s i o).objs j = if j = i then none else s.objs j := by
  rcases o with _ | ⟨_ | n⟩ <;> rfl

theorem destroyed_used (s : State) (i : Nat) (o : Obj) : (destroyed s i o).used = s.used := by
  rcases o with _ | ⟨_ | n⟩ <;> rfl

theorem destroyed_heap (s : State) (i : Nat) (o : Obj) (b : Nat) :
    (destroyed s i o).heap b = true ↔ s.heap b = true ∧ o ≠ .vec (some b) := by
  rcases o with _ | ⟨_ | n⟩ | _ | _ | _ | _ | _ | _ | _ | _ | _ | _ <;>
    simp [destroyed, State.block] <;> grind

theorem Inv.destroy {s : State} (h : Inv s) {i : Nat} {o : Obj} (hi : s.objs i = some o) : Inv (destroyed s i o) := by
  refine ⟨?_, ?_, ?_, ?_, ?_, ?_, ?_⟩
  · intro j o' hj
    rw [destroyed_objs] at hj; rw [destroyed_used]
    by_cases e : j = i
    · simp [e] at hj
    · simp [e] at hj; exact h.named _ _ hj
  · intro j o' hj
    rw [destroyed_objs] at hj; rw [destroyed_used]
    by_cases e : j = i
    · simp [e] at hj
    · simp [e] at hj; exact h.refs _ _ hj
  · intro j o' hj
    rw [destroyed_objs] at hj; rw [destroyed_used]
    by_cases e : j = i
    · simp [e] at hj
    · simp [e] at hj; exact h.blocks _ _ hj
  · intro b hb
    rw [destroyed_heap] at hb; rw [destroyed_used]
    exact h.heap b hb.1
  · intro b hb
    rw [destroyed_heap] at hb
    obtain ⟨j, hj⟩ := h.owned b hb.1
    refine ⟨j, ?_⟩
    rw [destroyed_objs]
    by_cases e : j = i
    · subst e; rw [hi] at hj; cases hj; exact absurd rfl hb.2
    · simp [e, hj]
  · intro j b hj
    rw [destroyed_objs] at hj; rw [destroyed_heap]
    by_cases e : j = i
    · simp [e] at hj
    · simp [e] at hj
      refine ⟨h.owner j b hj, ?_⟩
      rintro rfl
      exact e (h.unique j i b hj hi)
  · intro j k b hj hk
    rw [destroyed_objs] at hj hk
    by_cases e : j = i
    · simp [e] at hj
    · by_cases e' : k = i
      · simp [e'] at hk
      · simp [e] at hj; simp [e'] at hk; exact h.unique j k b hj hk

theorem pixels_named {s : State} (h : Inv s) {r : Nat} {o : Obj} {p : Place} (hr : s.objs r = some o)
    (hp : pixels r o = some p) :
    (∀ k ∈ refs (.ptr p), s.used k = true) ∧ (∀ k ∈ blocks (.ptr p), s.used k = true) := by
  have h1 := h.named _ _ hr
  have h2 := h.refs _ _ hr
  have h3 := h.blocks _ _ hr
  rcases o with _ | ⟨_ | n⟩ | _ | p' | _ | _ | _ | _ | _ | _ | _ | _ <;> simp [pixels] at hp <;> subst hp
  · simpa [Lifetimes.refs, Lifetimes.blocks] using h3
  · simpa [Lifetimes.refs, Lifetimes.blocks] using h1
  · exact ⟨h2, h3⟩

theorem Inv.step {s t : State} {op : Op} (h : Inv s) (st : Step s op t) : Inv t := by
  cases st with
  | region hn => exact h.put hn (by simp) (by simp [Lifetimes.refs]) (by simp [Lifetimes.blocks])
  | vec hn => exact h.alloc hn
  | arr hn => exact h.put hn (by simp) (by simp [Lifetimes.refs]) (by simp [Lifetimes.blocks])
  | slice hn _ hr hp =>
    obtain ⟨h1, h2⟩ := pixels_named h hr hp
    exact h.put hn (by simp) (fun r hr => .inl (h1 r hr)) h2
  | @samples n r o p hn _ hr hp =>
    obtain ⟨h1, h2⟩ := pixels_named h hr hp
    refine h.put hn (by simp) (fun r hr => .inl (h1 r ?_)) (fun b hb => h2 b ?_)
    · cases p <;> exact hr
    · cases p <;> exact hb
  | subraster hn _ hr _ =>
    exact h.put hn (by simp) (by simp [Lifetimes.refs, h.named _ _ hr]) (by simp [Lifetimes.blocks])
  | decorate hn _ hr _ =>
    exact h.put hn (by simp) (by simp [Lifetimes.refs, h.named _ _ hr]) (by simp [Lifetimes.blocks])
  | boxIt hn hr =>
    exact h.put hn (by simp) (by simp [Lifetimes.refs, h.named _ _ hr]) (by simp [Lifetimes.blocks])
  | ballIt hn hr =>
    exact h.put hn (by simp) (by simp [Lifetimes.refs, h.named _ _ hr]) (by simp [Lifetimes.blocks])
  | subIt hn hv _ =>
    have := h.refs _ _ hv
    simp [Lifetimes.refs] at this
    exact h.put hn (by simp) (by simp [Lifetimes.refs, this]) (by simp [Lifetimes.blocks])
  | samplingIt hn hr =>
    exact h.put hn (by simp) (by simp [Lifetimes.refs, h.named _ _ hr]) (by simp [Lifetimes.blocks])
  | samplesIt hn hr _ =>
    exact h.put hn (by simp) (by simp [Lifetimes.refs, h.named _ _ hr]) (by simp [Lifetimes.blocks])
  | @copy n i o hn hi =>
    have h2 := h.refs _ _ hi
    have h3 := h.blocks _ _ hi
    unfold copied
    split
    · exact h.alloc hn
    · rename_i _ hv
      exact h.put hn (fun d e => hv d e) (fun r hr => .inl (h2 r hr)) h3
  | @move n i o hn hi =>
    have h2 := h.refs _ _ hi
    have h3 := h.blocks _ _ hi
    unfold moved
    split
    · exact h.transfer hn hi
    · rename_i _ hv
      exact h.put hn (fun d e => hv _ e) (fun r hr => .inl (h2 r hr)) h3
  | destroy hi => exact h.destroy hi

theorem Inv.run {s t : State} {ops : List Op} (h : Inv s) (r : Run s ops t) : Inv t := by
  induction r with
  | nil => exact h
  | cons _ st ih => exact ih.step st

/-! ## Histories -/

/-- Object `i` has been made. -/
def Made (h : List Op) (i : Nat) : Prop := ∃ op ∈ h, made op = some i

theorem target_ne {op : Op} {h : List Op} {i : Nat} (hi : made op ≠ some i) : target (op :: h) i = target h i := by
  cases op <;> simp [made] at hi <;> simp [target] <;> intro e <;> exact absurd e.symm hi

theorem origin_ne {op : Op} {h : List Op} {i : Nat} (hi : made op ≠ some i) : origin (op :: h) i = origin h i := by
  cases op <;> simp [made] at hi <;> simp [origin] <;> intro e <;> exact absurd e.symm hi

theorem target_fresh {h : List Op} {i : Nat} (hi : ¬ Made h i) : target h i = none := by
  induction h with
  | nil => rfl
  | cons op h ih =>
    rw [target_ne (fun e => hi ⟨op, by simp, e⟩)]
    exact ih fun ⟨o, ho, e⟩ => hi ⟨o, by simp [ho], e⟩

theorem target_made {h : List Op} {i j : Nat} (ht : target h i = some j) : Made h i :=
  Classical.byContradiction fun hm => by rw [target_fresh hm] at ht; cases ht

theorem origin_fresh {h : List Op} {i : Nat} (hi : ¬ Made h i) : origin h i = i := by
  induction h with
  | nil => rfl
  | cons op h ih =>
    rw [origin_ne (fun e => hi ⟨op, by simp, e⟩)]
    exact ih fun ⟨o, ho, e⟩ => hi ⟨o, by simp [ho], e⟩

theorem made_cons {op : Op} {h : List Op} {i : Nat} : Made (op :: h) i ↔ made op = some i ∨ Made h i := by
  simp [Made]

/-- What the references of object `i` are, according to the history. -/
def Match (h : List Op) (i : Nat) : Obj → Prop
  | .region | .vec _ | .arr => target h i = none
  | .ptr _ | .samples _ => ∃ r, target h i = some r
  | .subraster r | .decorator r | .boxIt r | .samplingIt r | .samplesIt r => target h i = some r
  | .ballIt b x => target h i = some b ∧ origin h i = x ∧ ∃ c, Op.ballIt x c ∈ h
  | .subIt r x => (∃ v, target h i = some v ∧ target h v = some r ∧ Made h v) ∧ origin h i = x ∧ ∃ c, Op.subIt x c ∈ h

theorem Match.cons {op : Op} {h : List Op} {i : Nat} {o : Obj} (hi : made op ≠ some i)
    (hn : ∀ v, Made h v → made op ≠ some v) (m : Match h i o) : Match (op :: h) i o := by
  cases o <;> simp only [Match, target_ne hi, origin_ne hi] at m ⊢ <;> try exact m
  · obtain ⟨h1, h2, c, h3⟩ := m
    exact ⟨h1, h2, c, by simp [h3]⟩
  · obtain ⟨⟨v, h1, h2, h4⟩, h5, c, h3⟩ := m
    exact ⟨⟨v, h1, by rw [target_ne (hn v h4), h2], made_cons.2 (.inr h4)⟩, h5, c, by simp [h3]⟩

/-- What a copy `n` of `j` refers to. -/
theorem Match.copy {op : Op} {h : List Op} {j n : Nat} {o : Obj} (ht : target (op :: h) n = target h j)
    (hr : origin (op :: h) n = origin h j) (hn : ∀ v, Made h v → made op ≠ some v) (m : Match h j o) :
    Match (op :: h) n o := by
  cases o <;> simp only [Match, ht, hr] at m ⊢ <;> try exact m
  · obtain ⟨h1, h2, c, h3⟩ := m
    exact ⟨h1, h2, c, by simp [h3]⟩
  · obtain ⟨⟨v, h1, h2, h4⟩, h5, c, h3⟩ := m
    exact ⟨⟨v, h1, by rw [target_ne (hn v h4), h2], made_cons.2 (.inr h4)⟩, h5, c, by simp [h3]⟩

/-- The kinds of the objects which `o` refers to, as long as they live. -/
def Typed (s : State) : Obj → Prop
  | .subraster r | .subIt r _ => ∀ o, s.objs r = some o → IsRaster o
  | .decorator r => ∀ o, s.objs r = some o → Decorable o
  | .samplesIt r => ∀ o, s.objs r = some o → ∃ p, o = .samples p
  | _ => True

/-- The object of which the kind is known. -/
def deep : Obj → List Nat
  | .subraster r | .subIt r _ | .decorator r | .samplesIt r => [r]
  | _ => []

theorem deep_refs {o : Obj} {r : Nat} (h : r ∈ deep o) : r ∈ refs o := by
  cases o <;> simp [deep] at h <;> simp [refs, h]

theorem Typed.mono {s t : State} {o : Obj} (h : Typed s o)
    (hd : ∀ r ∈ deep o, ∀ o', t.objs r = some o' → s.objs r = some o' ∨ ∃ d, s.objs r = some (.vec d) ∧ o' = .vec none) :
    Typed t o := by
  cases o <;> simp only [Typed, deep, List.mem_singleton, forall_eq] at h hd ⊢ <;> intro o' hx <;>
    (rcases hd o' hx with h1 | ⟨d, h1, rfl⟩
     · exact h _ h1
     · have := h _ h1
       first | exact this | simp at this)

/-- The state agrees with the history. -/
structure Agrees (h : List Op) (s : State) : Prop where
  used : ∀ i, s.used i = true ↔ Made h i
  lives : ∀ i, (s.objs i).isSome = true ↔ Lives h i
  refers : ∀ i o, s.objs i = some o → Match h i o
  typed : ∀ i o, s.objs i = some o → Typed s o
  gone : ∀ i, Op.destroy i ∈ h → s.used i = true

theorem agrees_init : Agrees [] init :=
  ⟨by simp [init, Made], by simp [init, Lives], by simp [init], by simp [init], by simp⟩

theorem lives_cons {op : Op} {h : List Op} {i : Nat} (hop : op ≠ .destroy i) :
    Lives (op :: h) i ↔ (made op = some i ∧ Op.destroy i ∉ h) ∨ Lives h i := by
  have : Op.destroy i ≠ op := fun e => hop e.symm
  simp only [Lives, List.mem_cons, exists_eq_or_imp, this, false_or]
  grind

/-- A new object. -/
theorem Agrees.put {h : List Op} {s t : State} {op : Op} {n : Nat} {o : Obj} (a : Agrees h s)
    (inv : ∀ i o, s.objs i = some o → ∀ r ∈ refs o, s.used r = true) (hn : s.used n = false) (hop : made op = some n)
    (ho : ∀ i, t.objs i = if i = n then some o else s.objs i) (hu : ∀ i, t.used i = if i = n then true else s.used i)
    (hm : Match (op :: h) n o) (ht : Typed s o) (hr : ∀ r ∈ deep o, s.used r = true) : Agrees (op :: h) t := by
  have hfresh : ¬ Made h n := fun m => by rw [(a.used n).2 m] at hn; cases hn
  have hnd : ∀ i, op ≠ .destroy i := fun i e => by subst e; cases hop
  have hfr : ∀ v, Made h v → made op ≠ some v := fun v hv e => by rw [hop] at e; cases e; exact hfresh hv
  refine ⟨?_, ?_, ?_, ?_, ?_⟩
  · intro i
    rw [hu, made_cons, hop]
    by_cases e : i = n
    · simp [e]
    · simp only [e, if_false, a.used]
      constructor
      · exact .inr
      · rintro (e' | e')
        · cases e'; exact absurd rfl e
        · exact e'
  · intro i
    rw [ho, lives_cons (hnd i), hop]
    by_cases e : i = n
    · subst e
      simp only [if_true, Option.isSome_some, true_iff]
      exact .inl ⟨trivial, fun hd => by rw [a.gone i hd] at hn; cases hn⟩
    · simp only [e, if_false, a.lives]
      constructor
      · exact .inr
      · rintro (⟨e', _⟩ | e')
        · cases e'; exact absurd rfl e
        · exact e'
  · intro i o' hi
    rw [ho] at hi
    by_cases e : i = n
    · simp [e] at hi; subst hi; rw [e]; exact hm
    · simp [e] at hi
      exact (a.refers i o' hi).cons (by rw [hop]; intro e'; cases e'; exact e rfl) hfr
  · intro i o' hi
    have key : ∀ o', Typed s o' → (∀ r ∈ deep o', s.used r = true) → Typed t o' := fun o' h1 h2 =>
      h1.mono fun r hr o'' hx => by
        rw [ho] at hx
        split at hx
        · next e => rw [← e, h2 r hr] at hn; cases hn
        · exact .inl hx
    rw [ho] at hi
    by_cases e : i = n
    · simp [e] at hi; subst hi
      exact key _ ht hr
    · simp [e] at hi
      exact key o' (a.typed i o' hi) fun r hr' => inv i o' hi r (deep_refs hr')
  · intro i hi
    rw [hu]
    split
    · rfl
    · simp at hi
      rcases hi with e | e
      · exact absurd e.symm (hnd i)
      · exact a.gone i e

/-- A `VecRaster` becomes empty. -/
theorem Agrees.empty {h : List Op} {s : State} {i : Nat} {d : Option Nat} (a : Agrees h s) (hi : s.objs i = some (.vec d))
    (hu : s.used i = true) : Agrees h (s.put i (.vec none)) := by
  refine ⟨?_, ?_, ?_, ?_, ?_⟩
  · intro j
    rw [← a.used, put_used]
    split
    · next e => simp [e, hu]
    · rfl
  · intro j
    rw [← a.lives, put_objs]
    split
    · next e => simp [e, hi]
    · rfl
  · intro j o hj
    rw [put_objs] at hj
    split at hj
    · next e => cases hj; rw [e]; have := a.refers i _ hi; exact this
    · exact a.refers j o hj
  · intro j o hj
    have key : ∀ o', Typed s o' → Typed (s.put i (.vec none)) o' := fun o' h1 =>
      h1.mono fun r _ o'' hx => by
        rw [put_objs] at hx
        split at hx
        · next e => cases hx; rw [e]; exact .inr ⟨d, hi, rfl⟩
        · exact .inl hx
    rw [put_objs] at hj
    split at hj
    · cases hj; trivial
    · exact key o (a.typed j o hj)
  · intro j hj
    rw [put_used, a.gone j hj]; simp

theorem Agrees.step {h : List Op} {s t : State} {op : Op} (a : Agrees h s) (inv : Inv s) (st : Step s op t) :
    Agrees (op :: h) t := by
  have hfr : ∀ {n}, s.used n = false → ¬ Made h n := fun hn m => by rw [(a.used _).2 m] at hn; cases hn
  have hnv : ∀ {n op'}, s.used n = false → made op' = some n → ∀ v, Made h v → made op' ≠ some v := fun hn e v hv e' => by
    rw [e] at e'; cases e'; exact hfr hn hv
  cases st with
  | region hn =>
    exact a.put inv.refs hn rfl (fun _ => rfl) (fun _ => rfl) (by simp [Match, target, target_fresh (hfr hn)])
      (by simp [Typed]) (by simp [deep])
  | vec hn =>
    exact a.put inv.refs hn rfl (fun _ => rfl) (fun _ => rfl) (by simp [Match, target, target_fresh (hfr hn)])
      (by simp [Typed]) (by simp [deep])
  | arr hn =>
    exact a.put inv.refs hn rfl (fun _ => rfl) (fun _ => rfl) (by simp [Match, target, target_fresh (hfr hn)])
      (by simp [Typed]) (by simp [deep])
  | slice hn _ hr hp =>
    exact a.put inv.refs hn rfl (fun _ => rfl) (fun _ => rfl) (by simp [Match, target]) (by simp [Typed]) (by simp [deep])
  | samples hn _ hr hp =>
    exact a.put inv.refs hn rfl (fun _ => rfl) (fun _ => rfl) (by simp [Match, target]) (by simp [Typed]) (by simp [deep])
  | subraster hn _ hr ho =>
    exact a.put inv.refs hn rfl (fun _ => rfl) (fun _ => rfl) (by simp [Match, target])
      (by simp [Typed, hr, ho]) (by simp [deep, inv.named _ _ hr])
  | decorate hn _ hr ho =>
    exact a.put inv.refs hn rfl (fun _ => rfl) (fun _ => rfl) (by simp [Match, target])
      (by simp [Typed, hr, ho]) (by simp [deep, inv.named _ _ hr])
  | boxIt hn hr =>
    exact a.put inv.refs hn rfl (fun _ => rfl) (fun _ => rfl) (by simp [Match, target]) (by simp [Typed]) (by simp [deep])
  | ballIt hn hr =>
    exact a.put inv.refs hn rfl (fun _ => rfl) (fun _ => rfl)
      (by simp [Match, target, origin, origin_fresh (hfr hn)]) (by simp [Typed]) (by simp [deep])
  | @subIt n v r hn hv _ =>
    have hvm := (a.used v).1 (inv.named _ _ hv)
    have hvn : made (.subIt n v) ≠ some v := hnv hn rfl v hvm
    refine a.put inv.refs hn rfl (fun _ => rfl) (fun _ => rfl)
      ⟨⟨v, by simp [target], by rw [target_ne hvn]; exact a.refers _ _ hv, made_cons.2 (.inr hvm)⟩,
        by simp [origin, origin_fresh (hfr hn)], v, by simp⟩ (by have := a.typed _ _ hv; exact this) ?_
    have := inv.refs _ _ hv
    simpa [deep, refs] using this
  | samplingIt hn hr =>
    exact a.put inv.refs hn rfl (fun _ => rfl) (fun _ => rfl) (by simp [Match, target]) (by simp [Typed]) (by simp [deep])
  | samplesIt hn hr _ =>
    exact a.put inv.refs hn rfl (fun _ => rfl) (fun _ => rfl) (by simp [Match, target])
      (by simp [Typed, hr]) (by simp [deep, inv.named _ _ hr])
  | @copy n i o hn hi =>
    have hm : Match (.copy n i :: h) n o :=
      (a.refers _ _ hi).copy (by simp [target]) (by simp [origin]) (hnv hn rfl)
    have hd : ∀ r ∈ deep o, s.used r = true := fun r hr => inv.refs _ _ hi r (deep_refs hr)
    unfold copied
    split
    · exact a.put inv.refs hn rfl (fun _ => rfl) (fun _ => rfl) hm (by simp [Typed]) (by simp [deep])
    · exact a.put inv.refs hn rfl (fun _ => rfl) (fun _ => rfl) hm (a.typed _ _ hi) hd
  | @move n i o hn hi =>
    have hm : Match (.move n i :: h) n o :=
      (a.refers _ _ hi).copy (by simp [target]) (by simp [origin]) (hnv hn rfl)
    have hd : ∀ r ∈ deep o, s.used r = true := fun r hr => inv.refs _ _ hi r (deep_refs hr)
    unfold moved
    split
    · have hu := inv.named _ _ hi
      have a' := a.empty hi hu
      have inv' : ∀ j o', (s.put i (.vec none)).objs j = some o' → ∀ r ∈ refs o', (s.put i (.vec none)).used r = true := by
        intro j o' hj r hr
        rw [put_objs] at hj
        split at hj
        · cases hj; simp [refs] at hr
        · simp [inv.refs _ _ hj r hr]
      have hin : i ≠ n := fun e => by rw [← e, hu] at hn; cases hn
      exact a'.put inv' (by simp [hin.symm, hn]) rfl (fun _ => rfl) (fun _ => rfl) hm (by simp [Typed]) (by simp [deep])
    · exact a.put inv.refs hn rfl (fun _ => rfl) (fun _ => rfl) hm (a.typed _ _ hi) hd
  | @destroy i o hi =>
    have hu := inv.named _ _ hi
    refine ⟨?_, ?_, ?_, ?_, ?_⟩
    · intro j; rw [destroyed_used, a.used, made_cons]; simp [made]
    · intro j
      rw [destroyed_objs]
      split
      · next e => subst e; simp [Lives]
      · next e => rw [a.lives, lives_cons (by simpa using Ne.symm e)]; simp [made]
    · intro j o' hj
      rw [destroyed_objs] at hj
      split at hj
      · cases hj
      · exact (a.refers j o' hj).cons (by simp [made]) (by simp [made])
    · intro j o' hj
      rw [destroyed_objs] at hj
      split at hj
      · cases hj
      · refine (a.typed j o' hj).mono fun r _ o'' hx => ?_
        rw [destroyed_objs] at hx
        split at hx
        · cases hx
        · exact .inl hx
    · intro j hj
      rw [destroyed_used]
      simp at hj
      rcases hj with e | e
      · rw [e]; exact hu
      · exact a.gone j e

theorem agrees {h : List Op} {s : State} (r : Run init h s) : Inv s ∧ Agrees h s := by
  induction r with
  | nil => exact ⟨inv_init, agrees_init⟩
  | cons _ st ih => exact ⟨ih.1.step st, ih.2.step ih.1 st⟩

/-- The name of a new object is new. -/
theorem Step.fresh {h : List Op} {s t : State} {op : Op} (a : Agrees h s) (st : Step s op t) :
    ∀ v, Made h v → made op ≠ some v := by
  intro v hv e
  have hu := (a.used v).2 hv
  cases st <;> cases e <;> simp_all

/-- `e` can be reached from `i` by following targets. -/
inductive Reach (h : List Op) : Nat → Nat → Prop where
  | refl {i : Nat} : Reach h i i
  | next {i j e : Nat} : target h i = some j → Reach h j e → Reach h i e

theorem Reach.cons {op : Op} {h : List Op} (hn : ∀ v, Made h v → made op ≠ some v) {i e : Nat} (r : Reach h i e) :
    Reach (op :: h) i e := by
  induction r with
  | refl => exact .refl
  | @next i j e ht _ ih =>
    refine .next ?_ ih
    rw [target_ne (hn i (target_made ht)), ht]

theorem sound_lives {h : List Op} {i : Nat} (hs : Sound h i) : Lives h i := by
  cases hs <;> assumption

theorem sound_reach {h : List Op} {i e : Nat} (hs : Sound h i) (hr : Reach h i e) : Lives h e := by
  induction hr with
  | refl => exact sound_lives hs
  | next ht _ ih =>
    cases hs with
    | root _ hn => rw [hn] at ht; cases ht
    | view _ hn hj => rw [hn] at ht; cases ht; exact ih hj

/-- The pixels `p` are those of a raster `e` at the end of the targets of `i`. -/
def Ends (h : List Op) (s : State) (i : Nat) (p : Place) : Prop :=
  ∃ r e, target h i = some r ∧ Reach h r e ∧ (p = .inside e ∨ p = .heap e ∧ (Lives h e → s.heap e = true))

/-- Where the pixels of rasters and views are, if no raster is moved. -/
structure Pix (h : List Op) (s : State) : Prop where
  vec : ∀ i d, s.objs i = some (.vec d) → d = some i
  ptr : ∀ i p, s.objs i = some (.ptr p) → Ends h s i p
  samples : ∀ i p, s.objs i = some (.samples p) → Ends h s i p

theorem Ends.cons {op : Op} {h : List Op} {s t : State} {i : Nat} {p : Place}
    (hn : ∀ v, Made h v → made op ≠ some v)
    (hh : ∀ e, p = .heap e → Lives (op :: h) e → (Lives h e → s.heap e = true) → t.heap e = true)
    (he : Ends h s i p) : Ends (op :: h) t i p := by
  obtain ⟨r, e, h1, h2, h3⟩ := he
  have hm : Made h i := target_made h1
  refine ⟨r, e, by rw [target_ne (hn i hm), h1], h2.cons hn, ?_⟩
  rcases h3 with h3 | ⟨h3, h4⟩
  · exact .inl h3
  · exact .inr ⟨h3, fun hl => hh e h3 hl h4⟩

/-- A new object. -/
theorem Pix.put {h : List Op} {s t : State} {op : Op} {n : Nat} {o : Obj} (x : Pix h s) (a : Agrees h s) (inv : Inv s)
    (hn : s.used n = false) (hop : made op = some n)
    (ho : ∀ i, t.objs i = if i = n then some o else s.objs i) (hh : ∀ e, e ≠ n → t.heap e = s.heap e)
    (hv : ∀ d, o = .vec d → d = some n) (hp : ∀ p, o = .ptr p ∨ o = .samples p → Ends (op :: h) t n p) :
    Pix (op :: h) t := by
  have hfr : ∀ v, Made h v → made op ≠ some v := fun v hv e => by
    rw [hop] at e; cases e; rw [(a.used n).2 hv] at hn; cases hn
  have hnd : ∀ i, op ≠ .destroy i := fun i e => by subst e; cases hop
  have key : ∀ i p, (∀ b ∈ blocks (.ptr p), s.used b = true) → Ends h s i p → Ends (op :: h) t i p := by
    intro i p hb
    refine Ends.cons hfr fun e he hl hs => ?_
    subst he
    have hu := hb e (by simp [blocks])
    have en : e ≠ n := fun e' => by rw [e'] at hu; rw [hu] at hn; cases hn
    rw [hh e en]
    apply hs
    rcases (lives_cons (hnd e)).1 hl with ⟨h1, _⟩ | h1
    · rw [hop] at h1; cases h1; exact absurd rfl en
    · exact h1
  refine ⟨?_, ?_, ?_⟩
  · intro i d hi
    rw [ho] at hi
    split at hi
    · next e => cases hi; rw [e]; exact hv d rfl
    · exact x.vec i d hi
  · intro i p hi
    rw [ho] at hi
    split at hi
    · next e => cases hi; rw [e]; exact hp p (.inl rfl)
    · exact key i p (inv.blocks _ _ hi) (x.ptr i p hi)
  · intro i p hi
    rw [ho] at hi
    split at hi
    · next e => cases hi; rw [e]; exact hp p (.inr rfl)
    · refine key i p (fun b hb => inv.blocks _ _ hi b ?_) (x.samples i p hi)
      cases p <;> exact hb

theorem Pix.step {h : List Op} {s t : State} {op : Op} (x : Pix h s) (a : Agrees h s) (inv : Inv s) (st : Step s op t)
    (hm : ∀ n i, op = .move n i → target h i ≠ none) : Pix (op :: h) t := by
  have hfr := Step.fresh a st
  have view : ∀ {n r o p}, made op = some n → (n ≠ r → target (op :: h) n = some r) → s.used n = false →
      s.objs r = some o → pixels r o = some p → (∀ e, e ≠ n → t.heap e = s.heap e) → Ends (op :: h) t n p := by
    intro n r o p hop ht hn hr hp hh
    have hrn : n ≠ r := fun e => by rw [e, inv.named _ _ hr] at hn; cases hn
    have hnd : ∀ i, op ≠ .destroy i := fun i e => by subst e; cases hop
    cases o <;> simp [pixels] at hp
    · rename_i d
      have hd := x.vec r d hr
      subst hd
      simp at hp; subst hp
      refine ⟨r, r, ht hrn, .refl, .inr ⟨rfl, fun _ => ?_⟩⟩
      rw [hh r hrn.symm]; exact inv.owner r r hr
    · subst hp
      exact ⟨r, r, ht hrn, .refl, .inl rfl⟩
    · subst hp
      have hb := inv.blocks _ _ hr
      obtain ⟨r', e, h1, h2, h3⟩ := Ends.cons (t := t) hfr (fun e he hl hs => by
        subst he
        have hu := hb e (by simp [blocks])
        have en : e ≠ n := fun e' => by rw [e'] at hu; rw [hu] at hn; cases hn
        rw [hh e en]
        apply hs
        rcases (lives_cons (hnd e)).1 hl with ⟨h1, _⟩ | h1
        · rw [hop] at h1; cases h1; exact absurd rfl en
        · exact h1) (x.ptr r _ hr)
      exact ⟨r, e, ht hrn, .next h1 h2, h3⟩
  have clone : ∀ {n i o p}, made op = some n → target (op :: h) n = target h i → s.used n = false →
      s.objs i = some o → (o = .ptr p ∨ o = .samples p) → (∀ e, e ≠ n → t.heap e = s.heap e) →
      Ends (op :: h) t n p := by
    intro n i o p hop ht hn hi ho hh
    have hnd : ∀ i, op ≠ .destroy i := fun i e => by subst e; cases hop
    have he : Ends h s i p := by
      rcases ho with rfl | rfl
      · exact x.ptr i p hi
      · exact x.samples i p hi
    have hb : ∀ b ∈ blocks (.ptr p), s.used b = true := by
      rcases ho with rfl | rfl
      · exact inv.blocks _ _ hi
      · intro b hb; refine inv.blocks _ _ hi b ?_; cases p <;> exact hb
    have him := (a.used i).1 (inv.named _ _ hi)
    obtain ⟨r', e, h1, h2, h3⟩ := Ends.cons (t := t) hfr (fun e he hl hs => by
      subst he
      have hu := hb e (by simp [blocks])
      have en : e ≠ n := fun e' => by rw [e'] at hu; rw [hu] at hn; cases hn
      rw [hh e en]
      apply hs
      rcases (lives_cons (hnd e)).1 hl with ⟨h1, _⟩ | h1
      · rw [hop] at h1; cases h1; exact absurd rfl en
      · exact h1) he
    rw [target_ne (hfr i him), ← ht] at h1
    exact ⟨r', e, h1, h2, h3⟩
  cases st with
  | region hn => exact x.put a inv hn rfl (fun _ => rfl) (fun _ _ => rfl) (by simp) (by simp)
  | vec hn =>
    exact x.put a inv hn rfl (fun _ => rfl) (fun e he => by simp [he]) (by simp) (by simp)
  | arr hn => exact x.put a inv hn rfl (fun _ => rfl) (fun _ _ => rfl) (by simp) (by simp)
  | slice hn _ hr hp =>
    refine x.put a inv hn rfl (fun _ => rfl) (fun _ _ => rfl) (by simp) ?_
    simp only [Obj.ptr.injEq, reduceCtorEq, or_false, forall_eq']
    exact view rfl (by simp [target]) hn hr hp (fun _ _ => rfl)
  | samples hn _ hr hp =>
    refine x.put a inv hn rfl (fun _ => rfl) (fun _ _ => rfl) (by simp) ?_
    simp only [Obj.samples.injEq, reduceCtorEq, false_or, forall_eq']
    exact view rfl (by simp [target]) hn hr hp (fun _ _ => rfl)
  | subraster hn => exact x.put a inv hn rfl (fun _ => rfl) (fun _ _ => rfl) (by simp) (by simp)
  | decorate hn => exact x.put a inv hn rfl (fun _ => rfl) (fun _ _ => rfl) (by simp) (by simp)
  | boxIt hn => exact x.put a inv hn rfl (fun _ => rfl) (fun _ _ => rfl) (by simp) (by simp)
  | ballIt hn => exact x.put a inv hn rfl (fun _ => rfl) (fun _ _ => rfl) (by simp) (by simp)
  | subIt hn => exact x.put a inv hn rfl (fun _ => rfl) (fun _ _ => rfl) (by simp) (by simp)
  | samplingIt hn => exact x.put a inv hn rfl (fun _ => rfl) (fun _ _ => rfl) (by simp) (by simp)
  | samplesIt hn => exact x.put a inv hn rfl (fun _ => rfl) (fun _ _ => rfl) (by simp) (by simp)
  | @copy n i o hn hi =>
    unfold copied at *
    split
    · exact x.put a inv hn rfl (fun _ => rfl) (fun e he => by simp [he]) (by simp) (by simp)
    · rename_i _ hv
      refine x.put a inv hn rfl (fun _ => rfl) (fun _ _ => rfl) ?_ ?_
      · rintro d rfl
        have := x.vec i d hi
        subst this; exact absurd rfl (hv i)
      · intro p hp
        have := @clone n i o p rfl (by simp [target]) hn hi hp
        split at this
        · rcases hp with hp | hp <;> cases hp
        · exact this fun _ _ => rfl
  | @move n i o hn hi =>
    unfold moved at *
    split
    · exact absurd (a.refers _ _ hi) (hm n i rfl)
    · rename_i _ hv
      refine x.put a inv hn rfl (fun _ => rfl) (fun _ _ => rfl) ?_ ?_
      · rintro d rfl
        exact absurd rfl (hv d)
      · intro p hp
        have := @clone n i o p rfl (by simp [target]) hn hi hp
        split at this
        · rcases hp with hp | hp <;> cases hp
        · exact this fun _ _ => rfl
  | @destroy i o hi =>
    have key : ∀ j p, Ends h s j p → Ends (.destroy i :: h) (destroyed s i o) j p := by
      intro j p
      refine Ends.cons hfr fun e _ hl hs => ?_
      have hie : i ≠ e := fun e' => hl.2 (by simp [e'])
      have hl' : Lives h e := by
        rcases (lives_cons (by simpa using hie)).1 hl with ⟨h1, _⟩ | h1
        · cases h1
        · exact h1
      rw [destroyed_heap]
      refine ⟨hs hl', ?_⟩
      rintro rfl
      have := x.vec i _ hi
      cases this; exact hie rfl
    refine ⟨?_, ?_, ?_⟩
    · intro j d hj
      rw [destroyed_objs] at hj
      split at hj
      · cases hj
      · exact x.vec j d hj
    · intro j p hj
      rw [destroyed_objs] at hj
      split at hj
      · cases hj
      · exact key j p (x.ptr j p hj)
    · intro j p hj
      rw [destroyed_objs] at hj
      split at hj
      · cases hj
      · exact key j p (x.samples j p hj)

theorem pix {h : List Op} {s : State} (r : Run init h s) (hm : OnlyViewsMoved h) : Pix h s := by
  induction r with
  | nil => exact ⟨by simp [init], by simp [init], by simp [init]⟩
  | @cons op h t u r st ih =>
    have h1 : OnlyViewsMoved h := by
      cases op <;> first | exact hm | exact hm.2
    refine (ih h1).step (agrees r).2 (agrees r).1 st ?_
    rintro n i rfl
    exact hm.1

/-! ## Theorems -/

/-- An object which lives, with its targets, and which is not a dangling cursor. -/
theorem sound_usable {h : List Op} {s : State} (a : Agrees h s) (inv : Inv s) (x : Pix h s) {i : Nat} (hs : Sound h i) :
    (∀ o, s.objs i = some o → (∀ b c, o = .ballIt b c ∨ o = .subIt b c → Lives h c) → Usable s i) ∧
    (∀ j, target h i = some j → ∀ o, s.objs j = some o → (∀ b c, o = .ballIt b c ∨ o = .subIt b c → Lives h c) →
      Usable s j) := by
  induction hs with
  | @root i hl ht =>
    refine ⟨?_, fun j hj => by rw [ht] at hj; cases hj⟩
    intro o ho _
    have hm := a.refers i o ho
    cases o with
    | region => exact .region ho
    | vec d =>
      have := x.vec i d ho
      subst this
      exact .vec ho (inv.owner i i ho)
    | arr => exact .arr ho
    | ballIt b c => simp [Match, ht] at hm
    | subIt b c => simp [Match, ht] at hm
    | ptr p => simp [Match, ht] at hm
    | samples p => simp [Match, ht] at hm
    | _ => simp [Match, ht] at hm
  | @view i j hl ht hj ih =>
    refine ⟨?_, fun j' hj' => by rw [ht] at hj'; cases hj'; exact ih.1⟩
    intro o ho hc
    have hm := a.refers i o ho
    have hty := a.typed i o ho
    have hja : Alive s j := (a.lives j).2 (sound_lives hj)
    obtain ⟨oj, hoj⟩ := Option.isSome_iff_exists.1 hja
    have acc : ∀ p, Ends h s i p → Accessible s p := by
      rintro p ⟨r, e, h1, h2, h3⟩
      rw [ht] at h1; cases h1
      have hle := sound_reach hj h2
      rcases h3 with rfl | ⟨rfl, h3⟩
      · exact (a.lives e).2 hle
      · exact h3 hle
    cases o with
    | region => simp [Match, ht] at hm
    | vec d => simp [Match, ht] at hm
    | arr => simp [Match, ht] at hm
    | ptr p => exact .ptr ho (acc p (x.ptr i p ho))
    | samples p => exact .samples ho (acc p (x.samples i p ho))
    | subraster r =>
      simp only [Match, ht] at hm; cases hm
      refine .subraster ho (ih.1 oj hoj ?_)
      have := hty oj hoj
      rintro b c (rfl | rfl) <;> exact this.elim
    | decorator r =>
      simp only [Match, ht] at hm; cases hm
      refine .decorator ho (ih.1 oj hoj ?_)
      have := hty oj hoj
      rintro b c (rfl | rfl) <;> exact this.elim
    | boxIt b => simp only [Match, ht] at hm; cases hm; exact .boxIt ho hja
    | ballIt b c =>
      simp only [Match, ht] at hm
      obtain ⟨h1, _⟩ := hm
      cases h1
      exact .ballIt ho hja ((a.lives c).2 (hc _ c (.inl rfl)))
    | subIt r c =>
      simp only [Match, ht] at hm
      obtain ⟨⟨v, h1, h2, _⟩, _⟩ := hm
      cases h1
      have hr : Lives h r := sound_reach hj (.next h2 .refl)
      obtain ⟨or, hor⟩ := Option.isSome_iff_exists.1 ((a.lives r).2 hr)
      refine .subIt ho (ih.2 r h2 or hor ?_) ((a.lives c).2 (hc r c (.inr rfl)))
      have := hty or hor
      rintro b c (rfl | rfl) <;> exact this.elim
    | samplingIt b => simp only [Match, ht] at hm; cases hm; exact .samplingIt ho hja
    | samplesIt r =>
      simp only [Match, ht] at hm; cases hm
      refine .samplesIt ho (ih.1 oj hoj ?_)
      obtain ⟨p, rfl⟩ := hty oj hoj
      rintro b c (h | h) <;> cases h

/-- **C76**, partial: a view, a decorator or an iterator, or a copy of it, can be used as long as it lives and the objects
it has been made from live.
Missing: copies of iterators over balls and subrasters, of which the iterator first made must live, too; see
`C76_cursor`. -/
theorem C76_partial {h : List Op} {s : State} (r : Run init h s) (hm : OnlyViewsMoved h) {i : Nat} (hs : Sound h i)
    (hc : IsCursor h i → Lives h (origin h i)) : Usable s i := by
  obtain ⟨inv, a⟩ := agrees r
  obtain ⟨o, ho⟩ := Option.isSome_iff_exists.1 ((a.lives i).2 (sound_lives hs))
  refine (sound_usable a inv (pix r hm) hs).1 o ho ?_
  have hm := a.refers i o ho
  rintro b c (rfl | rfl)
  · obtain ⟨_, h2, k, h3⟩ := hm
    subst h2
    exact hc ⟨k, .inl h3⟩
  · obtain ⟨_, h2, k, h3⟩ := hm
    subst h2
    exact hc ⟨k, .inr h3⟩

theorem origin_made {h : List Op} {s : State} (r : Run init h s) {i : Nat} (hi : Made h i) : Made h (origin h i) := by
  induction r generalizing i with
  | nil => exact hi
  | @cons op h t u r st ih =>
    obtain ⟨inv, a⟩ := agrees r
    have hfr := Step.fresh a st
    by_cases e : made op = some i
    · have hnm : ¬ Made h i := fun hm => hfr i hm e
      have copied : ∀ j, origin (op :: h) i = origin h j → Made h j → Made (op :: h) (origin (op :: h) i) := by
        intro j h1 h2
        rw [h1]; exact made_cons.2 (.inr (ih h2))
      cases st with
      | @copy n j o hn hj =>
        simp [made] at e; subst e
        exact copied j (by simp [origin]) ((a.used j).1 (inv.named _ _ hj))
      | @move n j o hn hj =>
        simp [made] at e; subst e
        exact copied j (by simp [origin]) ((a.used j).1 (inv.named _ _ hj))
      | destroy => cases e
      | _ => simpa [origin, origin_fresh hnm] using hi
    · rw [origin_ne e]
      rcases made_cons.1 hi with h1 | h1
      · exact absurd h1 e
      · exact made_cons.2 (.inr (ih h1))

/-- Objects do not change, except moved `VecRaster`s. -/
theorem Step.old {s t : State} {op : Op} (st : Step s op t) {i : Nat} {o : Obj} (ho : t.objs i = some o)
    (hi : made op ≠ some i) : s.objs i = some o ∨ ∃ d, s.objs i = some (.vec d) ∧ o = .vec none := by
  cases st with
  | @copy n j o' hn hj =>
    have e : i ≠ n := fun e => hi (by simp [made, e])
    unfold copied at ho
    split at ho <;> simp [e] at ho <;> exact .inl ho
  | @move n j o' hn hj =>
    have e : i ≠ n := fun e => hi (by simp [made, e])
    unfold moved at ho
    split at ho
    · simp [e] at ho
      split at ho
      · next e' => cases ho; subst e'; exact .inr ⟨_, hj, rfl⟩
      · exact .inl ho
    · simp [e] at ho; exact .inl ho
  | destroy hj =>
    rw [destroyed_objs] at ho
    split at ho
    · cases ho
    · exact .inl ho
  | _ =>
    have e := fun e => hi (congrArg some e)
    simp [Ne.symm (show _ ≠ _ from e)] at ho
    exact .inl ho

/-- The copies of iterators are iterators with the same references. -/
theorem cursor_obj {h : List Op} {s : State} (r : Run init h s) {i b : Nat} {o : Obj} (ho : s.objs i = some o) :
    (Op.ballIt (origin h i) b ∈ h → o = .ballIt b (origin h i)) ∧
    (Op.subIt (origin h i) b ∈ h → ∃ k, target h b = some k ∧ o = .subIt k (origin h i)) := by
  induction r generalizing i b o with
  | nil => simp
  | @cons op h t u r st ih =>
    obtain ⟨inv, a⟩ := agrees r
    have hfr := Step.fresh a st
    by_cases e : made op = some i
    · have hnm : ¬ Made h i := fun hm => hfr i hm e
      have fresh : origin (op :: h) i = i → (op ≠ .ballIt i b → Op.ballIt (origin (op :: h) i) b ∉ op :: h) ∧
          (op ≠ .subIt i b → Op.subIt (origin (op :: h) i) b ∉ op :: h) := by
        intro h1
        rw [h1]
        constructor <;> intro h2 h3 <;> rcases List.mem_cons.1 h3 with h4 | h4
        · exact h2 h4.symm
        · exact hnm ⟨_, h4, rfl⟩
        · exact h2 h4.symm
        · exact hnm ⟨_, h4, rfl⟩
      have same : ∀ j, origin (op :: h) i = origin h j → t.objs j = some o → (∀ k, op ≠ .ballIt i k) →
          (∀ k, op ≠ .subIt i k) → made op ≠ none →
          (Op.ballIt (origin (op :: h) i) b ∈ op :: h → o = .ballIt b (origin (op :: h) i)) ∧
          (Op.subIt (origin (op :: h) i) b ∈ op :: h →
            ∃ k, target (op :: h) b = some k ∧ o = .subIt k (origin (op :: h) i)) := by
        intro j h1 h2 h3 h4 _
        have hj : Made h (origin h j) := origin_made r ((a.used j).1 (inv.named _ _ h2))
        rw [h1]
        constructor
        · intro h5
          rcases List.mem_cons.1 h5 with h6 | h6
          · exact absurd (by rw [← h6]; rfl) (hfr _ hj)
          · exact (ih h2).1 h6
        · intro h5
          rcases List.mem_cons.1 h5 with h6 | h6
          · exact absurd (by rw [← h6]; rfl) (hfr _ hj)
          · obtain ⟨k, h7, h8⟩ := (ih h2).2 h6
            exact ⟨k, by rw [target_ne (hfr b (target_made h7)), h7], h8⟩
      cases st with
      | @ballIt n c hn hc =>
        simp [made] at e; subst e
        have h1 : origin (.ballIt n c :: h) n = n := by simp [origin, origin_fresh hnm]
        rw [h1]
        simp at ho; subst ho
        constructor
        · intro h2
          rcases List.mem_cons.1 h2 with h3 | h3
          · cases h3; rfl
          · exact absurd ⟨_, h3, rfl⟩ hnm
        · intro h2
          rcases List.mem_cons.1 h2 with h3 | h3
          · cases h3
          · exact absurd ⟨_, h3, rfl⟩ hnm
      | @subIt n v k hn hv hk =>
        simp [made] at e; subst e
        have h1 : origin (.subIt n v :: h) n = n := by simp [origin, origin_fresh hnm]
        rw [h1]
        simp at ho; subst ho
        constructor
        · intro h2
          rcases List.mem_cons.1 h2 with h3 | h3
          · cases h3
          · exact absurd ⟨_, h3, rfl⟩ hnm
        · intro h2
          rcases List.mem_cons.1 h2 with h3 | h3
          · cases h3
            refine ⟨k, ?_, rfl⟩
            have := a.refers _ _ hv
            rw [target_ne (hfr _ ((a.used _).1 (inv.named _ _ hv)))]
            exact this
          · exact absurd ⟨_, h3, rfl⟩ hnm
      | @copy n j o' hn hj =>
        simp [made] at e; subst e
        by_cases hv : ∃ d, o' = .vec (some d)
        · obtain ⟨d, rfl⟩ := hv
          have h1 : origin (.copy n j :: h) n = origin h j := by simp [origin]
          rw [h1]
          constructor
          · intro h2
            simp at h2
            have := (ih hj).1 h2
            cases this
          · intro h2
            simp at h2
            obtain ⟨k, _, h3⟩ := (ih hj).2 h2
            cases h3
        · have : o = o' := by
            unfold copied at ho
            split at ho
            · exact absurd ⟨_, rfl⟩ hv
            · simp at ho; exact ho.symm
          subst this
          exact same j (by simp [origin]) hj (by simp) (by simp) (by simp [made])
      | @move n j o' hn hj =>
        simp [made] at e; subst e
        have : o = o' := by
          unfold moved at ho
          split at ho <;> simp at ho <;> exact ho.symm
        subst this
        exact same j (by simp [origin]) hj (by simp) (by simp) (by simp [made])
      | destroy => cases e
      | _ =>
        have h1 := fresh (by simp [origin, origin_fresh hnm])
        exact ⟨fun h2 => absurd h2 (h1.1 (by simp)), fun h2 => absurd h2 (h1.2 (by simp))⟩
    · rw [origin_ne e]
      have key : ∀ o', t.objs i = some o' →
          (Op.ballIt (origin h i) b ∈ op :: h → o' = .ballIt b (origin h i)) ∧
          (Op.subIt (origin h i) b ∈ op :: h → ∃ k, target (op :: h) b = some k ∧ o' = .subIt k (origin h i)) := by
        intro o' h2
        have hj : Made h (origin h i) := origin_made r ((a.used i).1 (inv.named _ _ h2))
        constructor
        · intro h5
          rcases List.mem_cons.1 h5 with h6 | h6
          · exact absurd (by rw [← h6]; rfl) (hfr _ hj)
          · exact (ih h2).1 h6
        · intro h5
          rcases List.mem_cons.1 h5 with h6 | h6
          · exact absurd (by rw [← h6]; rfl) (hfr _ hj)
          · obtain ⟨k, h7, h8⟩ := (ih h2).2 h6
            exact ⟨k, by rw [target_ne (hfr b (target_made h7)), h7], h8⟩
      rcases st.old ho e with h1 | ⟨d, h1, rfl⟩
      · exact key o h1
      · constructor
        · intro h2; have := (key _ h1).1 h2; cases this
        · intro h2; obtain ⟨k, _, h3⟩ := (key _ h1).2 h2; cases h3

/-- **C76**: an iterator over a ball, or a copy of it, can be used if and only if it lives and both the ball and the
iterator first made live. -/
theorem C76_ball_iterator {h : List Op} {s : State} (r : Run init h s) {i b : Nat} (hi : Op.ballIt (origin h i) b ∈ h) :
    Usable s i ↔ Lives h i ∧ Lives h b ∧ Lives h (origin h i) := by
  obtain ⟨_, a⟩ := agrees r
  constructor
  · intro hu
    have : ∃ o, s.objs i = some o := by cases hu <;> exact ⟨_, by assumption⟩
    obtain ⟨o, ho⟩ := this
    have h1 := (cursor_obj r ho).1 hi
    subst h1
    cases hu <;> rename_i h2 <;> rw [ho] at h2 <;> cases h2
    rename_i h3 h4
    exact ⟨(a.lives i).1 (by simp [ho]), (a.lives _).1 h3, (a.lives _).1 h4⟩
  · rintro ⟨h1, h2, h3⟩
    obtain ⟨o, ho⟩ := Option.isSome_iff_exists.1 ((a.lives i).2 h1)
    have h4 := (cursor_obj r ho).1 hi
    subst h4
    exact .ballIt ho ((a.lives _).2 h2) ((a.lives _).2 h3)

/-- **C76**: an iterator over a subraster, or a copy of it, can be used if and only if it lives, the raster can be used and
the iterator first made lives; the subraster itself needs not live. -/
theorem C76_subraster_iterator {h : List Op} {s : State} (r : Run init h s) {i v k : Nat}
    (hi : Op.subIt (origin h i) v ∈ h) (hv : target h v = some k) :
    Usable s i ↔ Lives h i ∧ Usable s k ∧ Lives h (origin h i) := by
  obtain ⟨_, a⟩ := agrees r
  constructor
  · intro hu
    have : ∃ o, s.objs i = some o := by cases hu <;> exact ⟨_, by assumption⟩
    obtain ⟨o, ho⟩ := this
    obtain ⟨k', h0, h1⟩ := (cursor_obj r ho).2 hi
    rw [hv] at h0; cases h0
    subst h1
    cases hu <;> rename_i h2 <;> rw [ho] at h2 <;> cases h2
    rename_i h3 h4
    exact ⟨(a.lives i).1 (by simp [ho]), h3, (a.lives _).1 h4⟩
  · rintro ⟨h1, h2, h3⟩
    obtain ⟨o, ho⟩ := Option.isSome_iff_exists.1 ((a.lives i).2 h1)
    obtain ⟨k', h0, h4⟩ := (cursor_obj r ho).2 hi
    rw [hv] at h0; cases h0
    subst h4
    exact .subIt ho h2 ((a.lives _).2 h3)

/-- **C76**: the copies of an iterator over a ball or a subraster cannot be used once that iterator is destroyed, whatever
lives besides. -/
theorem C76_cursor {h : List Op} {s : State} (r : Run init h s) {i : Nat} (hi : IsCursor h i)
    (ho : ¬ Lives h (origin h i)) : ¬ Usable s i := by
  intro hu
  obtain ⟨b, hb | hb⟩ := hi
  · exact ho ((C76_ball_iterator r hb).1 hu).2.2
  · have : ∃ o, s.objs i = some o := by cases hu <;> exact ⟨_, by assumption⟩
    obtain ⟨o, ho'⟩ := this
    obtain ⟨k, hk, _⟩ := (cursor_obj r ho').2 hb
    exact ho ((C76_subraster_iterator r hb hk).1 hu).2.2

/-- A ball, an iterator over it, a copy of the iterator; the iterator is destroyed, as is the argument of
`std::find_if(begin(ball), end(ball), ...)`. -/
def copiedIterator : List Op := [.destroy 1, .copy 2 1, .ballIt 1 0, .region 0]

theorem run_copiedIterator : ∃ s, Run init copiedIterator s :=
  ⟨_, .cons (.cons (.cons (.cons .nil (.region rfl)) (.ballIt rfl rfl)) (.copy rfl rfl)) (.destroy rfl)⟩

theorem sound_copiedIterator : OnlyViewsMoved copiedIterator ∧ Sound copiedIterator 2 ∧ IsCursor copiedIterator 2 ∧
    ¬ Lives copiedIterator (origin copiedIterator 2) := by
  refine ⟨trivial, .view ⟨⟨.copy 2 1, by decide, rfl⟩, by decide⟩ (j := 0) rfl
    (.root ⟨⟨.region 0, by decide, rfl⟩, by decide⟩ rfl), ⟨0, .inl (by decide)⟩, fun h => h.2 (by decide)⟩

/-- **C76** is violated by copies of iterators over balls and subrasters. -/
theorem C76_violated : ¬ C76_Statement := by
  intro hs
  obtain ⟨s, r⟩ := run_copiedIterator
  obtain ⟨h1, h2, h3, h4⟩ := sound_copiedIterator
  exact C76_cursor r h3 h4 (hs _ s r h1 2 h2)

/-- Non-vacuity of `C76_partial`, `C76_ball_iterator` and `C76_subraster_iterator`: a raster, a section of it, a subraster of
the section, an iterator over the subraster, and a copy of the iterator which is used although the subraster is
destroyed; an iterator over a ball. -/
example : ∃ s, Run init [.ballIt 6 5, .region 5, .destroy 2, .copy 4 3, .subIt 3 2, .subraster 2 1, .slice 1 0, .vec 0] s ∧
    Usable s 4 ∧ Usable s 6 := by
  have r : ∃ s, Run init
      [.ballIt 6 5, .region 5, .destroy 2, .copy 4 3, .subIt 3 2, .subraster 2 1, .slice 1 0, .vec 0] s := by
    refine ⟨_, .cons (.cons (.cons (.cons (.cons (.cons (.cons (.cons .nil (.vec rfl))
      (.slice rfl (.vec (n := 0) rfl rfl) (o := .vec (some 0)) rfl rfl))
      (.subraster rfl ?_ (o := .ptr (.heap 0)) rfl trivial)) (.subIt (r := 1) rfl rfl ?_))
      (.copy (o := .subIt 1 3) rfl rfl)) (.destroy (o := .subraster 1) rfl)) (.region rfl)) (.ballIt rfl rfl)⟩
    · exact .ptr (p := .heap 0) rfl rfl
    · exact .ptr (p := .heap 0) rfl rfl
  obtain ⟨s, r⟩ := r
  have hl : ∀ i, i = 0 ∨ i = 1 ∨ i = 3 ∨ i = 4 ∨ i = 5 ∨ i = 6 →
      Lives [.ballIt 6 5, .region 5, .destroy 2, .copy 4 3, .subIt 3 2, .subraster 2 1, .slice 1 0, .vec 0] i := by
    rintro i (rfl | rfl | rfl | rfl | rfl | rfl) <;> exact ⟨by simp [made], by decide⟩
  have h1 : Usable s 1 := C76_partial r trivial (.view (hl 1 (by simp)) (j := 0) rfl (.root (hl 0 (by simp)) rfl))
    (by simp [IsCursor, origin])
  refine ⟨s, r, ?_, ?_⟩
  · exact (C76_subraster_iterator r (i := 4) (v := 2) (k := 1) (by decide) rfl).2 ⟨hl 4 (by simp), h1, hl 3 (by simp)⟩
  · exact (C76_ball_iterator r (i := 6) (b := 5) (by decide)).2 ⟨hl 6 (by simp), hl 5 (by simp), hl 6 (by simp)⟩

/-! ### Moved rasters -/

/-- **C76**: in any history, each allocated block of pixels belongs to exactly one living raster: pixels are released
once, with the raster or the one it has been moved to. -/
theorem C76_owner {h : List Op} {s : State} (r : Run init h s) (n : Nat) :
    (s.heap n = true → ∃! i, s.objs i = some (.vec (some n))) ∧
    (∀ i, s.objs i = some (.vec (some n)) → s.heap n = true) := by
  obtain ⟨inv, _⟩ := agrees r
  refine ⟨fun hn => ?_, fun i hi => inv.owner i n hi⟩
  obtain ⟨i, hi⟩ := inv.owned n hn
  exact ⟨i, hi, fun j hj => inv.unique j i n hj hi⟩

/-- **C76**: slices, sections and samples of `VecRaster`s can be used if and only if some living raster owns the
pixels: they follow the moved raster. -/
theorem C76_slice {h : List Op} {s : State} (r : Run init h s) {i n : Nat}
    (hi : s.objs i = some (.ptr (.heap n)) ∨ s.objs i = some (.samples (.heap n))) :
    Usable s i ↔ ∃ j, s.objs j = some (.vec (some n)) := by
  obtain ⟨inv, _⟩ := agrees r
  constructor
  · intro hu
    apply inv.owned n
    rcases hi with hi | hi
    · cases hu <;> rename_i h2 <;> rw [hi] at h2 <;> cases h2
      assumption
    · cases hu <;> rename_i h2 <;> rw [hi] at h2 <;> cases h2
      assumption
  · rintro ⟨j, hj⟩
    rcases hi with hi | hi
    · exact .ptr hi (inv.owner j n hj)
    · exact .samples hi (inv.owner j n hj)

/-- **C76**: slices and samples of a `VecRaster` remain usable when the raster is moved, and then destroyed. -/
theorem C76_slice_moved {h : List Op} {s t u : State} (r : Run init h s) {i k n m : Nat}
    (hk : s.objs k = some (.vec (some n)))
    (hi : s.objs i = some (.ptr (.heap n)) ∨ s.objs i = some (.samples (.heap n)))
    (hm : Step s (.move m k) t) (hd : Step t (.destroy k) u) : Usable t i ∧ Usable u i := by
  have rt := Run.cons r hm
  have ru := Run.cons rt hd
  have hik : i ≠ k := by rintro rfl; rw [hk] at hi; simp at hi
  cases hm with
  | @move _ _ o hn ho =>
    rw [hk] at ho; cases ho
    have inv := (agrees r).1
    have hmk : k ≠ m := by rintro rfl; rw [inv.named _ _ hk] at hn; cases hn
    have hmi : i ≠ m := by
      rintro rfl
      rcases hi with hi | hi <;> rw [inv.named _ _ hi] at hn <;> cases hn
    have ht : (moved s m k (.vec (some n))).objs i = s.objs i := by simp [moved, hik, hmi]
    refine ⟨(C76_slice rt (n := n) (by rw [ht]; exact hi)).2 ⟨m, by simp [moved]⟩,
      (C76_slice ru (n := n) ?_).2 ⟨m, ?_⟩⟩
    · cases hd with
      | destroy ho' => rw [destroyed_objs, if_neg hik, ht]; exact hi
    · cases hd with
      | destroy ho' => rw [destroyed_objs, if_neg (Ne.symm hmk)]; simp [moved]

/-- What cannot be used cannot be used later. -/
theorem Step.usable {s t : State} {op : Op} (inv : Inv s) (st : Step s op t) {i : Nat} (hu : Usable t i)
    (hi : s.used i = true) : Usable s i := by
  have hnew : ∀ j, s.used j = true → made op ≠ some j := by
    intro j hj e
    cases st <;> cases e <;> simp_all
  have hobj : ∀ {j o}, t.objs j = some o → s.used j = true → o ≠ .vec none → s.objs j = some o := by
    intro j o hj hu hv
    rcases st.old hj (hnew j hu) with h1 | ⟨_, _, h1⟩
    · exact h1
    · exact absurd h1 hv
  have halive : ∀ {j}, s.used j = true → Alive t j → Alive s j := by
    intro j hj ha
    obtain ⟨o, ho⟩ := Option.isSome_iff_exists.1 ha
    rcases st.old ho (hnew j hj) with h1 | ⟨_, h1, _⟩ <;> simp [Alive, h1]
  have hheap : ∀ n, s.used n = true → t.heap n = true → s.heap n = true := by
    intro n hn ht
    have hne := hnew n hn
    cases st with
    | vec hn' =>
      rw [block_heap] at ht
      split at ht
      · next e => subst e; exact absurd rfl hne
      · exact ht
    | copy hn' hi' =>
      unfold copied at ht
      split at ht
      · rw [block_heap] at ht
        split at ht
        · next e => subst e; exact absurd rfl hne
        · exact ht
      · exact ht
    | move hn' hi' =>
      unfold moved at ht
      split at ht <;> exact ht
    | destroy hi' => exact ((destroyed_heap _ _ _ _).1 ht).1
    | _ => exact ht
  have hacc : ∀ {p}, (∀ k ∈ refs (.ptr p), s.used k = true) → (∀ k ∈ blocks (.ptr p), s.used k = true) →
      Accessible t p → Accessible s p := by
    intro p h1 h2 ha
    cases p with
    | heap n => exact hheap n (h2 n (by simp [blocks])) ha
    | inside n => exact halive (h1 n (by simp [refs])) ha
  induction hu with
  | region ho => exact .region (hobj ho hi (by simp))
  | vec ho hh =>
    have h1 := hobj ho hi (by simp)
    exact .vec h1 (inv.owner _ _ h1)
  | arr ho => exact .arr (hobj ho hi (by simp))
  | ptr ho ha =>
    have h1 := hobj ho hi (by simp)
    exact .ptr h1 (hacc (inv.refs _ _ h1) (inv.blocks _ _ h1) ha)
  | @samples i p ho ha =>
    have h1 := hobj ho hi (by simp)
    refine .samples h1 (hacc (fun k hk => inv.refs _ _ h1 k ?_) (fun k hk => inv.blocks _ _ h1 k ?_) ha)
    · cases p <;> exact hk
    · cases p <;> exact hk
  | subraster ho _ ih =>
    have h1 := hobj ho hi (by simp)
    exact .subraster h1 (ih (inv.refs _ _ h1 _ (by simp [refs])))
  | decorator ho _ ih =>
    have h1 := hobj ho hi (by simp)
    exact .decorator h1 (ih (inv.refs _ _ h1 _ (by simp [refs])))
  | boxIt ho ha =>
    have h1 := hobj ho hi (by simp)
    exact .boxIt h1 (halive (inv.refs _ _ h1 _ (by simp [refs])) ha)
  | ballIt ho ha hb =>
    have h1 := hobj ho hi (by simp)
    exact .ballIt h1 (halive (inv.refs _ _ h1 _ (by simp [refs])) ha) (halive (inv.refs _ _ h1 _ (by simp [refs])) hb)
  | subIt ho _ hb ih =>
    have h1 := hobj ho hi (by simp)
    exact .subIt h1 (ih (inv.refs _ _ h1 _ (by simp [refs]))) (halive (inv.refs _ _ h1 _ (by simp [refs])) hb)
  | samplingIt ho ha =>
    have h1 := hobj ho hi (by simp)
    exact .samplingIt h1 (halive (inv.refs _ _ h1 _ (by simp [refs])) ha)
  | samplesIt ho _ ih =>
    have h1 := hobj ho hi (by simp)
    exact .samplesIt h1 (ih (inv.refs _ _ h1 _ (by simp [refs])))

theorem Step.used_mono {s t : State} {op : Op} (st : Step s op t) {i : Nat} (hi : s.used i = true) : t.used i = true := by
  cases st with
  | copy => unfold copied; split <;> simp [hi]
  | move => unfold moved; split <;> simp [hi]
  | destroy => rw [destroyed_used]; exact hi
  | _ => simp [hi]

/-- **C76**: an object which cannot be used can never be used later. -/
theorem C76_forever {h h' : List Op} {s t : State} (r : Run init h s) (r' : Run s h' t) {i : Nat} (hi : Made h i)
    (hu : ¬ Usable s i) : ¬ Usable t i := by
  obtain ⟨inv, a⟩ := agrees r
  have hi := (a.used i).2 hi
  have key : s.used i = true ∧ Inv s → t.used i = true ∧ ¬ Usable t i := by
    rintro ⟨h1, h2⟩
    induction r' with
    | nil => exact ⟨h1, hu⟩
    | cons r1 st ih => exact ⟨st.used_mono ih.1, fun hx => ih.2 (st.usable (inv.run r1) hx ih.1)⟩
  exact (key ⟨hi, inv⟩).2

/-- **C76**: once a `VecRaster` is moved, its subrasters and decorators, and the iterators over its subrasters, can never
be used again, although the raster they refer to lives; even if the pixels live in another raster. -/
theorem C76_moved {h h' : List Op} {s t u : State} (r : Run init h s) {k m i : Nat} {d : Option Nat}
    (hk : s.objs k = some (.vec d)) (hm : Step s (.move m k) t) (r' : Run t h' u)
    (hi : s.objs i = some (.subraster k) ∨ s.objs i = some (.decorator k) ∨ ∃ x, s.objs i = some (.subIt k x)) :
    ¬ Usable u k ∧ ¬ Usable u i := by
  have rt := Run.cons r hm
  obtain ⟨inv, a⟩ := agrees r
  have hik : i ≠ k := by rintro rfl; rw [hk] at hi; simp at hi
  have hiu : s.used i = true := by
    rcases hi with hi | hi | ⟨x, hi⟩ <;> exact inv.named _ _ hi
  have hmade : ∀ j, s.used j = true → Made (.move m k :: h) j := fun j hj => made_cons.2 (.inr ((a.used j).1 hj))
  have hkt : t.objs k = some (.vec none) ∧ t.objs i = s.objs i := by
    cases hm with
    | @move _ _ o hn ho =>
      rw [hk] at ho; cases ho
      have hmk : k ≠ m := by rintro rfl; rw [inv.named _ _ hk] at hn; cases hn
      have hmi : i ≠ m := by rintro rfl; rw [hiu] at hn; cases hn
      simp [moved, hmk, hmi, hik]
  have h1 : ¬ Usable t k := by
    intro hu
    cases hu <;> rename_i h2 <;> rw [hkt.1] at h2 <;> cases h2
  have h2 : ¬ Usable t i := by
    intro hu
    have h3 := hkt.2
    rcases hi with hi | hi | ⟨x, hi⟩ <;> rw [hi] at h3 <;> cases hu <;> rename_i h4 <;> rw [h3] at h4 <;> cases h4 <;>
      exact h1 (by assumption)
  exact ⟨C76_forever rt r' (hmade k (inv.named _ _ hk)) h1, C76_forever rt r' (hmade i hiu) h2⟩

/-- **C76**: a decorator of a temporary, e.g. `interpolate<Linear>(extrapolate(raster, 0))` once the statement is over,
can never be used, although the raster lives. -/
theorem C76_temporary {h h' : List Op} {s t u : State} (r : Run init h s) {i k : Nat}
    (hi : s.objs i = some (.decorator k)) (hd : Step s (.destroy k) t) (hik : i ≠ k) (r' : Run t h' u) :
    ¬ Usable u i := by
  have rt := Run.cons r hd
  obtain ⟨inv, a⟩ := agrees r
  refine C76_forever rt r' (made_cons.2 (.inr ((a.used i).1 (inv.named _ _ hi)))) fun hu => ?_
  cases hd with
  | @destroy _ o ho =>
    have h1 : (destroyed s k o).objs i = some (.decorator k) := by rw [destroyed_objs, if_neg hik, hi]
    have h2 : (destroyed s k o).objs k = none := by rw [destroyed_objs, if_pos rfl]
    cases hu <;> rename_i h4 <;> rw [h1] at h4 <;> cases h4
    rename_i h5
    cases h5 <;> rename_i h6 <;> rw [h2] at h6 <;> cases h6

/-- Non-vacuity: a raster, a slice and a subraster of it; the raster is moved and destroyed: the slice remains usable. -/
example : ∃ s t u, Run init [.subraster 2 0, .slice 1 0, .vec 0] s ∧ Step s (.move 3 0) t ∧ Step t (.destroy 0) u ∧
    Usable s 1 ∧ Usable u 1 ∧ Usable s 2 ∧ ¬ Usable t 2 := by
  have r : ∃ s, Run init [.subraster 2 0, .slice 1 0, .vec 0] s ∧ s.objs 0 = some (.vec (some 0)) ∧
      s.objs 1 = some (.ptr (.heap 0)) ∧ s.objs 2 = some (.subraster 0) ∧ s.used 3 = false ∧ s.heap 0 = true :=
    ⟨_, .cons (.cons (.cons .nil (.vec rfl)) (.slice rfl (.vec (n := 0) rfl rfl) (o := .vec (some 0)) rfl rfl))
      (.subraster rfl (.vec (n := 0) rfl rfl) (o := .vec (some 0)) rfl trivial), rfl, rfl, rfl, rfl, rfl⟩
  obtain ⟨s, r, h0, h1, h2, h3, h4⟩ := r
  have hm : Step s (.move 3 0) (moved s 3 0 (.vec (some 0))) := .move h3 h0
  have hd : Step (moved s 3 0 (.vec (some 0))) (.destroy 0) _ := .destroy (o := .vec none) (by simp [moved])
  exact ⟨s, _, _, r, hm, hd, .ptr h1 h4, (C76_slice_moved r h0 (.inl h1) hm hd).2, .subraster h2 (.vec h0 h4),
    (C76_moved r h0 hm .nil (.inl h2)).2⟩

/-- Non-vacuity: an interpolator of an extrapolator which is destroyed. -/
example : ∃ s t, Run init [.decorate 2 1, .decorate 1 0, .vec 0] s ∧ Step s (.destroy 1) t ∧ Usable s 2 ∧ Usable t 0 ∧
    ¬ Usable t 2 := by
  have r : ∃ s, Run init [.decorate 2 1, .decorate 1 0, .vec 0] s ∧ s.objs 0 = some (.vec (some 0)) ∧
      s.objs 1 = some (.decorator 0) ∧ s.objs 2 = some (.decorator 1) ∧ s.heap 0 = true :=
    ⟨_, .cons (.cons (.cons .nil (.vec rfl)) (.decorate rfl (.vec (n := 0) rfl rfl) (o := .vec (some 0)) rfl trivial))
      (.decorate rfl (.decorator (r := 0) rfl (.vec (n := 0) rfl rfl)) (o := .decorator 0) rfl trivial),
      rfl, rfl, rfl, rfl⟩
  obtain ⟨s, r, h0, h1, h2, h4⟩ := r
  have hd : Step s (.destroy 1) (destroyed s 1 (.decorator 0)) := .destroy h1
  exact ⟨s, _, r, hd, .decorator h2 (.decorator h1 (.vec h0 h4)), .vec (by rw [destroyed_objs]; exact h0) h4,
    C76_temporary r h2 hd (by decide) .nil⟩

end Lifetimes

end Litl
