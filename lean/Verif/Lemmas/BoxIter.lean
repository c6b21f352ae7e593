import Verif.Lemmas.Index
import Mathlib.Data.List.Forall2
import Mathlib.Data.List.Nodup
import Mathlib.Tactic.Linarith

/-!
# Lemmas about box iteration
-/

namespace Litl

open Spec

/-- The integers from `a` to `b`, both inclusive. -/
def ints (a b : Int) : List Int := (List.range (b - a + 1).toNat).map (fun k : Nat => a + (k : Int))

theorem mem_ints {a b x : Int} : x ∈ ints a b ↔ a ≤ x ∧ x ≤ b := by
  simp only [ints, List.mem_map, List.mem_range]
  constructor
  · rintro ⟨k, hk, rfl⟩; omega
  · intro h; exact ⟨(x - a).toNat, by omega, by omega⟩

theorem length_ints (a b : Int) : (ints a b).length = (b - a + 1).toNat := by simp [ints]

theorem nodup_ints (a b : Int) : (ints a b).Nodup := by
  refine List.Nodup.map ?_ List.nodup_range
  intro x y h; simpa using h

theorem pairwise_ints (a b : Int) : (ints a b).Pairwise (· < ·) := by
  rw [ints, List.pairwise_map]
  exact List.pairwise_lt_range.imp (by intro x y h; omega)

theorem ints_cons {a b : Int} (h : a ≤ b) : ints a b = a :: ints (a + 1) b := by
  have : (b - a + 1).toNat = (b - (a + 1) + 1).toNat + 1 := by omega
  rw [ints, this, List.range_succ_eq_map]
  simp only [List.map_cons, List.map_map, ints]
  refine congrArg₂ _ (by simp) (List.map_congr_left ?_)
  intro x _; simp; omega

theorem ints_nil {a b : Int} (h : b < a) : ints a b = [] := by
  have : (b - a + 1).toNat = 0 := by omega
  simp [ints, this]

/-- The positions of a box, in storage order. -/
def enum : List Int → List Int → List (List Int)
  | f :: fs, b :: bs => (enum fs bs).flatMap fun q => (ints f b).map (· :: q)
  | _, _ => [[]]

theorem mem_enum : ∀ {f b p : List Int}, f.length = b.length → (p ∈ enum f b ↔ InBox f b p) := by
  intro f
  induction f with
  | nil =>
    intro b p h
    cases b with
    | nil =>
      cases p with
      | nil => simp [enum, InBox]
      | cons => simp [enum, InBox]
    | cons => simp at h
  | cons f fs ih =>
    intro b p h
    cases b with
    | nil => simp at h
    | cons b bs =>
      have h' : fs.length = bs.length := by simpa using h
      cases p with
      | nil => simp [enum, InBox]
      | cons x p =>
        simp only [enum, List.mem_flatMap, List.mem_map, InBox, List.forall₂_cons]
        constructor
        · rintro ⟨q, hq, y, hy, e⟩
          obtain ⟨rfl, rfl⟩ := List.cons.inj e
          have := (ih h').1 hq
          rw [mem_ints] at hy
          exact ⟨⟨hy.1, this.1⟩, hy.2, this.2⟩
        · rintro ⟨⟨h1, h2⟩, h3, h4⟩
          exact ⟨p, (ih h').2 ⟨h2, h4⟩, x, mem_ints.2 ⟨h1, h3⟩, rfl⟩

theorem length_enum : ∀ {f b : Position}, List.Forall₂ (· ≤ ·) f b →
    ((enum f b).length : Int) = ((b.sub f).addScalar 1).prod := by
  intro f
  induction f with
  | nil => intro b h; cases h; simp [enum, Position.sub, Position.addScalar]
  | cons f fs ih =>
    intro b h
    cases h with
    | @cons _ b _ bs h1 h2 =>
      have := ih h2
      simp only [Position.sub, Position.addScalar] at this
      simp only [enum, List.length_flatMap, List.length_map, length_ints, List.map_const',
        List.sum_replicate, Position.sub, Position.addScalar, List.zipWith_cons_cons, List.map_cons,
        List.prod_cons, nsmul_eq_mul, Nat.cast_id, Nat.cast_mul, this]
      rw [mul_comm]; congr 1; omega

theorem pairwise_enum : ∀ {f b : List Int}, (enum f b).Pairwise StorageLt := by
  intro f
  induction f with
  | nil => intro b; simp [enum]
  | cons f fs ih =>
    intro b
    cases b with
    | nil => simp [enum]
    | cons b bs =>
      rw [enum, List.pairwise_flatMap]
      refine ⟨?_, ?_⟩
      · intro q _
        rw [List.pairwise_map]
        exact (pairwise_ints f b).imp fun h => StorageLt.head h
      · refine ih.imp ?_
        intro p q hpq x hx y hy
        rw [List.mem_map] at hx hy
        obtain ⟨x, _, rfl⟩ := hx
        obtain ⟨y, _, rfl⟩ := hy
        exact StorageLt.tail hpq

theorem storageLt_irrefl : ∀ p : List Int, ¬ StorageLt p p := by
  intro p
  induction p with
  | nil => intro h; cases h
  | cons x p ih =>
    intro h
    cases h with
    | tail h => exact ih h
    | head h => exact absurd h (lt_irrefl _)

theorem nodup_enum {f b : List Int} : (enum f b).Nodup := by
  refine List.Pairwise.imp ?_ (pairwise_enum (f := f) (b := b))
  intro p q h e
  subst e
  exact storageLt_irrefl p h

/-- Storage order is the order of raw indices. -/
theorem index_lt_of_storageLt : ∀ {s p q : List Int}, InShape s p → InShape s q → StorageLt p q →
    index s p < index s q := by
  intro s
  induction s with
  | nil => intro p q h h' e; cases h; cases h'; cases e
  | cons s ss ih =>
    intro p q h h' e
    cases e with
    | @tail x y p q e =>
      obtain ⟨hx, hp⟩ := inShape_cons.1 h
      obtain ⟨hy, hq⟩ := inShape_cons.1 h'
      rw [index_cons hp.length_eq, index_cons hq.length_eq]
      have h1 := ih hp hq e
      have : s * (index ss p + 1) ≤ s * index ss q := mul_le_mul_of_nonneg_left (by linarith) (by linarith)
      linarith [mul_add s (index ss p) 1]
    | @head x y p e =>
      obtain ⟨hx, hp⟩ := inShape_cons.1 h
      rw [index_cons hp.length_eq, index_cons hp.length_eq]
      linarith

namespace BoxIterator

/-- From `c`, the iterator visits `l` up to and including the back of the box. -/
inductive Steps (f b : Position) : Position → List Position → Prop where
  | last : Steps f b b [b]
  | next {c : Position} {l : List Position} : c ≠ b → Steps f b (carry f b (incHead c)) l → Steps f b c (c :: l)

theorem carry_of_le : ∀ {f b c : Position}, f.length = b.length → List.Forall₂ (· ≤ ·) c b → carry f b c = c := by
  intro f
  induction f with
  | nil => intro b c _ _; simp [carry]
  | cons f fs ih =>
    intro b c hl h
    cases h with
    | nil => simp [carry]
    | @cons c b cs bs h1 h2 =>
      cases h2 with
      | nil => simp [carry]
      | cons h3 h4 =>
        have hl' := hl
        simp only [List.length_cons] at hl'
        have := ih (by simpa using hl) (List.Forall₂.cons h3 h4)
        simp [carry, not_lt.2 h1, this]

theorem carry_row {f b x : Int} {fs bs q : Position} (hl : fs.length = bs.length)
    (hq : List.Forall₂ (· ≤ ·) q bs) (hx : x < b) :
    carry (f :: fs) (b :: bs) (incHead (x :: q)) = (x + 1) :: q := by
  rw [incHead]
  exact carry_of_le (by simpa using hl) (List.Forall₂.cons (by omega) hq)

theorem carry_carry {f b : Int} {fs bs q : Position}
    (hq : List.Forall₂ (· ≤ ·) q bs) (hne : q ≠ bs) :
    carry (f :: fs) (b :: bs) (incHead (b :: q)) = f :: carry fs bs (incHead q) := by
  cases hq with
  | nil => exact absurd rfl hne
  | cons h1 h2 => simp [carry, incHead]

theorem carry_le {f b : Position} : ∀ {c : Position}, List.Forall₂ (· ≤ ·) f b → f.length = c.length →
    List.Forall₂ (· ≤ ·) c b → c ≠ b → List.Forall₂ (· ≤ ·) (carry f b (incHead c)) b := by
  intro c hfb
  induction hfb generalizing c with
  | nil =>
    intro h1 h2 _
    cases h2; simp [carry, incHead]
  | @cons f b fs bs h1 h2 ih =>
    intro hl hc hne
    cases hc with
    | @cons c _ cs _ hcb hcs =>
      rcases hcb.lt_or_eq with h | h
      · rw [carry_row h2.length_eq hcs h]
        exact List.Forall₂.cons (by omega) hcs
      · subst h
        have hne' : cs ≠ bs := fun e => hne (by rw [e])
        rw [carry_carry hcs hne']
        exact List.Forall₂.cons h1 (ih (by simpa using hl) hcs hne')

theorem steps_row {f b : Int} {fs bs q : Position} (hl : fs.length = bs.length)
    (hq : List.Forall₂ (· ≤ ·) q bs) {l : List Position} (hl2 : Steps (f :: fs) (b :: bs) (b :: q) l) :
    ∀ {x : Int}, x ≤ b → Steps (f :: fs) (b :: bs) (x :: q) ((ints x (b - 1)).map (· :: q) ++ l) := by
  intro x hx
  obtain ⟨n, hn⟩ : ∃ n : Nat, b - x = n := ⟨(b - x).toNat, by omega⟩
  induction n generalizing x with
  | zero =>
    have : x = b := by omega
    subst this
    rw [ints_nil (by omega)]; simpa using hl2
  | succ n ih =>
    rw [ints_cons (by omega)]
    simp only [List.map_cons, List.cons_append]
    refine Steps.next ?_ ?_
    · intro e; have := (List.cons.inj e).1; omega
    · rw [carry_row hl hq (by omega)]
      exact ih (by omega) (by omega)

theorem ints_snoc {a b : Int} (h : a ≤ b) : ints a b = ints a (b - 1) ++ [b] := by
  have : (b - a + 1).toNat = (b - 1 - a + 1).toNat + 1 := by omega
  rw [ints, this, List.range_succ]
  simp only [List.map_append, List.map_cons, List.map_nil, ints]
  congr 2; omega

theorem steps_cons {f b : Int} {fs bs : Position} (hfb : f ≤ b) (hl : List.Forall₂ (· ≤ ·) fs bs) :
    ∀ {q : Position} {l : List Position}, Steps fs bs q l → fs.length = q.length → List.Forall₂ (· ≤ ·) q bs →
      Steps (f :: fs) (b :: bs) (f :: q) (l.flatMap fun q => (ints f b).map (· :: q)) := by
  intro q l h
  induction h with
  | last =>
    intro _ hq
    simp only [List.flatMap_cons, List.flatMap_nil, List.append_nil]
    rw [ints_snoc hfb, List.map_append]
    exact steps_row hl.length_eq hq Steps.last hfb
  | @next c l hne hs ih =>
    intro hlq hq
    simp only [List.flatMap_cons]
    rw [ints_snoc hfb, List.map_append, List.append_assoc]
    refine steps_row hl.length_eq hq ?_ hfb
    simp only [List.map_cons, List.map_nil, List.cons_append, List.nil_append]
    refine Steps.next ?_ ?_
    · intro e; exact hne (List.cons.inj e).2
    · rw [carry_carry hq hne]
      rw [ints_snoc hfb] at ih
      exact ih ((hl.length_eq).trans (carry_le hl hlq hq hne).length_eq.symm) (carry_le hl hlq hq hne)

theorem steps_enum : ∀ {f b : Position}, List.Forall₂ (· ≤ ·) f b → Steps f b f (enum f b) := by
  intro f b h
  induction h with
  | nil => exact Steps.last
  | cons h1 h2 ih => exact steps_cons h1 h2 ih rfl h2

theorem le_refl_forall₂ (f : List Int) : List.Forall₂ (· ≤ ·) f f := by
  induction f with
  | nil => exact .nil
  | cons x f ih => exact .cons le_rfl ih

theorem decHead_ne {f c : Position} (hf : f ≠ []) (h : List.Forall₂ (· ≤ ·) f c) : c ≠ decHead f := by
  cases h with
  | nil => exact absurd rfl hf
  | cons h1 h2 => intro e; have := (List.cons.inj e).1; omega

theorem steps_visits {b : Box} (hf : b.front ≠ []) :
    ∀ {c : Position} {l : List Position}, Steps b.front b.back c l → (∀ p ∈ l, List.Forall₂ (· ≤ ·) b.front p) →
      LoopTrace (next b) (endPosition b) c l := by
  intro c l h
  induction h with
  | last =>
    intro hl
    refine LoopTrace.next (decHead_ne hf (hl _ (by simp))) ?_
    simp only [next, if_true]
    exact LoopTrace.done
  | @next c l hne hs ih =>
    intro hl
    refine LoopTrace.next (decHead_ne hf (hl _ (by simp))) ?_
    simp only [next, if_neg hne]
    exact ih fun p hp => hl p (by simp [hp])

/-- The loop over a non-empty box visits the list `enum`. -/
theorem visits_enum {b : Box} (hf : b.front ≠ []) (h : List.Forall₂ (· ≤ ·) b.front b.back) :
    Visits b (enum b.front b.back) :=
  steps_visits hf (steps_enum h) fun _ hp => ((mem_enum h.length_eq).1 hp).1

end BoxIterator

/-- A loop has at most one trace. -/
theorem LoopTrace.unique {α : Type _} {step : α → α} {stop c : α} {l l' : List α}
    (h : LoopTrace step stop c l) (h' : LoopTrace step stop c l') : l = l' := by
  induction h generalizing l' with
  | done =>
    cases h' with
    | done => rfl
    | next h _ => exact absurd rfl h
  | next hne _ ih =>
    cases h' with
    | done => exact absurd rfl hne
    | next _ h' => rw [ih h']

end Litl
