import Verif.Model.Arithmetic
import Verif.Lemmas.Core
import Mathlib.Data.List.Basic
import Mathlib.Tactic.Ring

/-!
# Lemmas about in-place loops
-/

namespace Litl.Container

variable {α σ : Type}

theorem ok_bind {β γ : Type} (x : β) (f : β → Res γ) : (Except.ok x >>= f) = f x := rfl

theorem readAt_nat_ok {mem : List α} {k : Nat} (h : k < mem.length) : readAt mem (k : Int) = .ok mem[k] := by
  rw [readAt_ok (by omega) (by exact_mod_cast h)]
  simp

theorem writeAt_nat_ok {mem : List α} {k : Nat} {x : α} (h : k < mem.length) :
    writeAt mem (k : Int) x = .ok (mem.set k x) := by
  rw [writeAt_ok (by omega) (by exact_mod_cast h)]
  simp

/-- A loop `for (i = 0; i < n; ++i)` whose body preserves an invariant succeeds with the invariant. -/
theorem foldlM_range_inv {β : Type} {body : β → Nat → Res β} {P : Nat → β → Prop} {b : β} {n : Nat} (h0 : P 0 b)
    (hs : ∀ i b, i < n → P i b → ∃ b', body b i = .ok b' ∧ P (i + 1) b') :
    ∃ b', (List.range n).foldlM body b = .ok b' ∧ P n b' := by
  induction n with
  | zero => exact ⟨b, rfl, h0⟩
  | succ n ih =>
    obtain ⟨b1, h1, h2⟩ := ih fun i b hi => hs i b (by omega)
    obtain ⟨b2, h3, h4⟩ := hs n b1 (by omega) h2
    refine ⟨b2, ?_, h4⟩
    rw [List.range_succ, List.foldlM_append, h1]
    simp only [List.foldlM_cons, List.foldlM_nil]
    rw [ok_bind, h3]
    rfl

/-- `a` may be written before `b` is read by an increasing loop of `n` iterations. -/
def SafeAlias (a b n : Nat) : Prop := a ≤ b ∨ b + n ≤ a

theorem vectorOpMem_spec (op : α → α → α) (mem : List α) (a b n : Nat) (ha : a + n ≤ mem.length)
    (hb : b + n ≤ mem.length) (h : SafeAlias a b n) :
    ∃ m, vectorOpMem op mem a b n = .ok m ∧ ∃ hl : m.length = mem.length,
      ∀ k (hk : k < mem.length),
        m[k] = if hc : a ≤ k ∧ k < a + n then op mem[k] (mem[b + (k - a)]'(by omega)) else mem[k] := by
  have key := foldlM_range_inv (body := vectorStep op a b) (b := mem) (n := n)
    (P := fun i (m : List α) => ∃ hl : m.length = mem.length, ∀ k (hk : k < mem.length),
      m[k] = if hc : a ≤ k ∧ k < a + i then
        (if hx : b + (k - a) < mem.length then op mem[k] mem[b + (k - a)] else mem[k]) else mem[k]) ?_ ?_
  rotate_left
  · refine ⟨rfl, ?_⟩
    intro k hk
    rw [dif_neg (by omega)]
  · rintro i m hi ⟨hl, hm⟩
    refine ⟨m.set (a + i) (op (mem[a + i]'(by omega)) (mem[b + i]'(by omega))), ?_, by simpa using hl, ?_⟩
    · rw [vectorStep, readAt_nat_ok (by omega), readAt_nat_ok (by omega), ok_bind, ok_bind, writeAt_nat_ok (by omega), hm _ (by omega), dif_neg (by omega), hm _ (by omega), dif_neg (by
        unfold SafeAlias at h; omega)]
    · intro k hk
      rw [List.getElem_set]
      by_cases e : a + i = k
      · subst e
        rw [if_pos rfl, dif_pos (by omega)]
        simp only [Nat.add_sub_cancel_left]
        rw [dif_pos (by omega)]
      · rw [if_neg e, hm k hk]
        by_cases hc : a ≤ k ∧ k < a + i
        · rw [dif_pos hc, dif_pos (show a ≤ k ∧ k < a + (i + 1) by omega)]
        · rw [dif_neg hc, dif_neg (show ¬ (a ≤ k ∧ k < a + (i + 1)) by omega)]
  · obtain ⟨m, h1, hl, hm⟩ := key
    refine ⟨m, h1, hl, ?_⟩
    intro k hk
    rw [hm k hk]
    by_cases hc : a ≤ k ∧ k < a + n
    · rw [dif_pos hc, dif_pos hc, dif_pos (by omega)]
    · rw [dif_neg hc, dif_neg hc]

/-- Exact result of `V op= s`, wherever `s` is stored: the elements after the scalar in `V` see the updated scalar. -/
theorem scalarOpMem_spec (op : α → α → α) (mem : List α) (a n k : Nat) (ha : a + n ≤ mem.length)
    (hk : k < mem.length) :
    ∃ m, scalarOpMem op mem a n k = .ok m ∧ ∃ hl : m.length = mem.length,
      ∀ j (hj : j < mem.length), m[j] =
        if a ≤ j ∧ j < a + n then op mem[j] (if a ≤ k ∧ k < j then op mem[k] mem[k] else mem[k]) else mem[j] := by
  refine foldlM_range_inv (P := fun i (m : List α) => ∃ hl : m.length = mem.length, ∀ j (hj : j < mem.length),
    m[j] = if a ≤ j ∧ j < a + i then op mem[j] (if a ≤ k ∧ k < j then op mem[k] mem[k] else mem[k]) else mem[j]) ?_ ?_
  · refine ⟨rfl, ?_⟩
    intro j hj
    rw [if_neg (by omega)]
  · rintro i m hi ⟨hl, hm⟩
    have hmk : m[k] = if a ≤ k ∧ k < a + i then op mem[k] mem[k] else mem[k] := by
      rw [hm k hk]
      by_cases hc : a ≤ k ∧ k < a + i
      · rw [if_pos hc, if_pos hc, if_neg (by omega)]
      · rw [if_neg hc, if_neg hc]
    refine ⟨m.set (a + i) (op (mem[a + i]'(by omega)) (if a ≤ k ∧ k < a + i then op mem[k] mem[k] else mem[k])), ?_,
      by simpa using hl, ?_⟩
    · rw [scalarStep, readAt_nat_ok (by omega), readAt_nat_ok (by omega), ok_bind, ok_bind, writeAt_nat_ok (by omega), hmk, hm _ (by omega), if_neg (by omega)]
    · intro j hj
      rw [List.getElem_set]
      by_cases e : a + i = j
      · subst e
        rw [if_pos rfl, if_pos (show a ≤ a + i ∧ a + i < a + (i + 1) by omega)]
      · rw [if_neg e, hm j hj]
        by_cases hc : a ≤ j ∧ j < a + i
        · rw [if_pos hc, if_pos (show a ≤ j ∧ j < a + (i + 1) by omega)]
        · rw [if_neg hc, if_neg (show ¬ (a ≤ j ∧ j < a + (i + 1)) by omega)]

theorem vectorOp_eq (op : α → α → α) : ∀ (v u : List α), v.length ≤ u.length →
    vectorOp op v u = .ok (List.zipWith op v u) := by
  intro v
  induction v with
  | nil => intro u _; cases u <;> rfl
  | cons x v ih =>
    intro u h
    cases u with
    | nil => simp at h
    | cons y u => rw [vectorOp, ih u (by simpa using h)]; rfl

theorem vectorOp_ub (op : α → α → α) : ∀ (v u : List α), u.length < v.length → vectorOp op v u = .error .ub := by
  intro v
  induction v with
  | nil => intro u h; simp at h
  | cons x v ih =>
    intro u h
    cases u with
    | nil => rfl
    | cons y u => rw [vectorOp, ih u (by simpa using h)]; rfl

theorem readArgs_ok {mem : List α} {bs : List Nat} {i : Nat} (h : ∀ b ∈ bs, b + i < mem.length) :
    readArgs mem bs i = .ok (bs.pmap (fun b hb => mem[b + i]'hb) h) := by
  induction bs with
  | nil => rfl
  | cons b bs ih =>
    rw [readArgs, List.mapM_cons, readAt_nat_ok (h b (by simp))]
    have := ih fun b hb => h b (by simp [hb])
    rw [readArgs] at this
    rw [this]
    rfl

/-- Exact result of `generate`, for arguments which are not overwritten before they are read. -/
theorem generateMem_spec (f : List α → σ → α × σ) (mem : List α) (s : σ) (a n : Nat) (bs : List Nat)
    (ha : a + n ≤ mem.length) (hb : ∀ b ∈ bs, b + n ≤ mem.length ∧ SafeAlias a b n)
    (rows : Nat → List α) (hrows : ∀ i < n, readArgs mem bs i = .ok (rows i))
    (out : Nat → α) (st : Nat → σ) (h0 : st 0 = s)
    (hf : ∀ i < n, f (rows i) (st i) = (out i, st (i + 1))) :
    ∃ m, generateMem f mem s a n bs = .ok (m, st n) ∧ ∃ hl : m.length = mem.length,
      ∀ k (hk : k < mem.length), m[k] = if a ≤ k ∧ k < a + n then out (k - a) else mem[k] := by
  have key := foldlM_range_inv (body := generateStep f a bs) (b := (mem, s)) (n := n)
    (P := fun i (ms : List α × σ) => ms.2 = st i ∧ ∃ hl : ms.1.length = mem.length, ∀ k (hk : k < mem.length),
      ms.1[k] = if a ≤ k ∧ k < a + i then out (k - a) else mem[k]) ?_ ?_
  rotate_left
  · refine ⟨h0.symm, rfl, ?_⟩
    intro k hk
    rw [if_neg (by omega)]
  · rintro i ⟨m, si⟩ hi ⟨hsi, hl, hm⟩
    simp only at hsi hl hm
    subst hsi
    have hargs : readArgs m bs i = .ok (rows i) := by
      rw [← hrows i hi, readArgs_ok (fun b hb' => by have := hb b hb'; omega),
        readArgs_ok (fun b hb' => by have := hb b hb'; omega)]
      congr 1
      refine List.pmap_congr_left bs ?_
      intro b hb' h1 h2
      have := hb b hb'
      unfold SafeAlias at this
      rw [hm _ h2, if_neg (by omega)]
    refine ⟨(m.set (a + i) (out i), st (i + 1)), ?_, rfl, by simpa using hl, ?_⟩
    · simp only [generateStep, hargs, ok_bind, hf i hi]
      rw [writeAt_nat_ok (by omega)]
      rfl
    · intro k hk
      simp only [List.getElem_set]
      by_cases e : a + i = k
      · subst e
        rw [if_pos rfl, if_pos (show a ≤ a + i ∧ a + i < a + (i + 1) by omega), Nat.add_sub_cancel_left]
      · rw [if_neg e, hm k hk]
        by_cases hc : a ≤ k ∧ k < a + i
        · rw [if_pos hc, if_pos (show a ≤ k ∧ k < a + (i + 1) by omega)]
        · rw [if_neg hc, if_neg (show ¬ (a ≤ k ∧ k < a + (i + 1)) by omega)]
  · obtain ⟨⟨m, s'⟩, h1, h2, h3⟩ := key
    simp only at h2 h3
    subst h2
    exact ⟨m, h1, h3⟩

end Litl.Container
