import Verif.Lemmas.SeqUtils
import Verif.Props.Arithmetic

/-!
# C109: element-wise functions and the order of evaluation
-/

namespace Litl.Spec

variable {α β σ : Type _}

/-- The function is called once per element, from the first one to the last one, and the `i`-th value comes from the
`i`-th element: `st i` is the state of the function before the `i`-th call. -/
def InOrder (f : α → σ → β × σ) (l : List α) (s : σ) (r : List β) (s' : σ) : Prop :=
  ∃ st : Nat → σ, st 0 = s ∧ st l.length = s' ∧ r.length = l.length ∧
    ∀ i x, l[i]? = some x → r[i]? = some (f x (st i)).1 ∧ st (i + 1) = (f x (st i)).2

end Litl.Spec

namespace Litl

open Spec Litl.Seq

variable {α β σ : Type _}

/-! ## Sequences -/

theorem InOrder_nil (f : α → σ → β × σ) (s : σ) : InOrder f [] s [] s :=
  ⟨fun _ => s, rfl, rfl, rfl, fun _ _ h => by simp at h⟩

theorem InOrder_cons {f : α → σ → β × σ} {x : α} {l : List α} {s s' : σ} {r : List β}
    (h : InOrder f l (f x s).2 r s') : InOrder f (x :: l) s ((f x s).1 :: r) s' := by
  obtain ⟨st, h0, hn, hl, h⟩ := h
  refine ⟨fun i => match i with | 0 => s | i + 1 => st i, rfl, hn, by simp [hl], ?_⟩
  intro i y hy
  cases i with
  | zero =>
    rw [List.getElem?_cons_zero, Option.some_inj] at hy
    subst hy
    exact ⟨rfl, h0⟩
  | succ i =>
    rw [List.getElem?_cons_succ] at hy
    rw [List.getElem?_cons_succ]
    exact h i y hy

/-- The specification determines the values and the final state. -/
theorem C109_in_order_unique {f : α → σ → β × σ} {l : List α} {s s1 s2 : σ} {r1 r2 : List β}
    (h1 : InOrder f l s r1 s1) (h2 : InOrder f l s r2 s2) : r1 = r2 ∧ s1 = s2 := by
  obtain ⟨st, a0, an, al, a⟩ := h1
  obtain ⟨st', b0, bn, bl, b⟩ := h2
  have hst : ∀ i, i ≤ l.length → st i = st' i := by
    intro i
    induction i with
    | zero =>
      intro _
      rw [a0, b0]
    | succ i ih =>
      intro hi
      have hx := List.getElem?_eq_getElem (l := l) (i := i) (by omega)
      rw [(a i _ hx).2, (b i _ hx).2, ih (by omega)]
  refine ⟨?_, by rw [← an, ← bn, hst _ le_rfl]⟩
  apply List.ext_getElem?
  intro i
  by_cases hi : i < l.length
  · have hx := List.getElem?_eq_getElem hi
    rw [(a i _ hx).1, (b i _ hx).1, hst i (by omega)]
  · rw [List.getElem?_eq_none (by omega), List.getElem?_eq_none (by omega)]

/-- **C109**: `seqForeach` on a tuple calls the function once per element, from the first one to the last one. -/
theorem C109_tuple_foreach (f : α → σ → α × σ) (l : List α) (s : σ) :
    InOrder f l s (tupleForeach f l s).1 (tupleForeach f l s).2 := by
  induction l generalizing s with
  | nil => exact InOrder_nil f s
  | cons x l ih => exact InOrder_cons (ih _)

/-- **C109**: `seqTransform` on a tuple calls the function once per element, from the first one to the last one, and
the function of the caller gets the final state. -/
theorem C109_tuple_transform (f : α → σ → β × σ) (l : List α) (s : σ) :
    InOrder f l s (tupleTransform f l s).1 (tupleTransform f l s).2 := by
  induction l generalizing s with
  | nil => exact InOrder_nil f s
  | cons x l ih => exact InOrder_cons (ih _)

theorem foreach_from (f : α → σ → α × σ) (pre l : List α) (s : σ) :
    (List.range' pre.length l.length).foldlM (foreachStep f) (pre ++ l, s) =
      .ok (pre ++ (tupleForeach f l s).1, (tupleForeach f l s).2) := by
  induction l generalizing pre s with
  | nil => rfl
  | cons x l ih =>
    rw [List.length_cons, List.range'_succ, List.foldlM_cons]
    have e : foreachStep f (pre ++ x :: l, s) pre.length = .ok ((pre ++ [(f x s).1]) ++ l, (f x s).2) := by
      unfold foreachStep
      dsimp only
      rw [readAt_nat, List.getElem?_append_right (le_refl _), Nat.sub_self]
      change (writeAt (pre ++ x :: l) (pre.length : Int) (f x s).1 >>= _) = _
      rw [writeAt_nat, if_pos (by simp), List.set_append_right _ _ (le_refl _), Nat.sub_self, List.append_assoc]
      rfl
    rw [e]
    change List.foldlM _ _ _ = _
    have := ih (pre ++ [(f x s).1]) (f x s).2
    rw [List.length_append, List.length_singleton] at this
    rw [this, List.append_assoc]
    rfl

/-- **C109**: `seqForeach` on another sequence never reads nor writes outside of it, and behaves as on a tuple. -/
theorem C109_foreach (f : α → σ → α × σ) (l : List α) (s : σ) :
    ∃ r s', seqForeach f l s = .ok (r, s') ∧ InOrder f l s r s' := by
  have := foreach_from f [] l s
  rw [List.length_nil, ← List.range_eq_range'] at this
  exact ⟨_, _, this, C109_tuple_foreach f l s⟩

/-- Non-vacuity of C109: add the number of previous calls to each element. -/
example : seqForeach (fun x k => (x + k, k + 1)) [10, 20, 30] 5 = .ok ([15, 26, 37], 8) ∧
    tupleForeach (fun x k => (x + k, k + 1)) [10, 20, 30] 5 = ([15, 26, 37], 8) ∧
    tupleTransform (fun (x : Nat) k => (toString (x + k), k + 1)) [10, 20, 30] 5 = (["15", "26", "37"], 8) :=
  ⟨rfl, rfl, rfl⟩

theorem transform_steps (f : α → σ → β × σ) (l : List α) (order : List Nat) (out : List β) (s : σ)
    (ho : ∀ i ∈ order, i < l.length) (hd : order.Nodup) (hl : out.length = l.length) :
    ∃ out' s', order.foldlM (transformStep f l) (out, s) = .ok (out', s') ∧ out'.length = l.length ∧
      (∀ i, i ∉ order → out'[i]? = out[i]?) ∧
      ∃ st : Nat → σ, st 0 = s ∧ ∀ k i x, order[k]? = some i → l[i]? = some x →
        out'[i]? = some (f x (st k)).1 ∧ st (k + 1) = (f x (st k)).2 := by
  induction order generalizing out s with
  | nil => exact ⟨out, s, rfl, hl, fun _ _ => rfl, fun _ => s, rfl, fun _ _ _ h => by simp at h⟩
  | cons i order ih =>
    have hi : i < l.length := ho i (by simp)
    have hd' := List.nodup_cons.1 hd
    have e : transformStep f l (out, s) i = .ok (out.set i (f l[i] s).1, (f l[i] s).2) := by
      unfold transformStep
      dsimp only
      rw [readAt_nat, List.getElem?_eq_getElem hi]
      change (writeAt out (i : Int) (f l[i] s).1 >>= _) = _
      rw [writeAt_nat, if_pos (by omega)]
      rfl
    obtain ⟨out', s', h1, h2, h3, st, h4, h5⟩ := ih (out.set i (f l[i] s).1) (f l[i] s).2
      (fun j hj => ho j (by simp [hj])) hd'.2 (by simp [hl])
    refine ⟨out', s', ?_, h2, ?_, fun k => match k with | 0 => s | k + 1 => st k, rfl, ?_⟩
    · rw [List.foldlM_cons, e]
      exact h1
    · intro j hj
      rw [List.mem_cons, not_or] at hj
      rw [h3 j hj.2, List.getElem?_set_ne (fun h => hj.1 h.symm)]
    · intro k j x hk hx
      cases k with
      | zero =>
        rw [List.getElem?_cons_zero, Option.some_inj] at hk
        subst hk
        rw [List.getElem?_eq_getElem hi, Option.some_inj] at hx
        subst hx
        refine ⟨?_, h4⟩
        rw [h3 i hd'.1, List.getElem?_set_self (by omega)]
      | succ k =>
        rw [List.getElem?_cons_succ] at hk
        exact h5 k j x hk hx

/-- What `seqTransform` makes of a sequence which is not a tuple: the calls are in the order `order`. -/
theorem transform_order (zero : β) (f : α → σ → β × σ) (l : List α) (s : σ) (order : List Nat)
    (hp : order.Perm (List.range l.length)) :
    ∃ out, SeqTransforms zero f l s (.ok (out, s)) ∧ out.length = l.length ∧
      (order.foldlM (transformStep f l) (List.replicate l.length zero, s)).map (fun rs => (rs.1, s)) = .ok (out, s) ∧
      ∃ st : Nat → σ, st 0 = s ∧ ∀ k i x, order[k]? = some i → l[i]? = some x →
        out[i]? = some (f x (st k)).1 ∧ st (k + 1) = (f x (st k)).2 := by
  obtain ⟨out, s', h1, h2, _, h4⟩ := transform_steps f l order (List.replicate l.length zero) s
    (fun i hi => List.mem_range.1 (hp.mem_iff.1 hi)) (hp.nodup_iff.2 List.nodup_range) List.length_replicate
  refine ⟨out, ⟨order, hp, ?_⟩, h2, ?_, h4⟩
  · rw [h1]
    rfl
  · rw [h1]
    rfl

/-- **C109**: on another sequence, `seqTransform` calls the function exactly once per element, in some order
(`order[k]` is the index of the element of the `k`-th call), and puts the value at the index of the element; the
function of the caller keeps its state. -/
theorem C109_transform_calls {zero : β} {f : α → σ → β × σ} {l : List α} {s : σ} {r : Res (List β × σ)}
    (h : SeqTransforms zero f l s r) :
    ∃ out, r = .ok (out, s) ∧ out.length = l.length ∧
      ∃ order : List Nat, order.Perm (List.range l.length) ∧ ∃ st : Nat → σ, st 0 = s ∧
        ∀ k i x, order[k]? = some i → l[i]? = some x →
          out[i]? = some (f x (st k)).1 ∧ st (k + 1) = (f x (st k)).2 := by
  obtain ⟨order, hp, rfl⟩ := h
  obtain ⟨out, _, h2, h3, h4⟩ := transform_order zero f l s order hp
  exact ⟨out, h3, h2, order, hp, h4⟩

/-- **C109**: if the values of the function do not depend on its state, then `seqTransform` has a single outcome:
the values of the elements, in the order of the elements.
Missing: functions with a state, for which `C109_Statement` is violated; see `C109_transform_calls`. -/
theorem C109_transform_partial (zero : β) (f : α → σ → β × σ) (g : α → β) (hf : ∀ x s, (f x s).1 = g x) (l : List α) (s : σ)
    (r : Res (List β × σ)) : SeqTransforms zero f l s r ↔ r = .ok (l.map g, s) := by
  have key : ∀ {r}, SeqTransforms zero f l s r → r = .ok (l.map g, s) := by
    intro r h
    obtain ⟨out, rfl, hl, order, hp, st, _, h⟩ := C109_transform_calls h
    congr 2
    apply List.ext_getElem?
    intro i
    by_cases hi : i < l.length
    · obtain ⟨k, hk⟩ := List.getElem?_of_mem (hp.mem_iff.2 (List.mem_range.2 hi))
      rw [(h k i _ hk (List.getElem?_eq_getElem hi)).1, hf, List.getElem?_map, List.getElem?_eq_getElem hi]
      rfl
    · rw [List.getElem?_eq_none (by omega), List.getElem?_eq_none (by simp; omega)]
  refine ⟨key, ?_⟩
  rintro rfl
  obtain ⟨out, h, _⟩ := transform_order zero f l s _ (List.Perm.refl _)
  rw [← key h]
  exact h

/-- **C109**: if they do, any order of calls may be observed: a function which numbers its calls. -/
theorem C109_transform_any_order (l : List α) (order : List Nat) (hp : order.Perm (List.range l.length)) :
    ∃ out, SeqTransforms 0 (fun (_ : α) (k : Nat) => (k, k + 1)) l 0 (.ok (out, 0)) ∧
      ∀ k i : Nat, order[k]? = some i → out[i]? = some k := by
  obtain ⟨out, h1, h2, _, st, h3, h4⟩ := transform_order 0 (fun (_ : α) (k : Nat) => (k, k + 1)) l 0 order hp
  have hlen : order.length = l.length := by rw [hp.length_eq, List.length_range]
  have hx : ∀ k i, order[k]? = some i → i < l.length := fun k i hk =>
    List.mem_range.1 (hp.mem_iff.1 (List.mem_of_getElem? hk))
  have hst : ∀ k, k ≤ l.length → st k = k := by
    intro k
    induction k with
    | zero => exact fun _ => h3
    | succ k ih =>
      intro hk
      have hk' := List.getElem?_eq_getElem (l := order) (i := k) (by omega)
      rw [(h4 k _ _ hk' (List.getElem?_eq_getElem (hx _ _ hk'))).2, ih (by omega)]
  refine ⟨out, h1, ?_⟩
  intro k i hk
  have : k < order.length := (List.getElem?_eq_some_iff.1 hk).1
  rw [(h4 k i _ hk (List.getElem?_eq_getElem (hx k i hk))).1, hst k (by omega)]

/-- **C109**, as one would like it: `seqTransform` treats all sequences as it treats tuples. -/
def C109_Statement : Prop :=
  ∀ (f : Nat → Nat → Nat × Nat) (l : List Nat) (s : Nat) (r : Res (List Nat × Nat)), SeqTransforms 0 f l s r →
    ∃ out s', r = .ok (out, s') ∧ InOrder f l s out s'

/-- **C109**: it does not, for functions with a state. -/
theorem C109_violated : ¬ C109_Statement := by
  intro h
  obtain ⟨out, h1, _, _⟩ := transform_order 0 (fun (_ : Nat) (k : Nat) => (k, k + 1)) [7] 0 _ (List.Perm.refl _)
  obtain ⟨out', s', h2, st, a, b, _, c⟩ := h _ _ _ _ h1
  have h3 := (c 0 7 rfl).2
  cases h2
  rw [show [7].length = 0 + 1 from rfl, h3, a] at b
  cases b

/-- **C109**: the final state of a function given to `seqTransform` is that of calls in order, as for a tuple, iff
calls in order do not change the state. -/
theorem C109_transform_state {zero : β} {f : α → σ → β × σ} {l : List α} {s : σ} {out : List β} {s' : σ}
    (h : SeqTransforms zero f l s (.ok (out, s'))) : s' = (tupleTransform f l s).2 ↔ (tupleTransform f l s).2 = s := by
  obtain ⟨_, h, _⟩ := C109_transform_calls h
  cases h
  exact ⟨Eq.symm, Eq.symm⟩

/-- Non-vacuity of C109: numbering three elements in the order 2, 0, 1. -/
example : SeqTransforms 9 (fun (_ : Char) (k : Nat) => (k, k + 1)) ['a', 'b', 'c'] 0 (.ok ([1, 2, 0], 0)) :=
  ⟨[2, 0, 1], by decide, rfl⟩

/-! ## Arguments -/

theorem mapM_readAt_pointed (mem : List α) (its : List Nat) (h : ∀ p ∈ its, p < mem.length) :
    ∃ xs, (its.mapM fun p : Nat => readAt mem (p : Int)) = .ok xs ∧ xs.map some = its.map fun p => mem[p]? := by
  induction its with
  | nil => exact ⟨[], rfl, rfl⟩
  | cons p its ih =>
    obtain ⟨xs, h1, h2⟩ := ih fun q hq => h q (by simp [hq])
    refine ⟨mem[p]'(h p (by simp)) :: xs, ?_, ?_⟩
    · rw [List.mapM_cons, readAt_nat, List.getElem?_eq_getElem (h p (by simp)), h1]
      rfl
    · rw [List.map_cons, List.map_cons, h2, List.getElem?_eq_getElem (h p (by simp))]

/-- **C109**: whatever the order of evaluation of the arguments, `func` gets the elements which are pointed by the
iterators, in the order of the iterators, and each iterator is incremented once. -/
theorem C109_arguments (mem : List α) (its : List Nat) (h : ∀ p ∈ its, p < mem.length)
    (r : Res (List Nat × List (Option α))) :
    ArgumentsEvaluate mem its r ↔ r = .ok (its.map (· + 1), its.map fun p => mem[p]?) := by
  obtain ⟨xs, h1, h2⟩ := mapM_readAt_pointed mem its h
  rw [ArgumentsEvaluate_iff, h1, ← h2]
  rfl

/-- **C109**: whatever the order, the behavior is undefined if an iterator is past the end. -/
theorem C109_arguments_undefined (mem : List α) (its : List Nat) {p : Nat} (hp : p ∈ its) (h : mem.length ≤ p)
    (r : Res (List Nat × List (Option α))) : ArgumentsEvaluate mem its r ↔ r = .error .ub := by
  rw [ArgumentsEvaluate_iff]
  have : (its.mapM fun p : Nat => readAt mem (p : Int)) = .error .ub := by
    induction its with
    | nil => simp at hp
    | cons q its ih =>
      rw [List.mapM_cons, readAt_nat]
      cases hq : mem[q]? with
      | none => rfl
      | some x =>
        rcases List.mem_cons.1 hp with rfl | hp'
        · rw [List.getElem?_eq_none h] at hq
          cases hq
        · rw [ih hp']
          rfl
  rw [this]
  rfl

/-- **C109**: whatever the orders of evaluation, `generate` has a single outcome, that of `generateMem` (see C27),
be it a failure. -/
theorem C109_generate (f : List α → σ → α × σ) (mem : List α) (s : σ) (a n : Nat) (bs : List Nat)
    (r : Res (List α × σ)) : Generates f mem s a n bs r ↔ r = Container.generateMem f mem s a n bs := by
  unfold Generates
  have := GenerateLoops_iff f a n 0 mem s bs
  simp only [Nat.add_zero, List.map_id_fun', id] at this
  simp only [this, exists_eq_left, ← List.range_eq_range']
  unfold Container.generateMem
  cases List.foldlM (Container.generateStep f a bs) (mem, s) (List.range n) <;> rfl

/-- **C109**: whatever the orders of evaluation, `generate` calls the function once per element, in order, with the
elements of the arguments at this index. -/
theorem C109_generate_calls (f : List α → σ → α × σ) (mem : List α) (s : σ) (a n : Nat) (bs : List Nat)
    (ha : a + n ≤ mem.length) (hb : ∀ b ∈ bs, b + n ≤ mem.length ∧ (a ≤ b ∨ b + n ≤ a)) (r : Res (List α × σ))
    (h : Generates f mem s a n bs r) :
    let calls := callInOrder f ((List.range n).map fun i => bs.filterMap fun b => mem[b + i]?) s
    ∃ m, r = .ok (m, calls.2) ∧ elements m a n = calls.1 ∧ m.length = mem.length ∧ SameOutside mem m a n := by
  rw [(C109_generate f mem s a n bs r).1 h]
  exact C27_generate f mem s a n bs ha hb

/-- Non-vacuity of C109: arguments evaluated from right to left, and the function `x - y`. -/
example : ArgumentsEvaluate [10, 11, 20, 21, 30, 31] [0, 2, 4]
      (.ok ([1, 3, 5], [some 10, some 20, some 30])) ∧
    ([2, 1, 0].foldlM (argumentStep [10, 11, 20, 21, 30, 31]) ([0, 2, 4], [none, none, none]) =
      .ok ([1, 3, 5], [some 10, some 20, some 30])) ∧
    Generates (fun args (s : Unit) => (args.foldl (fun x y => y - x) 0, s)) [0, 0, 20, 21, 30, 32] () 0 2 [2, 4]
      (.ok ([10, 11, 20, 21, 30, 32], ())) :=
  ⟨⟨[2, 1, 0], by decide, rfl⟩, rfl, (C109_generate _ _ _ _ _ _ _).2 rfl⟩

/-! ## Operators -/

/-- **C109**: whatever the order of `std::transform`, `V op= U` has a single outcome, that of `vectorOpMem` (see C27),
if `U` is `V` or does not overlap it. -/
theorem C109_vector_operators (op : α → α → α) (mem : List α) (a b n : Nat) (h : a = b ∨ a + n ≤ b ∨ b + n ≤ a)
    (r : Res (List α)) : VectorOps op mem a b n r ↔ r = Container.vectorOpMem op mem a b n := by
  constructor
  · rintro ⟨order, hp, rfl⟩
    refine foldlM_perm hp _ fun i hi j hj hij t => ?_
    have hi' := List.mem_range.1 (hp.mem_iff.1 hi)
    have hj' := List.mem_range.1 (hp.mem_iff.1 hj)
    exact vectorStep_comm op a b t i j hij (by omega) (by omega)
  · rintro rfl
    exact ⟨_, List.Perm.refl _, rfl⟩

/-- **C109**: whatever the order of `std::transform`, `V op= s` has a single outcome, that of `scalarOpMem` (see C27),
if `s` is not an element of `V`. -/
theorem C109_scalar_operators (op : α → α → α) (mem : List α) (a n k : Nat) (h : k < a ∨ a + n ≤ k)
    (r : Res (List α)) : ScalarOps op mem a n k r ↔ r = Container.scalarOpMem op mem a n k := by
  constructor
  · rintro ⟨order, hp, rfl⟩
    refine foldlM_perm hp _ fun i hi j hj hij t => ?_
    have hi' := List.mem_range.1 (hp.mem_iff.1 hi)
    have hj' := List.mem_range.1 (hp.mem_iff.1 hj)
    exact scalarStep_comm op a k t i j hij (by omega) (by omega)
  · rintro rfl
    exact ⟨_, List.Perm.refl _, rfl⟩

/-- **C109**: the conditions are needed: outcomes depend on the order if `U` overlaps `V`, or if the scalar is an
element of `V`. -/
theorem C109_operators_orders :
    (∃ (mem : List Int) (a b n : Nat) (r r' : Res (List Int)),
      VectorOps (· + ·) mem a b n r ∧ VectorOps (· + ·) mem a b n r' ∧ r ≠ r') ∧
    ∃ (mem : List Int) (a n k : Nat) (r r' : Res (List Int)),
      ScalarOps (· - ·) mem a n k r ∧ ScalarOps (· - ·) mem a n k r' ∧ r ≠ r' :=
  ⟨⟨[1, 1, 1], 0, 1, 2, .ok [2, 2, 1], .ok [3, 2, 1], ⟨[0, 1], by decide, rfl⟩, ⟨[1, 0], by decide, rfl⟩,
      by decide⟩,
    ⟨[1, 2], 0, 2, 0, .ok [0, 2], .ok [0, 1], ⟨[0, 1], by decide, rfl⟩, ⟨[1, 0], by decide, rfl⟩, by decide⟩⟩

/-- Non-vacuity of C109: `V -= U` and `V -= V` backward, and a scalar out of the vector. -/
example : VectorOps (· - ·) [1, 2, 10, 20] 2 0 2 (.ok [1, 2, 9, 18]) ∧
    VectorOps (· - ·) [1, 2, 10, 20] 2 2 2 (.ok [1, 2, 0, 0]) ∧
    ScalarOps (· - ·) [1, 2, 10, 20] 2 2 0 (.ok [1, 2, 9, 19]) :=
  ⟨⟨[1, 0], by decide, rfl⟩, ⟨[1, 0], by decide, rfl⟩, ⟨[1, 0], by decide, rfl⟩⟩

/-! ## Serialization -/

/-- **C109**: `serialize` writes the arguments in order, with ", " between them. -/
theorem C109_serialize (arg0 : List Char) (args : List (List Char)) :
    serialize arg0 args = [',', ' '].intercalate (arg0 :: args) := by
  have : ∀ (args : List (List Char)) (x : List Char),
      args.foldl (fun logger arg => logger ++ [',', ' '] ++ arg) x = [',', ' '].intercalate (x :: args) := by
    intro args
    induction args with
    | nil =>
      intro x
      simp [List.intercalate]
    | cons y args ih =>
      intro x
      rw [List.foldl_cons, ih]
      cases args with
      | nil => simp [List.intercalate]
      | cons z args => simp [List.intercalate]
  exact this args arg0

theorem append_comma_inj {x y : List Char} {u v : List Char} (hx : ',' ∉ x) (hy : ',' ∉ y)
    (h : x ++ ',' :: u = y ++ ',' :: v) : x = y ∧ u = v := by
  induction x generalizing y with
  | nil =>
    cases y with
    | nil => simpa using h
    | cons c y =>
      simp only [List.nil_append, List.cons_append, List.cons.injEq] at h
      exact absurd (by rw [h.1]; simp) hy
  | cons c x ih =>
    cases y with
    | nil =>
      simp only [List.nil_append, List.cons_append, List.cons.injEq] at h
      exact absurd (by rw [h.1]; simp) hx
    | cons d y =>
      simp only [List.cons_append, List.cons.injEq] at h
      obtain ⟨h1, h2⟩ := ih (fun hc => hx (by simp [hc])) (fun hc => hy (by simp [hc])) h.2
      exact ⟨by rw [h.1, h1], h2⟩

/-- **C109**: the arguments can be read back if their texts have no comma. -/
theorem C109_serialize_injective {x y : List Char} {xs ys : List (List Char)} (hx : ∀ t ∈ x :: xs, ',' ∉ t)
    (hy : ∀ t ∈ y :: ys, ',' ∉ t) (h : serialize x xs = serialize y ys) : x = y ∧ xs = ys := by
  rw [C109_serialize, C109_serialize] at h
  induction xs generalizing x y ys with
  | nil =>
    cases ys with
    | nil => simpa [List.intercalate] using h
    | cons z ys =>
      have : ',' ∈ [',', ' '].intercalate [x] := by
        rw [h]
        simp [List.intercalate]
      simp [List.intercalate] at this
      exact absurd this (hx x (by simp))
  | cons w xs ih =>
    cases ys with
    | nil =>
      have : ',' ∈ [',', ' '].intercalate [y] := by
        rw [← h]
        simp [List.intercalate]
      simp [List.intercalate] at this
      exact absurd this (hy y (by simp))
    | cons z ys =>
      have e : ∀ (x w : List Char) (xs : List (List Char)),
          [',', ' '].intercalate (x :: w :: xs) = x ++ ',' :: ' ' :: [',', ' '].intercalate (w :: xs) := by
        intro x w xs
        simp [List.intercalate]
      rw [e, e] at h
      obtain ⟨h1, h2⟩ := append_comma_inj (hx x (by simp)) (hy y (by simp)) h
      obtain ⟨h3, h4⟩ := ih (fun t ht => hx t (by simp [List.mem_cons.1 ht]))
        (fun t ht => hy t (by simp [List.mem_cons.1 ht])) (List.cons.inj h2).2
      exact ⟨h1, by rw [h3, h4]⟩

/-- Non-vacuity of C109: `serialize(std::cout, 1, 3.14, "str")`, and texts with commas. -/
example : serialize "1".toList ["3.14".toList, "str".toList] = "1, 3.14, str".toList ∧
    serialize "1, 2".toList [] = serialize "1".toList ["2".toList] :=
  ⟨by decide, by decide⟩

end Litl
