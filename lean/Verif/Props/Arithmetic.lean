import Verif.Lemmas.Arithmetic
import Verif.Spec.Elements
import Mathlib.Algebra.Field.Defs
import Mathlib.Tactic.NormNum

/-!
# C24, C25, C26, C27: element-wise operations
-/

namespace Litl

open Spec Container

variable {α σ : Type}

theorem elements_getElem? (mem : List α) (a n i : Nat) :
    (elements mem a n)[i]? = if i < n then mem[a + i]? else none := by
  rw [elements, List.getElem?_take]
  split
  · rw [List.getElem?_drop]
  · rfl

/-- **C24**: `V op= U` in memory, where both containers may share data as long as `U` does not start strictly before
`V` and overlaps it: this includes distinct containers and `V op= V`. -/
theorem C24_in_place (op : α → α → α) (mem : List α) (a b n : Nat) (ha : a + n ≤ mem.length)
    (hb : b + n ≤ mem.length) (h : a ≤ b ∨ b + n ≤ a) :
    ∃ m, vectorOpMem op mem a b n = .ok m ∧ m.length = mem.length ∧
      elements m a n = List.zipWith op (elements mem a n) (elements mem b n) ∧ SameOutside mem m a n := by
  obtain ⟨m, h1, hl, h2⟩ := vectorOpMem_spec op mem a b n ha hb h
  refine ⟨m, h1, hl, ?_, ?_⟩
  · apply List.ext_getElem?
    intro i
    simp only [elements_getElem?, List.getElem?_zipWith]
    by_cases hi : i < n
    · simp only [hi, if_true]
      rw [List.getElem?_eq_getElem (show a + i < m.length by omega), List.getElem?_eq_getElem (by omega),
        List.getElem?_eq_getElem (by omega), h2 _ (by omega), dif_pos (by omega)]
      simp
    · simp [hi]
  · intro k hk
    by_cases hk' : k < mem.length
    · rw [List.getElem?_eq_getElem (by omega), List.getElem?_eq_getElem hk', h2 k hk', dif_neg (by omega)]
    · rw [List.getElem?_eq_none (by omega), List.getElem?_eq_none (by omega)]

/-- **C24**: in particular, the right operand is unchanged if it does not overlap the left one. -/
theorem C24_operand_unchanged (op : α → α → α) (mem : List α) (a b n : Nat) (ha : a + n ≤ mem.length)
    (hb : b + n ≤ mem.length) (h : a + n ≤ b ∨ b + n ≤ a) :
    ∃ m, vectorOpMem op mem a b n = .ok m ∧ elements m b n = elements mem b n := by
  obtain ⟨m, h1, h2, _, h4⟩ := C24_in_place op mem a b n ha hb (by omega)
  refine ⟨m, h1, ?_⟩
  apply List.ext_getElem?
  intro i
  rw [elements_getElem?, elements_getElem?]
  split
  · exact h4 _ (by omega)
  · rfl

/-- **C24**: for any container, `V op= V` computes `op x x` for each element `x`. -/
theorem C24_self (op : α → α → α) (mem : List α) (a n : Nat) (ha : a + n ≤ mem.length) :
    ∃ m, vectorOpMem op mem a a n = .ok m ∧ elements m a n = (elements mem a n).map (fun x => op x x) := by
  obtain ⟨m, h1, _, h3, _⟩ := C24_in_place op mem a a n ha ha (Or.inl le_rfl)
  exact ⟨m, h1, by rw [h3, List.zipWith_self]⟩

/-- **C24**: whatever the overlap, what `V op= U` computes: elements of `U` which are elements of `V` at smaller indices
are read after they are written, and the others before. This determines all of the elements, by increasing index. -/
theorem C24_exact (op : α → α → α) (mem : List α) (a b n : Nat) (ha : a + n ≤ mem.length)
    (hb : b + n ≤ mem.length) :
    ∃ m, vectorOpMem op mem a b n = .ok m ∧ m.length = mem.length ∧ SameOutside mem m a n ∧
      ∀ i x y, i < n → mem[a + i]? = some x →
        (if a ≤ b + i ∧ b + i < a + i then m[b + i]? else mem[b + i]?) = some y → m[a + i]? = some (op x y) := by
  have key := foldlM_range_inv (body := vectorStep op a b) (b := mem) (n := n)
    (P := fun j (m : List α) => m.length = mem.length ∧ SameOutside mem m a j ∧
      ∀ i x y, i < j → mem[a + i]? = some x →
        (if a ≤ b + i ∧ b + i < a + i then m[b + i]? else mem[b + i]?) = some y → m[a + i]? = some (op x y))
    ⟨rfl, fun _ _ => rfl, fun i x y hi => by omega⟩ ?_
  · exact key
  · rintro j m hj ⟨hl, ho, hm⟩
    have h1 : a + j < m.length := by omega
    have h2 : b + j < m.length := by omega
    refine ⟨m.set (a + j) (op m[a + j] m[b + j]), ?_, by simpa using hl, ?_, ?_⟩
    · rw [vectorStep, readAt_nat_ok h1, readAt_nat_ok h2, ok_bind, ok_bind, writeAt_nat_ok h1]
    · intro k hk
      rw [List.getElem?_set_ne (by omega), ho k (by omega)]
    · intro i x y hi hx hy
      rcases Nat.lt_succ_iff_lt_or_eq.1 hi with hi' | rfl
      · rw [List.getElem?_set_ne (by omega)]
        apply hm i x y hi' hx
        by_cases hc : a ≤ b + i ∧ b + i < a + i
        · rw [if_pos hc] at hy ⊢
          rwa [List.getElem?_set_ne (by omega)] at hy
        · rw [if_neg hc] at hy ⊢
          exact hy
      · rw [List.getElem?_set_self h1]
        have ex : m[a + i] = x := by
          have := ho (a + i) (by omega)
          rw [hx, List.getElem?_eq_getElem h1] at this
          simpa using this
        have ey : m[b + i] = y := by
          by_cases hc : a ≤ b + i ∧ b + i < a + i
          · rw [if_pos hc, List.getElem?_set_ne (by omega), List.getElem?_eq_getElem h2] at hy
            simpa using hy
          · rw [if_neg hc, ← ho (b + i) (by omega), List.getElem?_eq_getElem h2] at hy
            simpa using hy
        rw [ex, ey]

/-- Non-vacuity of `C24_exact`: `V += U` where `U` starts one element before `V` gives cumulated sums. -/
example : vectorOpMem (· + ·) [1, 2, 3, 4] 1 0 3 = .ok [1, 3, 6, 10] := rfl
/-- **C24**: `V op U` for containers of the same size. -/
theorem C24_element_wise (op : α → α → α) (v u : List α) (h : v.length = u.length) :
    ∃ r, vectorOp op v u = .ok r ∧ r.length = v.length ∧
      ∀ (i : Nat) (x y : α), v[i]? = some x → u[i]? = some y → r[i]? = some (op x y) := by
  refine ⟨_, vectorOp_eq op v u (by omega), by simp [h], ?_⟩
  intro i x y hx hy
  simp [List.getElem?_zipWith, hx, hy]

/-- **C24**: both models agree: operating in a memory made of both containers gives the list result. -/
theorem C24_models_agree (op : α → α → α) (v u : List α) (h : v.length = u.length) :
    ∃ m r, vectorOpMem op (v ++ u) 0 v.length v.length = .ok m ∧ vectorOp op v u = .ok r ∧ m = r ++ u := by
  obtain ⟨m, h1, h2, h3, h4⟩ := C24_in_place op (v ++ u) 0 v.length v.length (by simp) (by simp [h]) (by omega)
  refine ⟨m, _, h1, vectorOp_eq op v u (by omega), ?_⟩
  have e1 : elements (v ++ u) 0 v.length = v := by simp [elements]
  have e2 : elements (v ++ u) v.length v.length = u := by simp [elements, h]
  rw [e1, e2] at h3
  rw [← h3]
  apply List.ext_getElem?
  intro i
  have hl : (elements m 0 v.length).length = v.length := by simp [elements, h2]
  by_cases hi : i < v.length
  · rw [List.getElem?_append_left (by omega), elements_getElem?, if_pos hi, Nat.zero_add]
  · rw [List.getElem?_append_right (by omega), h4 i (by omega), List.getElem?_append_right (by omega), hl]

/-- **C24**: reading beyond a too short right operand is undefined behaviour. -/
theorem C24_short_operand (op : α → α → α) (v u : List α) (h : u.length < v.length) :
    vectorOp op v u = .error .ub := vectorOp_ub op v u h

/-- **C24**: a commutative operator on elements is commutative on containers. -/
theorem C24_commutative (op : α → α → α) (hc : ∀ x y, op x y = op y x) (v u : List α) (h : v.length = u.length) :
    vectorOp op v u = vectorOp op u v := by
  rw [vectorOp_eq op v u (by omega), vectorOp_eq op u v (by omega)]
  congr 1
  apply List.ext_getElem?
  intro i
  simp only [List.getElem?_zipWith]
  cases v[i]? <;> cases u[i]? <;> simp [hc]

/-- **C24**: an associative operator on elements is associative on containers. -/
theorem C24_associative (op : α → α → α) (hc : ∀ x y z, op (op x y) z = op x (op y z)) (v u w : List α)
    (h : v.length = u.length) (h' : u.length = w.length) :
    (do let r ← vectorOp op v u; vectorOp op r w) = (do let r ← vectorOp op u w; vectorOp op v r) := by
  rw [vectorOp_eq op v u (by omega), vectorOp_eq op u w (by omega), ok_bind, ok_bind,
    vectorOp_eq _ _ _ (by simp; omega), vectorOp_eq _ _ _ (by simp; omega)]
  congr 1
  apply List.ext_getElem?
  intro i
  simp only [List.getElem?_zipWith]
  cases v[i]? <;> cases u[i]? <;> cases w[i]? <;> simp [hc]

/-- **C24**: an operator which distributes over another one on elements does so on containers. -/
theorem C24_distributive (mul add : α → α → α) (hd : ∀ x y z, mul x (add y z) = add (mul x y) (mul x z))
    (v u w : List α) (h : v.length = u.length) (h' : u.length = w.length) :
    (do let r ← vectorOp add u w; vectorOp mul v r) =
      (do let r ← vectorOp mul v u; let r' ← vectorOp mul v w; vectorOp add r r') := by
  rw [vectorOp_eq add u w (by omega), vectorOp_eq mul v u (by omega), vectorOp_eq mul v w (by omega), ok_bind,
    ok_bind, ok_bind, vectorOp_eq _ _ _ (by simp; omega), vectorOp_eq _ _ _ (by simp; omega)]
  congr 1
  apply List.ext_getElem?
  intro i
  simp only [List.getElem?_zipWith]
  cases v[i]? <;> cases u[i]? <;> cases w[i]? <;> simp [hd]

/-- **C24**: `(V + U) - U = V` for elements of any group: subtraction is the inverse of addition. -/
theorem C24_add_sub [AddGroup α] (v u : List α) (h : v.length = u.length) :
    (do let r ← vectorOp (· + ·) v u; vectorOp (· - ·) r u) = .ok v := by
  rw [vectorOp_eq _ v u (by omega), ok_bind, vectorOp_eq _ _ _ (by simp [h])]
  congr 1
  apply List.ext_getElem
  · simp [h]
  · intro i h1 h2
    simp

/-- **C24**: `(V * U) / U = V` for elements of any field, provided that no element of `U` is null. -/
theorem C24_mul_div [Field α] (v u : List α) (h : v.length = u.length) (h0 : (0 : α) ∉ u) :
    (do let r ← vectorOp (· * ·) v u; vectorOp (· / ·) r u) = .ok v := by
  rw [vectorOp_eq _ v u (by omega), ok_bind, vectorOp_eq _ _ _ (by simp [h])]
  congr 1
  apply List.ext_getElem
  · simp [h]
  · intro i h1 h2
    have : u[i]'(by omega) ≠ 0 := fun e => h0 (e ▸ List.getElem_mem _)
    simp [this]

/-- **C24**: `V + (-V) = 0` for elements of any group. -/
theorem C24_neg [AddGroup α] (v : List α) :
    vectorOp (· + ·) v (unaryOp (fun x => -x) v) = .ok (List.replicate v.length 0) := by
  rw [vectorOp_eq _ _ _ (by simp [unaryOp])]
  congr 1
  apply List.ext_getElem
  · simp [unaryOp]
  · intro i h1 h2
    simp [unaryOp]

/-- **C24**: `--` undoes `++`, which adds one to each element. -/
theorem C24_increment [Ring α] (v : List α) :
    unaryOp (· - 1) (unaryOp (· + 1) v) = v ∧
      vectorOp (· + ·) v (List.replicate v.length 1) = .ok (unaryOp (· + 1) v) := by
  refine ⟨by simp [unaryOp, Function.comp_def], ?_⟩
  rw [vectorOp_eq _ _ _ (by simp)]
  congr 1
  apply List.ext_getElem
  · simp [unaryOp]
  · intro i h1 h2
    simp [unaryOp]

/-- Non-vacuity of C24: distinct containers, a container with itself, and a view which starts later; the case which
is excluded by the hypothesis (`U` starts before `V` and overlaps it) is indeed wrong. -/
example : vectorOpMem (· + ·) [1, 2, 3, 10, 20, 30] 0 3 3 = .ok [11, 22, 33, 10, 20, 30] ∧
    vectorOpMem (· + ·) [1, 2, 3] 0 0 3 = .ok [2, 4, 6] ∧
    vectorOpMem (· + ·) [1, 2, 3, 4] 0 1 3 = .ok [3, 5, 7, 4] ∧
    vectorOpMem (· + ·) [1, 2, 3, 4] 1 0 3 = .ok [1, 3, 6, 10] ∧
    vectorOp (· - ·) [1, 2, 3] [10, 20, 30] = .ok [-9, -18, -27] ∧
    vectorOp (· - ·) [1, 2, 3] [10, 20] = .error .ub :=
  ⟨rfl, rfl, rfl, rfl, rfl, rfl⟩

/-- **C25** (full statement, violated by the code): `V op= s` applies the value of `s` on call to each element,
wherever `s` is stored. -/
def C25_Statement : Prop :=
  ∀ (op : Int → Int → Int) (mem : List Int) (a n k : Nat) (s : Int), a + n ≤ mem.length → mem[k]? = some s →
    ∃ m, scalarOpMem op mem a n k = .ok m ∧ elements m a n = (elements mem a n).map (op · s)

/-- **C25**, exact result: the elements which follow the scalar in the container are computed with the modified
scalar. -/
theorem C25_exact (op : α → α → α) (mem : List α) (a n k : Nat) (s : α) (ha : a + n ≤ mem.length)
    (hk : mem[k]? = some s) :
    ∃ m, scalarOpMem op mem a n k = .ok m ∧ m.length = mem.length ∧ SameOutside mem m a n ∧
      ∀ i x, (elements mem a n)[i]? = some x →
        (elements m a n)[i]? = some (op x (if a ≤ k ∧ k < a + i then op s s else s)) := by
  obtain ⟨hk', rfl⟩ := List.getElem?_eq_some_iff.1 hk
  obtain ⟨m, h1, hl, h2⟩ := scalarOpMem_spec op mem a n k ha hk'
  refine ⟨m, h1, hl, ?_, ?_⟩
  · intro j hj
    by_cases hj' : j < mem.length
    · rw [List.getElem?_eq_getElem (by omega), List.getElem?_eq_getElem hj', h2 j hj', if_neg (by omega)]
    · rw [List.getElem?_eq_none (by omega), List.getElem?_eq_none (by omega)]
  · intro i x hx
    rw [elements_getElem?] at hx ⊢
    by_cases hi : i < n
    · rw [if_pos hi] at hx ⊢
      obtain ⟨h3, rfl⟩ := List.getElem?_eq_some_iff.1 hx
      rw [List.getElem?_eq_getElem (by omega), h2 _ h3, if_pos (by omega)]
    · rw [if_neg hi] at hx
      exact absurd hx (by simp)

/-- **C25**, what remains true of `V op= s`: it is right if `s` is stored outside of `V`, or is its last element.
Missing: scalars stored elsewhere in `V`, see `C25_violated`. -/
theorem C25_in_place_partial (op : α → α → α) (mem : List α) (a n k : Nat) (s : α) (ha : a + n ≤ mem.length)
    (hk : mem[k]? = some s) (h : k < a ∨ a + n ≤ k + 1) :
    ∃ m, scalarOpMem op mem a n k = .ok m ∧ elements m a n = (elements mem a n).map (op · s) := by
  obtain ⟨m, h1, hl, _, h2⟩ := C25_exact op mem a n k s ha hk
  refine ⟨m, h1, List.ext_getElem? fun i => ?_⟩
  by_cases hi : i < n
  · have hx : (elements mem a n)[i]? = some (mem[a + i]'(by omega)) := by
      rw [elements_getElem?, if_pos hi, List.getElem?_eq_getElem]
    rw [h2 i _ hx, List.getElem?_map, hx, if_neg (by omega)]
    rfl
  · rw [List.getElem?_map, elements_getElem?, elements_getElem?, if_neg hi, if_neg hi]
    rfl

/-- **C25**, what remains true: an element of `V` which is neutral (`op s s = s`) is a correct scalar.
Missing: the other elements, see `C25_exact` and `C25_violated`. -/
theorem C25_idempotent_partial (op : α → α → α) (mem : List α) (a n k : Nat) (s : α) (ha : a + n ≤ mem.length)
    (hk : mem[k]? = some s) (h : op s s = s) :
    ∃ m, scalarOpMem op mem a n k = .ok m ∧ elements m a n = (elements mem a n).map (op · s) := by
  obtain ⟨m, h1, hl, _, h2⟩ := C25_exact op mem a n k s ha hk
  refine ⟨m, h1, List.ext_getElem? fun i => ?_⟩
  by_cases hi : i < n
  · have hx : (elements mem a n)[i]? = some (mem[a + i]'(by omega)) := by
      rw [elements_getElem?, if_pos hi, List.getElem?_eq_getElem]
    rw [h2 i _ hx, List.getElem?_map, hx, h, ite_self]
    rfl
  · rw [List.getElem?_map, elements_getElem?, elements_getElem?, if_neg hi, if_neg hi]
    rfl

/-- **C25**: dividing a container by its own element `k` in place leaves the following elements unchanged, for any
field: `V /= V[k]`. -/
theorem C25_divide_by_element [Field α] (mem : List α) (a n k : Nat) (s : α) (ha : a + n ≤ mem.length)
    (hk : mem[k]? = some s) (hs : s ≠ 0) (hak : a ≤ k) :
    ∃ m, scalarOpMem (· / ·) mem a n k = .ok m ∧
      ∀ i, k < i → i < a + n → m[i]? = mem[i]? := by
  obtain ⟨m, h1, hl, _, h2⟩ := C25_exact (· / ·) mem a n k s ha hk
  refine ⟨m, h1, fun i h3 h4 => ?_⟩
  have hx : (elements mem a n)[i - a]? = some (mem[i]'(by omega)) := by
    rw [elements_getElem?, if_pos (by omega), List.getElem?_eq_getElem (by omega)]
    simp [show a + (i - a) = i by omega]
  have := h2 _ _ hx
  rw [if_pos (by omega), div_self hs, div_one, elements_getElem?, if_pos (by omega),
    show a + (i - a) = i by omega] at this
  rw [this, List.getElem?_eq_getElem (by omega)]

/-- **C25**: `V op s` is right wherever `s` is stored, because the result is computed in new memory. -/
theorem C25_out_of_place (op : α → α → α) (mem : List α) (a n k : Nat) (s : α) (ha : a + n ≤ mem.length)
    (hk : mem[k]? = some s) :
    scalarOpNew op mem a n k = .ok ((elements mem a n).map (op · s)) := by
  have hlen : (elements mem a n).length = n := by simp [elements]; omega
  obtain ⟨hk', _⟩ := List.getElem?_eq_some_iff.1 hk
  obtain ⟨m, h1, h2⟩ := C25_in_place_partial op (mem ++ elements mem a n) mem.length n k s (by simp [hlen])
    (by rw [List.getElem?_append_left hk', hk]) (Or.inl hk')
  obtain ⟨m', h1', hl, _⟩ := C25_exact op (mem ++ elements mem a n) mem.length n k s (by simp [hlen])
    (by rw [List.getElem?_append_left hk', hk])
  rw [h1] at h1'
  cases h1'
  rw [scalarOpNew]
  change (do let m ← scalarOpMem op (mem ++ elements mem a n) mem.length n k; _) = _
  rw [h1, ok_bind]
  have e1 : elements (mem ++ elements mem a n) mem.length n = elements mem a n := by
    rw [elements, List.drop_left, List.take_of_length_le (by omega)]
  rw [e1] at h2
  rw [← h2, elements, List.take_of_length_le]
  · rfl
  · rw [List.length_drop, hl, List.length_append, hlen]; omega

/-- **C25** is violated: `V /= V[0]`. -/
theorem C25_violated : ¬ C25_Statement := by
  intro h
  obtain ⟨m, h1, h2⟩ := h (· / ·) [2, 4, 6] 0 3 0 2 (by decide) rfl
  have : scalarOpMem (· / ·) ([2, 4, 6] : List Int) 0 3 0 = .ok [1, 4, 6] := rfl
  rw [this] at h1
  cases h1
  exact absurd h2 (by decide)

/-- Non-vacuity of C25: a scalar stored after, inside of and at the end of the container. -/
example : scalarOpMem (· * ·) [2, 3, 5, 7] 0 3 3 = .ok [14, 21, 35, 7] ∧
    scalarOpMem (· * ·) [2, 3, 5, 7] 0 4 1 = .ok [6, 9, 45, 63] ∧
    scalarOpMem (· * ·) [2, 3, 5, 7] 0 4 3 = .ok [14, 21, 35, 49] ∧
    scalarOpNew (· * ·) [2, 3, 5, 7] 0 4 1 = .ok [6, 9, 15, 21] :=
  ⟨rfl, rfl, rfl, rfl⟩

/-- **C26** (full statement, violated by the code): `a - V` is the vector of the `a - V[i]`. -/
def C26_Statement : Prop :=
  ∀ (N a : Int) (v : Position), (N = -1 ∨ N = v.length) → scalarMinusVector N a v = .ok (v.map fun x : Int => a - x)

/-- **C26**, exact result in fixed dimension: if `a` is zero or the dimension then the result is `-V`, otherwise an
exception is thrown. -/
theorem C26_fixed_dimension (a : Int) (v : Position) (ha : 0 ≤ a) (ha' : a < 2 ^ 64) :
    scalarMinusVector v.length a v =
      if a = 0 ∨ a = v.length then .ok (v.map fun x : Int => -x) else .error .stdError := by
  have e : u64 a = a := Int.emod_eq_of_lt ha ha'
  rw [scalarMinusVector, vectorOfDim, if_neg (by omega), e]
  by_cases h : a = 0 ∨ a = v.length
  · rw [if_neg (by omega), if_pos h, ok_bind, vectorOp_eq _ _ _ (by simp)]
    congr 1
    apply List.ext_getElem
    · simp
    · intro i h1 h2
      simp
  · rw [if_pos (by omega), if_neg h]
    rfl

/-- **C26**: a negative scalar always throws in fixed dimension (unless the dimension is beyond any memory). -/
theorem C26_negative (a : Int) (v : Position) (ha : a < 0) (ha' : -2 ^ 63 ≤ a) (hv : v.length < 2 ^ 63) :
    scalarMinusVector v.length a v = .error .stdError := by
  have e : u64 a = 2 ^ 64 + a := by
    unfold u64; omega
  rw [scalarMinusVector, vectorOfDim, if_neg (by omega), e, if_pos (by omega)]
  rfl

/-- **C26**, exact result in variable dimension: the opposite of the `a` first coordinates, or a read out of `V` if
there are less than `a` of them. -/
theorem C26_variable_dimension (a : Nat) (v : Position) (ha : a < 2 ^ 60) :
    scalarMinusVector (-1) a v =
      if a ≤ v.length then .ok ((v.take a).map fun x : Int => -x) else .error .ub := by
  have e : u64 a = a := Int.emod_eq_of_lt (by omega) (by omega)
  rw [scalarMinusVector, vectorOfDim, if_pos rfl, e, if_pos (by exact_mod_cast ha), ok_bind]
  by_cases h : a ≤ v.length
  · rw [if_pos h, vectorOp_eq _ _ _ (by simp [h])]
    congr 1
    apply List.ext_getElem
    · simp
    · intro i h1 h2
      simp
  · rw [if_neg h, vectorOp_ub _ _ _ (by simp; omega)]

/-- **C26**, what remains true: the result is right in fixed dimension for the scalar 0.
Missing: any other scalar. -/
theorem C26_zero_partial (v : Position) :
    scalarMinusVector v.length 0 v = .ok (v.map fun x : Int => 0 - x) := by
  rw [C26_fixed_dimension 0 v le_rfl (by norm_num)]
  simp

/-- **C26**: in fixed dimension, 0 is the only scalar which gives the right result, for any vector (the dimension is
that of actual vectors). -/
theorem C26_only_zero (a : Int) (v : Position) (hv : v ≠ []) (hl : v.length < 2 ^ 63) (h : -2 ^ 63 ≤ a ∧ a < 2 ^ 63) :
    scalarMinusVector v.length a v = .ok (v.map fun x : Int => a - x) ↔ a = 0 := by
  constructor
  · intro h1
    by_cases ha : a < 0
    · rw [C26_negative a v ha h.1 hl] at h1
      cases h1
    · rw [C26_fixed_dimension a v (by omega) (by omega)] at h1
      split at h1
      · injection h1 with h2
        cases v with
        | nil => exact absurd rfl hv
        | cons x v =>
          simp only [List.map_cons, List.cons.injEq] at h2
          omega
      · cases h1
  · rintro rfl
    exact C26_zero_partial v

/-- **C26** is violated: `2 - {5, 7}` is `{-5, -7}`. -/
theorem C26_violated : ¬ C26_Statement := by
  intro h
  have h1 := h 2 2 [5, 7] (Or.inr rfl)
  have : scalarMinusVector 2 2 [5, 7] = .ok [-5, -7] := rfl
  rw [this] at h1
  simp at h1

/-- Non-vacuity of C26. -/
example : scalarMinusVector 2 2 [5, 7] = .ok [-5, -7] ∧ scalarMinusVector 2 1 [5, 7] = .error .stdError ∧
    scalarMinusVector 2 0 [5, 7] = .ok [-5, -7] ∧ scalarMinusVector (-1) 1 [5, 7] = .ok [-5] ∧
    scalarMinusVector (-1) 3 [5, 7] = .error .ub ∧ scalarMinusVector (-1) (-1) [5, 7] = .error .stdError :=
  ⟨rfl, rfl, rfl, rfl, rfl, rfl⟩

/-- The states between the calls. -/
def callState (f : List α → σ → α × σ) (rows : Nat → List α) (s : σ) : Nat → σ
  | 0 => s
  | i + 1 => (f (rows i) (callState f rows s i)).2

theorem callInOrder_append (f : List α → σ → α × σ) (r r' : List (List α)) (s : σ) :
    callInOrder f (r ++ r') s =
      ((callInOrder f r s).1 ++ (callInOrder f r' (callInOrder f r s).2).1,
        (callInOrder f r' (callInOrder f r s).2).2) := by
  induction r generalizing s with
  | nil => rfl
  | cons x r ih => simp [callInOrder, ih]

theorem callInOrder_range (f : List α → σ → α × σ) (rows : Nat → List α) (s : σ) (n : Nat) :
    callInOrder f ((List.range n).map rows) s =
      ((List.range n).map fun i => (f (rows i) (callState f rows s i)).1, callState f rows s n) := by
  induction n with
  | zero => rfl
  | succ n ih =>
    rw [List.range_succ, List.map_append, callInOrder_append, ih, List.map_append]
    rfl

theorem readArgs_filterMap {mem : List α} {bs : List Nat} {i : Nat} (h : ∀ b ∈ bs, b + i < mem.length) :
    readArgs mem bs i = .ok (bs.filterMap fun b => mem[b + i]?) := by
  rw [readArgs_ok h]
  congr 1
  induction bs with
  | nil => rfl
  | cons b bs ih =>
    rw [List.pmap_cons, List.filterMap_cons, List.getElem?_eq_getElem (h b (by simp)),
      ih fun b hb => h b (by simp [hb])]

/-- **C27**: `generate(f, args...)` calls `f` exactly once per element, in order, with the elements of the arguments
at this index; the results are the elements of the container, in order; nothing else is written.
The arguments may be the container itself, but may not start before it and overlap it. -/
theorem C27_generate (f : List α → σ → α × σ) (mem : List α) (s : σ) (a n : Nat) (bs : List Nat)
    (ha : a + n ≤ mem.length) (hb : ∀ b ∈ bs, b + n ≤ mem.length ∧ (a ≤ b ∨ b + n ≤ a)) :
    let calls := callInOrder f ((List.range n).map fun i => bs.filterMap fun b => mem[b + i]?) s
    ∃ m, generateMem f mem s a n bs = .ok (m, calls.2) ∧ elements m a n = calls.1 ∧ m.length = mem.length ∧
      SameOutside mem m a n := by
  intro calls
  set rows : Nat → List α := fun i => bs.filterMap fun b => mem[b + i]? with hrows
  obtain ⟨m, h1, hl, h2⟩ := generateMem_spec f mem s a n bs ha hb rows
    (fun i hi => readArgs_filterMap fun b hb' => by have := hb b hb'; omega)
    (fun i => (f (rows i) (callState f rows s i)).1) (callState f rows s) rfl (fun i _ => rfl)
  have hc : calls = _ := callInOrder_range f rows s n
  rw [hc]
  refine ⟨m, h1, ?_, hl, ?_⟩
  · apply List.ext_getElem?
    intro i
    rw [elements_getElem?]
    by_cases hi : i < n
    · rw [if_pos hi, List.getElem?_eq_getElem (by omega), h2 _ (by omega), if_pos (by omega)]
      simp [hi]
    · simp [hi]
  · intro k hk
    by_cases hk' : k < mem.length
    · rw [List.getElem?_eq_getElem (by omega), List.getElem?_eq_getElem hk', h2 k hk', if_neg (by omega)]
    · rw [List.getElem?_eq_none (by omega), List.getElem?_eq_none (by omega)]

/-- **C27**: `apply(f, args...)` calls `f` exactly once per element, in order, with the former value of the element
and the elements of the arguments at this index. -/
theorem C27_apply (f : List α → σ → α × σ) (mem : List α) (s : σ) (a n : Nat) (bs : List Nat)
    (ha : a + n ≤ mem.length) (hb : ∀ b ∈ bs, b + n ≤ mem.length ∧ (a ≤ b ∨ b + n ≤ a)) :
    let calls := callInOrder f ((List.range n).map fun i => (a :: bs).filterMap fun b => mem[b + i]?) s
    ∃ m, applyMem f mem s a n bs = .ok (m, calls.2) ∧ elements m a n = calls.1 ∧ m.length = mem.length ∧
      SameOutside mem m a n := by
  refine C27_generate f mem s a n (a :: bs) ha ?_
  intro b h
  rcases List.mem_cons.1 h with rfl | h
  · exact ⟨ha, Or.inl le_rfl⟩
  · exact hb b h

/-- **C27**: the number of calls is the size of the container: a function which counts its calls. -/
theorem C27_call_count (f : List α → α) (mem : List α) (a n : Nat) (bs : List Nat)
    (ha : a + n ≤ mem.length) (hb : ∀ b ∈ bs, b + n ≤ mem.length ∧ (a ≤ b ∨ b + n ≤ a)) :
    ∃ m, generateMem (fun args (log : List (List α)) => (f args, log ++ [args])) mem [] a n bs =
      .ok (m, (List.range n).map fun i => bs.filterMap fun b => mem[b + i]?) := by
  obtain ⟨m, h1, _⟩ := C27_generate (fun args (log : List (List α)) => (f args, log ++ [args])) mem [] a n bs ha hb
  refine ⟨m, ?_⟩
  rw [h1]
  have : ∀ (rows log : List (List α)),
      (callInOrder (fun args (log : List (List α)) => (f args, log ++ [args])) rows log).2 = log ++ rows := by
    intro rows
    induction rows with
    | nil => simp [callInOrder]
    | cons r rows ih => intro log; simp [callInOrder, ih]
  rw [this]
  rfl

/-- Non-vacuity of C27: `c.generate(x + y + number of previous calls, a, b)`, and `apply`. -/
example : generateMem (fun args k => (args.sum + k, k + 1)) [0, 0, 0, 1, 2, 3, 10, 20, 30] 0 0 3 [3, 6] =
      .ok ([11, 23, 35, 1, 2, 3, 10, 20, 30], 3) ∧
    applyMem (fun args k => (args.sum + k, k + 1)) [5, 6, 7, 1, 2, 3] 0 0 3 [3] = .ok ([6, 9, 12, 1, 2, 3], 3) :=
  ⟨rfl, rfl⟩

end Litl
