import Verif.Props.Arithmetic
import Verif.Props.Math
import Verif.Spec.NewInstance

/-!
# C116: new-instance operators and functions do not modify their operands
-/

namespace Litl

open Spec Container Holder

variable {α : Type}

/-- The full property: whatever the kind of containers, an expression of new-instance operators and functions has the expected
value, and does not modify the containers. -/
def C116_Statement : Prop :=
  ∀ (owning : Bool) (n : Nat) (mem : List Int) (e : Expr Int), ExprValid n mem e →
    ∃ m r, e.eval owning mem = .ok (m, r) ∧ elements m r.address r.size = exprValue mem e ∧
      ∀ v ∈ exprLeaves e, elements m v.address v.size = elements mem v.address v.size

/-! ## Containers which own their elements -/

theorem Spec.ExprValid.append {n : Nat} {mem l : List α} {e : Expr α} (h : ExprValid n mem e) : ExprValid n (mem ++ l) e := by
  intro v hv
  have := h v hv
  rw [List.length_append]
  omega

theorem Spec.ExprValid.left {n : Nat} {mem : List α} {b op} {l r : Expr α} (h : ExprValid n mem (.binary b op l r)) :
    ExprValid n mem l := fun v hv => h v (by simp [exprLeaves, hv])

theorem Spec.ExprValid.right {n : Nat} {mem : List α} {b op} {l r : Expr α} (h : ExprValid n mem (.binary b op l r)) :
    ExprValid n mem r := fun v hv => h v (by simp [exprLeaves, hv])

theorem exprValue_append {n : Nat} {mem l : List α} : ∀ {e : Expr α}, ExprValid n mem e →
    exprValue (mem ++ l) e = exprValue mem e
  | .leaf v, h => by
    obtain ⟨h1, h2⟩ := h v (by simp [exprLeaves])
    exact elements_append_left _ _ _ _ (by omega)
  | .unary f e, h => by
    show List.map f _ = List.map f _
    rw [exprValue_append (e := e) h]
  | .binary b op l r, h => by
    show List.zipWith op _ _ = List.zipWith op _ _
    rw [exprValue_append h.left, exprValue_append h.right]

/-- A new-instance operator for owning containers. -/
theorem newBinary_owning (op : α → α → α) {mem : List α} {v u : View} {n : Nat} (hv : v.size = n) (hva : v.address + n ≤ mem.length)
    (hu : u.address + n ≤ mem.length) :
    newBinary true op mem v u = .ok (mem ++ List.zipWith op (elements mem v.address n) (elements mem u.address n), ⟨mem.length, n⟩) := by
  have hl := length_elements mem v.address n hva
  have e : (mem.drop v.address).take n = elements mem v.address n := rfl
  simp only [newBinary, copy, if_true, hv, e]
  obtain ⟨m, h1, h2, h3, h4⟩ := C24_in_place op (mem ++ elements mem v.address n) mem.length u.address n
    (by rw [List.length_append]; omega) (by rw [List.length_append]; omega) (by omega)
  have h5 := new_memory (mem := mem) (m := m) (l := elements mem v.address n) (by rw [h2, List.length_append]) (by rw [hl]; exact h4)
  rw [hl, h3] at h5
  rw [elements_append_left mem _ u.address n hu] at h5
  have e2 : elements (mem ++ elements mem v.address n) mem.length n = elements mem v.address n := by
    have := elements_append_right mem (elements mem v.address n)
    rwa [hl] at this
  rw [e2] at h5
  rw [h1, ← h5]
  rfl

theorem newUnary_owning (f : α → α) {mem : List α} {v : View} {n : Nat} (hv : v.size = n) (hva : v.address + n ≤ mem.length) :
    newUnary true f mem v = .ok (mem ++ (elements mem v.address n).map f, ⟨mem.length, n⟩) := by
  have hl := length_elements mem v.address n hva
  have e : (mem.drop v.address).take n = elements mem v.address n := rfl
  simp only [newUnary, copy, if_true, hv, e]
  obtain ⟨m, h1, h2, h3, h4⟩ := C69_unary f (mem ++ elements mem v.address n) mem.length n (by rw [List.length_append]; omega)
  have h5 := new_memory (mem := mem) (m := m) (l := elements mem v.address n) (by rw [h2, List.length_append]) (by rw [hl]; exact h4)
  rw [hl, h3] at h5
  have e2 : elements (mem ++ elements mem v.address n) mem.length n = elements mem v.address n := by
    have := elements_append_right mem (elements mem v.address n)
    rwa [hl] at this
  rw [e2] at h5
  rw [h1, ← h5]
  rfl

/-- **C116**: for owning containers, the existing memory is not modified and the value is right, whatever the order of
evaluation. -/
theorem C116_owning {n : Nat} : ∀ (e : Expr α) (mem : List α), ExprValid n mem e →
    ∃ l r, e.eval true mem = .ok (mem ++ l, r) ∧ r.size = n ∧ r.address + n ≤ (mem ++ l).length ∧
      elements (mem ++ l) r.address n = exprValue mem e
  | .leaf v, mem, h => by
    obtain ⟨h1, h2⟩ := h v (by simp [exprLeaves])
    refine ⟨[], v, by rw [List.append_nil]; rfl, h1, by rw [List.append_nil]; exact h2, ?_⟩
    rw [List.append_nil, ← h1]
    rfl
  | .unary f e, mem, h => by
    obtain ⟨l, r, h1, h2, h3, h4⟩ := C116_owning e mem h
    refine ⟨l ++ (exprValue mem e).map f, ⟨(mem ++ l).length, n⟩, ?_, rfl, ?_, ?_⟩
    · rw [Expr.eval, h1, ok_bind]
      show newUnary true f _ _ = _
      rw [newUnary_owning f h2 h3, h4, List.append_assoc]
    · rw [← h4, ← List.append_assoc, List.length_append (as := mem ++ l), List.length_map, length_elements _ _ _ h3]
    · have hl : ((exprValue mem e).map f).length = n := by rw [← h4, List.length_map, length_elements _ _ _ h3]
      have := elements_append_right (mem ++ l) ((exprValue mem e).map f)
      rw [hl] at this
      rw [← List.append_assoc]
      exact this
  | .binary b op l r, mem, h => by
    have key : ∀ (m : List α) (v u : View), v.size = n → v.address + n ≤ (mem ++ m).length → u.address + n ≤ (mem ++ m).length →
        elements (mem ++ m) v.address n = exprValue mem l → elements (mem ++ m) u.address n = exprValue mem r →
        ∃ k w, newBinary true op (mem ++ m) v u = .ok (mem ++ k, w) ∧ w.size = n ∧ w.address + n ≤ (mem ++ k).length ∧
          elements (mem ++ k) w.address n = exprValue mem (.binary b op l r) := by
      intro m v u h1 h2 h3 h4 h5
      have hl : (List.zipWith op (exprValue mem l) (exprValue mem r)).length = n := by
        rw [List.length_zipWith, ← h4, ← h5, length_elements _ _ _ h2, length_elements _ _ _ h3, min_self]
      refine ⟨m ++ List.zipWith op (exprValue mem l) (exprValue mem r), ⟨(mem ++ m).length, n⟩, ?_, rfl, ?_, ?_⟩
      · rw [newBinary_owning op h1 h2 h3, h4, h5, List.append_assoc]
      · rw [← List.append_assoc, List.length_append (as := mem ++ m), hl]
      · have := elements_append_right (mem ++ m) (List.zipWith op (exprValue mem l) (exprValue mem r))
        rw [hl] at this
        rw [← List.append_assoc]
        exact this
    cases b with
    | true =>
      obtain ⟨m1, v, a1, a2, a3, a4⟩ := C116_owning l mem h.left
      obtain ⟨m2, u, b1, b2, b3, b4⟩ := C116_owning r (mem ++ m1) h.right.append
      rw [exprValue_append h.right] at b4
      rw [List.append_assoc] at b1 b3 b4
      have a3' : v.address + n ≤ (mem ++ (m1 ++ m2)).length := by
        rw [← List.append_assoc, List.length_append (as := mem ++ m1)]; omega
      have a4' : elements (mem ++ (m1 ++ m2)) v.address n = exprValue mem l := by
        rw [← List.append_assoc, elements_append_left _ _ _ _ a3, a4]
      obtain ⟨k, w, c1, c2⟩ := key _ v u a2 a3' b3 a4' b4
      refine ⟨k, w, ?_, c2⟩
      rw [Expr.eval, if_pos rfl, a1, ok_bind]
      show (Expr.eval true r (mem ++ m1) >>= _) = _
      rw [b1, ok_bind]
      exact c1
    | false =>
      obtain ⟨m1, u, a1, a2, a3, a4⟩ := C116_owning r mem h.right
      obtain ⟨m2, v, b1, b2, b3, b4⟩ := C116_owning l (mem ++ m1) h.left.append
      rw [exprValue_append h.left] at b4
      rw [List.append_assoc] at b1 b3 b4
      have a3' : u.address + n ≤ (mem ++ (m1 ++ m2)).length := by
        rw [← List.append_assoc, List.length_append (as := mem ++ m1)]; omega
      have a4' : elements (mem ++ (m1 ++ m2)) u.address n = exprValue mem r := by
        rw [← List.append_assoc, elements_append_left _ _ _ _ a3, a4]
      obtain ⟨k, w, c1, c2⟩ := key _ v u b2 b3 a3' b4 a4'
      refine ⟨k, w, ?_, c2⟩
      rw [Expr.eval, if_neg (by decide), a1, ok_bind]
      show (Expr.eval true l (mem ++ m1) >>= _) = _
      rw [b1, ok_bind]
      exact c1

/-- Thus the property holds for owning containers.

Missing: views, for which it does not, see `C116_violated` and `C116_views_partial`. -/
theorem C116_owning_partial {n : Nat} {mem : List α} {e : Expr α} (h : ExprValid n mem e) :
    ∃ m r, e.eval true mem = .ok (m, r) ∧ elements m r.address r.size = exprValue mem e ∧
      ∀ v ∈ exprLeaves e, elements m v.address v.size = elements mem v.address v.size := by
  obtain ⟨l, r, h1, h2, h3, h4⟩ := C116_owning e mem h
  refine ⟨_, r, h1, by rw [h2]; exact h4, fun v hv => ?_⟩
  obtain ⟨h5, h6⟩ := h v hv
  exact elements_append_left _ _ _ _ (by omega)

/-! ## Views -/

/-- For views, the left operand of an operator is replaced with the result, which is a view of the same elements. -/
theorem C116_view_binary (op : α → α → α) {mem : List α} {v u : View} (hv : v.address + v.size ≤ mem.length)
    (hu : u.address + v.size ≤ mem.length) (h : v.address ≤ u.address ∨ u.address + v.size ≤ v.address) :
    ∃ m, newBinary false op mem v u = .ok (m, v) ∧ m.length = mem.length ∧
      elements m v.address v.size = List.zipWith op (elements mem v.address v.size) (elements mem u.address v.size) ∧
      SameOutside mem m v.address v.size := by
  obtain ⟨m, h1, h2, h3, h4⟩ := C24_in_place op mem v.address u.address v.size hv hu h
  refine ⟨m, ?_, h2, h3, h4⟩
  simp only [newBinary, copy, Bool.false_eq_true, if_false]
  rw [h1]
  rfl

/-- So is the argument of a function. -/
theorem C116_view_unary (f : α → α) {mem : List α} {v : View} (hv : v.address + v.size ≤ mem.length) :
    ∃ m, newUnary false f mem v = .ok (m, v) ∧ m.length = mem.length ∧
      elements m v.address v.size = (elements mem v.address v.size).map f ∧ SameOutside mem m v.address v.size := by
  obtain ⟨m, h1, h2, h3, h4⟩ := C69_unary f mem v.address v.size hv
  refine ⟨m, ?_, h2, h3, h4⟩
  simp only [newUnary, copy, Bool.false_eq_true, if_false]
  rw [h1]
  rfl

/-- The argument is unchanged if, and only if, the function does nothing. -/
theorem C116_view_unchanged_iff (f : α → α) {mem : List α} {v : View} (hv : v.address + v.size ≤ mem.length) :
    (∃ m r, newUnary false f mem v = .ok (m, r) ∧ elements m v.address v.size = elements mem v.address v.size) ↔
      ∀ x ∈ elements mem v.address v.size, f x = x := by
  obtain ⟨m, h1, _, h3, _⟩ := C116_view_unary f hv
  constructor
  · rintro ⟨m', r, h, h'⟩ x hx
    rw [h1] at h
    obtain ⟨rfl, rfl⟩ := Prod.mk.inj (Except.ok.inj h)
    rw [h3] at h'
    obtain ⟨i, hi, rfl⟩ := List.getElem_of_mem hx
    have := List.getElem_of_eq h' (by simpa using hi)
    simpa using this
  · intro h
    refine ⟨m, v, h1, ?_⟩
    rw [h3]
    conv_rhs => rw [← List.map_id (elements mem v.address v.size)]
    exact List.map_congr_left h

theorem exprFirst_mem : ∀ e : Expr α, exprFirst e ∈ exprLeaves e
  | .leaf v => by simp [exprFirst, exprLeaves]
  | .unary _ e => exprFirst_mem e
  | .binary _ _ l r => List.mem_append_left _ (exprFirst_mem l)

theorem exprTargets_subset : ∀ {e : Expr α} {v : View}, v ∈ exprTargets e → v ∈ exprLeaves e
  | .leaf _, v, h => by simp [exprTargets] at h
  | .unary _ e, v, h => by
    rcases List.mem_cons.1 h with rfl | h
    · exact exprFirst_mem e
    · exact exprTargets_subset (e := e) h
  | .binary _ _ l r, v, h => by
    rcases List.mem_cons.1 h with rfl | h
    · exact List.mem_append_left _ (exprFirst_mem l)
    · rcases List.mem_append.1 h with h | h
      · exact List.mem_append_left _ (exprTargets_subset h)
      · exact List.mem_append_right _ (exprTargets_subset h)

theorem elements_congr {mem m : List α} {a n : Nat} (h : ∀ k, a ≤ k → k < a + n → m[k]? = mem[k]?) :
    elements m a n = elements mem a n := by
  apply List.ext_getElem?
  intro i
  rw [elements_getElem?, elements_getElem?]
  split
  · exact h _ (by omega) (by omega)
  · rfl

theorem exprValue_congr {n : Nat} {mem m : List α} : ∀ {e : Expr α}, (∀ v ∈ exprLeaves e, v.size = n) →
    (∀ v ∈ exprLeaves e, ∀ k, v.address ≤ k → k < v.address + n → m[k]? = mem[k]?) → exprValue m e = exprValue mem e
  | .leaf v, hs, h => by
    have := hs v (by simp [exprLeaves])
    exact elements_congr fun k h1 h2 => h v (by simp [exprLeaves]) k h1 (by omega)
  | .unary f e, hs, h => by
    show List.map f _ = List.map f _
    rw [exprValue_congr (e := e) hs h]
  | .binary b op l r, hs, h => by
    show List.zipWith op _ _ = List.zipWith op _ _
    rw [exprValue_congr (e := l) (fun v hv => hs v (List.mem_append_left _ hv)) (fun v hv => h v (List.mem_append_left _ hv)),
      exprValue_congr (e := r) (fun v hv => hs v (List.mem_append_right _ hv)) (fun v hv => h v (List.mem_append_right _ hv))]

/-- For views which do not share elements and occur once, the value is right, but the leftmost operand of each operation is
overwritten; nothing else is.

Missing: the operands themselves are overwritten, for which the property does not hold; the values of expressions in which a
view occurs twice are wrong, see `C116_twice` and `C116_functions`. -/
theorem C116_views_partial {n : Nat} : ∀ (e : Expr α) (mem : List α), ExprValid n mem e →
    (exprLeaves e).Pairwise (Apart n) →
    ∃ m, e.eval false mem = .ok (m, exprFirst e) ∧ m.length = mem.length ∧
      elements m (exprFirst e).address n = exprValue mem e ∧
      ∀ k, (∀ v ∈ exprTargets e, k < v.address ∨ v.address + n ≤ k) → m[k]? = mem[k]?
  | .leaf v, mem, h, _ => by
    obtain ⟨h1, _⟩ := h v (by simp [exprLeaves])
    exact ⟨mem, rfl, rfl, by rw [← h1]; rfl, fun _ _ => rfl⟩
  | .unary f e, mem, h, hp => by
    obtain ⟨m, h1, h2, h3, h4⟩ := C116_views_partial e mem h hp
    obtain ⟨h5, h6⟩ := h _ (exprFirst_mem e)
    obtain ⟨m', a1, a2, a3, a4⟩ := C116_view_unary f (mem := m) (v := exprFirst e) (by omega)
    rw [h5] at a3 a4
    refine ⟨m', ?_, by omega, by rw [show exprFirst (Expr.unary f e) = exprFirst e from rfl, a3, h3]; rfl, fun k hk => ?_⟩
    · rw [Expr.eval, h1, ok_bind]
      exact a1
    · rw [a4 k (hk _ (List.mem_cons_self ..)), h4 k fun v hv => hk v (List.mem_cons_of_mem _ hv)]
  | .binary b op l r, mem, h, hp => by
    obtain ⟨hpl, hpr, hlr⟩ := List.pairwise_append.1 hp
    obtain ⟨hl1, hl2⟩ := h.left _ (exprFirst_mem l)
    obtain ⟨hr1, hr2⟩ := h.right _ (exprFirst_mem r)
    have hap := hlr _ (exprFirst_mem l) _ (exprFirst_mem r)
    have key : ∀ m : List α, m.length = mem.length → elements m (exprFirst l).address n = exprValue mem l →
        elements m (exprFirst r).address n = exprValue mem r →
        (∀ k, (∀ v ∈ exprTargets l ++ exprTargets r, k < v.address ∨ v.address + n ≤ k) → m[k]? = mem[k]?) →
        ∃ m', newBinary false op m (exprFirst l) (exprFirst r) = .ok (m', exprFirst l) ∧ m'.length = mem.length ∧
          elements m' (exprFirst l).address n = exprValue mem (.binary b op l r) ∧
          ∀ k, (∀ v ∈ exprTargets (.binary b op l r), k < v.address ∨ v.address + n ≤ k) → m'[k]? = mem[k]? := by
      intro m c1 c2 c3 c4
      obtain ⟨m', d1, d2, d3, d4⟩ := C116_view_binary op (mem := m) (v := exprFirst l) (u := exprFirst r) (by omega) (by omega)
        (by rw [hl1]; rcases hap with h | h <;> omega)
      rw [hl1] at d3 d4
      refine ⟨m', d1, by omega, by rw [d3, c2, c3]; rfl, fun k hk => ?_⟩
      rw [d4 k (hk _ (List.mem_cons_self ..)), c4 k fun v hv => hk v (List.mem_cons_of_mem _ hv)]
    cases b with
    | true =>
      obtain ⟨m1, a1, a2, a3, a4⟩ := C116_views_partial l mem h.left hpl
      have hout : ∀ v ∈ exprLeaves r, ∀ k, v.address ≤ k → k < v.address + n → m1[k]? = mem[k]? := by
        intro v hv k k1 k2
        refine a4 k fun u hu => ?_
        rcases hlr u (exprTargets_subset hu) v hv with h | h <;> omega
      obtain ⟨m2, b1, b2, b3, b4⟩ := C116_views_partial r m1 (fun v hv => by rw [a2]; exact h.right v hv) hpr
      rw [exprValue_congr (n := n) (fun v hv => (h.right v hv).1) hout] at b3
      have a3' : elements m2 (exprFirst l).address n = exprValue mem l := by
        rw [← a3]
        refine elements_congr fun k k1 k2 => b4 k fun u hu => ?_
        rcases hlr _ (exprFirst_mem l) u (exprTargets_subset hu) with h | h <;> omega
      obtain ⟨m', d1, d2⟩ := key m2 (by omega) a3' b3 fun k hk => by
        rw [b4 k fun v hv => hk v (List.mem_append_right _ hv), a4 k fun v hv => hk v (List.mem_append_left _ hv)]
      refine ⟨m', ?_, d2⟩
      rw [Expr.eval, if_pos rfl, a1, ok_bind]
      show (Expr.eval false r m1 >>= _) = _
      rw [b1, ok_bind]
      exact d1
    | false =>
      obtain ⟨m1, a1, a2, a3, a4⟩ := C116_views_partial r mem h.right hpr
      have hout : ∀ v ∈ exprLeaves l, ∀ k, v.address ≤ k → k < v.address + n → m1[k]? = mem[k]? := by
        intro v hv k k1 k2
        refine a4 k fun u hu => ?_
        rcases hlr v hv u (exprTargets_subset hu) with h | h <;> omega
      obtain ⟨m2, b1, b2, b3, b4⟩ := C116_views_partial l m1 (fun v hv => by rw [a2]; exact h.left v hv) hpl
      rw [exprValue_congr (n := n) (fun v hv => (h.left v hv).1) hout] at b3
      have a3' : elements m2 (exprFirst r).address n = exprValue mem r := by
        rw [← a3]
        refine elements_congr fun k k1 k2 => b4 k fun u hu => ?_
        rcases hlr u (exprTargets_subset hu) _ (exprFirst_mem r) with h | h <;> omega
      obtain ⟨m', d1, d2⟩ := key m2 (by omega) b3 a3' fun k hk => by
        rw [b4 k fun v hv => hk v (List.mem_append_left _ hv), a4 k fun v hv => hk v (List.mem_append_right _ hv)]
      refine ⟨m', ?_, d2⟩
      rw [Expr.eval, if_neg (by decide), a1, ok_bind]
      show (Expr.eval false l m1 >>= _) = _
      rw [b1, ok_bind]
      exact d1

/-- `a + b - a` is 0 for views, instead of `b`, whatever the order of evaluation. -/
theorem C116_twice [AddGroup α] (o o' : Bool) {n : Nat} {mem : List α} {v u : View} (hv : v.size = n) (hva : v.address + n ≤ mem.length)
    (hua : u.address + n ≤ mem.length) (h : Apart n v u) :
    ∃ m, (Expr.binary o (· - ·) (.binary o' (· + ·) (.leaf v) (.leaf u)) (.leaf v)).eval false mem = .ok (m, v) ∧
      elements m v.address n = List.replicate n 0 := by
  obtain ⟨m, h1, h2, h3, h4⟩ := C116_view_binary (· + ·) (mem := mem) (v := v) (u := u) (by omega) (by omega)
    (by rw [hv]; rcases h with h | h <;> omega)
  obtain ⟨m', h5, h6, h7, h8⟩ := C116_view_binary (· - ·) (mem := m) (v := v) (u := v) (by omega) (by omega) (.inl le_rfl)
  have e1 : (Expr.binary o' (· + ·) (.leaf v) (.leaf u)).eval false mem = .ok (m, v) := by
    cases o' <;> exact h1
  refine ⟨m', ?_, ?_⟩
  · cases o
    · rw [Expr.eval, if_neg (by decide), Expr.eval, ok_bind]
      show (Expr.eval false _ mem >>= _) = _
      rw [e1, ok_bind]
      exact h5
    · rw [Expr.eval, if_pos rfl, e1, ok_bind]
      exact h5
  · rw [hv] at h7
    rw [h7, List.zipWith_self]
    refine List.eq_replicate_iff.2 ⟨by rw [List.length_map, length_elements _ _ _ (by omega)], fun x hx => ?_⟩
    obtain ⟨y, _, rfl⟩ := List.mem_map.1 hx
    exact sub_self y

/-- `f(a) + g(a)` depends on the order of evaluation for views, and both operands are `g(f(a))` or `f(g(a))`. -/
theorem C116_functions (o : Bool) (op : α → α → α) (f g : α → α) {n : Nat} {mem : List α} {v : View} (hv : v.size = n)
    (hva : v.address + n ≤ mem.length) :
    ∃ m, (Expr.binary o op (.unary f (.leaf v)) (.unary g (.leaf v))).eval false mem = .ok (m, v) ∧
      elements m v.address n =
        (elements mem v.address n).map fun x => if o then op (g (f x)) (g (f x)) else op (f (g x)) (f (g x)) := by
  cases o with
  | true =>
    obtain ⟨m1, a1, a2, a3, _⟩ := C116_view_unary f (mem := mem) (v := v) (by omega)
    obtain ⟨m2, b1, b2, b3, _⟩ := C116_view_unary g (mem := m1) (v := v) (by omega)
    obtain ⟨m3, c1, c2, c3, _⟩ := C116_view_binary op (mem := m2) (v := v) (u := v) (by omega) (by omega) (.inl le_rfl)
    refine ⟨m3, ?_, ?_⟩
    · rw [Expr.eval, if_pos rfl, Expr.eval, Expr.eval, ok_bind]
      show (newUnary false f mem v >>= _) = _
      rw [a1, ok_bind]
      show (Expr.eval false _ m1 >>= _) = _
      rw [Expr.eval, Expr.eval, ok_bind]
      show (newUnary false g m1 v >>= _) = _
      rw [b1, ok_bind]
      exact c1
    · rw [← hv, c3, List.zipWith_self, b3, a3, List.map_map, List.map_map]
      rfl
  | false =>
    obtain ⟨m1, a1, a2, a3, _⟩ := C116_view_unary g (mem := mem) (v := v) (by omega)
    obtain ⟨m2, b1, b2, b3, _⟩ := C116_view_unary f (mem := m1) (v := v) (by omega)
    obtain ⟨m3, c1, c2, c3, _⟩ := C116_view_binary op (mem := m2) (v := v) (u := v) (by omega) (by omega) (.inl le_rfl)
    refine ⟨m3, ?_, ?_⟩
    · rw [Expr.eval, if_neg (by decide), Expr.eval, Expr.eval, ok_bind]
      show (newUnary false g mem v >>= _) = _
      rw [a1, ok_bind]
      show (Expr.eval false _ m1 >>= _) = _
      rw [Expr.eval, Expr.eval, ok_bind]
      show (newUnary false f m1 v >>= _) = _
      rw [b1, ok_bind]
      exact c1
    · rw [← hv, c3, List.zipWith_self, b3, a3, List.map_map, List.map_map]
      rfl

/-- `V++` increments `V`, and returns the old elements if `V` owns them, but the new ones if it is a view. -/
theorem C116_postfix (f : α → α) {n : Nat} {mem : List α} {v : View} (hv : v.size = n) (hva : v.address + n ≤ mem.length) :
    (∃ m r, postIncrement true f mem v = .ok (m, r) ∧ elements m v.address n = (elements mem v.address n).map f ∧
      elements m r.address n = elements mem v.address n) ∧
    ∃ m, postIncrement false f mem v = .ok (m, v) ∧ elements m v.address n = (elements mem v.address n).map f := by
  constructor
  · have hl := length_elements mem v.address n hva
    have e : (mem.drop v.address).take n = elements mem v.address n := rfl
    obtain ⟨m, h1, h2, h3, h4⟩ := C69_unary f (mem ++ elements mem v.address n) v.address n (by rw [List.length_append]; omega)
    refine ⟨m, ⟨mem.length, n⟩, ?_, ?_, ?_⟩
    · simp only [postIncrement, copy, if_true, hv, e]
      rw [h1]
      rfl
    · rw [h3, elements_append_left _ _ _ _ hva]
    · have := elements_append_right mem (elements mem v.address n)
      rw [hl] at this
      rw [← this]
      exact elements_congr fun k k1 k2 => h4 k (by simp only at k1; omega)
  · obtain ⟨m, h1, h2, h3, h4⟩ := C69_unary f mem v.address n hva
    refine ⟨m, ?_, h3⟩
    simp only [postIncrement, copy, Bool.false_eq_true, if_false, hv]
    rw [h1]
    rfl

theorem C116_violated : ¬ C116_Statement := by
  intro h
  obtain ⟨m, r, h1, _, h3⟩ := h false 1 [1, 2] (.binary true (· + ·) (.leaf ⟨0, 1⟩) (.leaf ⟨1, 1⟩)) (by
    intro v hv
    simp only [exprLeaves, List.cons_append, List.nil_append, List.mem_cons, List.not_mem_nil, or_false] at hv
    rcases hv with rfl | rfl <;> exact ⟨rfl, by decide⟩)
  have e : (Expr.binary true (· + ·) (.leaf ⟨0, 1⟩) (.leaf ⟨1, 1⟩)).eval false [(1 : Int), 2] = .ok ([3, 2], ⟨0, 1⟩) := rfl
  rw [e] at h1
  obtain ⟨rfl, rfl⟩ := Prod.mk.inj (Except.ok.inj h1)
  have := h3 ⟨0, 1⟩ (by simp [exprLeaves])
  simp [elements] at this

/-! ## Examples -/

/-- `a * b + c` with three containers of two elements. -/
private def formula : Expr Int := .binary true (· + ·) (.binary true (· * ·) (.leaf ⟨0, 2⟩) (.leaf ⟨2, 2⟩)) (.leaf ⟨4, 2⟩)

example : ExprValid 2 [1, 2, 3, 4, 5, 6] formula ∧ (exprLeaves formula).Pairwise (Apart 2) := by
  constructor
  · intro v hv
    simp only [formula, exprLeaves, List.cons_append, List.nil_append, List.mem_cons, List.not_mem_nil, or_false] at hv
    rcases hv with rfl | rfl | rfl <;> exact ⟨rfl, by decide⟩
  · simp [formula, exprLeaves, Apart]

-- Owning containers: the value is (8, 14), and the variables are unchanged.
example : formula.eval true [1, 2, 3, 4, 5, 6] = .ok ([1, 2, 3, 4, 5, 6, 3, 8, 8, 14], ⟨8, 2⟩) := rfl

-- Views: the value is right, but `a` is overwritten.
example : formula.eval false [1, 2, 3, 4, 5, 6] = .ok ([8, 14, 3, 4, 5, 6], ⟨0, 2⟩) := rfl

-- `a++` returns the incremented elements for a view.
example : postIncrement false (· + 1) [(1 : Int), 2] ⟨0, 2⟩ = .ok ([2, 3], ⟨0, 2⟩) := rfl

end Litl
