import Verif.Model.Fill
import Verif.Lemmas.Arithmetic
import Mathlib.Order.Defs.LinearOrder
import Mathlib.Order.Basic

/-!
# C29, C34, C61: extrema, printing, dimension changes
-/

namespace Litl

open Container

variable {α : Type}

/-- `(x, i)` is an element of `l`, less than or equal to all of them, and the first such one. -/
def Spec.FirstMin [LinearOrder α] (l : List α) (x : α) (i : Nat) : Prop :=
  l[i]? = some x ∧ (∀ y ∈ l, x ≤ y) ∧ ∀ j y, j < i → l[j]? = some y → x < y

/-- `(x, i)` is an element of `l`, greater than or equal to all of them, and the first such one. -/
def Spec.FirstMax [LinearOrder α] (l : List α) (x : α) (i : Nat) : Prop :=
  l[i]? = some x ∧ (∀ y ∈ l, y ≤ x) ∧ ∀ j y, j < i → l[j]? = some y → y < x

/-- `(x, i)` is an element of `l`, greater than or equal to all of them, and the last such one. -/
def Spec.LastMax [LinearOrder α] (l : List α) (x : α) (i : Nat) : Prop :=
  l[i]? = some x ∧ (∀ y ∈ l, y ≤ x) ∧ ∀ j y, i < j → l[j]? = some y → y < x

open Spec

theorem minLoop_spec [LinearOrder α] (pre l : List α) (x : α) (i : Nat) (h : FirstMin pre x i) :
    FirstMin (pre ++ l) (minLoop x i pre.length l).1 (minLoop x i pre.length l).2 := by
  induction l generalizing pre x i with
  | nil => simpa [minLoop] using h
  | cons y l ih =>
    obtain ⟨h1, h2, h3⟩ := h
    have hi : i < pre.length := (List.getElem?_eq_some_iff.1 h1).1
    rw [minLoop]
    split
    · rename_i hy
      have := ih (pre ++ [y]) y pre.length ⟨by simp, ?_, ?_⟩
      · simpa using this
      · intro z hz
        rcases List.mem_append.1 hz with hz | hz
        · exact (hy.trans_le (h2 z hz)).le
        · simp at hz; exact hz ▸ le_rfl
      · intro j z hj hz
        rw [List.getElem?_append_left hj] at hz
        exact hy.trans_le (h2 z (List.mem_of_getElem? hz))
    · rename_i hy
      have := ih (pre ++ [y]) x i ⟨by rw [List.getElem?_append_left hi]; exact h1, ?_, ?_⟩
      · simpa using this
      · intro z hz
        rcases List.mem_append.1 hz with hz | hz
        · exact h2 z hz
        · simp at hz; exact hz ▸ not_lt.1 hy
      · intro j z hj hz
        rw [List.getElem?_append_left (by omega)] at hz
        exact h3 j z hj hz

theorem maxLoop_spec [LinearOrder α] (pre l : List α) (x : α) (i : Nat) (h : FirstMax pre x i) :
    FirstMax (pre ++ l) (maxLoop x i pre.length l).1 (maxLoop x i pre.length l).2 := by
  induction l generalizing pre x i with
  | nil => simpa [maxLoop] using h
  | cons y l ih =>
    obtain ⟨h1, h2, h3⟩ := h
    have hi : i < pre.length := (List.getElem?_eq_some_iff.1 h1).1
    rw [maxLoop]
    split
    · rename_i hy
      have := ih (pre ++ [y]) y pre.length ⟨by simp, ?_, ?_⟩
      · simpa using this
      · intro z hz
        rcases List.mem_append.1 hz with hz | hz
        · exact ((h2 z hz).trans_lt hy).le
        · simp at hz; exact hz ▸ le_rfl
      · intro j z hj hz
        rw [List.getElem?_append_left hj] at hz
        exact (h2 z (List.mem_of_getElem? hz)).trans_lt hy
    · rename_i hy
      have := ih (pre ++ [y]) x i ⟨by rw [List.getElem?_append_left hi]; exact h1, ?_, ?_⟩
      · simpa using this
      · intro z hz
        rcases List.mem_append.1 hz with hz | hz
        · exact h2 z hz
        · simp at hz; exact hz ▸ not_lt.1 hy
      · intro j z hj hz
        rw [List.getElem?_append_left (by omega)] at hz
        exact h3 j z hj hz

theorem lastMaxLoop_spec [LinearOrder α] (pre l : List α) (x : α) (i : Nat) (h : LastMax pre x i) :
    LastMax (pre ++ l) (lastMaxLoop x i pre.length l).1 (lastMaxLoop x i pre.length l).2 := by
  induction l generalizing pre x i with
  | nil => simpa [lastMaxLoop] using h
  | cons y l ih =>
    obtain ⟨h1, h2, h3⟩ := h
    have hi : i < pre.length := (List.getElem?_eq_some_iff.1 h1).1
    rw [lastMaxLoop]
    split
    · rename_i hy
      have := ih (pre ++ [y]) y pre.length ⟨by simp, ?_, ?_⟩
      · simpa using this
      · intro z hz
        rcases List.mem_append.1 hz with hz | hz
        · exact (h2 z hz).trans (not_lt.1 hy)
        · simp at hz; exact hz ▸ le_rfl
      · intro j z hj hz
        rw [List.getElem?_eq_none (by simp; omega)] at hz
        cases hz
    · rename_i hy
      have := ih (pre ++ [y]) x i ⟨by rw [List.getElem?_append_left hi]; exact h1, ?_, ?_⟩
      · simpa using this
      · intro z hz
        rcases List.mem_append.1 hz with hz | hz
        · exact h2 z hz
        · simp at hz; exact hz ▸ (not_not.1 hy).le
      · intro j z hj hz
        by_cases hj' : j < pre.length
        · rw [List.getElem?_append_left hj'] at hz
          exact h3 j z hj hz
        · rw [List.getElem?_append_right (by omega)] at hz
          have := List.mem_of_getElem? hz
          simp at this
          exact this ▸ not_not.1 hy

/-- **C29**: `min()` is a reference to the first minimum. -/
theorem C29_min [LinearOrder α] (l : List α) (h : l ≠ []) :
    ∃ x i, Container.min l = .ok (x, i) ∧ FirstMin l x i := by
  cases l with
  | nil => exact absurd rfl h
  | cons x l =>
    exact ⟨_, _, rfl, minLoop_spec [x] l x 0 ⟨rfl, by simp, fun j y hj => by omega⟩⟩

/-- **C29**: `max()` is a reference to the first maximum. -/
theorem C29_max [LinearOrder α] (l : List α) (h : l ≠ []) :
    ∃ x i, Container.max l = .ok (x, i) ∧ FirstMax l x i := by
  cases l with
  | nil => exact absurd rfl h
  | cons x l =>
    exact ⟨_, _, rfl, maxLoop_spec [x] l x 0 ⟨rfl, by simp, fun j y hj => by omega⟩⟩

/-- **C29**: `minmax()` is a pair of references to the first minimum and to the *last* maximum. -/
theorem C29_minmax [LinearOrder α] (l : List α) (h : l ≠ []) :
    ∃ x i y j, Container.minmax l = .ok ((x, i), (y, j)) ∧ FirstMin l x i ∧ LastMax l y j := by
  cases l with
  | nil => exact absurd rfl h
  | cons x l =>
    refine ⟨_, _, _, _, rfl, minLoop_spec [x] l x 0 ⟨rfl, by simp, fun j y hj => by omega⟩,
      lastMaxLoop_spec [x] l x 0 ⟨rfl, by simp, fun j y hj hy => ?_⟩⟩
    rw [List.getElem?_eq_none (by simp; omega)] at hy
    cases hy

/-- **C29**: the values of `minmax()` are those of `min()` and `max()`. -/
theorem C29_same_values [LinearOrder α] (l : List α) (h : l ≠ []) :
    ∃ x y i i' j j', Container.min l = .ok (x, i) ∧ Container.max l = .ok (y, j) ∧
      Container.minmax l = .ok ((x, i'), (y, j')) ∧ x ∈ l ∧ y ∈ l ∧ ∀ z ∈ l, x ≤ z ∧ z ≤ y := by
  obtain ⟨x, i, h1, m1⟩ := C29_min l h
  obtain ⟨y, j, h2, m2⟩ := C29_max l h
  obtain ⟨x', i', y', j', h3, m3, m4⟩ := C29_minmax l h
  have hx := List.mem_of_getElem? m1.1
  have hy := List.mem_of_getElem? m2.1
  have ex : x' = x := le_antisymm (m3.2.1 x hx) (m1.2.1 x' (List.mem_of_getElem? m3.1))
  have ey : y' = y := le_antisymm (m2.2.1 y' (List.mem_of_getElem? m4.1)) (m4.2.1 y hy)
  subst ex ey
  exact ⟨x', y', i, i', j, j', h1, h2, h3, hx, hy, fun z hz => ⟨m1.2.1 z hz, m2.2.1 z hz⟩⟩

/-- **C29**: an empty container has no extrema. -/
theorem C29_empty [LinearOrder α] :
    Container.min ([] : List α) = .error .ub ∧ Container.max ([] : List α) = .error .ub ∧
      Container.minmax ([] : List α) = .error .ub := ⟨rfl, rfl, rfl⟩

/-- Non-vacuity of C29: repeated extrema. -/
example : ([3, 1, 4, 1, 4] : List Nat) ≠ [] ∧ Container.min [3, 1, 4, 1, 4] = .ok (1, 1) ∧
    Container.max [3, 1, 4, 1, 4] = .ok (4, 2) ∧ Container.minmax [3, 1, 4, 1, 4] = .ok ((1, 1), (4, 4)) :=
  ⟨by decide, rfl, rfl, rfl⟩

/-- The chunks of a comma-separated list. -/
def Spec.commas (l : List String) : List String := l.intersperse ", "

theorem printLoop_eq (str : α → String) (data : List α) (i stop : Nat) (h : stop ≤ data.length) :
    printLoop str data i stop = .ok (((data.take stop).drop i).flatMap fun x => [", ", str x]) := by
  rw [printLoop]
  have key : ∀ (n i : Nat) (out : List String), i + n ≤ data.length →
      (List.range' i n).foldlM (fun out (j : Nat) => do
        let x ← readAt data (j : Int)
        return out ++ [", ", str x]) out =
        (.ok (out ++ ((data.drop i).take n).flatMap fun x => [", ", str x]) : Res (List String)) := by
    intro n
    induction n with
    | zero => intro i out _; simp; rfl
    | succ n ih =>
      intro i out hi
      rw [List.range'_succ, List.foldlM_cons, readAt_nat_ok (by omega), ok_bind]
      change (List.range' (i + 1) n).foldlM _ _ = _
      rw [ih (i + 1) _ (by omega), List.drop_eq_getElem_cons (show i < data.length by omega), List.take_succ_cons]
      simp
  by_cases hi : i ≤ stop
  · rw [key (stop - i) i [] (by omega), List.drop_take]
    rfl
  · rw [show stop - i = 0 by omega, List.drop_eq_nil_of_le (by simp; omega)]
    rfl

theorem flatMap_commas (str : α → String) (x : α) (l : List α) :
    str x :: (l.flatMap fun x => [", ", str x]) = Spec.commas ((x :: l).map str) := by
  induction l generalizing x with
  | nil => rfl
  | cons y l ih =>
    rw [List.flatMap_cons]
    have := ih y
    simp only [Spec.commas, List.map_cons, List.intersperse_cons_cons] at this ⊢
    rw [← this]
    rfl

/-- **C34**: at most 7 elements are all printed, in order. -/
theorem C34_short (str : α → String) (data : List α) (h : data.length ≤ 7) :
    print str data = .ok ("[" :: commas (data.map str) ++ ["]"]) := by
  cases data with
  | nil => rfl
  | cons x l =>
    rw [print, if_neg (by simp), readAt_nat_ok (by simp), ok_bind, if_neg (by omega), ok_bind]
    simp only [Nat.zero_add]
    rw [printLoop_eq _ _ _ _ le_rfl, ok_bind, List.take_length, ← flatMap_commas]
    simp
    rfl

/-- **C34**: for more than 7 elements, the first three and the last three are printed; since there are more than 6
elements, none is printed twice. -/
theorem C34_long (str : α → String) (data : List α) (h : 7 < data.length) :
    print str data =
      .ok ("[" :: commas ((data.take 3).map str) ++ [" ... "] ++
        commas ((data.drop (data.length - 3)).map str) ++ ["]"]) := by
  match data, h with
  | x0 :: x1 :: x2 :: l, h =>
    have hl : 4 < l.length := by simp at h; omega
    rw [print, if_neg (by simp), readAt_nat_ok (by simp), ok_bind, if_pos h, printLoop_eq _ _ _ _ (by simp), ok_bind,
      readAt_nat_ok (by simp; omega), ok_bind]
    change (do let tail ← printLoop str _ (_ - 3 + 1) _; _) = _
    rw [printLoop_eq _ _ _ _ le_rfl, ok_bind, List.take_length,
      List.drop_eq_getElem_cons (show (x0 :: x1 :: x2 :: l).length - 3 < (x0 :: x1 :: x2 :: l).length by omega),
      ← flatMap_commas]
    simp [commas]
    rfl

/-- **C34**: what is printed of a long container: 6 distinct indices. -/
theorem C34_no_duplicate (n : Nat) (h : 7 < n) :
    ((List.range n).take 3 ++ (List.range n).drop (n - 3)).Nodup := by
  have h1 : ((List.range n).take 3 ++ (List.range n).drop (n - 3)).Sublist (List.range n) := by
    have := List.take_append_drop 3 (List.range n)
    conv => rhs; rw [← this]
    refine List.Sublist.append (List.Sublist.refl _) ?_
    have h2 : (List.range n).drop (n - 3) = ((List.range n).drop 3).drop (n - 6) := by
      rw [List.drop_drop]; congr 1; omega
    rw [h2]
    exact List.drop_sublist _ _
  exact h1.nodup List.nodup_range

/-- Non-vacuity of C34. -/
example : print (fun n : Nat => toString n) [1, 2] = .ok ["[", "1", ", ", "2", "]"] ∧
    print (fun n : Nat => toString n) [1, 2, 3, 4, 5, 6, 7, 8] =
      .ok ["[", "1", ", ", "2", ", ", "3", " ... ", "6", ", ", "7", ", ", "8", "]"] := ⟨rfl, rfl⟩

theorem mapM_readAt (v : List α) : ∀ (n i : Nat), i + n ≤ v.length →
    (List.range' i n).mapM (fun j : Nat => readAt v (j : Int)) = .ok ((v.drop i).take n) := by
  intro n
  induction n with
  | zero => intro i _; simp; rfl
  | succ n ih =>
    intro i hi
    rw [List.range'_succ, List.mapM_cons, readAt_nat_ok (by omega), ok_bind, ih (i + 1) (by omega),
      List.drop_eq_getElem_cons (show i < v.length by omega), List.take_succ_cons]
    rfl

/-- **C61**: `slice<M>()` keeps the first `M` coordinates. -/
theorem C61_slice (v : List α) (M : Nat) (h : M ≤ v.length) :
    ∃ w, slice M v = .ok w ∧ w.length = M ∧ w <+: v := by
  refine ⟨v.take M, ?_, by simp [h], List.take_prefix _ _⟩
  rw [slice, List.range_eq_range', mapM_readAt v M 0 (by omega)]
  simp

/-- **C61**: slicing to a higher dimension reads out of bounds. -/
theorem C61_slice_too_long (v : List α) (M : Nat) (h : v.length < M) : slice M v = .error .ub := by
  obtain ⟨k, rfl⟩ : ∃ k, M = v.length + (k + 1) := ⟨M - v.length - 1, by omega⟩
  rw [slice, List.range_eq_range', ← List.range'_append, List.mapM_append, mapM_readAt v _ 0 (by omega), ok_bind,
    List.range'_succ, List.mapM_cons, readAt_ub (by right; simp)]
  rfl

/-- **C61**: `extend<M>(padding)` keeps the coordinates and takes the missing ones from the padding. -/
theorem C61_extend (v padding : List α) (h : v.length ≤ padding.length) :
    extend v padding = .ok (v ++ padding.drop v.length) := by
  obtain ⟨m, h1, hl, h2⟩ := foldlM_range_inv
    (body := fun (res : List α) (i : Nat) => do let x ← readAt v ((i : Nat) : Int); writeAt res ((i : Nat) : Int) x)
    (b := padding) (n := v.length)
    (P := fun i (m : List α) => ∃ hl : m.length = padding.length, ∀ k, m[k]? = if k < i then v[k]? else padding[k]?)
    ⟨rfl, fun k => by simp⟩ (by
      rintro i m hi ⟨hl, hm⟩
      refine ⟨m.set i v[i], ?_, by simpa using hl, fun k => ?_⟩
      · rw [readAt_nat_ok hi, ok_bind, writeAt_nat_ok (by omega)]
      · rw [List.getElem?_set]
        by_cases e : i = k
        · subst e
          rw [if_pos rfl, if_pos (by omega), if_pos (by omega), List.getElem?_eq_getElem hi]
        · rw [if_neg e, hm k]
          by_cases hc : k < i
          · rw [if_pos hc, if_pos (by omega)]
          · rw [if_neg hc, if_neg (by omega)])
  rw [extend, h1]
  congr 1
  apply List.ext_getElem?
  intro k
  rw [h2 k]
  split
  · rename_i hk
    rw [List.getElem?_append_left hk]
  · rw [List.getElem?_append_right (by omega), List.getElem?_drop]
    congr 1
    omega

/-- **C61**: slicing an extended vector gives it back. -/
theorem C61_round_trip (v padding : List α) (h : v.length ≤ padding.length) :
    (do let w ← extend v padding; slice v.length w) = .ok v := by
  rw [C61_extend v padding h, ok_bind]
  obtain ⟨w, h1, h2, h3⟩ := C61_slice (v ++ padding.drop v.length) v.length (by simp)
  rw [h1, List.prefix_iff_eq_take.1 h3, h2]
  simp

/-- **C61**: extending a slice with the original vector as padding gives it back. -/
theorem C61_round_trip' (v : List α) (M : Nat) (h : M ≤ v.length) :
    (do let w ← slice M v; extend w v) = .ok v := by
  obtain ⟨w, h1, h2, h3⟩ := C61_slice v M h
  rw [h1, ok_bind, C61_extend w v (by omega)]
  obtain ⟨t, rfl⟩ := h3
  simp

/-- **C61**: extending to a lower dimension writes out of bounds. -/
theorem C61_extend_too_short (v padding : List α) (h : padding.length < v.length) :
    extend v padding = .error .ub := by
  obtain ⟨m, h1, hl⟩ := foldlM_range_inv
    (body := fun (res : List α) (i : Nat) => do let x ← readAt v ((i : Nat) : Int); writeAt res ((i : Nat) : Int) x)
    (b := padding) (n := padding.length) (P := fun i (m : List α) => m.length = padding.length) rfl (by
      intro i m hi hm
      exact ⟨m.set i (v[i]'(by omega)), by rw [readAt_nat_ok (by omega), ok_bind, writeAt_nat_ok (by omega)],
        by simpa using hm⟩)
  obtain ⟨k, hk⟩ : ∃ k, v.length = padding.length + (k + 1) := ⟨v.length - padding.length - 1, by omega⟩
  rw [extend, hk, List.range_eq_range', ← List.range'_append, List.foldlM_append, ← List.range_eq_range', h1, ok_bind,
    List.range'_succ, List.foldlM_cons, readAt_nat_ok (by omega), ok_bind, writeAt_ub (by right; simp [hl])]
  rfl

/-- Non-vacuity of C61. -/
example : slice 2 [3, 4, 5] = .ok [3, 4] ∧ extend [3, 4] [0, 0, 7] = .ok [3, 4, 7] ∧ slice 3 [3, 4] = .error .ub :=
  ⟨rfl, rfl, rfl⟩

end Litl
