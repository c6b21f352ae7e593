import Verif.Model.Holders
import Verif.Props.Arithmetic
import Verif.Props.RasterCtor
import Verif.Props.Index

/-!
# C70: construction of containers
-/

namespace Litl

open Spec Container Holder

variable {α : Type}

/-- The loop of `std::copy`. -/
theorem copyTo_append : ∀ (l pre mid post : List α), mid.length = l.length →
    copyTo l pre.length (pre ++ mid ++ post) = .ok (pre ++ l ++ post) := by
  intro l
  induction l with
  | nil =>
    intro pre mid post h
    obtain rfl : mid = [] := by simpa using h
    rfl
  | cons e l ih =>
    intro pre mid post h
    obtain _ | ⟨o, mid⟩ := mid
    · simp at h
    · rw [copyTo, writeAt_nat_ok (by simp), ok_bind]
      have := ih (pre ++ [e]) mid post (by simpa using h)
      simpa using this

theorem copyTo_ub : ∀ (l out : List α) (i : Nat), i ≤ out.length → out.length < i + l.length →
    copyTo l i out = .error .ub := by
  intro l
  induction l with
  | nil => intro out i h h'; simp at h'; omega
  | cons e l ih =>
    intro out i h h'
    rw [copyTo]
    by_cases hi : i < out.length
    · rw [writeAt_nat_ok hi, ok_bind]
      exact ih _ _ (by simp; omega) (by simp at h' ⊢; omega)
    · rw [writeAt, if_neg (by omega), if_neg (by simpa using hi)]
      rfl

/-- **C70**, in full: the size of a container is that with which it was constructed. -/
def C70_Statement : Prop :=
  ∀ (zero : Int) (kind : Kind) (n : Nat) (c : List Int), ofSize zero kind n none = .ok c → c.length = n

/-- **C70** is refuted: a container of size 0 based on `std::array<T, 3>` has size 3. -/
theorem C70_violated : ¬ C70_Statement := fun h => by
  have := h 0 (.array 3) 0 [0, 0, 0] rfl
  simp at this

/-- **C70**, partial: the size of a container is that with which it was constructed, and all of its elements are 0, except
for arrays with size 0, which have their own size. Missing: the latter. -/
theorem C70_size_partial (zero : α) (kind : Kind) (n : Nat) (c : List α) (h : ofSize zero kind n none = .ok c)
    (hk : ∀ N, kind = .array N → n ≠ 0) : c = List.replicate n zero := by
  cases kind with
  | vector =>
    unfold ofSize at h
    rw [allocate] at h
    by_cases hn : n ≥ 2 ^ 63
    · rw [if_pos hn] at h; cases h
    · rw [if_neg hn] at h; cases h; rfl
  | array N =>
    unfold ofSize at h
    rw [allocate] at h
    have := hk N rfl
    by_cases hn : n ≠ N ∧ n ≠ 0
    · rw [if_pos hn] at h; cases h
    · rw [if_neg hn] at h
      obtain rfl : n = N := by by_contra hc; exact hn ⟨hc, this⟩
      cases h; rfl

/-- **C70**, exact result for arrays: which sizes are accepted, and the actual size. -/
theorem C70_array_size (zero : α) (N n : Nat) :
    ofSize zero (.array N) n none = if n = N ∨ n = 0 then .ok (List.replicate N zero) else .error .stdError := by
  unfold ofSize
  rw [allocate]
  by_cases h : n = N ∨ n = 0
  · rw [if_pos h, if_neg (by tauto)]; rfl
  · rw [if_neg h, if_pos (by tauto)]; rfl

/-- **C70**, from a pointer: the values are those of the `n` pointed elements, in order; arrays are constructed with
their own size. -/
theorem C70_pointer (zero : α) (kind : Kind) (n : Nat) (buffer : List α) (hk : ∀ N, kind = .array N → n = N)
    (hn : n < 2 ^ 63) : ofSize zero kind n (some buffer) =
      if n ≤ buffer.length then .ok (elements buffer 0 n) else .error .ub := by
  have e : allocate zero kind n = .ok (List.replicate n zero) := by
    cases kind with
    | vector => rw [allocate, if_neg (by omega)]
    | array N => rw [allocate, hk N rfl, if_neg (by tauto)]
  unfold ofSize
  rw [e, ok_bind]
  dsimp only
  by_cases h : n ≤ buffer.length
  · rw [if_pos h, if_pos h]
    have := copyTo_append (buffer.take n) [] (List.replicate n zero) [] (by simp [h])
    simpa [elements] using this
  · rw [if_neg h, if_neg h]

/-- **C70**, from a moved container: its values if it has the given size, or a size error. -/
theorem C70_container (n : Nat) (c : List α) (hn : n < 2 ^ 64) (hc : c.length < 2 ^ 64) :
    Holder.ofContainer n c = if c.length = n then .ok c else .error .sizeError := by
  unfold Holder.ofContainer SizeError.mayThrow u64
  by_cases h : c.length = n
  · rw [if_pos h, if_neg (by omega)]; rfl
  · rw [if_neg h, if_pos (by omega)]; rfl

/-- **C70**, from a list or iterable: vectors hold exactly the values, in order. -/
theorem C70_values_vector (zero : α) (values : List α) (h : values.length < 2 ^ 63) :
    ofValues zero .vector values = .ok values := by
  unfold ofValues ofSize
  rw [allocate]
  rw [if_neg (by omega)]
  have := copyTo_append values [] (List.replicate values.length zero) [] (by simp)
  simp only [List.nil_append, List.append_nil, List.length_nil] at this
  exact this

/-- **C70**, from a list or iterable, exact result for arrays: exactly the values if there are as many as elements, all
zeros if there is no value, and an exception otherwise. -/
theorem C70_values_array (zero : α) (N : Nat) (values : List α) :
    ofValues zero (.array N) values =
      if values.length = N then .ok values
      else if values = [] then .ok (List.replicate N zero)
      else .error .stdError := by
  unfold ofValues
  rw [C70_array_size]
  by_cases h : values.length = N
  · rw [if_pos (Or.inl h), if_pos h, ok_bind]
    have := copyTo_append values [] (List.replicate N zero) [] (by simp [h])
    simpa using this
  · rw [if_neg h]
    by_cases h' : values = []
    · subst h'
      rw [if_pos (Or.inr List.length_nil), if_pos rfl]
      rfl
    · rw [if_neg h', if_neg (by simp [h, h'])]
      rfl

/-- **C70**, views: the list-based constructor writes the values to the pointed memory and nothing else, and the
container reads them. -/
theorem C70_view_values (mem : List α) (a : Nat) (values : List α) (h : a + values.length ≤ mem.length) :
    ∃ mem' v, View.ofValues mem a values = .ok (mem', v) ∧ v.size = values.length ∧ mem'.length = mem.length ∧
      SameOutside mem mem' a values.length ∧
      ∀ (i : Nat) (x : α), values[i]? = some x → v.get mem' i = .ok x := by
  have e := copyTo_append values (mem.take a) (elements mem a values.length) (mem.drop (a + values.length))
    (by simp [elements]; omega)
  have e' : mem.take a ++ elements mem a values.length ++ mem.drop (a + values.length) = mem := by
    rw [elements, List.append_assoc, ← List.drop_drop, List.take_append_drop, List.take_append_drop]
  have hl : (mem.take a).length = a := by simp; omega
  rw [e', hl] at e
  refine ⟨mem.take a ++ values ++ mem.drop (a + values.length), ⟨a, values.length⟩, ?_, rfl, ?_, ?_, ?_⟩
  · rw [View.ofValues, e]; rfl
  · simp; omega
  · intro k hk
    rcases hk with hk | hk
    · rw [List.append_assoc, List.getElem?_append_left (by omega), List.getElem?_take_of_lt hk]
    · rw [List.getElem?_append_right (by simp; omega), List.getElem?_drop]
      congr 1
      simp; omega
  · intro i x hx
    obtain ⟨hi, rfl⟩ := List.getElem?_eq_some_iff.1 hx
    rw [View.get, readAt_nat_ok (by simp; omega)]
    congr 1
    rw [List.getElem_append_left (by simp; omega), List.getElem_append_right (by simp)]
    congr 1
    simp; omega

/-- **C70**, views: an element which is written through a view is what the memory and all other views then have there,
and only there. -/
theorem C70_view_shared (mem : List α) (v w : View) (i j : Nat) (x : α) (h : v.address + i < mem.length) :
    ∃ mem', v.set mem i x = .ok mem' ∧
      w.get mem' j = if w.address + j = v.address + i then .ok x else w.get mem j := by
  refine ⟨_, writeAt_nat_ok h, ?_⟩
  unfold View.get readAt
  by_cases e : w.address + j = v.address + i
  · rw [if_pos e, e, if_neg (by omega)]
    simp only [Int.toNat_natCast]
    rw [List.getElem?_set_self h]
  · rw [if_neg e]
    simp only [Int.toNat_natCast]
    rw [List.getElem?_set_ne (by omega)]

/-- **C70**, `moveTo()`: the destination has exactly the values; vectors are emptied, and arrays are left unchanged. -/
theorem C70_moveTo (kind : Kind) (c : List α) :
    (moveTo kind c).1 = c ∧ (kind = .vector → (moveTo kind c).2 = []) ∧
      ∀ N, kind = .array N → (moveTo kind c).2 = c := by
  cases kind with
  | vector => exact ⟨rfl, fun _ => rfl, fun _ h => by cases h⟩
  | array N => exact ⟨rfl, (fun h => by cases h), fun _ _ => rfl⟩

/-- **C70**, `moveTo()`: a raster of which the vector was moved keeps its domain, and reading it anywhere is undefined. -/
theorem C70_moved_raster (r : Raster α) (p : Position) :
    (rasterMoveTo .vector r).1 = r.data ∧ (rasterMoveTo .vector r).2.shape = r.shape ∧
      (rasterMoveTo .vector r).2.get p = .error .ub := by
  refine ⟨rfl, rfl, ?_⟩
  unfold rasterMoveTo moveTo Raster.get readAt
  dsimp only
  split
  · rfl
  · simp

/-- **C70**, exact result for rasters based on arrays: as many elements as pixels, unless there is no pixel in which case
the array has its own size. -/
theorem C70_raster_array (zero : α) (N : Nat) (s : Position) (r : Raster α) (h0 : 0 ≤ shapeSize s)
    (h1 : shapeSize s < 2 ^ 64) (h : rasterOfShape zero (.array N) s = .ok r) :
    r.shape = s ∧ r.data.length = N ∧ (shapeSize s = N ∨ shapeSize s = 0) := by
  have e : u64 (shapeSize s) = shapeSize s := by unfold u64; omega
  unfold rasterOfShape at h
  rw [C70_array_size, e] at h
  by_cases hc : (shapeSize s).toNat = N ∨ (shapeSize s).toNat = 0
  · rw [if_pos hc, ok_bind] at h
    cases h
    refine ⟨rfl, by simp, by omega⟩
  · rw [if_neg hc] at h
    cases h

/-- Non-vacuity of C70. -/
example : ofValues 0 (.array 3) [4, 5, 6] = .ok [4, 5, 6] ∧ ofValues 0 (.array 3) [4, 5] = .error .stdError ∧
    ofSize 0 .vector 2 none = .ok [0, 0] ∧ ofSize 0 (.array 2) 2 (some [7, 8, 9]) = .ok [7, 8] ∧
    ofSize 0 .vector 2 (some [7]) = .error .ub ∧ Holder.ofContainer 2 [1, 2] = .ok [1, 2] ∧
    Holder.ofContainer 3 [1, 2] = .error .sizeError ∧
    (∃ v, View.ofValues [1, 2, 3, 4] 1 [8, 9] = .ok ([1, 8, 9, 4], v) ∧ v.get [1, 8, 9, 4] 1 = .ok 9) ∧
    rasterOfShape 0 (.array 6) [3, 2] = .ok ⟨[3, 2], [0, 0, 0, 0, 0, 0]⟩ ∧
    rasterOfShape 0 (.array 2) [3, 0] = .ok ⟨[3, 0], [0, 0]⟩ :=
  ⟨rfl, rfl, rfl, rfl, rfl, rfl, rfl, ⟨_, rfl, rfl⟩, rfl, rfl⟩

end Litl
