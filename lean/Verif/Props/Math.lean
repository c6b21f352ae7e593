import Verif.Model.Math
import Verif.Props.Arithmetic
import Verif.Props.RasterCtor

/-!
# C69: element-wise mathematical functions
-/

namespace Litl

open Spec Container

variable {α β : Type}

/-- What a loop over the elements of a container does, if it writes each of them once, as a function of the memory at
the time of the call. -/
theorem mathUnaryMem_spec (f : α → α) (mem : List α) (a n : Nat) (ha : a + n ≤ mem.length) :
    ∃ m, mathUnaryMem f mem a n = .ok m ∧ ∃ hl : m.length = mem.length,
      ∀ k (hk : k < mem.length), m[k] = if a ≤ k ∧ k < a + n then f mem[k] else mem[k] := by
  refine foldlM_range_inv (P := fun i (m : List α) => ∃ hl : m.length = mem.length, ∀ k (hk : k < mem.length),
    m[k] = if a ≤ k ∧ k < a + i then f mem[k] else mem[k]) ⟨rfl, fun k hk => by rw [if_neg (by omega)]⟩ ?_
  rintro i m hi ⟨hl, hm⟩
  refine ⟨m.set (a + i) (f (mem[a + i]'(by omega))), ?_, by simpa using hl, ?_⟩
  · rw [mathUnaryStep, readAt_nat_ok (by omega), ok_bind, writeAt_nat_ok (by omega), hm _ (by omega), if_neg (by omega)]
  · intro k hk
    rw [List.getElem_set]
    by_cases e : a + i = k
    · subst e
      rw [if_pos rfl, if_pos (by omega)]
    · rw [if_neg e, hm k hk]
      by_cases hc : a ≤ k ∧ k < a + i
      · rw [if_pos hc, if_pos (show a ≤ k ∧ k < a + (i + 1) by omega)]
      · rw [if_neg hc, if_neg (show ¬ (a ≤ k ∧ k < a + (i + 1)) by omega)]

/-- **C69**: `V.f()` replaces each element `x` of `V` with `f(x)`, and nothing else. -/
theorem C69_unary (f : α → α) (mem : List α) (a n : Nat) (ha : a + n ≤ mem.length) :
    ∃ m, mathUnaryMem f mem a n = .ok m ∧ m.length = mem.length ∧
      elements m a n = (elements mem a n).map f ∧ SameOutside mem m a n := by
  obtain ⟨m, h1, hl, h2⟩ := mathUnaryMem_spec f mem a n ha
  refine ⟨m, h1, hl, ?_, ?_⟩
  · apply List.ext_getElem?
    intro i
    rw [List.getElem?_map, elements_getElem?, elements_getElem?]
    by_cases hi : i < n
    · rw [if_pos hi, if_pos hi, List.getElem?_eq_getElem (by omega), List.getElem?_eq_getElem (by omega),
        h2 _ (by omega), if_pos (by omega)]
      rfl
    · rw [if_neg hi, if_neg hi]; rfl
  · intro k hk
    by_cases hk' : k < mem.length
    · rw [List.getElem?_eq_getElem (by omega), List.getElem?_eq_getElem hk', h2 k hk', if_neg (by omega)]
    · rw [List.getElem?_eq_none (by omega), List.getElem?_eq_none (by omega)]

/-- **C69**: `V.f(U)` replaces each element `x` of `V` with `f(x, y)`, where `y` is the element of `U` at the same index,
and nothing else; `U` may be `V`, or any view which does not start before `V` or does not overlap it. -/
theorem C69_binary (f : α → α → α) (mem : List α) (a b n : Nat) (ha : a + n ≤ mem.length)
    (hb : b + n ≤ mem.length) (h : a ≤ b ∨ b + n ≤ a) :
    ∃ m, mathBinaryMem f mem a b n = .ok m ∧ m.length = mem.length ∧
      elements m a n = List.zipWith f (elements mem a n) (elements mem b n) ∧ SameOutside mem m a n :=
  C24_in_place f mem a b n ha hb h

/-- **C69**: `V.f(s)` replaces each element `x` of `V` with `f(x, s)`, and nothing else, wherever `s` is stored: as opposed
to that of the operators (C25), the scalar is that on call even if it is an element of `V`. -/
theorem C69_scalar (f : α → α → α) (mem : List α) (a n k : Nat) (s : α) (ha : a + n ≤ mem.length)
    (hk : mem[k]? = some s) :
    ∃ m, mathScalarMem f mem a n k = .ok m ∧ m.length = mem.length ∧
      elements m a n = (elements mem a n).map (f · s) ∧ SameOutside mem m a n := by
  obtain ⟨hk', rfl⟩ := List.getElem?_eq_some_iff.1 hk
  obtain ⟨m, h1, h2⟩ := C69_unary (f · mem[k]) mem a n ha
  refine ⟨m, ?_, h2⟩
  rw [mathScalarMem, readAt_nat_ok hk', ok_bind]
  exact h1

theorem elements_append_left (mem l : List α) (a n : Nat) (h : a + n ≤ mem.length) :
    elements (mem ++ l) a n = elements mem a n := by
  apply List.ext_getElem?
  intro i
  rw [elements_getElem?, elements_getElem?]
  split
  · rw [List.getElem?_append_left (by omega)]
  · rfl

theorem length_elements (mem : List α) (a n : Nat) (h : a + n ≤ mem.length) : (elements mem a n).length = n := by
  simp [elements]; omega

theorem elements_append_right (mem l : List α) : elements (mem ++ l) mem.length l.length = l := by
  simp [elements]

/-- The memory which results from a call on a copy. -/
theorem new_memory {mem m l : List α} (hlen : m.length = mem.length + l.length)
    (h : SameOutside (mem ++ l) m mem.length l.length) : m = mem ++ elements m mem.length l.length := by
  apply List.ext_getElem?
  intro i
  by_cases hi : i < mem.length
  · rw [List.getElem?_append_left hi, h i (by omega), List.getElem?_append_left hi]
  · rw [List.getElem?_append_right (by omega), elements_getElem?]
    split
    · congr 1; omega
    · rw [List.getElem?_eq_none (by omega)]

/-- **C69**: `f(V)`, `f(V, U)` and `f(V, s)` create a container with the same values as `V.f()`, `V.f(U)` and `V.f(s)`
would set, and leave everything else unchanged, `V` included, whatever the aliases. -/
theorem C69_new_instance (f : α → α) (g : α → α → α) (mem : List α) (a b n k : Nat) (s : α) (ha : a + n ≤ mem.length)
    (hb : b + n ≤ mem.length) (hk : mem[k]? = some s) :
    mathUnaryNew f mem a n = .ok (mem ++ (elements mem a n).map f) ∧
      mathBinaryNew g mem a b n = .ok (mem ++ List.zipWith g (elements mem a n) (elements mem b n)) ∧
      mathScalarNew g mem a n k = .ok (mem ++ (elements mem a n).map (g · s)) := by
  have hn := length_elements mem a n ha
  have hk' := (List.getElem?_eq_some_iff.1 hk).1
  have key : elements (mem ++ elements mem a n) mem.length n = elements mem a n := by
    conv_lhs => rw [← hn]
    rw [hn]
    simpa [hn] using elements_append_right mem (elements mem a n)
  refine ⟨?_, ?_, ?_⟩
  · obtain ⟨m, h1, h2, h3, h4⟩ := C69_unary f (mem ++ elements mem a n) mem.length n (by simp [hn])
    refine h1.trans (congrArg _ ?_)
    refine (new_memory (l := elements mem a n) (by simpa using h2) (by rw [hn]; exact h4)).trans ?_
    rw [hn, h3, key]
  · obtain ⟨m, h1, h2, h3, h4⟩ := C69_binary g (mem ++ elements mem a n) mem.length b n (by simp [hn])
      (by simp; omega) (by omega)
    refine h1.trans (congrArg _ ?_)
    refine (new_memory (l := elements mem a n) (by simpa using h2) (by rw [hn]; exact h4)).trans ?_
    rw [hn, h3, key,
      elements_append_left _ _ _ _ hb]
  · obtain ⟨m, h1, h2, h3, h4⟩ := C69_scalar g (mem ++ elements mem a n) mem.length n k s (by simp [hn])
      (by rw [List.getElem?_append_left hk', hk])
    refine h1.trans (congrArg _ ?_)
    refine (new_memory (l := elements mem a n) (by simpa using h2) (by rw [hn]; exact h4)).trans ?_
    rw [hn, h3, key]

theorem complexLoop_spec (f : α → β) : ∀ (l : List α) (pre : List β) (out : List β), out.length = l.length →
    Raster.complexLoop f l pre.length (pre ++ out) = .ok (pre ++ l.map f) := by
  intro l
  induction l with
  | nil =>
    intro pre out h
    obtain rfl : out = [] := by simpa using h
    rfl
  | cons e l ih =>
    intro pre out h
    obtain _ | ⟨o, out⟩ := out
    · simp at h
    · rw [Raster.complexLoop, writeAt_nat_ok (by simp), ok_bind]
      have := ih (pre ++ [f e]) out (by simpa using h)
      simpa using this

/-- **C69**: the functions of complex rasters give a raster of the same shape, with the values of the function at each
pixel. -/
theorem C69_complex (f : α → β) (zero : β) (inn : Raster α) (hs : (inn.data.length : Int) = shapeSize inn.shape)
    (hl : inn.data.length < 2 ^ 63) :
    ∃ out, Raster.complexFunction f zero inn = .ok out ∧ out.shape = inn.shape ∧
      ∀ p x, inn.get p = .ok x → out.get p = .ok (f x) := by
  have e : u64 (shapeSize inn.shape) = inn.data.length := by
    rw [← hs, u64]; omega
  have h1 : Raster.complexFunction f zero inn = .ok ⟨inn.shape, inn.data.map f⟩ := by
    unfold Raster.complexFunction Raster.ofShape
    simp only [e]
    rw [if_neg (by omega), ok_bind]
    have := complexLoop_spec f inn.data [] (List.replicate inn.data.length zero) (by simp)
    simp only [List.nil_append, List.length_nil] at this
    simp only [Int.toNat_natCast]
    rw [this, ok_bind]
    rfl
  refine ⟨_, h1, rfl, fun p x hx => ?_⟩
  unfold Raster.get readAt at hx ⊢
  dsimp only
  by_cases hneg : index inn.shape p < 0
  · rw [if_pos hneg] at hx; cases hx
  · rw [if_neg hneg] at hx ⊢
    rw [List.getElem?_map]
    cases hd : inn.data[(index inn.shape p).toNat]? with
    | none => rw [hd] at hx; cases hx
    | some y => rw [hd] at hx; cases hx; rfl

/-- Non-vacuity of C69: `pow`, with an element of the container as scalar, to be compared with `C25`; with another
container; and the parts of a 2 × 1 complex raster. -/
example : mathScalarMem (fun x y : Int => x ^ y.toNat) [2, 3, 5] 0 3 0 = .ok [4, 9, 25] ∧
    scalarOpMem (fun x y : Int => x ^ y.toNat) [2, 3, 5] 0 3 0 = .ok [4, 81, 625] ∧
    mathBinaryMem (fun x y : Int => x ^ y.toNat) [2, 3, 4, 5] 0 2 2 = .ok [16, 243, 4, 5] ∧
    mathBinaryNew (fun x y : Int => x ^ y.toNat) [2, 3, 4, 5] 0 2 2 = .ok [2, 3, 4, 5, 16, 243] ∧
    mathUnaryNew (fun x : Int => |x|) [-2, 3] 0 2 = .ok [-2, 3, 2, 3] ∧
    Raster.complexFunction (fun z : Int × Int => z.2) 0 ⟨[2, 1], [(1, 2), (3, 4)]⟩ = .ok ⟨[2, 1], [2, 4]⟩ :=
  ⟨rfl, rfl, rfl, rfl, by decide, rfl⟩

end Litl
