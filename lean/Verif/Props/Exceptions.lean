import Mathlib.Data.List.Basic
import Verif.Model.Exceptions

/-!
# C62: error messages
-/

namespace Litl.Exception

/-! ## Specification -/

/-- A line after indentation: two spaces per level. -/
def indented (l : List Char × Nat) : List Char := List.replicate (2 * l.2) ' ' ++ l.1

/-- The expected lines of the message. -/
def expectedLines (pre message : List Char) (lines : List (List Char × Nat)) : List (List Char) :=
  (pre ++ [':', ' '] ++ message) :: lines.map indented

/-- **C62** (as stated in properties.jsonl). -/
def C62_Statement : Prop :=
  ∀ (pre message : List Char) (lines : List (List Char × Nat)),
    ((new pre message).appendAll lines).what = ['\n'].intercalate (expectedLines pre message lines) ∧
    ∀ more, ((new pre message).appendAll lines).what <+: ((new pre message).appendAll (lines ++ more)).what

/-! ## Messages -/

theorem indentLoop_eq (n : Nat) (m : List Char) : indentLoop n m = m ++ List.replicate (2 * n) ' ' := by
  induction n generalizing m with
  | zero => simp [indentLoop]
  | succ n ih =>
    rw [indentLoop, ih, Nat.mul_add]
    have : "  ".toList = List.replicate 2 ' ' := by decide
    rw [this, List.append_assoc, List.replicate_append_replicate, Nat.add_comm]

theorem append_message (e : Exception) (line : List Char) (indent : Nat) :
    (e.append line indent).message = e.message ++ '\n' :: indented (line, indent) := by
  have : "\n".toList = ['\n'] := by decide
  simp [append, indentLoop_eq, indented, this]

theorem appendAll_message (e : Exception) (lines : List (List Char × Nat)) :
    (e.appendAll lines).message = e.message ++ (lines.map fun l => '\n' :: indented l).flatten := by
  induction lines generalizing e with
  | nil => simp [appendAll]
  | cons l lines ih =>
    have : e.appendAll (l :: lines) = (e.append l.1 l.2).appendAll lines := rfl
    rw [this, ih, append_message]
    simp

theorem intercalate_cons (x : List Char) (l : List (List Char)) :
    ['\n'].intercalate (x :: l) = x ++ (l.map fun y => '\n' :: y).flatten := by
  induction l generalizing x with
  | nil => simp [List.intercalate]
  | cons y l ih =>
    rw [List.intercalate_cons_cons, ih]
    simp

/-- **C62**: the message is made of all the lines, in order and indented, whatever the number of lines and levels. -/
theorem C62_message (pre message : List Char) (lines : List (List Char × Nat)) :
    ((new pre message).appendAll lines).message = ['\n'].intercalate (expectedLines pre message lines) := by
  rw [appendAll_message, expectedLines, intercalate_cons]
  have : ": ".toList = [':', ' '] := by decide
  simp [new, this, List.map_map, Function.comp_def]

/-- **C62**: appending only ever extends the message, and the prefix is not modified. -/
theorem C62_append (e : Exception) (lines more : List (List Char × Nat)) :
    (e.appendAll lines).message <+: (e.appendAll (lines ++ more)).message ∧
    (e.appendAll lines).pre = e.pre := by
  constructor
  · rw [appendAll_message, appendAll_message]
    exact ⟨(more.map fun l => '\n' :: indented l).flatten, by simp⟩
  · induction lines generalizing e with
    | nil => rfl
    | cons l lines ih => exact ih (e.append l.1 l.2)

/-- **C62**: the exact value of `what()`: the message up to the first null character, if any. -/
theorem C62_what (pre message : List Char) (lines : List (List Char × Nat)) :
    ((new pre message).appendAll lines).what =
      (['\n'].intercalate (expectedLines pre message lines)).takeWhile (· ≠ '\x00') := by
  rw [what, C62_message]

theorem takeWhile_all {p : Char → Bool} {a : List Char} (h : ∀ c ∈ a, p c = true) : a.takeWhile p = a := by
  induction a with
  | nil => rfl
  | cons c a ih => rw [List.takeWhile_cons, h c (by simp)]; simp [ih fun c hc => h c (by simp [hc])]

theorem takeWhile_prefix_of_prefix {p : Char → Bool} {a b : List Char} (h : a <+: b) :
    a.takeWhile p <+: b.takeWhile p := by
  obtain ⟨c, rfl⟩ := h
  induction a with
  | nil => simp
  | cons x a ih =>
    rw [List.cons_append, List.takeWhile_cons, List.takeWhile_cons]
    by_cases hx : p x = true
    · rw [if_pos hx, if_pos hx, List.cons_prefix_cons]; exact ⟨rfl, ih⟩
    · rw [if_neg hx]; exact List.nil_prefix

/-- **C62**: `what()` never loses anything on append. -/
theorem C62_what_append (e : Exception) (lines more : List (List Char × Nat)) :
    (e.appendAll lines).what <+: (e.appendAll (lines ++ more)).what :=
  takeWhile_prefix_of_prefix (C62_append e lines more).1

/-- **C62** if none of the strings contains a null character.
Missing: strings with null characters, for which the property does not hold (`C62_violated`); see `C62_what`. -/
theorem C62_partial (pre message : List Char) (lines : List (List Char × Nat)) (hp : '\x00' ∉ pre)
    (hm : '\x00' ∉ message) (hl : ∀ l ∈ lines, '\x00' ∉ l.1) :
    ((new pre message).appendAll lines).what = ['\n'].intercalate (expectedLines pre message lines) := by
  rw [C62_what]
  refine takeWhile_all fun c hc => ?_
  rw [expectedLines, intercalate_cons] at hc
  simp only [decide_eq_true_eq]
  rintro rfl
  simp only [List.mem_append, List.mem_cons, List.not_mem_nil, or_false, List.mem_flatten, List.mem_map,
    Char.reduceEq, false_or, exists_exists_and_eq_and] at hc
  rcases hc with (hc | hc) | hc
  · simp_all
  · simp_all
  · obtain ⟨x, hx, hc⟩ := hc
    simp only [indented, List.mem_append, List.mem_replicate, Char.reduceEq, and_false, false_or] at hc
    exact hl x hx hc

/-- **C62**: if the prefix, the message and the lines are not multi-line themselves, then splitting the result of `what()`
gives back the first line and each of the appended lines after indentation. -/
theorem C62_lines (pre message : List Char) (lines : List (List Char × Nat)) (hp : '\x00' ∉ pre ∧ '\n' ∉ pre)
    (hm : '\x00' ∉ message ∧ '\n' ∉ message) (hl : ∀ l ∈ lines, '\x00' ∉ l.1 ∧ '\n' ∉ l.1) :
    ((new pre message).appendAll lines).what.splitOn '\n' = expectedLines pre message lines := by
  rw [C62_partial pre message lines hp.1 hm.1 fun l h => (hl l h).1]
  refine List.splitOn_intercalate (x := '\n') ?_ (by simp [expectedLines])
  intro l h
  simp only [expectedLines, List.mem_cons, List.mem_map] at h
  rcases h with rfl | ⟨x, hx, rfl⟩
  · simp [hp.2, hm.2]
  · simp [indented, (hl x hx).2, List.mem_replicate]

/-- **C62** does not hold: if a line contains a null character, the following lines are not part of the C string. -/
theorem C62_violated : ¬ C62_Statement := by
  intro h
  have := (h [] ['\x00'] [(['a'], 1)]).1
  revert this
  decide

/-- **C62**: bound checking throws iff the value is out of bounds, with this message. -/
theorem C62_out_of_bounds (name : List Char) (value min max : Int) :
    (OutOfBoundsError.mayThrow name value min max = none ↔ min ≤ value ∧ value ≤ max) ∧
    ∀ e, OutOfBoundsError.mayThrow name value min max = some e →
      e.message = "Out of bounds error: ".toList ++ name ++
        (toString value ++ " not in [" ++ toString min ++ ", " ++ toString max ++ "]").toList := by
  unfold OutOfBoundsError.mayThrow
  constructor
  · by_cases h : value < min ∨ value > max
    · rw [if_pos h]; simp; omega
    · rw [if_neg h]; simp; omega
  · intro e he
    by_cases h : value < min ∨ value > max
    · rw [if_pos h] at he
      cases he
      simp [OutOfBoundsError.new, new, String.toList_append]
    · rw [if_neg h] at he; cases he

/-- **C62**: null pointers are detected, and only them. -/
theorem C62_null_ptr (ptr : Nat) (message : List Char) :
    (NullPtrError.mayThrow ptr message = none ↔ ptr ≠ 0) ∧
    ∀ e, NullPtrError.mayThrow ptr message = some e → e.message = "Null pointer error: ".toList ++ message := by
  unfold NullPtrError.mayThrow
  constructor
  · by_cases h : ptr = 0 <;> simp [h]
  · intro e he
    by_cases h : ptr = 0
    · rw [if_pos h] at he; cases he; simp [NullPtrError.new, new]
    · rw [if_neg h] at he; cases he

/-! ## Non-vacuity -/

example :
    let lines := [("a".toList, 0), ("b".toList, 2), ("c".toList, 1)]
    ('\x00' ∉ "Error".toList ∧ '\n' ∉ "Error".toList) ∧ ('\x00' ∉ "msg".toList ∧ '\n' ∉ "msg".toList) ∧
    (∀ l ∈ lines, '\x00' ∉ l.1 ∧ '\n' ∉ l.1) ∧
    ((new "Error".toList "msg".toList).appendAll lines).what = "Error: msg\na\n    b\n  c".toList := by
  decide

example : (OutOfBoundsError.mayThrow "Index ".toList 5 (-3) 2).map (·.what) =
    some "Out of bounds error: Index 5 not in [-3, 2]".toList := by decide

end Litl.Exception
