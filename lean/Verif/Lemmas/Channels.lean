import Verif.Model.Channels
import Verif.Lemmas.SeqUtils
import Verif.Lemmas.LineKernel
import Mathlib.Data.List.Basic
import Mathlib.Tactic.Ring

/-!
# Lemmas on vector pixels
-/

namespace Litl.Channels

variable {α β : Type _}

/-- Pixels are read inside of the data. -/
theorem readPixel_ok {data : List α} {it : Nat} : ∀ {n : Nat}, it + n ≤ data.length →
    readPixel data it n = .ok ((data.drop it).take n)
  | 0, _ => rfl
  | n + 1, h => by
    have ih := readPixel_ok (data := data) (it := it) (n := n) (by omega)
    unfold readPixel at *
    rw [List.range_succ, List.mapM_append, ih, List.mapM_cons, List.mapM_nil, readAt_nat,
      List.getElem?_eq_getElem (by omega : it + n < data.length), List.take_add_one, List.getElem?_drop,
      List.getElem?_eq_getElem (by omega : it + n < data.length)]
    rfl

/-- Pixels which are not in the data are not read. -/
theorem readPixel_ub {data : List α} {it : Nat} : ∀ {n : Nat}, 0 < n → data.length < it + n →
    readPixel data it n = .error .ub
  | n + 1, _, h => by
    by_cases h' : it + n ≤ data.length
    · have ih := readPixel_ok h'
      unfold readPixel at *
      rw [List.range_succ, List.mapM_append, ih, List.mapM_cons, readAt_nat, List.getElem?_eq_none (by omega)]
      rfl
    · cases n with
      | zero =>
        unfold readPixel
        rw [show List.range (0 + 1) = [0] from rfl, List.mapM_cons, readAt_nat, List.getElem?_eq_none (by omega)]
        rfl
      | succ n =>
        have ih := readPixel_ub (data := data) (it := it) (n := n + 1) (by omega) (by omega)
        unfold readPixel at *
        rw [List.range_succ, List.mapM_append, ih]
        rfl

/-- Pixels are written inside of the data. -/
theorem writePixel_ok {xs : List α} : ∀ {data : List α} {it : Nat}, it + xs.length ≤ data.length →
    writePixel data it xs = .ok (data.take it ++ xs ++ data.drop (it + xs.length)) := by
  induction xs with
  | nil => intro data it _; simp [writePixel]
  | cons x xs ih =>
    intro data it h
    have h' : it + (xs.length + 1) ≤ data.length := h
    unfold writePixel
    rw [writeAt_nat, if_pos (by omega)]
    change writePixel (data.set it x) (it + 1) xs = _
    rw [ih (by rw [List.length_set]; omega)]
    congr 1
    rw [List.drop_set_of_lt (by omega), List.take_add_one, List.getElem?_set_self (by omega),
      List.take_set_of_le (by omega)]
    simp only [Option.toList_some, List.append_assoc, List.cons_append, List.nil_append, List.length_cons]
    rw [show it + 1 + xs.length = it + (xs.length + 1) by omega]

/-- Pixels which are not in the data are not written. -/
theorem writePixel_ub {xs : List α} : ∀ {data : List α} {it : Nat}, 0 < xs.length → data.length < it + xs.length →
    writePixel data it xs = .error .ub := by
  induction xs with
  | nil => intro data it h; exact absurd h (by simp)
  | cons x xs ih =>
    intro data it _ h
    have h' : data.length < it + (xs.length + 1) := h
    unfold writePixel
    rw [writeAt_nat]
    by_cases hi : it < data.length
    · rw [if_pos hi]
      change writePixel (data.set it x) (it + 1) xs = _
      exact ih (by omega) (by rw [List.length_set]; omega)
    · rw [if_neg hi]; rfl

/-- The first pixels, for a given number of components. -/
def firstPixels (g : Nat → List β) (k : Nat) : List β := ((List.range k).map g).flatten

theorem firstPixels_length {g : Nat → List β} {n : Nat} : ∀ {k : Nat}, (∀ i < k, (g i).length = n) →
    (firstPixels g k).length = n * k
  | 0, _ => by simp [firstPixels]
  | k + 1, h => by
    have ih := firstPixels_length (k := k) fun i hi => h i (by omega)
    unfold firstPixels at *
    rw [List.range_succ, List.map_append, List.flatten_append, List.length_append, ih]
    simp [h k (by omega)]
    ring

theorem firstPixels_succ (g : Nat → List β) (k : Nat) : firstPixels g (k + 1) = firstPixels g k ++ g k := by
  simp [firstPixels, List.range_succ]

/-- Writing the next pixel. -/
theorem writePixel_first {g : Nat → List β} {n k : Nat} {out : List β} (hg : ∀ i < k + 1, (g i).length = n)
    (h : n * (k + 1) ≤ out.length) :
    writePixel (firstPixels g k ++ out.drop (n * k)) (n * k) (g k) =
      .ok (firstPixels g (k + 1) ++ out.drop (n * (k + 1))) := by
  have hl := firstPixels_length (g := g) (n := n) (k := k) fun i hi => hg i (by omega)
  have hk : (g k).length = n := hg k (by omega)
  have hm : n * (k + 1) = n * k + n := by ring
  rw [writePixel_ok (by rw [List.length_append, hl, List.length_drop, hk]; omega), firstPixels_succ]
  congr 1
  rw [← hl, List.take_left, List.drop_append, hk, hl, hm]
  rw [List.drop_eq_nil_of_le (by omega : (firstPixels g k).length ≤ n * k + n), List.nil_append, List.drop_drop]
  congr 2
  omega

end Litl.Channels
