import Verif.Model.Core

/-!
# Lemmas about raw reads and writes
-/

namespace Litl

variable {α : Type _}

theorem readAt_ok {data : List α} {k : Int} (h0 : 0 ≤ k) (h1 : k < data.length) :
    readAt data k = .ok (data[k.toNat]'(by omega)) := by
  have : k.toNat < data.length := by omega
  simp [readAt, Int.not_lt.2 h0, List.getElem?_eq_getElem this]

theorem readAt_ub {data : List α} {k : Int} (h : k < 0 ∨ data.length ≤ k) : readAt data k = .error .ub := by
  unfold readAt
  split
  · rfl
  · have : data.length ≤ k.toNat := by omega
    simp [List.getElem?_eq_none this]

theorem readAt_cases (data : List α) (k : Int) :
    (∃ h : 0 ≤ k ∧ k < data.length, readAt data k = .ok (data[k.toNat]'(by omega))) ∨
    ((k < 0 ∨ data.length ≤ k) ∧ readAt data k = .error .ub) := by
  by_cases h : 0 ≤ k ∧ k < data.length
  · exact Or.inl ⟨h, readAt_ok h.1 h.2⟩
  · have : k < 0 ∨ (data.length : Int) ≤ k := by omega
    exact Or.inr ⟨this, readAt_ub this⟩

theorem readAt_ne {data : List α} {k : Int} {e : Fail} (h : e ≠ .ub) : readAt data k ≠ .error e := by
  rcases readAt_cases data k with ⟨_, h'⟩ | ⟨_, h'⟩ <;> rw [h'] <;> simp [h.symm]

theorem readAt_eq_ok {data : List α} {k : Int} {v : α} :
    readAt data k = .ok v ↔ 0 ≤ k ∧ data[k.toNat]? = some v := by
  unfold readAt
  split
  · simp; omega
  · split <;> rename_i h
    · simp [h]; omega
    · simp [h]

theorem writeAt_ok {data : List α} {k : Int} {x : α} (h0 : 0 ≤ k) (h1 : k < data.length) :
    writeAt data k x = .ok (data.set k.toNat x) := by
  have : k.toNat < data.length := by omega
  simp [writeAt, Int.not_lt.2 h0, this]

theorem writeAt_ub {data : List α} {k : Int} {x : α} (h : k < 0 ∨ data.length ≤ k) :
    writeAt data k x = .error .ub := by
  unfold writeAt
  split
  · rfl
  · rw [if_neg (by omega)]

theorem LoopUntil.unique {step : α → α} {stop : α → Prop} {c : α} {l l' : List α}
    (h : LoopUntil step stop c l) (h' : LoopUntil step stop c l') : l = l' := by
  induction h generalizing l' with
  | done hs =>
    cases h' with
    | done => rfl
    | next hn _ => exact absurd hs hn
  | next hn _ ih =>
    cases h' with
    | done hs => exact absurd hs hn
    | next _ h' => rw [ih h']

end Litl
