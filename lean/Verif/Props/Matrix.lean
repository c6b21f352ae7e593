import Mathlib.Tactic.Ring
import Mathlib.Tactic.Linarith
import Verif.Model.Matrix
import Verif.Lemmas.Core
import Verif.Lemmas.Arithmetic

/-!
# C60: identity and diagonal matrices
-/

namespace Litl.Matrix

open Container

variable {α : Type}

/-! ## Specification -/

/-- The element at row `i` and column `j` of the data of a matrix with `m` columns is `x`: rows are contiguous. -/
def Has (m : Nat) (data : List α) (i j : Nat) (x : α) : Prop := data[i * m + j]? = some x

/-- The values along the diagonal are given ones (followed by zeros), and the other values are zeros. -/
def IsDiagonal [Zero α] (n m : Nat) (data values : List α) : Prop :=
  data.length = n * m ∧ ∀ i < n, ∀ j < m, Has m data i j (if i = j then values.getD i 0 else 0)

/-- **C60** (as stated in properties.jsonl). -/
def C60_Statement : Prop :=
  ∀ (α : Type) [Zero α] [One α] (n m : Nat),
    (∃ a : Matrix α, identity α n m = .ok a ∧ IsDiagonal n m a.data (List.replicate (min n m) 1)) ∧
    (∀ values : List α, values.length ≤ min n m → ∃ a : Matrix α, diagonal n m values = .ok a ∧
      IsDiagonal n m a.data values) ∧
    (∀ a : Matrix α, a.rows = n → a.columns = m → a.data.length = n * m → ∀ i < n, ∀ j < m, ∃ x,
      Has m a.data i j x ∧ a.get i j = .ok x)

/-! ## Lemmas -/

theorem rank_eq (n m : Nat) : rank n m = min n m := by unfold rank; split <;> omega

theorem index_lt {n m i j : Nat} (hi : i < n) (hj : j < m) : i * m + j < n * m := by
  have : (i + 1) * m ≤ n * m := Nat.mul_le_mul_right m hi
  have : (i + 1) * m = i * m + m := by ring
  omega

/-- Row and column are determined by the index. -/
theorem index_diagonal {m i j k : Nat} (hj : j < m) (hk : k < m) : i * m + j = k * (m + 1) ↔ i = k ∧ j = k := by
  constructor
  · intro h
    have e : k * (m + 1) = k * m + k := by ring
    rw [e] at h
    have hm : 0 < m := by omega
    have h1 : (i * m + j) / m = i := by
      rw [Nat.mul_comm, Nat.mul_add_div hm, Nat.div_eq_of_lt hj]; rfl
    have h2 : (k * m + k) / m = k := by
      rw [Nat.mul_comm, Nat.mul_add_div hm, Nat.div_eq_of_lt hk]; rfl
    have : i = k := by rw [← h1, h, h2]
    subst this
    exact ⟨rfl, by omega⟩
  · rintro ⟨rfl, rfl⟩; ring

/-- The loop of `diagonal()`. -/
theorem diagonalLoop_spec {n m : Nat} (values : List α) (k : Nat) (data : List α) (hd : data.length = n * m)
    (hk : k + values.length ≤ min n m) :
    ∃ d, diagonalLoop m values (k * (m + 1)) data = .ok d ∧ d.length = n * m ∧
      ∀ i < n, ∀ j < m, d[i * m + j]? =
        if i = j ∧ k ≤ i ∧ i < k + values.length then values[i - k]? else data[i * m + j]? := by
  induction values generalizing k data with
  | nil =>
    refine ⟨data, rfl, hd, fun i hi j hj => ?_⟩
    rw [if_neg (by simp)]
  | cons v values ih =>
    simp only [List.length_cons] at hk
    have hlt : k * (m + 1) < data.length := by
      rw [hd]
      have := index_lt (n := n) (m := m) (i := k) (j := k) (by omega) (by omega)
      have e : k * (m + 1) = k * m + k := by ring
      omega
    obtain ⟨d, e, hl, hv⟩ := ih (k + 1) (data.set (k * (m + 1)) v) (by simpa using hd) (by omega)
    refine ⟨d, ?_, hl, fun i hi j hj => ?_⟩
    · rw [diagonalLoop, writeAt_nat_ok hlt, ok_bind]
      have : k * (m + 1) + (m + 1) = (k + 1) * (m + 1) := by ring
      rw [this]; exact e
    · rw [hv i hi j hj]
      by_cases h1 : i = j ∧ k + 1 ≤ i ∧ i < k + 1 + values.length
      · rw [if_pos h1, if_pos (by simp only [List.length_cons]; omega)]
        have : i - k = (i - (k + 1)) + 1 := by omega
        rw [this, List.getElem?_cons_succ]
      · rw [if_neg h1]
        by_cases h2 : i = k ∧ j = k
        · obtain ⟨h2, h3⟩ := h2
          subst h2; subst h3
          rw [if_pos (by simp)]
          have e : j * m + j = j * (m + 1) := by ring
          rw [e, List.getElem?_set_self hlt]
          simp
        · rw [if_neg (by simp only [List.length_cons]; omega), List.getElem?_set_ne]
          intro e
          exact h2 ((index_diagonal hj (by omega)).1 e.symm)

theorem new_get [Zero α] {n m i j : Nat} (hi : i < n) (hj : j < m) : (new α n m).data[i * m + j]? = some 0 := by
  have := index_lt hi hj
  simp [new, this]

/-- The identity is a diagonal of ones. -/
theorem identity_eq [Zero α] [One α] (n m : Nat) : identity α n m = diagonal n m (List.replicate (rank n m) 1) := by
  unfold identity diagonal
  congr 1
  have key : ∀ (r k : Nat) (data : List α),
      (List.range' k r).foldlM (fun data i => writeAt data (i * (m + 1) : Nat) (1 : α)) data =
        diagonalLoop m (List.replicate r 1) (k * (m + 1)) data := by
    intro r
    induction r with
    | zero => intro k data; rfl
    | succ r ih =>
      intro k data
      rw [List.range'_succ, List.foldlM_cons, List.replicate_succ, diagonalLoop]
      congr 1
      funext d
      rw [ih]
      congr 1
      ring
  have := key (rank n m) 0 (new α n m).data
  rw [Nat.zero_mul, ← List.range_eq_range'] at this
  exact this

/-! ## Theorems -/

/-- **C60**: diagonal matrices.
Missing: element access with operators (`C60_access`, `C60_violated`). -/
theorem C60_diagonal_partial [Zero α] (n m : Nat) (values : List α) (h : values.length ≤ min n m) :
    ∃ a : Matrix α, diagonal n m values = .ok a ∧ a.rows = n ∧ a.columns = m ∧ IsDiagonal n m a.data values ∧
      ∀ i < n, ∀ j < m, a.raw (i * m + j : Nat) = .ok (if i = j then values.getD i 0 else 0) := by
  obtain ⟨d, e, hl, hv⟩ := diagonalLoop_spec (n := n) (m := m) values 0 (new α n m).data (by simp [new]) (by omega)
  rw [Nat.zero_mul] at e
  have hd : ∀ i < n, ∀ j < m, d[i * m + j]? = some (if i = j then values.getD i 0 else 0) := by
    intro i hi j hj
    rw [hv i hi j hj]
    by_cases hij : i = j
    · rw [if_pos hij, List.getD_eq_getElem?_getD]
      by_cases hk : i < values.length
      · rw [if_pos (by omega)]; simp [hk]
      · rw [if_neg (by omega), new_get hi hj]; simp [hk]
    · rw [if_neg (by omega), if_neg hij, new_get hi hj]
  refine ⟨⟨n, m, d⟩, ?_, rfl, rfl, ⟨hl, hd⟩, fun i hi j hj => ?_⟩
  · unfold diagonal; rw [e]; rfl
  · rw [raw, readAt_eq_ok]
    exact ⟨by omega, by rw [Int.toNat_natCast]; exact hd i hi j hj⟩

/-- **C60**: identity matrices.
Missing: element access with operators (`C60_access`, `C60_violated`). -/
theorem C60_identity_partial [Zero α] [One α] (n m : Nat) :
    ∃ a : Matrix α, identity α n m = .ok a ∧ a.rows = n ∧ a.columns = m ∧
      IsDiagonal n m a.data (List.replicate (min n m) 1) ∧
      ∀ i < n, ∀ j < m, a.raw (i * m + j : Nat) = .ok (if i = j then 1 else 0) := by
  rw [identity_eq, rank_eq]
  obtain ⟨a, h1, h2, h3, h4, h5⟩ := C60_diagonal_partial (α := α) n m (List.replicate (min n m) 1) (by simp)
  refine ⟨a, h1, h2, h3, h4, fun i hi j hj => ?_⟩
  rw [h5 i hi j hj]
  by_cases hij : i = j
  · subst hij
    simp [List.getD_eq_getElem?_getD, hi, hj]
  · simp [hij]

theorem diagonalLoop_ub {m : Nat} (values : List α) (d : Nat) (data : List α) (k : Nat) (hk : k < values.length)
    (h : data.length ≤ d + k * (m + 1)) : diagonalLoop m values d data = .error .ub := by
  induction values generalizing d data k with
  | nil => simp at hk
  | cons v values ih =>
    rw [diagonalLoop]
    by_cases hd : d < data.length
    · rw [writeAt_nat_ok hd, ok_bind]
      cases k with
      | zero => omega
      | succ k =>
        refine ih (d + (m + 1)) _ k (by simpa using hk) ?_
        have e : (k + 1) * (m + 1) = k * (m + 1) + (m + 1) := by ring
        rw [List.length_set]; omega
    · rw [writeAt_ub (by omega)]; rfl

/-- **C60**, limit of validity: a diagonal of more values than rows is written out of bounds. -/
theorem C60_diagonal_too_long [Zero α] (n m : Nat) (values : List α) (h : n < values.length) :
    diagonal n m values = .error .ub := by
  unfold diagonal
  rw [diagonalLoop_ub values 0 _ n h (by simp [new]; nlinarith)]
  rfl

/-- **C60**, negative: element access is undefined for all matrices, rows and columns. -/
theorem C60_access (a : Matrix α) (i j : Int) : a.get i j = .error .ub ∧ a.at i j = .error .ub := ⟨rfl, rfl⟩

/-- **C60** does not hold because of element access. -/
theorem C60_violated : ¬ C60_Statement := by
  intro h
  obtain ⟨x, _, hx⟩ := (h Int 1 1).2.2 ⟨1, 1, [0]⟩ rfl rfl rfl 0 (by omega) 0 (by omega)
  cases hx

/-! ## Non-vacuity -/

example : identity Int 2 3 = .ok ⟨2, 3, [1, 0, 0, 0, 1, 0]⟩ ∧ identity Int 3 2 = .ok ⟨3, 2, [1, 0, 0, 1, 0, 0]⟩ := by
  decide

example : [5, 6].length ≤ min 2 3 ∧ diagonal 2 3 [5, 6] = .ok (⟨2, 3, [5, 0, 0, 0, 6, 0]⟩ : Matrix Int) := by decide

/-- For a matrix with more rows than columns, a diagonal which is too long may wrap instead. -/
example : diagonal 4 2 [5, 6, 7] = .ok (⟨4, 2, [5, 0, 0, 6, 0, 0, 7, 0]⟩ : Matrix Int) := by decide

example : diagonal 2 2 [5, 6, 7] = (.error .ub : Res (Matrix Int)) := by decide

end Litl.Matrix
