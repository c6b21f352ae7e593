import Mathlib.Algebra.BigOperators.Intervals
import Mathlib.Algebra.Order.BigOperators.Group.List
import Mathlib.Tactic.Ring
import Mathlib.Tactic.LinearCombination
import Verif.Model.MatrixProduct
import Verif.Props.Matrix

/-!
# C127: products of matrices, C128: affinities
-/

namespace Litl.Matrix

open Container

variable {α : Type}

/-! ## Specification -/

/-- The `n × n` matrix of elements `z` is the product of those of elements `x` and `y`. -/
def IsProduct [NonUnitalNonAssocSemiring α] (n : Nat) (x y z : List α) : Prop :=
  z.length = n * n ∧
    ∀ i < n, ∀ j < n, Has n z i j (∑ k ∈ Finset.range n, x.getD (i * n + k) 0 * y.getD (k * n + j) 0)

/-- **C127** (as stated in properties.jsonl). -/
def C127_Statement : Prop :=
  ∀ (α : Type) [CommRing α] (n : Nat) (x y : List α), x.length = n * n → y.length = n * n →
    ∃ z, mulAssign ⟨n, n, x⟩ ⟨n, n, y⟩ = .ok ⟨n, n, z⟩ ∧ IsProduct n x y z

/-! ## Lemmas -/

theorem mulAssign_eq [Mul α] {n m : Nat} {x y : List α} (h : x.length = y.length) :
    mulAssign ⟨n, m, x⟩ ⟨n, m, y⟩ = .ok ⟨n, m, List.zipWith (· * ·) x y⟩ := by
  unfold mulAssign
  rw [vectorOp_eq _ _ _ h.le]
  rfl

theorem has_unique {m i j : Nat} {data : List α} {x y : α} (h : Has m data i j x) (h' : Has m data i j y) : x = y := by
  unfold Has at h h'
  rw [h] at h'
  exact Option.some.inj h'

theorem has_getD [Zero α] {m i j : Nat} {data : List α} {x : α} (h : Has m data i j x) : data.getD (i * m + j) 0 = x := by
  unfold Has at h
  rw [List.getD_eq_getElem?_getD, h]
  rfl

/-- The elements of a matrix determine its data. -/
theorem data_ext {n m : Nat} {x y : List α} (hx : x.length = n * m) (hy : y.length = n * m)
    (h : ∀ i < n, ∀ j < m, ∀ v, Has m x i j v → Has m y i j v) : x = y := by
  apply List.ext_getElem (hx.trans hy.symm)
  intro k h1 h2
  have hm : 0 < m := by
    rcases Nat.eq_zero_or_pos m with rfl | h'
    · omega
    · exact h'
  have e : k / m * m + k % m = k := Nat.div_add_mod' k m
  have := h (k / m) (Nat.div_lt_of_lt_mul (by rw [Nat.mul_comm]; omega)) (k % m) (Nat.mod_lt _ hm) x[k]
    (by unfold Has; rw [e]; exact List.getElem?_eq_getElem h1)
  unfold Has at this
  rw [e, List.getElem?_eq_getElem h2] at this
  exact (Option.some.inj this).symm

/-! ## Theorems -/

/-- **C127**, exact: the product is that of the elements at the same place, for all matrices, square or not. -/
theorem C127_product [Mul α] (n m : Nat) (x y : List α) (hx : x.length = n * m) (hy : y.length = n * m) :
    ∃ z, mulAssign ⟨n, m, x⟩ ⟨n, m, y⟩ = .ok ⟨n, m, z⟩ ∧ z.length = n * m ∧
      ∀ i < n, ∀ j < m, ∀ u v, Has m x i j u → Has m y i j v → Has m z i j (u * v) := by
  refine ⟨_, mulAssign_eq (hx.trans hy.symm), by simp [hx, hy], fun i hi j hj u v hu hv => ?_⟩
  unfold Has at *
  rw [List.getElem?_zipWith, hu, hv]

/-- **C127**, partial: the product of diagonal matrices is right.
Missing: other matrices (`C127_violated`, `C127_identity_iff`). -/
theorem C127_diagonal_partial [CommRing α] (n : Nat) (x y u v : List α) (hx : IsDiagonal n n x u) (hy : IsDiagonal n n y v) :
    ∃ z, mulAssign ⟨n, n, x⟩ ⟨n, n, y⟩ = .ok ⟨n, n, z⟩ ∧ IsProduct n x y z ∧
      IsDiagonal n n z (List.zipWith (· * ·) u v) := by
  obtain ⟨z, e, hl, hz⟩ := C127_product n n x y hx.1 hy.1
  have hd : ∀ i < n, ∀ j < n, Has n z i j (if i = j then u.getD i 0 * v.getD i 0 else 0) := by
    intro i hi j hj
    have := hz i hi j hj _ _ (hx.2 i hi j hj) (hy.2 i hi j hj)
    by_cases hij : i = j
    · simpa [hij] using this
    · simpa [hij] using this
  refine ⟨z, e, ⟨hl, fun i hi j hj => ?_⟩, hl, fun i hi j hj => ?_⟩
  · have : ∀ k ∈ Finset.range n, x.getD (i * n + k) 0 * y.getD (k * n + j) 0 =
        if k = i then (if i = j then u.getD i 0 * v.getD i 0 else 0) else 0 := by
      intro k hk
      have hk : k < n := Finset.mem_range.1 hk
      rw [has_getD (hx.2 i hi k hk), has_getD (hy.2 k hk j hj)]
      by_cases h1 : k = i
      · subst h1
        by_cases h2 : k = j <;> simp [h2]
      · simp [h1, Ne.symm h1]
    rw [Finset.sum_congr rfl this, Finset.sum_ite_eq']
    simpa [hi] using hd i hi j hj
  · have := hd i hi j hj
    by_cases hij : i = j
    · subst hij
      rw [if_pos rfl] at this ⊢
      have e : (List.zipWith (· * ·) u v).getD i 0 = u.getD i 0 * v.getD i 0 := by
        simp only [List.getD_eq_getElem?_getD, List.getElem?_zipWith]
        cases u[i]? <;> cases v[i]? <;> simp
      rw [e]; exact this
    · rw [if_neg hij] at this ⊢
      exact this

/-- **C127**, negative: the product by the identity, on either side, drops the elements out of the diagonal. -/
theorem C127_identity [CommRing α] (n m : Nat) (x : List α) (hx : x.length = n * m) :
    ∃ e z, identity α n m = .ok ⟨n, m, e⟩ ∧ mulAssign ⟨n, m, x⟩ ⟨n, m, e⟩ = .ok ⟨n, m, z⟩ ∧
      mulAssign ⟨n, m, e⟩ ⟨n, m, x⟩ = .ok ⟨n, m, z⟩ ∧ z.length = n * m ∧
      ∀ i < n, ∀ j < m, ∀ u, Has m x i j u → Has m z i j (if i = j then u else 0) := by
  obtain ⟨⟨r, c, d⟩, e, hr, hc, hd, -⟩ := C60_identity_partial (α := α) n m
  simp only at hr hc hd
  subst hr; subst hc
  obtain ⟨z, e1, hl, hz⟩ := C127_product r c x d hx hd.1
  refine ⟨d, z, e, e1, ?_, hl, fun i hi j hj u hu => ?_⟩
  · rw [← e1, mulAssign_eq (hd.1.trans hx.symm), mulAssign_eq (hx.trans hd.1.symm), List.zipWith_comm]
    simp only [mul_comm]
  · have := hz i hi j hj u _ hu (hd.2 i hi j hj)
    by_cases hij : i = j
    · subst hij
      simpa [List.getD_eq_getElem?_getD, hi, hj] using this
    · simpa [hij] using this

/-- **C127**: the identity is neutral for a given matrix if and only if that matrix is diagonal. -/
theorem C127_identity_iff [CommRing α] (n m : Nat) (x : List α) (hx : x.length = n * m) :
    (∃ e, identity α n m = .ok ⟨n, m, e⟩ ∧ mulAssign ⟨n, m, x⟩ ⟨n, m, e⟩ = .ok ⟨n, m, x⟩) ↔
      ∀ i < n, ∀ j < m, i ≠ j → Has m x i j 0 := by
  obtain ⟨e, z, he, h1, -, hl, hz⟩ := C127_identity n m x hx
  constructor
  · rintro ⟨e', he', h'⟩ i hi j hj hij
    rw [he] at he'
    obtain rfl : e = e' := by simpa using he'
    rw [h1] at h'
    obtain rfl : z = x := by simpa using h'
    have hlt : i * m + j < z.length := by rw [hl]; exact index_lt hi hj
    have := hz i hi j hj z[i * m + j] (List.getElem?_eq_getElem hlt)
    rwa [if_neg hij] at this
  · intro h
    refine ⟨e, he, ?_⟩
    rw [h1]
    have : x = z := by
      refine data_ext hx hl fun i hi j hj v hv => ?_
      have := hz i hi j hj v hv
      by_cases hij : i = j
      · rwa [if_pos hij] at this
      · rw [if_neg hij] at this
        rwa [has_unique hv (h i hi j hj hij)]
    rw [← this]

/-- **C127** does not hold. -/
theorem C127_violated : ¬ C127_Statement := by
  intro h
  obtain ⟨z, e, hz⟩ := h Int 2 [0, 1, 0, 0] [1, 0, 0, 1] rfl rfl
  have e' : mulAssign (⟨2, 2, [0, 1, 0, 0]⟩ : Matrix Int) ⟨2, 2, [1, 0, 0, 1]⟩ = .ok ⟨2, 2, [0, 0, 0, 0]⟩ := by decide
  rw [e] at e'
  obtain rfl : z = [0, 0, 0, 0] := by simpa using e'
  have := hz.2 0 (by omega) 1 (by omega)
  revert this
  unfold Has
  decide

/-! ## Non-vacuity -/

example : mulAssign (⟨2, 2, [1, 2, 3, 4]⟩ : Matrix Int) ⟨2, 2, [5, 6, 7, 8]⟩ = .ok ⟨2, 2, [5, 12, 21, 32]⟩ ∧
    IsProduct 2 [1, 2, 3, 4] [5, 6, 7, 8] ([19, 22, 43, 50] : List Int) := by
  refine ⟨by decide, rfl, ?_⟩
  unfold Has
  decide

example : IsDiagonal 2 2 [2, 0, 0, 3] ([2, 3] : List Int) ∧ IsDiagonal 2 2 [5, 0, 0, 7] ([5, 7] : List Int) := by
  constructor <;> refine ⟨rfl, ?_⟩ <;> unfold Has <;> decide

end Litl.Matrix

namespace Litl.Affinity

open Container Matrix

variable {α : Type}

/-! ## Specification -/

/-- The factor by which a call multiplies the coordinate of index `i`. -/
def Op.factor [CommRing α] (n : Nat) (i : Nat) : Op α → α
  | .scale f => f.getD i 0
  | .mul m => m.data.getD (i * n + i) 0
  | _ => 1

/-- What a call adds to the coordinate of index `i`. -/
def Op.shift [CommRing α] (i : Nat) : Op α → α
  | .translate v => v.getD i 0
  | .add v => v.getD i 0
  | _ => 0

/-- The arguments have dimension `n`. -/
def Op.Valid (n : Nat) : Op α → Prop
  | .translate v => v.length = n
  | .scale f => f.length = n
  | .rotate _ => True
  | .mul m => m.rows = n ∧ m.columns = n ∧ m.data.length = n * n
  | .add v => v.length = n

/-- The coordinate of index `i` of the image of `x`: the translation plus the product of the matrix by `x`, i.e.
what is meant by `operator()` (LitlTransforms/LitlTransforms/Affinity.h:63-66). -/
def image [CommRing α] (n : Nat) (a : Affinity α) (x : Nat → α) (i : Nat) : α :=
  a.translation.getD i 0 + ∑ k ∈ Finset.range n, a.map.data.getD (i * n + k) 0 * x k

/-- **C128** (as stated in properties.jsonl): scaling about a center. -/
def C128_Statement : Prop :=
  ∀ (n : Nat) (center factor : List ℚ), center.length = n → factor.length = n →
    ∃ a, ((new n center).bind fun a => a.scale n factor) = .ok a ∧ ∀ x, ∀ i < n,
      image n a x i = center.getD i 0 + factor.getD i 0 * (x i - center.getD i 0)

/-! ## Lemmas -/

variable [CommRing α] [DecidableEq α]

/-- The state of an affinity: a diagonal matrix, a translation and a center. -/
def State (n : Nat) (a : Affinity α) (d t c : List α) : Prop :=
  a.map.rows = n ∧ a.map.columns = n ∧ d.length = n ∧ IsDiagonal n n a.map.data d ∧ a.translation = t ∧ t.length = n ∧
    a.center = c ∧ c.length = n

omit [DecidableEq α] in
theorem state_new {n : Nat} {center : List α} (h : center.length = n) :
    ∃ a, new n center = .ok a ∧ State n a (List.replicate n 1) (List.replicate n 0) center := by
  obtain ⟨m, e, hr, hc, hd, -⟩ := C60_identity_partial (α := α) n n
  refine ⟨⟨m, List.replicate n 0, center⟩, by unfold new; rw [e]; rfl, hr, hc, by simp, ?_, rfl, by simp, rfl, h⟩
  rwa [Nat.min_self] at hd

omit [DecidableEq α] in
theorem state_add {n : Nat} {a : Affinity α} {d t c v : List α} (h : State n a d t c) (hv : v.length = n) :
    ∃ b, a.add v = .ok b ∧ State n b d (List.zipWith (· + ·) t v) c := by
  obtain ⟨h1, h2, h3, h4, rfl, h6, h7, h8⟩ := h
  refine ⟨{ a with translation := List.zipWith (· + ·) a.translation v }, ?_, h1, h2, h3, h4, rfl, by simp [h6, hv], h7, h8⟩
  unfold add
  rw [vectorOp_eq _ _ _ (by omega)]
  rfl

theorem zipWith_add_zero {t v : List α} (hl : t.length = v.length) (h : v.all (· == 0) = true) :
    List.zipWith (· + ·) t v = t := by
  apply List.ext_getElem (by simp [hl])
  intro i h1 h2
  have := List.all_eq_true.1 h v[i] (List.getElem_mem _)
  simp only [beq_iff_eq] at this
  simp [this]

theorem state_translate {n : Nat} {a : Affinity α} {d t c v : List α} (h : State n a d t c) (hv : v.length = n) :
    ∃ b, a.translate v = .ok b ∧ State n b d (List.zipWith (· + ·) t v) c := by
  unfold translate
  by_cases hz : v.all (· == 0) = true
  · rw [if_pos hz]
    refine ⟨a, rfl, ?_⟩
    rw [zipWith_add_zero (h.2.2.2.2.2.1.trans hv.symm) hz]
    exact h
  · rw [if_neg hz]
    exact state_add h hv

omit [DecidableEq α] in
theorem state_mul {n : Nat} {a : Affinity α} {d t c : List α} {m : Matrix α} (h : State n a d t c) (hr : m.rows = n)
    (hc : m.columns = n) (hm : m.data.length = n * n) :
    ∃ b, a.mul m = .ok b ∧
      State n b (List.zipWith (· * ·) d ((List.range n).map fun i => m.data.getD (i * n + i) 0)) t c := by
  obtain ⟨⟨r, k, x⟩, t', c'⟩ := a
  obtain ⟨h1, h2, h3, h4, h5, h6, h7, h8⟩ := h
  obtain ⟨r', k', y⟩ := m
  simp only at *
  subst r; subst k; subst r'; subst k'
  obtain ⟨z, e, hl, hz⟩ := C127_product n n x y h4.1 hm
  refine ⟨⟨⟨n, n, z⟩, t', c'⟩, by unfold mul; simp only; rw [e]; rfl, rfl, rfl, by simp [h3], ⟨hl, ?_⟩, h5, h6, h7, h8⟩
  intro i hi j hj
  have hlt : i * n + j < y.length := by rw [hm]; exact index_lt hi hj
  have := hz i hi j hj _ y[i * n + j] (h4.2 i hi j hj) (List.getElem?_eq_getElem hlt)
  by_cases hij : i = j
  · subst hij
    rw [if_pos rfl] at this ⊢
    have e : (List.zipWith (· * ·) d ((List.range n).map fun i => y.getD (i * n + i) 0)).getD i 0 =
        d.getD i 0 * y[i * n + i] := by
      simp [List.getD_eq_getElem?_getD, hi, h3, hlt]
    rw [e]; exact this
  · rw [if_neg hij, zero_mul] at this
    rwa [if_neg hij]

omit [DecidableEq α] in
theorem zipWith_neg_cancel {t c : List α} (h : t.length = c.length) :
    List.zipWith (· + ·) (List.zipWith (· + ·) t (c.map (- ·))) c = t := by
  apply List.ext_getElem (by simp [h])
  intro i h1 h2
  simp

theorem state_about {n : Nat} {a : Affinity α} {d t c : List α} {m : Matrix α} (h : State n a d t c) (hr : m.rows = n)
    (hc : m.columns = n) (hm : m.data.length = n * n) :
    ∃ b, (a.translate (a.center.map (- ·)) >>= fun a => a.mul m >>= fun a => a.translate a.center) = .ok b ∧
      State n b (List.zipWith (· * ·) d ((List.range n).map fun i => m.data.getD (i * n + i) 0)) t c := by
  have hcen : a.center = c := h.2.2.2.2.2.2.1
  have hcl : c.length = n := h.2.2.2.2.2.2.2
  rw [hcen]
  obtain ⟨b1, e1, s1⟩ := state_translate (v := c.map (- ·)) h (by simpa using hcl)
  obtain ⟨b2, e2, s2⟩ := state_mul s1 hr hc hm
  obtain ⟨b3, e3, s3⟩ := state_translate (v := c) s2 hcl
  have hb : b2.center = c := s2.2.2.2.2.2.2.1
  refine ⟨b3, by rw [e1, ok_bind, e2, ok_bind, hb, e3], ?_⟩
  rwa [zipWith_neg_cancel (h.2.2.2.2.2.1.trans hcl.symm)] at s3

omit [DecidableEq α] in
theorem diagonal_values {n : Nat} {data d : List α} (h : IsDiagonal n n data d) (hd : d.length = n) :
    ((List.range n).map fun i => data.getD (i * n + i) 0) = d := by
  apply List.ext_getElem (by simp [hd])
  intro i h1 h2
  have hi : i < n := by simpa using h1
  have := has_getD (h.2 i hi i hi)
  rw [if_pos rfl] at this
  simp only [List.getElem_map, List.getElem_range]
  rw [this, List.getD_eq_getElem?_getD, List.getElem?_eq_getElem h2]
  rfl

theorem zipWith_mul_one {d f : List α} (hl : d.length = f.length) (h : f.all (· == 1) = true) :
    List.zipWith (· * ·) d f = d := by
  apply List.ext_getElem (by simp [hl])
  intro i h1 h2
  have := List.all_eq_true.1 h f[i] (List.getElem_mem _)
  simp only [beq_iff_eq] at this
  simp [this]

theorem state_scale {n : Nat} {a : Affinity α} {d t c f : List α} (h : State n a d t c) (hf : f.length = n) :
    ∃ b, a.scale n f = .ok b ∧ State n b (List.zipWith (· * ·) d f) t c := by
  unfold scale
  by_cases h1 : f.all (· == 1) = true
  · rw [if_pos h1]
    refine ⟨a, rfl, ?_⟩
    rw [zipWith_mul_one (h.2.2.1.trans hf.symm) h1]
    exact h
  · rw [if_neg h1]
    obtain ⟨m, e, hr, hc, hd, -⟩ := C60_diagonal_partial (α := α) n n f (by omega)
    obtain ⟨b, e', s⟩ := state_about h hr hc hd.1
    refine ⟨b, by simpa [e, ok_bind] using e', ?_⟩
    rwa [diagonal_values hd hf] at s

theorem state_rotate {n : Nat} {a : Affinity α} {d t c : List α} (h : State n a d t c) (turns : Bool) :
    ∃ b, a.rotate n turns = .ok b ∧ State n b d t c := by
  unfold rotate
  cases turns with
  | false => exact ⟨a, rfl, h⟩
  | true =>
    rw [if_pos rfl]
    obtain ⟨m, e, hr, hc, hd, -⟩ := C60_identity_partial (α := α) n n
    obtain ⟨b, e', s⟩ := state_about h hr hc hd.1
    refine ⟨b, by simpa [e, ok_bind] using e', ?_⟩
    rwa [diagonal_values hd (by simp), Nat.min_self, zipWith_mul_one (by simp [h.2.2.1]) (by simp)] at s

/-- One call. -/
theorem state_exec {n : Nat} {a : Affinity α} {d t c : List α} (h : State n a d t c) {op : Op α} (hop : op.Valid n) :
    ∃ b d' t', a.exec n op = .ok b ∧ State n b d' t' c ∧ ∀ i < n, d'.getD i 0 = d.getD i 0 * op.factor n i ∧
      t'.getD i 0 = t.getD i 0 + op.shift i := by
  have hd : d.length = n := h.2.2.1
  have ht : t.length = n := h.2.2.2.2.2.1
  cases op with
  | translate v =>
    have hv : v.length = n := hop
    obtain ⟨b, e, s⟩ := state_translate h hv
    refine ⟨b, _, _, e, s, fun i hi => ⟨by simp [Op.factor], ?_⟩⟩
    simp [Op.shift, List.getD_eq_getElem?_getD, ht, hv, hi]
  | scale f =>
    have hf : f.length = n := hop
    obtain ⟨b, e, s⟩ := state_scale h hf
    refine ⟨b, _, _, e, s, fun i hi => ⟨?_, by simp [Op.shift]⟩⟩
    simp [Op.factor, List.getD_eq_getElem?_getD, hd, hf, hi]
  | rotate r =>
    obtain ⟨b, e, s⟩ := state_rotate h r
    exact ⟨b, _, _, e, s, fun i hi => ⟨by simp [Op.factor], by simp [Op.shift]⟩⟩
  | mul m =>
    obtain ⟨hr, hc, hm⟩ := hop
    obtain ⟨b, e, s⟩ := state_mul h hr hc hm
    refine ⟨b, _, _, e, s, fun i hi => ⟨?_, by simp [Op.shift]⟩⟩
    simp [Op.factor, List.getD_eq_getElem?_getD, hd, hi]
  | add v =>
    have hv : v.length = n := hop
    obtain ⟨b, e, s⟩ := state_add h hv
    refine ⟨b, _, _, e, s, fun i hi => ⟨by simp [Op.factor], ?_⟩⟩
    simp [Op.shift, List.getD_eq_getElem?_getD, ht, hv, hi]

/-- Successive calls. -/
theorem state_run {n : Nat} {c : List α} (ops : List (Op α)) (hops : ∀ op ∈ ops, op.Valid n) :
    ∀ {a : Affinity α} {d t : List α}, State n a d t c →
    ∃ b d' t', a.run n ops = .ok b ∧ State n b d' t' c ∧ ∀ i < n,
      d'.getD i 0 = d.getD i 0 * (ops.map (Op.factor n i)).prod ∧ t'.getD i 0 = t.getD i 0 + (ops.map (Op.shift i)).sum := by
  induction ops with
  | nil =>
    intro a d t h
    exact ⟨a, d, t, rfl, h, fun i _ => by simp⟩
  | cons op ops ih =>
    intro a d t h
    obtain ⟨b, d1, t1, e1, s1, h1⟩ := state_exec h (hops op (by simp))
    obtain ⟨b2, d2, t2, e2, s2, h2⟩ := ih (fun o ho => hops o (by simp [ho])) s1
    refine ⟨b2, d2, t2, by rw [run, e1, ok_bind, e2], s2, fun i hi => ?_⟩
    rw [(h2 i hi).1, (h2 i hi).2, (h1 i hi).1, (h1 i hi).2, List.map_cons, List.prod_cons, List.map_cons, List.sum_cons]
    exact ⟨by ring, by ring⟩

omit [DecidableEq α] in
theorem image_eq {n : Nat} {a : Affinity α} {d t c : List α} (h : State n a d t c) (x : Nat → α) {i : Nat} (hi : i < n) :
    image n a x i = t.getD i 0 + d.getD i 0 * x i := by
  obtain ⟨-, -, -, hm, rfl, -⟩ := h
  unfold image
  congr 1
  have : ∀ k ∈ Finset.range n, a.map.data.getD (i * n + k) 0 * x k = if k = i then d.getD i 0 * x i else 0 := by
    intro k hk
    rw [has_getD (hm.2 i hi k (Finset.mem_range.1 hk))]
    by_cases h : k = i
    · subst h; simp
    · simp [h, Ne.symm h]
  rw [Finset.sum_congr rfl this, Finset.sum_ite_eq']
  simp [hi]

/-! ## Theorems -/

/-- **C128**, exact: after any calls, the map of an affinity multiplies each coordinate by the product of the factors (those
of the scalings, and the diagonals of the matrices), and adds the sum of the translations.  The center and the
rotations have no effect, neither have the elements of the matrices out of their diagonals. -/
theorem C128_run (n : Nat) (center : List α) (ops : List (Op α)) (hc : center.length = n) (hops : ∀ op ∈ ops, op.Valid n) :
    ∃ a, ((new n center).bind fun a => a.run n ops) = .ok a ∧ a.center = center ∧ ∀ x, ∀ i < n,
      image n a x i = (ops.map (Op.shift i)).sum + (ops.map (Op.factor n i)).prod * x i := by
  obtain ⟨a, e, s⟩ := state_new hc
  obtain ⟨b, d, t, e', s', h⟩ := state_run ops hops s
  refine ⟨b, by rw [e]; exact e', s'.2.2.2.2.2.2.1, fun x i hi => ?_⟩
  rw [image_eq s' x hi, (h i hi).1, (h i hi).2]
  simp [List.getD_eq_getElem?_getD, hi]

/-- **C128**, negative: whatever the center, an affinity which is scaled maps `x` to the product of its coordinates by
the factors. -/
theorem C128_scale (n : Nat) (center factor : List α) (hc : center.length = n) (hf : factor.length = n) :
    ∃ a, ((new n center).bind fun a => a.scale n factor) = .ok a ∧ ∀ x, ∀ i < n, image n a x i = factor.getD i 0 * x i := by
  obtain ⟨a, e, -, h⟩ := C128_run n center [.scale factor] hc (by simpa [Op.Valid] using hf)
  refine ⟨a, ?_, fun x i hi => by simpa [Op.shift, Op.factor] using h x i hi⟩
  rw [← e]
  congr 1
  funext a
  simp only [run, exec]
  cases a.scale n factor <;> rfl

/-- **C128**: scaling is about the center if and only if the coordinates of the center which are scaled are null. -/
theorem C128_scale_iff [NoZeroDivisors α] (n : Nat) (center factor : List α) (hc : center.length = n)
    (hf : factor.length = n) :
    (∃ a, ((new n center).bind fun a => a.scale n factor) = .ok a ∧ ∀ x, ∀ i < n,
      image n a x i = center.getD i 0 + factor.getD i 0 * (x i - center.getD i 0)) ↔
      ∀ i < n, factor.getD i 0 = 1 ∨ center.getD i 0 = 0 := by
  obtain ⟨a, e, h⟩ := C128_scale n center factor hc hf
  constructor
  · rintro ⟨b, e', h'⟩ i hi
    rw [e] at e'
    obtain rfl : a = b := by simpa using e'
    have h1 := h (fun _ => 0) i hi
    rw [h' _ i hi] at h1
    have : (factor.getD i 0 - 1) * center.getD i 0 = 0 := by linear_combination -h1
    rcases mul_eq_zero.1 this with h2 | h2
    · exact .inl (by linear_combination h2)
    · exact .inr h2
  · intro h0
    refine ⟨a, e, fun x i hi => ?_⟩
    rw [h x i hi]
    rcases h0 i hi with h1 | h1 <;> rw [h1] <;> ring

/-- **C128**, partial: scaling about the origin.
Missing: other centers (`C128_violated`, `C128_scale_iff`). -/
theorem C128_origin_partial (n : Nat) (factor : List α) (hf : factor.length = n) :
    ∃ a, ((new n (List.replicate n (0 : α))).bind fun a => a.scale n factor) = .ok a ∧ ∀ x, ∀ i < n,
      image n a x i = 0 + factor.getD i 0 * (x i - 0) := by
  obtain ⟨a, e, h⟩ := C128_scale n (List.replicate n (0 : α)) factor (by simp) hf
  exact ⟨a, e, fun x i hi => by rw [h x i hi]; ring⟩

/-- **C128** does not hold: the center is moved. -/
theorem C128_violated : ¬ C128_Statement := by
  intro h
  have := (C128_scale_iff 1 [1] [(2 : ℚ)] rfl rfl).1 (h 1 [1] [2] rfl rfl) 0 (by omega)
  revert this
  norm_num

/-! ## Non-vacuity -/

example : ((new 2 [5, 7]).bind fun a => a.run 2
    [.scale [2, 3], .rotate true, .translate [10, 20], .mul ⟨2, 2, [1, 9, 9, -1]⟩, .scale [1, 1], .add [0, 1]]) =
    .ok (⟨⟨2, 2, [2, 0, 0, -3]⟩, [10, 21], [5, 7]⟩ : Affinity Int) := by decide

example : ∀ op ∈ [Op.scale [2, 3], .rotate true, .translate [10, 20], .mul ⟨2, 2, [1, 9, 9, -1]⟩, .add [(0 : Int), 1]],
    op.Valid 2 := by simp [Op.Valid]

example : (∀ i < 2, ([1, 2] : List ℚ).getD i 0 = 1 ∨ ([5, 0] : List ℚ).getD i 0 = 0) ∧
    ¬ ∀ i < 2, ([1, 2] : List ℚ).getD i 0 = 1 ∨ ([5, 3] : List ℚ).getD i 0 = 0 := by decide

end Litl.Affinity
