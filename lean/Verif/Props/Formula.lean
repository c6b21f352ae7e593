import Verif.Model.Formula
import Verif.Props.ScalarConversion
import Verif.Props.SeqUtils

/-!
# C110: formulae with operators and with `generate()`
-/

namespace Litl.Spec

open Container

variable {α : Type _}

/-- The containers of the formula are among `m` containers. -/
def Uses (m : Nat) : Formula α → Prop
  | .arg i => i < m
  | .vector _ x y => Uses m x ∧ Uses m y
  | .scalar _ x _ => Uses m x

/-- The elements of index `i` of the containers. -/
def column (cs : List (List α)) (i : Nat) : List α := cs.filterMap fun c => c[i]?

/-- The values of the formula and of its sub-formulae satisfy `P`, and the scalars are any. -/
def SubValues (A : Arith α) (P : α → Prop) (args : List α) : Formula α → Prop
  | .arg i => ∀ r, args[i]? = some r → P r
  | .vector op x y => SubValues A P args x ∧ SubValues A P args y ∧ ∀ r, (Formula.vector op x y).value A args = some r → P r
  | .scalar op x k => SubValues A P args x ∧ ∀ r, (Formula.scalar op x k).value A args = some r → P r

/-- The operators of the formula are `+`, `-` and `*`, and the scalars satisfy `P`. -/
def Polynomial (P : α → Prop) : Formula α → Prop
  | .arg _ => True
  | .vector op x y => (op = .add ∨ op = .sub ∨ op = .mul) ∧ Polynomial P x ∧ Polynomial P y
  | .scalar op x k => (op = .add ∨ op = .sub ∨ op = .mul) ∧ Polynomial P x ∧ P k

/-- The scalars of the formula satisfy `P`. -/
def Scalars (P : α → Prop) : Formula α → Prop
  | .arg _ => True
  | .vector _ x y => Scalars P x ∧ Scalars P y
  | .scalar _ x k => Scalars P x ∧ P k

end Litl.Spec

namespace Litl.Container

open Spec

variable {α : Type _}

/-! ## One element -/

/-- The formula with operators, for one element. -/
def Formula.step (A : Arith α) (args : List α) : Formula α → Option α
  | .arg i => args[i]?
  | .vector op x y => do
    let a ← x.step A args
    let b ← y.step A args
    (A.eval op a b).map A.store
  | .scalar op x k => do
    let a ← x.step A args
    (A.eval op a k).map A.store

/-- The outcome of a computation on elements: one of its values per element, or undefined. -/
def outcome {β : Type _} (f : Nat → Option β) (n : Nat) : Res (List β) :=
  (List.range n).mapM fun i => match f i with | none => .error .ub | some r => .ok r

theorem outcome_eq_ok {β : Type _} {f : Nat → Option β} {n : Nat} {r : List β} :
    outcome f n = .ok r ↔ r.length = n ∧ ∀ i, i < n → f i = r[i]? := by
  induction n generalizing r with
  | zero =>
    constructor
    · intro h
      cases h
      exact ⟨rfl, fun i hi => absurd hi (by omega)⟩
    · rintro ⟨h, _⟩
      rw [List.length_eq_zero_iff.1 h]
      rfl
  | succ n ih =>
    unfold outcome at ih ⊢
    rw [List.range_succ, List.mapM_append, List.mapM_cons, List.mapM_nil]
    cases ho : (List.range n).mapM fun i => (match f i with | none => .error .ub | some r => .ok r : Res β) with
    | error e =>
      constructor
      · intro h
        cases h
      · rintro ⟨hl, h⟩
        have := (ih (r := r.take n)).2 ⟨by simp [hl], fun i hi => by rw [h i (by omega), List.getElem?_take_of_lt hi]⟩
        rw [ho] at this
        cases this
    | ok q =>
      obtain ⟨hq, hf⟩ := ih.1 ho
      cases hn : f n with
      | none =>
        constructor
        · intro h
          cases h
        · rintro ⟨hl, h⟩
          have := h n (by omega)
          rw [hn, List.getElem?_eq_getElem (by omega)] at this
          cases this
      | some x =>
        change (.ok (q ++ [x]) : Res (List β)) = .ok r ↔ _
        constructor
        · intro h
          cases h
          refine ⟨by simp [hq], fun i hi => ?_⟩
          by_cases h' : i < n
          · rw [hf i h', List.getElem?_append_left (by omega)]
          · obtain rfl : i = n := by omega
            rw [hn, List.getElem?_append_right (by omega), hq]
            simp
        · rintro ⟨hl, h⟩
          congr 1
          apply List.ext_getElem?
          intro i
          by_cases h' : i < n
          · rw [← h i (by omega), hf i h', List.getElem?_append_left (by omega)]
          · rw [List.getElem?_append_right (by omega), hq]
            by_cases h'' : i = n
            · subst h''
              rw [← h i (by omega), hn]
              simp
            · rw [List.getElem?_eq_none (by simp; omega), List.getElem?_eq_none (by omega)]

theorem outcome_error {β : Type _} {f : Nat → Option β} {n : Nat} {e : Fail} (h : outcome f n = .error e) : e = .ub := by
  unfold outcome at h
  generalize List.range n = l at h
  induction l with
  | nil => cases h
  | cons i l ih =>
    rw [List.mapM_cons] at h
    cases hf : f i with
    | none =>
      rw [hf] at h
      cases h
      rfl
    | some r =>
      rw [hf] at h
      cases hl : l.mapM fun i => (match f i with | none => .error .ub | some r => .ok r : Res β) with
      | error e' =>
        rw [hl] at h
        cases h
        exact ih hl
      | ok q =>
        rw [hl] at h
        cases h

theorem outcome_congr {β : Type _} {f g : Nat → Option β} {n : Nat} (h : ∀ i, i < n → f i = g i) :
    outcome f n = outcome g n := by
  cases hf : outcome f n with
  | ok r =>
    obtain ⟨hl, h'⟩ := outcome_eq_ok.1 hf
    exact (outcome_eq_ok.2 ⟨hl, fun i hi => by rw [← h i hi, h' i hi]⟩).symm
  | error e =>
    cases hg : outcome g n with
    | ok r =>
      obtain ⟨hl, h'⟩ := outcome_eq_ok.1 hg
      rw [outcome_eq_ok.2 ⟨hl, fun i hi => by rw [h i hi, h' i hi]⟩] at hf
      cases hf
    | error e' => rw [outcome_error hf, outcome_error hg]

theorem outcome_eq_error {β : Type _} {f : Nat → Option β} {n : Nat} {e : Fail} :
    outcome f n = .error e ↔ e = .ub ∧ ∃ i, i < n ∧ f i = none := by
  constructor
  · intro h
    refine ⟨outcome_error h, ?_⟩
    unfold outcome at h
    have : ∀ l : List Nat, (l.mapM fun i => (match f i with | none => .error .ub | some r => .ok r : Res β)) = .error e →
        ∃ i ∈ l, f i = none := by
      intro l
      induction l with
      | nil => exact fun h => nomatch h
      | cons i l ih =>
        intro h
        cases hf : f i with
        | none => exact ⟨i, by simp, hf⟩
        | some r =>
          rw [List.mapM_cons, hf] at h
          cases hl : l.mapM fun i => (match f i with | none => .error .ub | some r => .ok r : Res β) with
          | error e' =>
            rw [hl] at h
            cases h
            obtain ⟨j, hj, hf'⟩ := ih hl
            exact ⟨j, by simp [hj], hf'⟩
          | ok q =>
            rw [hl] at h
            cases h
    obtain ⟨i, hi, hf⟩ := this _ h
    exact ⟨i, List.mem_range.1 hi, hf⟩
  · rintro ⟨rfl, i, hi, hf⟩
    cases h : outcome f n with
    | error e => rw [outcome_error h]
    | ok r =>
      obtain ⟨hl, h'⟩ := outcome_eq_ok.1 h
      have := h' i hi
      rw [hf, List.getElem?_eq_getElem (by omega)] at this
      cases this

theorem outcome_succ {β : Type _} (f : Nat → Option β) (n : Nat) :
    outcome f (n + 1) = (match f 0 with | none => .error .ub | some r => .ok r : Res β) >>= fun r =>
      outcome (fun i => f (i + 1)) n >>= fun l => .ok (r :: l) := by
  unfold outcome
  rw [List.range_succ_eq_map, List.mapM_cons, List.mapM_map]
  rfl

theorem operatorElement_eq (A : Arith α) (op : Op) (x y : α) :
    operatorElement A op x y =
      (match (A.eval op x y).map A.store with | none => .error .ub | some r => .ok r : Res α) := by
  unfold operatorElement
  cases A.eval op x y <;> rfl

theorem vectorOperator_eq (A : Arith α) (op : Op) (v u : List α) (h : u.length = v.length) :
    vectorOperator A op v u =
      outcome (fun i => v[i]?.bind fun a => u[i]?.bind fun b => (A.eval op a b).map A.store) v.length := by
  induction v generalizing u with
  | nil => rfl
  | cons x v ih =>
    cases u with
    | nil => simp at h
    | cons y u =>
      rw [List.length_cons, outcome_succ]
      change (operatorElement A op x y >>= fun r => vectorOperator A op v u >>= fun w => .ok (r :: w)) = _
      rw [ih u (by simpa using h), operatorElement_eq]
      rfl

/-- Operators read memory after the elements of the right operand if it is shorter, whatever the elements. -/
theorem C110_sizes (A : Arith α) (op : Op) (v u : List α) (h : u.length < v.length) : vectorOperator A op v u = .error .ub := by
  induction v generalizing u with
  | nil => simp at h
  | cons x v ih =>
    cases u with
    | nil => rfl
    | cons y u =>
      change (operatorElement A op x y >>= fun r => vectorOperator A op v u >>= fun w => .ok (r :: w)) = _
      rw [ih u (by simpa using h), operatorElement_eq]
      cases (A.eval op x y).map A.store <;> rfl

theorem scalarOperator_eq (A : Arith α) (op : Op) (v : List α) (k : α) :
    scalarOperator A op v k = outcome (fun i => v[i]?.bind fun a => (A.eval op a k).map A.store) v.length := by
  unfold scalarOperator
  induction v with
  | nil => rfl
  | cons x v ih =>
    rw [List.length_cons, outcome_succ, List.mapM_cons, ih, operatorElement_eq]
    rfl

theorem column_get {cs : List (List α)} {n i : Nat} (h : ∀ c ∈ cs, c.length = n) (hi : i < n) (k : Nat) :
    (column cs i)[k]? = cs[k]?.bind fun c => c[i]? := by
  unfold column
  induction cs generalizing k with
  | nil => rfl
  | cons c cs ih =>
    have hc : i < c.length := by rw [h c (by simp)]; exact hi
    rw [List.filterMap_cons, List.getElem?_eq_getElem hc]
    cases k with
    | zero => simp [List.getElem?_eq_getElem hc]
    | succ k =>
      simp only [List.getElem?_cons_succ]
      exact ih (fun c hc => h c (by simp [hc])) k

theorem operators_eq (A : Arith α) (φ : Formula α) {cs : List (List α)} {n : Nat} (h : ∀ c ∈ cs, c.length = n)
    (hu : Uses cs.length φ) : φ.operators A cs = outcome (fun i => φ.step A (column cs i)) n := by
  induction φ with
  | arg k =>
    have hk : k < cs.length := hu
    change readAt cs (k : Int) = _
    rw [readAt_nat, List.getElem?_eq_getElem hk]
    refine (outcome_eq_ok.2 ⟨h _ (List.getElem_mem hk), fun i hi => ?_⟩).symm
    change (column cs i)[k]? = _
    rw [column_get h hi, List.getElem?_eq_getElem hk]
    rfl
  | vector op x y ihx ihy =>
    change (x.operators A cs >>= fun v => y.operators A cs >>= fun u => vectorOperator A op v u) = _
    rw [ihx hu.1, ihy hu.2]
    cases hx : outcome (fun i => x.step A (column cs i)) n with
    | error e =>
      obtain ⟨rfl, i, hi, hf⟩ := outcome_eq_error.1 hx
      refine (outcome_eq_error.2 ⟨rfl, i, hi, ?_⟩).symm
      change (x.step A (column cs i) >>= _) = _
      rw [hf]
      rfl
    | ok v =>
      obtain ⟨hvl, hv⟩ := outcome_eq_ok.1 hx
      change (outcome (fun i => y.step A (column cs i)) n >>= fun u => vectorOperator A op v u) = _
      cases hy : outcome (fun i => y.step A (column cs i)) n with
      | error e =>
        obtain ⟨rfl, i, hi, hf⟩ := outcome_eq_error.1 hy
        refine (outcome_eq_error.2 ⟨rfl, i, hi, ?_⟩).symm
        change (x.step A (column cs i) >>= fun a => y.step A (column cs i) >>= _) = _
        rw [hf]
        cases x.step A (column cs i) <;> rfl
      | ok u =>
        obtain ⟨hul, hu'⟩ := outcome_eq_ok.1 hy
        change vectorOperator A op v u = _
        rw [vectorOperator_eq A op v u (by omega), hvl]
        refine outcome_congr fun i hi => ?_
        rw [← hv i hi, ← hu' i hi]
        rfl
  | scalar op x k ihx =>
    change (x.operators A cs >>= fun v => scalarOperator A op v k) = _
    rw [ihx hu]
    cases hx : outcome (fun i => x.step A (column cs i)) n with
    | error e =>
      obtain ⟨rfl, i, hi, hf⟩ := outcome_eq_error.1 hx
      refine (outcome_eq_error.2 ⟨rfl, i, hi, ?_⟩).symm
      change (x.step A (column cs i) >>= _) = _
      rw [hf]
      rfl
    | ok v =>
      obtain ⟨hvl, hv⟩ := outcome_eq_ok.1 hx
      change scalarOperator A op v k = _
      rw [scalarOperator_eq, hvl]
      refine outcome_congr fun i hi => ?_
      rw [← hv i hi]
      rfl

theorem mapM_column {cs : List (List α)} {n i : Nat} (h : ∀ c ∈ cs, c.length = n) (hi : i < n) :
    (cs.mapM fun c => readAt c (i : Int)) = .ok (column cs i) := by
  unfold column
  induction cs with
  | nil => rfl
  | cons c cs ih =>
    have hc : i < c.length := by rw [h c (by simp)]; exact hi
    rw [List.mapM_cons, readAt_nat, ih fun c hc => h c (by simp [hc]), List.filterMap_cons,
      List.getElem?_eq_getElem hc]
    rfl

theorem generate_eq (A : Arith α) (φ : Formula α) {cs : List (List α)} {n : Nat} (h : ∀ c ∈ cs, c.length = n) :
    φ.generate A cs n = outcome (fun i => (φ.value A (column cs i)).map A.store) n := by
  unfold Formula.generate outcome
  have : ∀ l : List Nat, (∀ i ∈ l, i < n) →
      (l.mapM fun i => do
        let args ← cs.mapM fun c => readAt c (i : Int)
        φ.generateElement A args) =
      l.mapM fun i => (match (φ.value A (column cs i)).map A.store with | none => .error .ub | some r => .ok r : Res α) := by
    intro l hl
    induction l with
    | nil => rfl
    | cons i l ih =>
      rw [List.mapM_cons, List.mapM_cons, ih fun j hj => hl j (by simp [hj]), mapM_column h (hl i (by simp))]
      change (φ.generateElement A (column cs i) >>= _) = _
      unfold Formula.generateElement
      cases φ.value A (column cs i) <;> rfl
  exact this _ fun i hi => List.mem_range.1 hi

/-- Intermediate results which are not changed by their conversion. -/
theorem step_of_sub (A : Arith α) {P : α → Prop} (hP : ∀ x, P x → A.store x = x) (φ : Formula α) {args : List α}
    (h : SubValues A P args φ) : φ.step A args = φ.value A args ∧ ∀ r, φ.value A args = some r → P r := by
  induction φ with
  | arg i => exact ⟨rfl, h⟩
  | vector op x y ihx ihy =>
    refine ⟨?_, h.2.2⟩
    have hv := h.2.2
    change (x.step A args >>= fun a => y.step A args >>= fun b => (A.eval op a b).map A.store) =
      (x.value A args >>= fun a => y.value A args >>= fun b => A.eval op a b)
    change ∀ r, (x.value A args >>= fun a => y.value A args >>= fun b => A.eval op a b) = some r → P r at hv
    rw [(ihx h.1).1, (ihy h.2.1).1]
    cases hx : x.value A args with
    | none => rfl
    | some a =>
      cases hy : y.value A args with
      | none => rfl
      | some b =>
        rw [hx, hy] at hv
        change (A.eval op a b).map A.store = A.eval op a b
        change ∀ r, A.eval op a b = some r → P r at hv
        cases he : A.eval op a b with
        | none => rfl
        | some r => rw [Option.map_some, hP r (hv r he)]
  | scalar op x k ihx =>
    refine ⟨?_, h.2⟩
    have hv := h.2
    change (x.step A args >>= fun a => (A.eval op a k).map A.store) = (x.value A args >>= fun a => A.eval op a k)
    change ∀ r, (x.value A args >>= fun a => A.eval op a k) = some r → P r at hv
    rw [(ihx h.1).1]
    cases hx : x.value A args with
    | none => rfl
    | some a =>
      rw [hx] at hv
      change (A.eval op a k).map A.store = A.eval op a k
      change ∀ r, A.eval op a k = some r → P r at hv
      cases he : A.eval op a k with
      | none => rfl
      | some r => rw [Option.map_some, hP r (hv r he)]

end Litl.Container

namespace Litl

open Spec Container

variable {α : Type _}

/-- **C110** for formulae whose intermediate results are not changed by their conversion to the type of the elements, for each
index: `generate()` and the operators have the same outcome.
Missing: the other ones, see `C110_violated`. -/
theorem C110_sub_values_partial (A : Arith α) {P : α → Prop} (hP : ∀ x, P x → A.store x = x) (φ : Formula α)
    {cs : List (List α)} {n : Nat} (h : ∀ c ∈ cs, c.length = n) (hu : Uses cs.length φ)
    (hv : ∀ i, i < n → SubValues A P (column cs i) φ) : φ.generate A cs n = φ.operators A cs := by
  rw [generate_eq A φ h, operators_eq A φ h hu]
  refine outcome_congr fun i hi => ?_
  obtain ⟨h1, h2⟩ := step_of_sub A hP φ (hv i hi)
  rw [h1]
  cases hv' : φ.value A (column cs i) with
  | none => rfl
  | some r => rw [Option.map_some, hP r (h2 r hv')]

theorem sub_values_of_closed (A : Arith α) {P : α → Prop}
    (hc : ∀ op x y r, P x → P y → A.eval op x y = some r → P r) (φ : Formula α) (hk : Scalars P φ) {args : List α}
    (ha : ∀ x ∈ args, P x) : SubValues A P args φ ∧ ∀ r, φ.value A args = some r → P r := by
  induction φ with
  | arg i =>
    have : ∀ r, args[i]? = some r → P r := fun r hr => ha r (List.mem_of_getElem? hr)
    exact ⟨this, this⟩
  | vector op x y ihx ihy =>
    have key : ∀ r, (Formula.vector op x y).value A args = some r → P r := by
      intro r hr
      change (x.value A args >>= fun a => y.value A args >>= fun b => A.eval op a b) = some r at hr
      cases hx : x.value A args with
      | none =>
        rw [hx] at hr
        cases hr
      | some a =>
        cases hy : y.value A args with
        | none =>
          rw [hx, hy] at hr
          cases hr
        | some b =>
          rw [hx, hy] at hr
          exact hc op a b r ((ihx hk.1).2 a hx) ((ihy hk.2).2 b hy) hr
    exact ⟨⟨(ihx hk.1).1, (ihy hk.2).1, key⟩, key⟩
  | scalar op x k ihx =>
    have key : ∀ r, (Formula.scalar op x k).value A args = some r → P r := by
      intro r hr
      change (x.value A args >>= fun a => A.eval op a k) = some r at hr
      cases hx : x.value A args with
      | none =>
        rw [hx] at hr
        cases hr
      | some a =>
        rw [hx] at hr
        exact hc op a k r ((ihx hk.1).2 a hx) hk.2 hr
    exact ⟨⟨(ihx hk.1).1, key⟩, key⟩

theorem mem_column {cs : List (List α)} {i : Nat} {x : α} (h : x ∈ column cs i) : ∃ c ∈ cs, x ∈ c := by
  unfold column at h
  obtain ⟨c, hc, hx⟩ := List.mem_filterMap.1 h
  exact ⟨c, hc, List.mem_of_getElem? hx⟩

/-- **C110** for types which are closed under their operators, e.g. `double` with its rounded arithmetic: `generate()` and the
operators have the same outcome.
Missing: types which are narrower than `int`, see `C110_violated`. -/
theorem C110_closed_partial (op : Op → α → α → α) (φ : Formula α) {cs : List (List α)} {n : Nat}
    (h : ∀ c ∈ cs, c.length = n) (hu : Uses cs.length φ) :
    φ.generate (.closed op) cs n = φ.operators (.closed op) cs := by
  refine C110_sub_values_partial (.closed op) (P := fun _ => True) (fun _ _ => rfl) φ h hu fun i _ => ?_
  refine (sub_values_of_closed (.closed op) (fun _ _ _ _ _ _ _ => trivial) φ ?_ fun _ _ => trivial).1
  induction φ with
  | arg _ => trivial
  | vector _ _ _ ihx ihy => exact ⟨ihx hu.1, ihy hu.2⟩
  | scalar _ _ _ ihx => exact ⟨ihx hu, trivial⟩

theorem eval_mem {t : IntType} (h : 2 ≤ t.digits) (hw : t.promoted = t) {op : Op} {x y r : Int} (hx : t.Mem x)
    (he : op.eval t x y = some r) : t.Mem r := by
  have key : ∀ {z r : Int}, t.promoted.result z = some r → t.Mem r := by
    intro z r hr
    unfold IntType.result at hr
    rw [hw] at hr
    split at hr
    · split at hr
      · rename_i hm
        cases hr
        exact hm
      · cases hr
    · cases hr
      exact (IntType.convert_spec h z).1
  cases op with
  | add => exact key he
  | sub => exact key he
  | mul => exact key he
  | div =>
    unfold Op.eval at he
    simp only at he
    split at he
    · cases he
    · exact key he
  | rem =>
    unfold Op.eval at he
    simp only at he
    split at he
    · cases he
    · rename_i hy0
      cases hd : t.promoted.result (Int.tdiv x y) with
      | none =>
        rw [hd] at he
        cases he
      | some d =>
        rw [hd] at he
        cases he
        change t.Mem (Int.tmod x y)
        unfold IntType.Mem at hx ⊢
        have h1 : Int.tmod x y = x - y * Int.tdiv x y := by
          have := Int.mul_tdiv_add_tmod x y
          omega
        have hl : t.lowest ≤ 0 ∧ 0 ≤ t.highest := by
          unfold IntType.lowest IntType.highest
          have : (0 : Int) < 2 ^ t.digits := by positivity
          split <;> omega
        have h2 : |Int.tmod x y| ≤ |x| := by
          rw [Int.abs_eq_natAbs, Int.abs_eq_natAbs, Int.natAbs_tmod]
          exact_mod_cast Nat.mod_le _ _
        rcases le_or_gt 0 x with hx0 | hx0
        · have h3 := Int.tmod_nonneg y hx0
          rw [abs_of_nonneg h3, abs_of_nonneg hx0] at h2
          omega
        · have h3 : Int.tmod x y ≤ 0 := by
            have := Int.tmod_nonneg y (a := -x) (by omega)
            rw [Int.neg_tmod] at this
            omega
          rw [abs_of_nonpos h3, abs_of_neg hx0] at h2
          omega

/-- **C110** for integers which are not narrower than `int`: `generate()` and the operators have the same outcome, be it
undefined.
Missing: narrower types, see `C110_violated`. -/
theorem C110_wide_partial {t : IntType} (ht : 2 ≤ t.digits) (hw : t.promoted = t) (φ : Formula Int)
    {cs : List (List Int)} {n : Nat} (h : ∀ c ∈ cs, c.length = n) (hu : Uses cs.length φ)
    (hc : ∀ c ∈ cs, ∀ x ∈ c, t.Mem x) (hk : Scalars t.Mem φ) :
    φ.generate (.integers t) cs n = φ.operators (.integers t) cs := by
  refine C110_sub_values_partial (.integers t) (P := t.Mem) (fun x hx => IntType.convert_of_mem ht hx) φ h hu
    fun i _ => ?_
  refine (sub_values_of_closed (.integers t) (fun op x y r hx _ he => eval_mem ht hw hx he) φ hk ?_).1
  intro x hx
  obtain ⟨c, hc', hx'⟩ := mem_column hx
  exact hc c hc' x hx'

/-! ## Narrow integers -/

/-- The result of `+`, `-` or `*`, whatever the values. -/
theorem ring_result {t : IntType} (ht : 2 ≤ t.digits) {z r : Int} (h : t.promoted.result z = some r) :
    t.count ∣ r - z := by
  unfold IntType.result at h
  split at h
  · split at h
    · cases h
      simp
    · cases h
  · rename_i hs
    cases h
    rw [promoted_unsigned (by simpa using hs)]
    exact (IntType.convert_spec ht z).2

theorem ring_eval {t : IntType} (ht : 2 ≤ t.digits) {op : Op} (hop : op = .add ∨ op = .sub ∨ op = .mul)
    {x y x' y' r r' : Int} (hx : t.count ∣ x' - x) (hy : t.count ∣ y' - y) (h : op.eval t x y = some r)
    (h' : op.eval t x' y' = some r') : t.count ∣ r' - r := by
  rcases hop with rfl | rfl | rfl
  · have h1 := ring_result ht h
    have h2 := ring_result ht h'
    have : r' - r = (r' - (x' + y')) - (r - (x + y)) + ((x' - x) + (y' - y)) := by ring
    rw [this]
    exact dvd_add (dvd_sub h2 h1) (dvd_add hx hy)
  · have h1 := ring_result ht h
    have h2 := ring_result ht h'
    have : r' - r = (r' - (x' - y')) - (r - (x - y)) + ((x' - x) - (y' - y)) := by ring
    rw [this]
    exact dvd_add (dvd_sub h2 h1) (dvd_sub hx hy)
  · have h1 := ring_result ht h
    have h2 := ring_result ht h'
    have : r' - r = (r' - (x' * y')) - (r - (x * y)) + ((x' - x) * y' + x * (y' - y)) := by ring
    rw [this]
    exact dvd_add (dvd_sub h2 h1) (dvd_add (Dvd.dvd.mul_right hx _) (Dvd.dvd.mul_left hy _))

theorem ring_step {t : IntType} (ht : 2 ≤ t.digits) (φ : Formula Int) (hp : Polynomial t.Mem φ) {args : List Int}
    {r s : Int} (hr : φ.value (.integers t) args = some r) (hs : φ.step (.integers t) args = some s) :
    t.count ∣ s - r := by
  induction φ generalizing r s with
  | arg i =>
    change args[i]? = some r at hr
    change args[i]? = some s at hs
    rw [hr] at hs
    cases hs
    simp
  | vector op x y ihx ihy =>
    change (x.value _ args >>= fun a => y.value _ args >>= fun b => op.eval t a b) = some r at hr
    change (x.step _ args >>= fun a => y.step _ args >>= fun b => (op.eval t a b).map t.convert) = some s at hs
    obtain ⟨a, ha, hr⟩ := Option.bind_eq_some_iff.1 hr
    obtain ⟨b, hb, hr⟩ := Option.bind_eq_some_iff.1 hr
    obtain ⟨a', ha', hs⟩ := Option.bind_eq_some_iff.1 hs
    obtain ⟨b', hb', hs⟩ := Option.bind_eq_some_iff.1 hs
    obtain ⟨s', hs', rfl⟩ := Option.map_eq_some_iff.1 hs
    have h1 := ring_eval ht hp.1 (ihx hp.2.1 ha ha') (ihy hp.2.2 hb hb') hr hs'
    have : t.convert s' - r = (t.convert s' - s') + (s' - r) := by ring
    rw [this]
    exact dvd_add (IntType.convert_spec ht s').2 h1
  | scalar op x k ihx =>
    change (x.value _ args >>= fun a => op.eval t a k) = some r at hr
    change (x.step _ args >>= fun a => (op.eval t a k).map t.convert) = some s at hs
    obtain ⟨a, ha, hr⟩ := Option.bind_eq_some_iff.1 hr
    obtain ⟨a', ha', hs⟩ := Option.bind_eq_some_iff.1 hs
    obtain ⟨s', hs', rfl⟩ := Option.map_eq_some_iff.1 hs
    have h1 := ring_eval ht hp.1 (ihx hp.2.1 ha ha') (show t.count ∣ k - k by simp) hr hs'
    have : t.convert s' - r = (t.convert s' - s') + (s' - r) := by ring
    rw [this]
    exact dvd_add (IntType.convert_spec ht s').2 h1

theorem step_mem {t : IntType} (ht : 2 ≤ t.digits) (φ : Formula Int) {args : List Int} (ha : ∀ x ∈ args, t.Mem x)
    {s : Int} (hs : φ.step (.integers t) args = some s) : t.Mem s := by
  cases φ with
  | arg i => exact ha s (List.mem_of_getElem? hs)
  | vector op x y =>
    change (x.step _ args >>= fun a => y.step _ args >>= fun b => (op.eval t a b).map t.convert) = some s at hs
    obtain ⟨a', ha', hs⟩ := Option.bind_eq_some_iff.1 hs
    obtain ⟨b', hb', hs⟩ := Option.bind_eq_some_iff.1 hs
    obtain ⟨s', hs', rfl⟩ := Option.map_eq_some_iff.1 hs
    exact (IntType.convert_spec ht s').1
  | scalar op x k =>
    change (x.step _ args >>= fun a => (op.eval t a k).map t.convert) = some s at hs
    obtain ⟨a', ha', hs⟩ := Option.bind_eq_some_iff.1 hs
    obtain ⟨s', hs', rfl⟩ := Option.map_eq_some_iff.1 hs
    exact (IntType.convert_spec ht s').1

/-- **C110** for formulae with `+`, `-` and `*` of integers of any type (but `bool`): `generate()` and the operators have the
same result if they are both defined.
Missing: divisions, see `C110_violated`; overflows of the type to which the elements are promoted, which may occur with one
and not with the other, see `C110_overflow`. -/
theorem C110_polynomial_partial {t : IntType} (ht : 2 ≤ t.digits) (φ : Formula Int) (hp : Polynomial t.Mem φ)
    {cs : List (List Int)} {n : Nat} (h : ∀ c ∈ cs, c.length = n) (hu : Uses cs.length φ)
    (hc : ∀ c ∈ cs, ∀ x ∈ c, t.Mem x) {r s : List Int} (hr : φ.generate (.integers t) cs n = .ok r)
    (hs : φ.operators (.integers t) cs = .ok s) : r = s := by
  rw [generate_eq _ φ h] at hr
  rw [operators_eq _ φ h hu] at hs
  obtain ⟨hrl, hr⟩ := outcome_eq_ok.1 hr
  obtain ⟨hsl, hs⟩ := outcome_eq_ok.1 hs
  apply List.ext_getElem?
  intro i
  by_cases hi : i < n
  · rw [← hr i hi, ← hs i hi]
    have h1 := hr i hi
    have h2 := hs i hi
    rw [List.getElem?_eq_getElem (by omega)] at h1 h2
    obtain ⟨z, hz, h1⟩ := Option.map_eq_some_iff.1 h1
    rw [hz, h2, Option.map_some]
    have hm := step_mem ht φ (fun x hx => by
      obtain ⟨c, hc', hx'⟩ := mem_column hx
      exact hc c hc' x hx') h2
    have hd := ring_step ht φ hp hz h2
    congr 1
    change t.convert z = _
    rw [IntType.convert_congr ht (y := s[i]) (by rw [← Int.neg_sub]; exact hd.neg_right), IntType.convert_of_mem ht hm]
  · rw [List.getElem?_eq_none (by omega), List.getElem?_eq_none (by omega)]

theorem narrow_eval {t : IntType} (hn : t.digits ≤ 15) {op : Op} (hop : op = .add ∨ op = .sub ∨ op = .mul) {x y : Int}
    (hx : t.Mem x) (hy : t.Mem y) : ∃ r, op.eval t x y = some r := by
  obtain ⟨x1, x2⟩ := (narrow hx).1 hn
  obtain ⟨y1, y2⟩ := (narrow hy).1 hn
  have key : ∀ z : Int, -2 ^ 31 ≤ z → z < 2 ^ 31 → ∃ r, t.promoted.result z = some r := by
    intro z h1 h2
    have hm := mem_int (t := t) (by omega) h1 h2
    unfold IntType.result
    rw [if_pos hm]
    split
    · exact ⟨_, rfl⟩
    · exact ⟨_, rfl⟩
  rcases hop with rfl | rfl | rfl
  · exact key _ (by omega) (by omega)
  · exact key _ (by omega) (by omega)
  · have h5 : |x * y| ≤ 2 ^ 15 * 2 ^ 15 := by
      rw [abs_mul]
      exact mul_le_mul (abs_le.mpr ⟨x1, x2.le⟩) (abs_le.mpr ⟨y1, y2.le⟩) (abs_nonneg _) (by norm_num)
    obtain ⟨h6, h7⟩ := abs_le.1 h5
    exact key _ (by omega) (by omega)

/-- **C110** for polynomials of 8-bit integers, or of `short`s: operators are always defined, and `generate()`, if it is
defined, has the same result.
Missing: see `C110_polynomial_partial`. -/
theorem C110_narrow_partial {t : IntType} (ht : 2 ≤ t.digits) (hn : t.digits ≤ 15) (φ : Formula Int)
    (hp : Polynomial t.Mem φ) {cs : List (List Int)} {n : Nat} (h : ∀ c ∈ cs, c.length = n) (hu : Uses cs.length φ)
    (hc : ∀ c ∈ cs, ∀ x ∈ c, t.Mem x) :
    ∃ s, φ.operators (.integers t) cs = .ok s ∧
      ∀ r, φ.generate (.integers t) cs n = .ok r → r = s := by
  suffices hd : ∃ s, φ.operators (.integers t) cs = .ok s by
    obtain ⟨s, hs⟩ := hd
    exact ⟨s, hs, fun r hr => C110_polynomial_partial ht φ hp h hu hc hr hs⟩
  cases ho : φ.operators (.integers t) cs with
  | ok s => exact ⟨s, rfl⟩
  | error e =>
    exfalso
    rw [operators_eq _ φ h hu] at ho
    obtain ⟨_, i, hi, hf⟩ := outcome_eq_error.1 ho
    have ha : ∀ x ∈ column cs i, t.Mem x := fun x hx => by
      obtain ⟨c, hc', hx'⟩ := mem_column hx
      exact hc c hc' x hx'
    have : ∃ s, φ.step (.integers t) (column cs i) = some s := by
      clear ho hf
      induction φ with
      | arg k =>
        have hk : k < cs.length := hu
        change ∃ s, (column cs i)[k]? = some s
        rw [column_get h hi, List.getElem?_eq_getElem hk]
        exact ⟨_, List.getElem?_eq_getElem (by rw [h _ (List.getElem_mem hk)]; exact hi)⟩
      | vector op x y ihx ihy =>
        obtain ⟨a, ha'⟩ := ihx hp.2.1 hu.1
        obtain ⟨b, hb'⟩ := ihy hp.2.2 hu.2
        obtain ⟨r, hr⟩ := narrow_eval hn hp.1 (step_mem ht x ha ha') (step_mem ht y ha hb')
        change ∃ s, (x.step _ _ >>= fun a => y.step _ _ >>= fun b => (op.eval t a b).map t.convert) = some s
        rw [ha', hb']
        change ∃ s, (op.eval t a b).map t.convert = some s
        rw [hr]
        exact ⟨_, rfl⟩
      | scalar op x k ihx =>
        obtain ⟨a, ha'⟩ := ihx hp.2.1 hu
        obtain ⟨r, hr⟩ := narrow_eval hn hp.1 (step_mem ht x ha ha') hp.2.2
        change ∃ s, (x.step _ _ >>= fun a => (op.eval t a k).map t.convert) = some s
        rw [ha']
        change ∃ s, (op.eval t a k).map t.convert = some s
        rw [hr]
        exact ⟨_, rfl⟩
    obtain ⟨s, hs⟩ := this
    rw [hs] at hf
    cases hf

/-- **C110**: `generate()` and the operators are equivalent, for containers of integers. -/
def C110_Statement : Prop :=
  ∀ (t : IntType) (φ : Formula Int) (cs : List (List Int)) (n : Nat), 2 ≤ t.digits → (∀ c ∈ cs, c.length = n) →
    Uses cs.length φ → (∀ c ∈ cs, ∀ x ∈ c, t.Mem x) → Scalars t.Mem φ →
    φ.generate (.integers t) cs n = φ.operators (.integers t) cs

/-- `(a + b) / 2`. -/
def average : Formula Int := .scalar .div (.vector .add (.arg 0) (.arg 1)) 2

/-- **C110**: they are not for narrow types: the average of 200 and 100 as `unsigned char`s is 150 with `generate()` and 22
with operators. -/
theorem C110_violated : ¬ C110_Statement := by
  intro h
  have := h ⟨8, false⟩ average [[200], [100]] 1 (by decide) (by decide)
    ⟨Nat.zero_lt_two, Nat.one_lt_two⟩ (by decide)
    ⟨⟨trivial, trivial⟩, by decide⟩
  have e1 : average.generate (.integers ⟨8, false⟩) [[200], [100]] 1 = .ok [150] := by decide
  have e2 : average.operators (.integers ⟨8, false⟩) [[200], [100]] = .ok [22] := by decide
  rw [e1, e2] at this
  revert this
  decide

/-- **C110**: each may be undefined while the other one is defined, for polynomials of narrow integers: the fifth power of -128
as a `signed char` (with operators, its square is 0), and `(a - b) * c` as `unsigned short`s (with operators, `a - b` is
65535). -/
theorem C110_overflow :
    (∃ (t : IntType) (φ : Formula Int) (cs : List (List Int)) (r : List Int), Polynomial t.Mem φ ∧
      φ.generate (.integers t) cs 1 = .error .ub ∧ φ.operators (.integers t) cs = .ok r) ∧
    ∃ (t : IntType) (φ : Formula Int) (cs : List (List Int)) (r : List Int), Polynomial t.Mem φ ∧
      φ.generate (.integers t) cs 1 = .ok r ∧ φ.operators (.integers t) cs = .error .ub := by
  refine ⟨⟨⟨7, true⟩, .vector .mul (.vector .mul (.vector .mul (.vector .mul (.arg 0) (.arg 0)) (.arg 0)) (.arg 0)) (.arg 0),
    [[-128]], [0], ?_, by decide, by decide⟩,
    ⟨⟨16, false⟩, .vector .mul (.vector .sub (.arg 0) (.arg 1)) (.arg 2), [[0], [1], [65535]], [1], ?_, by decide,
      by decide⟩⟩ <;> simp [Polynomial]

/-- `a * 3 + b`. -/
def affine : Formula Int := .vector .add (.scalar .mul (.arg 0) 3) (.arg 1)

/-- Non-vacuity of C110: `a * k + b` for `int`s and for `unsigned char`s, and `(a + b) / 2` for small `unsigned char`s. -/
example : affine.generate (.integers .int) [[1, 2], [10, 20]] 2 =
      .ok [13, 26] ∧
    affine.operators (.integers .int) [[1, 2], [10, 20]] = .ok [13, 26] ∧
    affine.generate (.integers ⟨8, false⟩) [[100, 2], [10, 20]] 2 =
      .ok [54, 26] ∧
    affine.operators (.integers ⟨8, false⟩) [[100, 2], [10, 20]] =
      .ok [54, 26] ∧
    SubValues (.integers ⟨8, false⟩) (IntType.Mem ⟨8, false⟩) [100, 50] average :=
  ⟨by decide, by decide, by decide, by decide, by
    refine ⟨⟨?_, ?_, ?_⟩, ?_⟩ <;> intro r hr <;> cases hr <;> decide⟩

/-! ## In memory -/

theorem column_elements (mem : List α) (bs : List Nat) {n i : Nat} (hi : i < n) :
    column (bs.map fun b => elements mem b n) i = bs.filterMap fun b => mem[b + i]? := by
  unfold column
  rw [List.filterMap_map]
  refine List.filterMap_congr fun b _ => ?_
  simp only [Function.comp]
  unfold elements
  rw [List.getElem?_take_of_lt hi, List.getElem?_drop]

theorem callInOrder_stateless {σ : Type _} (g : List α → α) (rows : List (List α)) (s : σ) :
    callInOrder (fun args s => (g args, s)) rows s = (rows.map g, s) := by
  induction rows with
  | nil => rfl
  | cons r rows ih =>
    rw [callInOrder, ih]
    rfl

/-- **C110** in memory: if the function given to `generate()` evaluates a formula for a type which is closed under its operators,
then, whatever the order of evaluation, the new elements of the container are those of the formula with operators on the
former containers, and nothing else is written.  `apply()` is the case where the container itself is the first argument. -/
theorem C110_memory [Inhabited α] {σ : Type _} (op : Op → α → α → α) (φ : Formula α) (mem : List α) (s : σ) (a n : Nat)
    (bs : List Nat) (hu : Uses bs.length φ) (ha : a + n ≤ mem.length)
    (hb : ∀ b ∈ bs, b + n ≤ mem.length ∧ (a ≤ b ∨ b + n ≤ a)) (r : Res (List α × σ))
    (h : Seq.Generates (fun args s => ((φ.value (.closed op) args).getD default, s)) mem s a n bs r) :
    ∃ m, r = .ok (m, s) ∧ φ.operators (.closed op) (bs.map fun b => elements mem b n) = .ok (elements m a n) ∧
      m.length = mem.length ∧ SameOutside mem m a n := by
  obtain ⟨m, h1, h2, h3, h4⟩ := C109_generate_calls _ mem s a n bs ha hb r h
  rw [callInOrder_stateless] at h1 h2
  refine ⟨m, h1, ?_, h3, h4⟩
  have hlen : ∀ c ∈ bs.map fun b => elements mem b n, c.length = n := by
    intro c hc
    obtain ⟨b, hb', rfl⟩ := List.mem_map.1 hc
    have := hb b hb'
    unfold elements
    rw [List.length_take, List.length_drop]
    omega
  have hu' : Uses (bs.map fun b => elements mem b n).length φ := by rwa [List.length_map]
  rw [← C110_closed_partial op φ hlen hu', generate_eq _ φ hlen, h2]
  have hdef : ∀ args : List α, ∀ ψ : Formula α, Uses args.length ψ → ∃ x, ψ.value (.closed op) args = some x := by
    intro args ψ
    induction ψ with
    | arg k => exact fun hk => ⟨_, List.getElem?_eq_getElem hk⟩
    | vector o x y ihx ihy =>
      intro hk
      obtain ⟨u, hu⟩ := ihx hk.1
      obtain ⟨v, hv⟩ := ihy hk.2
      refine ⟨op o u v, ?_⟩
      change (x.value _ args >>= fun a => y.value _ args >>= fun b => some (op o a b)) = _
      rw [hu, hv]
      rfl
    | scalar o x k ihx =>
      intro hk
      obtain ⟨u, hu⟩ := ihx hk
      refine ⟨op o u k, ?_⟩
      change (x.value _ args >>= fun a => some (op o a k)) = _
      rw [hu]
      rfl
  refine outcome_eq_ok.2 ⟨by simp, fun i hi => ?_⟩
  rw [column_elements mem bs hi, List.getElem?_map, List.getElem?_map, List.getElem?_range hi]
  have hc : (bs.filterMap fun b => mem[b + i]?).length = bs.length := by
    rw [List.filterMap_length_eq_length]
    intro b hb'
    have := hb b hb'
    rw [List.getElem?_eq_getElem (by omega)]
    rfl
  obtain ⟨x, hx⟩ := hdef (bs.filterMap fun b => mem[b + i]?) φ (by rwa [hc])
  rw [hx]
  simp only [Option.map_some, hx, Option.getD_some]
  rfl

/-- Non-vacuity of C110: `a.apply(e * 3 + f, b)`, in memory. -/
example : Seq.Generates (fun args (s : Unit) =>
      ((affine.value
        (.closed fun o x y => match o with | .add => x + y | .mul => x * y | _ => x) args).getD (default : Int), s))
      [1, 2, 10, 20] () 0 2 [0, 2] (.ok ([13, 26, 10, 20], ())) ∧
    affine.operators
      (.closed fun o (x y : Int) => match o with | .add => x + y | .mul => x * y | _ => x) [[1, 2], [10, 20]] =
      .ok [13, 26] :=
  ⟨(C109_generate _ _ _ _ _ _ _).2 rfl, rfl⟩

end Litl
