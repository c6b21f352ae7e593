import Verif.Model.Distribution
import Verif.Spec.Order
import Verif.Lemmas.Arithmetic
import Mathlib.Tactic.Linarith
import Mathlib.Algebra.BigOperators.Group.List.Basic

/-!
# Lemmas about distributions
-/

namespace Litl.Distribution

open Spec

section Order

variable {α : Type} [LinearOrder α]

theorem _root_.Litl.Spec.IsNth.unique {data : List α} {n : Nat} {x y : α} (hx : IsNth data n x) (hy : IsNth data n y) : x = y := by
  have key : ∀ {x y : α}, IsNth data n x → IsNth data n y → ¬ x < y := by
    intro x y hx hy h
    have : data.countP (· ≤ x) ≤ data.countP (· < y) :=
      List.countP_mono_left fun z _ hz => by
        simp only [decide_eq_true_eq] at hz ⊢
        exact lt_of_le_of_lt hz h
    have h1 := hx.2
    have h2 := hy.1
    omega
  exact le_antisymm (not_lt.1 (key hy hx)) (not_lt.1 (key hx hy))

theorem _root_.Litl.Spec.IsNth.perm {data data' : List α} {n : Nat} {x : α} (h : IsNth data n x) (p : data.Perm data') :
    IsNth data' n x := by
  unfold IsNth at *
  rwa [← p.countP_eq, ← p.countP_eq]

theorem _root_.Litl.Spec.IsNth.mono {data : List α} {n m : Nat} {x y : α} (hx : IsNth data n x) (hy : IsNth data m y) (h : n ≤ m) :
    x ≤ y := by
  by_contra hc
  rw [not_le] at hc
  have : data.countP (· ≤ y) ≤ data.countP (· < x) :=
    List.countP_mono_left fun z _ hz => by
      simp only [decide_eq_true_eq] at hz ⊢
      exact lt_of_le_of_lt hz hc
  have h1 := hx.1
  have h2 := hy.2
  omega

/-- An element between smaller ones and greater ones. -/
theorem isNth_of_split {v : List α} {n : Nat} {x : α} (hn : v[n]? = some x)
    (h1 : ∀ i y, i ≤ n → v[i]? = some y → y ≤ x) (h2 : ∀ j y, n ≤ j → v[j]? = some y → x ≤ y) : IsNth v n x := by
  obtain ⟨hlt, hx⟩ := List.getElem?_eq_some_iff.1 hn
  constructor
  · conv_lhs => rw [← List.take_append_drop n v]
    rw [List.countP_append]
    have e : (v.drop n).countP (· < x) = 0 := by
      rw [List.countP_eq_zero]
      intro y hy
      obtain ⟨j, hj⟩ := List.mem_iff_getElem?.1 hy
      rw [List.getElem?_drop] at hj
      simp only [decide_eq_true_eq, not_lt]
      exact h2 _ _ (by omega) hj
    have := List.countP_le_length (p := fun y => decide (y < x)) (l := v.take n)
    rw [List.length_take] at this
    omega
  · have hsub : (v.take (n + 1)).countP (· ≤ x) ≤ v.countP (· ≤ x) :=
      (List.take_sublist _ _).countP_le
    have e : (v.take (n + 1)).countP (· ≤ x) = (v.take (n + 1)).length := by
      rw [List.countP_eq_length]
      intro y hy
      obtain ⟨j, hj⟩ := List.mem_iff_getElem?.1 hy
      rw [List.getElem?_take] at hj
      split at hj
      · simp only [decide_eq_true_eq]
        exact h1 _ _ (by omega) hj
      · cases hj
    rw [e, List.length_take] at hsub
    omega

theorem isNth_of_sorted {v : List α} {n : Nat} {x : α} (hs : v.Pairwise (· ≤ ·)) (hn : v[n]? = some x) :
    IsNth v n x := by
  have key : ∀ (i j : Nat) (y z : α), i ≤ j → v[i]? = some y → v[j]? = some z → y ≤ z := by
    intro i j y z hij hy hz
    rcases hij.eq_or_lt with rfl | hij
    · rw [hy] at hz; cases hz; exact le_rfl
    · obtain ⟨hi, rfl⟩ := List.getElem?_eq_some_iff.1 hy
      obtain ⟨hj, rfl⟩ := List.getElem?_eq_some_iff.1 hz
      exact List.pairwise_iff_getElem.1 hs i j hi hj hij
  exact isNth_of_split hn (fun i y hi hy => key i n y x hi hy hn) (fun j y hj hy => key n j x y hj hn hy)

/-- What is true of a distribution whatever its history. -/
structure Inv (data : List α) (d : Distribution α) : Prop where
  perm : d.values.Perm data
  sorted : d.sorted = true → d.values.Pairwise (· ≤ ·)

theorem Nth.inv {data : List α} {d d' : Distribution α} {n : Nat} {x : α} (h : Nth d n x d') (hi : Inv data d) :
    Inv data d' ∧ IsNth data n x ∧ d'.values[n]? = some x ∧ d'.sum = d.sum := by
  cases h with
  | sorted hs hx => exact ⟨hi, (isNth_of_sorted (hi.sorted hs) hx).perm hi.perm, hx, rfl⟩
  | unsorted hs hn he hx =>
    refine ⟨⟨he.1.trans hi.perm, fun h => ?_⟩, ?_, hx, rfl⟩
    · simp [hs] at h
    · refine (isNth_of_split hx ?_ ?_).perm (he.1.trans hi.perm)
      · intro i y hi' hy
        exact he.2 i n y x hi' le_rfl hy hx
      · intro j y hj hy
        exact he.2 n j x y le_rfl hj hx hy

theorem Sorts.inv {data : List α} {d d' : Distribution α} (h : Sorts d d') (hi : Inv data d) :
    Inv data d' ∧ d'.sorted = true ∧ d'.sum = d.sum := by
  cases h with
  | sorted hs => exact ⟨hi, hs, rfl⟩
  | unsorted hs hv => exact ⟨⟨hv.1.trans hi.perm, fun _ => hv.2⟩, rfl, rfl⟩

/-- Partial sorting is always possible. -/
theorem Nth.exists (d : Distribution α) (n : Nat) (hn : n < d.values.length) : ∃ x d', Nth d n x d' := by
  cases hd : d.sorted with
  | true => exact ⟨d.values[n], d, .sorted hd (List.getElem?_eq_getElem hn)⟩
  | false =>
    set v := d.values.insertionSort (· ≤ ·) with hv
    have hp : v.Perm d.values := List.perm_insertionSort _ _
    have hlen : n < v.length := by rw [hp.length_eq]; exact hn
    have hsort : v.Pairwise (· ≤ ·) := List.pairwise_insertionSort _ _
    refine ⟨v[n], _, .unsorted (v := v) hd hn ⟨hp, ?_⟩ (List.getElem?_eq_getElem hlen)⟩
    intro i j x y hi hj hx hy
    obtain ⟨hi', rfl⟩ := List.getElem?_eq_some_iff.1 hx
    obtain ⟨hj', rfl⟩ := List.getElem?_eq_some_iff.1 hy
    rcases (hi.trans hj).eq_or_lt with rfl | hij
    · exact le_rfl
    · exact List.pairwise_iff_getElem.1 hsort i j hi' hj' hij

theorem inv_ofValues [Zero α] [Add α] (data : List α) : Inv data (ofValues data) :=
  ⟨List.Perm.refl _, fun h => by simpa [ofValues] using h⟩

theorem skipBelow_eq (sup : α) {l : List α} (hs : l.Pairwise (· ≤ ·)) :
    skipBelow sup l = l.filter (sup ≤ ·) := by
  induction l with
  | nil => rfl
  | cons x l ih =>
    rw [List.pairwise_cons] at hs
    rw [skipBelow]
    by_cases h : x < sup
    · rw [if_pos h, ih hs.2, List.filter_cons_of_neg]
      simpa using h
    · rw [if_neg h, eq_comm, List.filter_eq_self]
      intro y hy
      simp only [decide_eq_true_eq]
      rcases List.mem_cons.1 hy with rfl | hy
      · exact not_lt.1 h
      · exact (not_lt.1 h).trans (hs.1 y hy)

theorem countBelow_eq (sup : α) (c : Nat) {l : List α} (hs : l.Pairwise (· ≤ ·)) (out : List Nat)
    (hc : c < out.length) :
    countBelow sup c l out = .ok (l.filter (sup ≤ ·), out.set c (out[c] + l.countP (· < sup))) := by
  induction l generalizing out with
  | nil => simp [countBelow]
  | cons x l ih =>
    rw [List.pairwise_cons] at hs
    rw [countBelow]
    by_cases h : x < sup
    · rw [if_pos h, Container.readAt_nat_ok hc, Container.ok_bind, Container.writeAt_nat_ok hc, Container.ok_bind,
        ih hs.2 _ (by simpa using hc), List.filter_cons_of_neg (by simpa using h),
        List.countP_cons_of_pos (by simpa using h)]
      simp only [List.getElem_set_self, List.set_set]
      rw [Nat.add_assoc, Nat.add_comm 1]
    · have hall : ∀ y ∈ x :: l, sup ≤ y := by
        intro y hy
        rcases List.mem_cons.1 hy with rfl | hy
        · exact not_lt.1 h
        · exact (not_lt.1 h).trans (hs.1 y hy)
      rw [if_neg h, List.filter_eq_self.2 (by simpa using hall), List.countP_eq_zero.2 (by simpa using hall)]
      simp

/-- The loop over bins fills the counts of the half-open bins. -/
theorem binLoop_eq (values : List α) (hs : values.Pairwise (· ≤ ·)) :
    ∀ (bins : List α) (a : α) (done : List Nat), (a :: bins).Pairwise (· ≤ ·) →
      binLoop bins done.length (values.filter (a ≤ ·)) (done ++ List.replicate bins.length 0) =
        .ok (values.filter ((a :: bins).getLast (by simp) ≤ ·), done ++ halfOpenCounts values (a :: bins),
          done.length + bins.length) := by
  intro bins
  induction bins with
  | nil => intro a done _; simp [binLoop, halfOpenCounts]; rfl
  | cons b bins ih =>
    intro a done hb
    rw [List.pairwise_cons] at hb
    have hab : a ≤ b := hb.1 b (by simp)
    rw [binLoop, if_neg (by simp), countBelow_eq b _ (hs.sublist List.filter_sublist) _ (by simp), Container.ok_bind]
    have e1 : (values.filter (a ≤ ·)).filter (b ≤ ·) = values.filter (b ≤ ·) := by
      rw [List.filter_filter]
      apply List.filter_congr
      intro x _
      by_cases h : b ≤ x
      · simp [h, hab.trans h]
      · simp [h]
    have e2 : (values.filter (a ≤ ·)).countP (· < b) = countIn values a b := by
      rw [List.countP_filter, countIn]
      apply List.countP_congr
      intro x _
      simp [and_comm]
    rw [e1, e2]
    have e3 : (done ++ List.replicate (b :: bins).length 0).set done.length
        ((done ++ List.replicate (b :: bins).length 0)[done.length]'(by simp) + countIn values a b) =
        (done ++ [countIn values a b]) ++ List.replicate bins.length 0 := by
      simp [List.replicate_succ]
    simp only [e3]
    have := ih b (done ++ [countIn values a b]) hb.2
    rw [List.length_append, List.length_singleton] at this
    rw [this]
    simp [halfOpenCounts]
    omega

end Order

theorem Quantile.inv {data : List ℚ} {o : EvalOrder} {d d' : Distribution ℚ} {q x : ℚ} (h : Quantile o d q x d')
    (hi : Inv data d) : Inv data d' ∧ d'.sum = d.sum := by
  cases h with
  | exact _ _ _ h1 => exact ⟨(h1.inv hi).1, (h1.inv hi).2.2.2⟩
  | lr _ _ _ h1 h2 => exact ⟨(h2.inv (h1.inv hi).1).1, (h2.inv (h1.inv hi).1).2.2.2.trans (h1.inv hi).2.2.2⟩
  | rl _ _ _ h1 h2 => exact ⟨(h2.inv (h1.inv hi).1).1, (h2.inv (h1.inv hi).1).2.2.2.trans (h1.inv hi).2.2.2⟩
  | late _ _ _ h1 h2 => exact ⟨(h2.inv (h1.inv hi).1).1, (h2.inv (h1.inv hi).1).2.2.2.trans (h1.inv hi).2.2.2⟩

theorem Query.inv {data : List ℚ} {d d' : Distribution ℚ} (h : Query d d') (hi : Inv data d) :
    Inv data d' ∧ d'.sum = d.sum := by
  cases h with
  | nth h => exact ⟨(h.inv hi).1, (h.inv hi).2.2.2⟩
  | min h => exact ⟨(Nth.inv h hi).1, (Nth.inv h hi).2.2.2⟩
  | max h => exact ⟨(Nth.inv h hi).1, (Nth.inv h hi).2.2.2⟩
  | quantile h => exact h.inv hi
  | mad h => obtain ⟨m, d'', h1, _⟩ := h; exact Quantile.inv h1 hi
  | sort h => exact ⟨(h.inv hi).1, (h.inv hi).2.2⟩
  | histogram h => exact ⟨(h.1.inv hi).1, (h.1.inv hi).2.2⟩
  | mean => exact ⟨hi, rfl⟩

theorem Reachable.inv {data : List ℚ} {d : Distribution ℚ} (h : Reachable data d) :
    Inv data d ∧ d.sum = data.sum := by
  induction h with
  | init =>
    refine ⟨inv_ofValues data, ?_⟩
    rw [ofValues, List.sum_eq_foldl]
  | query _ h ih =>
    have := h.inv ih.1
    exact ⟨this.1, this.2.trans ih.2⟩

end Litl.Distribution
