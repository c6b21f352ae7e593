import Verif.Model.MedianFilter
import Verif.Lemmas.Distribution
import Verif.Lemmas.Kernel
import Verif.Lemmas.SeparableKernel
import Verif.Props.BoxIter

/-!
# Median filter (C51)
-/

namespace Litl

open Spec

namespace MedianFilter

variable {β : Type}

/-! ## Median -/

/-- `m` is the median of the values of `f` in the window of given bounds, at position `p`. -/
def IsWindowMedian (front back : List Int) (f : List Int → ℚ) (p : List Int) (m : ℚ) : Prop :=
  ∀ l : List (List Int), l.Nodup → (∀ k, k ∈ l ↔ InBox front back k) →
    IsMedian (l.map fun k => f (List.zipWith (· + ·) p k)) m

theorem nthElement_sorted {α : Type} [LinearOrder α] {v s : List α} (hp : s.Perm v) (hs : s.Pairwise (· ≤ ·)) (n : Nat) : NthElement v n s := by
  refine ⟨hp, fun i j x y hi hj hx hy => ?_⟩
  obtain ⟨hi', rfl⟩ := List.getElem?_eq_some_iff.1 hx
  obtain ⟨hj', rfl⟩ := List.getElem?_eq_some_iff.1 hy
  rcases (hi.trans hj).eq_or_lt with rfl | h
  · exact le_rfl
  · exact List.pairwise_iff_getElem.1 hs _ _ _ _ h

theorem NthElement.isNth {α : Type} [LinearOrder α] {v v' : List α} {n : Nat} {x : α} (h : NthElement v n v') (hx : v'[n]? = some x) :
    IsNth v n x := by
  refine IsNth.perm (Distribution.isNth_of_split hx ?_ ?_) h.1
  · intro i y hi hy
    exact h.2 i n y x hi le_rfl hy hx
  · intro j y hj hy
    exact h.2 n j x y le_rfl hj hx hy

theorem sorted_isNth {α : Type} [LinearOrder α] {v s : List α} {n : Nat} {x : α} (hp : s.Perm v) (hs : s.Pairwise (· ≤ ·)) (h : IsNth v n x) :
    s[n]? = some x := by
  have hn : n < s.length := by
    rw [hp.length_eq]
    exact h.2.trans_le List.countP_le_length
  have := (Distribution.isNth_of_sorted hs (List.getElem?_eq_getElem hn)).perm hp
  rw [List.getElem?_eq_getElem hn, this.unique h]

/-- There is always a result. -/
theorem Median.exists (convert : ℚ → β) (v : List ℚ) : ∃ r v', Median convert v r v' := by
  have hp : (v.insertionSort (· ≤ ·)).Perm v := List.perm_insertionSort _ _
  have hs : (v.insertionSort (· ≤ ·)).Pairwise (· ≤ ·) := List.pairwise_insertionSort _ _
  have hl := hp.length_eq
  rcases Nat.mod_two_eq_zero_or_one v.length with h | h
  · by_cases h0 : v = []
    · subst h0; exact ⟨_, _, .none⟩
    · have : v.length ≠ 0 := by simpa using h0
      by_cases h2 : v.length = 2
      · exact ⟨_, _, .two h2 (nthElement_sorted hp hs _)⟩
      · exact ⟨_, _, .even (x := (v.insertionSort (· ≤ ·))[v.length / 2]'(by omega))
          (y := (v.insertionSort (· ≤ ·))[v.length / 2 + 1]'(by omega)) h (by omega) (nthElement_sorted hp hs _)
          (nthElement_sorted (.refl _) hs _) (List.getElem?_eq_getElem _) (List.getElem?_eq_getElem _)⟩
  · exact ⟨_, _, .odd (x := (v.insertionSort (· ≤ ·))[v.length / 2]'(by omega)) h (nthElement_sorted hp hs _)
      (List.getElem?_eq_getElem _)⟩

/-- The values are permuted. -/
theorem Median.perm {convert : ℚ → β} {v v' : List ℚ} {r : Res β} (h : Median convert v r v') : v'.Perm v := by
  cases h with
  | odd _ h _ => exact h.1
  | none => exact .refl _
  | two _ h => exact h.1
  | even _ _ h h' _ _ => exact h'.1.trans h.1

/-- C51: the function `median()` for an odd number of values, whatever the implementation of `std::nth_element`. -/
theorem C51_median_odd {convert : ℚ → β} {v : List ℚ} (hv : v.length % 2 = 1) (r : Res β) :
    (∃ v', Median convert v r v') ↔ ∃ m, IsMedian v m ∧ r = .ok (convert m) := by
  have key : ∀ {r v'}, Median convert v r v' → ∃ m, IsMedian v m ∧ r = .ok (convert m) := by
    intro r v' h
    cases h with
    | odd _ h hx => exact ⟨_, .inl ⟨v.length / 2, by omega, NthElement.isNth h hx⟩, rfl⟩
    | none => simp at hv
    | two h _ => omega
    | even h _ _ _ _ _ => omega
  constructor
  · rintro ⟨v', h⟩
    exact key h
  · rintro ⟨m, hm, rfl⟩
    obtain ⟨r, v', h⟩ := Median.exists convert v
    obtain ⟨m', hm', rfl⟩ := key h
    have : m = m' := by
      rcases hm with ⟨k, hk, hm⟩ | ⟨k, x, y, hk, _⟩
      · rcases hm' with ⟨k', hk', hm'⟩ | ⟨k', x, y, hk', _⟩
        · obtain rfl : k = k' := by omega
          exact hm.unique hm'
        · omega
      · omega
    subst this
    exact ⟨v', h⟩

example : (∃ v', Median id [5, 1, 4] (.ok 4) v') ↔ ∃ m : ℚ, IsMedian [5, 1, 4] m ∧ (.ok 4 : Res ℚ) = .ok (id m) :=
  C51_median_odd (by decide) _

/-- The values at indices `n` and `n + 1` after two calls of `std::nth_element`: the latter is determined, while the former
may be any of the values before. -/
theorem nthElement_pair {α : Type} [LinearOrder α] {v : List α} {n : Nat} (hv : n + 1 < v.length) {x y : α} :
    (∃ v₁ v₂, NthElement v n v₁ ∧ NthElement v₁ (n + 1) v₂ ∧ v₂[n]? = some x ∧ v₂[n + 1]? = some y) ↔
      ∃ k ≤ n, IsNth v k x ∧ IsNth v (n + 1) y := by
  constructor
  · rintro ⟨v1, v', h1, h2, hx, hy⟩
    have hyn := NthElement.isNth h2 hy
    refine ⟨v'.countP (· < x), ?_, ?_, hyn.perm h1.1⟩
    · obtain ⟨hx1, hx2⟩ := List.getElem?_eq_some_iff.1 hx
      have e : v' = v'.take n ++ x :: v'.drop (n + 1) := by
        conv_lhs => rw [← List.take_append_drop n v']
        rw [List.drop_eq_getElem_cons hx1, hx2]
      have h0 : (v'.drop (n + 1)).countP (· < x) = 0 := by
        rw [List.countP_eq_zero]
        intro z hz
        obtain ⟨j, hj⟩ := List.mem_iff_getElem?.1 hz
        rw [List.getElem?_drop] at hj
        have := h2.2 n (n + 1 + j) x z (by omega) (by omega) hx hj
        simpa using this
      rw [e, List.countP_append, List.countP_cons, h0]
      have := List.countP_le_length (p := fun y => decide (y < x)) (l := v'.take n)
      rw [List.length_take] at this
      simp
      omega
    · have hp := h2.1.trans h1.1
      refine IsNth.perm ⟨le_rfl, ?_⟩ hp
      have hmem : x ∈ v' := List.mem_of_getElem? hx
      have e : v'.countP (· ≤ x) = v'.countP (· < x) + v'.countP (· = x) := by
        clear * -
        induction v' with
        | nil => rfl
        | cons z l ih =>
          simp only [List.countP_cons, ih]
          rcases lt_trichotomy z x with h | h | h
          · simp [h, h.le, h.ne]; omega
          · simp [h]; omega
          · simp [h.not_ge, h.ne', h.le]
      have : 0 < v'.countP (· = x) := List.countP_pos_iff.2 ⟨x, hmem, by simp⟩
      omega
  · rintro ⟨k, hk, hx, hy⟩
    let s := v.insertionSort (· ≤ ·)
    have hp : s.Perm v := List.perm_insertionSort _ _
    have hs : s.Pairwise (· ≤ ·) := List.pairwise_insertionSort _ _
    have hl : s.length = v.length := hp.length_eq
    have hxs := sorted_isNth hp hs hx
    have hys := sorted_isNth hp hs hy
    obtain ⟨_, hx'⟩ := List.getElem?_eq_some_iff.1 hxs
    have hswap : ((s.set k s[n]).set n s[k]).Perm s := List.set_set_perm (by omega) (by omega)
    refine ⟨s, (s.set k s[n]).set n s[k], nthElement_sorted hp hs _, ⟨hswap, ?_⟩, ?_, ?_⟩
    · have hle : ∀ i j (hi : i < s.length) (hj : j < s.length), i ≤ j → s[i] ≤ s[j] := by
        intro i j hi hj hij
        rcases hij.eq_or_lt with rfl | h
        · exact le_rfl
        · exact List.pairwise_iff_getElem.1 hs _ _ _ _ h
      intro i j a b hi hj ha hb
      obtain ⟨hi', rfl⟩ := List.getElem?_eq_some_iff.1 ha
      obtain ⟨hj', rfl⟩ := List.getElem?_eq_some_iff.1 hb
      simp only [List.length_set] at hi' hj'
      have ej : ((s.set k s[n]).set n s[k])[j]'(by simpa using hj') = s[j] := by
        rw [List.getElem_set_ne (by omega), List.getElem_set_ne (by omega)]
      rw [ej]
      by_cases hin : i = n
      · subst hin
        rw [List.getElem_set_self]
        exact hle _ _ _ _ (by omega)
      · rw [List.getElem_set_ne (by omega)]
        by_cases hik : i = k
        · subst hik
          rw [List.getElem_set_self]
          exact hle _ _ _ _ (by omega)
        · rw [List.getElem_set_ne (by omega)]
          exact hle _ _ _ _ (by omega)
    · rw [List.getElem?_set_self (by simp; omega), hx']
    · rw [List.getElem?_set_ne (by omega), List.getElem?_set_ne (by omega)]
      exact hys

/-- What `median()` returns for an even number of values above two: the average of the value after the greatest middle
one, and of any value before; this depends on the implementation of `std::nth_element`. -/
theorem C51_median_even {convert : ℚ → β} {v : List ℚ} {n : Nat} (hv : v.length = 2 * n) (hn : 1 < n) (r : Res β) :
    (∃ v', Median convert v r v') ↔
      ∃ k x y, k ≤ n ∧ IsNth v k x ∧ IsNth v (n + 1) y ∧ r = .ok (convert ((x + y) / 2)) := by
  have hn2 : v.length / 2 = n := by omega
  constructor
  · rintro ⟨v', h⟩
    cases h with
    | odd h _ _ => omega
    | none => simp at hv; omega
    | two h _ => omega
    | even e1 e2 h1 h2 hx hy =>
      rw [hn2] at h1 h2 hx hy
      obtain ⟨k, hk, hkx, hky⟩ := (nthElement_pair (by omega)).1 ⟨_, _, h1, h2, hx, hy⟩
      exact ⟨k, _, _, hk, hkx, hky, by rw [div_eq_mul_one_div (_ + _)]⟩
  · rintro ⟨k, x, y, hk, hx, hy, rfl⟩
    obtain ⟨v₁, v₂, h1, h2, hx', hy'⟩ := (nthElement_pair (n := n) (by omega)).2 ⟨k, hk, hx, hy⟩
    refine ⟨v₂, ?_⟩
    rw [div_eq_mul_one_div (x + y)]
    exact .even (v₁ := v₁) (by omega) (by omega) (hn2 ▸ h1) (hn2 ▸ h2) (hn2 ▸ hx') (hn2 ▸ hy')

/-- `median()` is undefined for two values, and without value. -/
theorem C51_median_small {convert : ℚ → β} {v : List ℚ} (hv : v.length = 0 ∨ v.length = 2) (r : Res β) :
    (∃ v', Median convert v r v') ↔ r = .error .ub := by
  have key : ∀ {r v'}, Median convert v r v' → r = .error .ub := by
    intro r v' h
    cases h with
    | odd h _ _ => omega
    | none => rfl
    | two _ _ => rfl
    | even _ h _ _ _ _ => omega
  constructor
  · rintro ⟨v', h⟩
    exact key h
  · rintro rfl
    obtain ⟨r, v', h⟩ := Median.exists convert v
    rw [key h] at h
    exact ⟨v', h⟩

example : (∃ v', Median id [5, 1] (.error .ub) v') ↔ (.error .ub : Res ℚ) = .error .ub := C51_median_small (.inr rfl) _

/-! ## Filter -/

theorem gather_spec {box : Box} {input : Position → Res ℚ} {F : Position → ℚ} {q : Position} {l : List Position}
    (h : LoopTrace (BoxIterator.next box) (BoxIterator.endPosition box) q l) (hF : ∀ q ∈ l, input q = .ok (F q)) :
    ∀ {i : Nat} {neighbors : List ℚ}, i + l.length ≤ neighbors.length → ∀ res, Gather box input q i neighbors res ↔
      res = .ok (neighbors.take i ++ l.map F ++ neighbors.drop (i + l.length)) := by
  induction h with
  | done =>
    intro i neighbors hl res
    simp only [List.map_nil, List.append_nil, List.length_nil, Nat.add_zero, List.take_append_drop]
    constructor
    · intro h
      cases h with
      | done => rfl
      | failRead h _ => exact absurd rfl h
      | failWrite h _ _ => exact absurd rfl h
      | next h _ _ _ => exact absurd rfl h
    · rintro rfl
      exact .done
  | @next q l hne _ ih =>
    intro i neighbors hl res
    rw [List.length_cons] at hl
    have hw : writeAt neighbors (i : Int) (F q) = .ok (neighbors.set i (F q)) := by
      rw [Container.writeAt_nat_ok (by omega)]
    have hq := hF q (by simp)
    have h' := ih (fun q hq => hF q (by simp [hq])) (i := i + 1) (neighbors := neighbors.set i (F q))
      (by rw [List.length_set]; omega)
    have e : (neighbors.set i (F q)).take (i + 1) ++ l.map F ++ (neighbors.set i (F q)).drop (i + 1 + l.length) =
        neighbors.take i ++ (q :: l).map F ++ neighbors.drop (i + (q :: l).length) := by
      rw [List.drop_set_of_lt (by omega), List.take_add_one, List.take_set_of_le le_rfl, List.getElem?_set_self (by omega)]
      simp only [Option.toList_some, List.map_cons, List.append_assoc, List.cons_append, List.nil_append,
        List.length_cons]
      congr 4
      omega
    rw [e] at h'
    constructor
    · intro h
      cases h with
      | done => exact absurd rfl hne
      | failRead _ h => rw [hq] at h; cases h
      | failWrite _ h h2 =>
        rw [hq] at h
        cases h
        rw [hw] at h2
        cases h2
      | next _ h h2 h3 =>
        rw [hq] at h
        cases h
        rw [hw] at h2
        cases h2
        exact (h' res).1 h3
    · intro h
      exact .next hne hq hw ((h' res).2 h)

/-- The filter, the input, and the output are consistent: `F` is the extrapolated input. -/
structure Suitable (window : Box) (input : Position → Res ℚ) (F : Position → ℚ) (shape : Position) (region : Box)
    (out : List β) : Prop where
  dim : shape ≠ []
  front_length : window.front.length = shape.length
  nonempty : List.Forall₂ (· ≤ ·) window.front window.back
  bounds : List.Forall₂ (· ≤ ·) region.front region.back
  inside : ∀ p, InBox region.front region.back p → InShape shape p
  out : (out.length : Int) = pixelCount shape
  extrapolated : ∀ q, q.length = shape.length → input q = .ok (F q)

/-- The values in the window, in some order. -/
def neighborhood (window : Box) (F : Position → ℚ) (p : Position) : List ℚ :=
  (enum window.front window.back).map fun k => F (List.zipWith (· + ·) p k)

theorem gather_window {window : Box} {input : Position → Res ℚ} {F : Position → ℚ} {shape : Position}
    (hd : shape ≠ []) (hf : window.front.length = shape.length)
    (hle : List.Forall₂ (· ≤ ·) window.front window.back) (hF : ∀ q, q.length = shape.length → input q = .ok (F q))
    {p : Position} (hp : p.length = shape.length) {neighbors : List ℚ} (hn : (neighbors.length : Int) = window.size)
    (res : Res (List ℚ)) :
    Gather (window.shift p) input (BoxIterator.beginPosition (window.shift p)) 0 neighbors res ↔
      res = .ok (neighborhood window F p) := by
  have hne : window.front ≠ [] := by
    intro e
    rw [e] at hf
    exact hd (List.length_eq_zero_iff.1 hf.symm)
  have he : enum (window.shift p).front (window.shift p).back =
      (enum window.front window.back).map fun j => Position.add j p := by
    simp only [Box.shift]
    exact enum_add hle.length_eq (by rw [hf, hp])
  have hsize : (neighbors.length : Int) = (enum window.front window.back).length := by
    rw [hn, length_enum hle, Box.size, shapeSize_eq (Box.shape_ne_nil hle.length_eq hne), Box.shape]
  have hv : BoxIterator.Visits (window.shift p) (enum (window.shift p).front (window.shift p).back) := by
    refine BoxIterator.visits_enum ?_ ?_
    · intro e
      have := congrArg List.length e
      simp only [Box.shift, Position.add, List.length_zipWith, List.length_nil] at this
      have : shape.length ≠ 0 := by simpa using hd
      omega
    · simp only [Box.shift]
      refine List.forall₂_iff_get.2 ⟨by simp [Position.add, hle.length_eq], fun i h1 h2 => ?_⟩
      simp only [Position.add, List.length_zipWith] at h1 h2
      have := hle.get (i := i) (by omega) (by omega)
      simpa [Position.add] using this
  have hlen : ∀ q ∈ enum (window.shift p).front (window.shift p).back, q.length = shape.length := by
    intro q hq
    rw [he] at hq
    obtain ⟨j, hj, rfl⟩ := List.mem_map.1 hq
    have := enum_length_of_mem hle.length_eq hj
    simp [Position.add]
    omega
  rw [gather_spec hv (fun q hq => hF q (hlen q hq)) (by rw [he, List.length_map]; omega)]
  have hd0 : neighbors.drop (0 + (enum (window.shift p).front (window.shift p).back).length) = [] := by
    rw [he, List.length_map, List.drop_eq_nil_iff]
    omega
  rw [hd0, List.take_zero, List.nil_append, List.append_nil, he, List.map_map]
  have : ((enum window.front window.back).map (F ∘ fun j => Position.add j p)) = neighborhood window F p := by
    refine List.map_congr_left fun j hj => ?_
    simp only [Function.comp_apply, Position.add]
    congr 1
    exact List.zipWith_comm_of_comm (fun a b => Int.add_comm a b)
  rw [this]

theorem length_neighborhood {window : Box} {F : Position → ℚ} {p : Position} :
    (neighborhood window F p).length = (enum window.front window.back).length := by
  simp [neighborhood]

/-- What is true of all the results of `median()` is true of all the pixels. -/
theorem pixels_spec {window : Box} {convert : ℚ → β} {input : Position → Res ℚ} {F : Position → ℚ} {shape : Position}
    {region : Box} (hd : shape ≠ []) (hf : window.front.length = shape.length)
    (hle : List.Forall₂ (· ≤ ·) window.front window.back) (hF : ∀ q, q.length = shape.length → input q = .ok (F q))
    {Q : List ℚ → β → Prop}
    (hQ : ∀ v r v', (v.length : Int) = window.size → Median convert v r v' → ∃ m, r = .ok m ∧ Q v m)
    {p : Position} {l : List Position}
    (h : LoopTrace (BoxIterator.next region) (BoxIterator.endPosition region) p l) :
    (∀ p ∈ l, InShape shape p) → l.Nodup → ∀ {neighbors : List ℚ} {out : List β}, (neighbors.length : Int) = window.size →
    (out.length : Int) = pixelCount shape →
    (∃ res, Pixels window convert input shape region p neighbors out res) ∧
    ∀ res, Pixels window convert input shape region p neighbors out res → ∃ o, res = .ok o ∧ o.length = out.length ∧
      (∀ p ∈ l, ∃ m, o[(index shape p).toNat]? = some m ∧ Q (neighborhood window F p) m) ∧
      ∀ k : Nat, (∀ p ∈ l, (index shape p).toNat ≠ k) → o[k]? = out[k]? := by
  induction h with
  | done =>
    intro _ _ neighbors out hn ho
    refine ⟨⟨_, .done⟩, fun res hr => ?_⟩
    cases hr with
    | done => exact ⟨out, rfl, rfl, by simp, by simp⟩
    | failGather h _ => exact absurd rfl h
    | failMedian h _ _ => exact absurd rfl h
    | failWrite h _ _ _ => exact absurd rfl h
    | next h _ _ _ _ => exact absurd rfl h
  | @next p l hne _ ih =>
    intro hl hnd neighbors out hn ho
    have hp : InShape shape p := hl p (by simp)
    have hb := index_bounds hp
    unfold pixelCount at ho
    have hg := gather_window hd hf hle hF (p := p) (by rw [hp.length_eq]) hn
    have hne' : window.front ≠ [] := by
      intro e
      rw [e] at hf
      exact hd (List.length_eq_zero_iff.1 hf.symm)
    have hnl : ((neighborhood window F p).length : Int) = window.size := by
      rw [length_neighborhood, length_enum hle, Box.size, shapeSize_eq (Box.shape_ne_nil hle.length_eq hne'), Box.shape]
    have hw : ∀ y : β, writeAt out (index shape p) y = .ok (out.set (index shape p).toNat y) :=
      fun y => writeAt_ok hb.1 (by omega)
    have ih' := fun {v' : List ℚ} {y : β} (hv : (v'.length : Int) = window.size) =>
      ih (fun p hp => hl p (by simp [hp])) (List.nodup_cons.1 hnd).2 (neighbors := v')
        (out := out.set (index shape p).toNat y) hv (by rw [List.length_set]; exact ho)
    constructor
    · obtain ⟨r, v', hm⟩ := Median.exists convert (neighborhood window F p)
      obtain ⟨m, rfl, _⟩ := hQ _ _ _ hnl hm
      obtain ⟨res, hr⟩ := (ih' (v' := v') (y := m) (by rw [hm.perm.length_eq]; exact hnl)).1
      exact ⟨res, .next hne ((hg _).2 rfl) hm (hw m) hr⟩
    · intro res hr
      cases hr with
      | done => exact absurd rfl hne
      | failGather _ h => cases (hg _).1 h
      | failMedian _ h h2 =>
        cases (hg _).1 h
        obtain ⟨m, e, _⟩ := hQ _ _ _ hnl h2
        cases e
      | failWrite _ h h2 h3 =>
        rw [hw] at h3
        cases h3
      | next _ h h2 h3 h4 =>
        cases (hg _).1 h
        obtain ⟨m, e, hqm⟩ := hQ _ _ _ hnl h2
        cases e
        rw [hw] at h3
        cases h3
        obtain ⟨o, rfl, hol, ho1, ho2⟩ := (ih' (by rw [h2.perm.length_eq]; exact hnl)).2 _ h4
        refine ⟨o, rfl, by rw [hol, List.length_set], ?_, ?_⟩
        · intro q hq
          rcases List.mem_cons.1 hq with rfl | hq
          · refine ⟨_, ?_, hqm⟩
            rw [ho2, List.getElem?_set_self (by omega)]
            intro q' hq' e
            have hb' := index_bounds (hl q' (by simp [hq']))
            have := index_inj hp (hl q' (by simp [hq'])) (by omega)
            subst this
            exact (List.nodup_cons.1 hnd).1 hq'
          · exact ho1 q hq
        · intro k hk
          rw [ho2 k fun q hq => hk q (by simp [hq]), List.getElem?_set_ne (hk p (by simp))]

theorem appliesTo_spec {window : Box} {convert : ℚ → β} {input : Position → Res ℚ} {F : Position → ℚ} {shape : Position}
    {region : Box} {out : List β} (hs : Suitable window input F shape region out) {Q : List ℚ → β → Prop}
    (hQ : ∀ v r v', (v.length : Int) = window.size → Median convert v r v' → ∃ m, r = .ok m ∧ Q v m) :
    (∃ res, AppliesTo window convert input shape region out res) ∧
    ∀ res, AppliesTo window convert input shape region out res → ∃ o, res = .ok o ∧ o.length = out.length ∧
      (∀ p, InBox region.front region.back p →
        ∃ m, o[(offset shape p).toNat]? = some m ∧ Q (neighborhood window F p) m) ∧
      ∀ p, InShape shape p → ¬ InBox region.front region.back p →
        o[(offset shape p).toNat]? = out[(offset shape p).toNat]? := by
  have hne : window.front ≠ [] := by
    intro e
    have := hs.front_length
    rw [e] at this
    exact hs.dim (List.length_eq_zero_iff.1 this.symm)
  have hsize : window.size = ((enum window.front window.back).length : Int) := by
    rw [length_enum hs.nonempty, Box.size, shapeSize_eq (Box.shape_ne_nil hs.nonempty.length_eq hne), Box.shape]
  have hrf : region.front ≠ [] := by
    intro e
    have h1 := (hs.inside region.front ⟨BoxIterator.le_refl_forall₂ _, hs.bounds⟩).length_eq
    rw [e] at h1
    exact hs.dim (List.length_eq_zero_iff.1 h1.symm)
  have hv := BoxIterator.visits_enum hrf hs.bounds
  have hm : ∀ p, p ∈ enum region.front region.back ↔ InBox region.front region.back p :=
    fun p => mem_enum hs.bounds.length_eq
  have key := pixels_spec hs.dim hs.front_length hs.nonempty hs.extrapolated hQ hv
    (fun p hp => hs.inside p ((hm p).1 hp)) nodup_enum (neighbors := List.replicate window.size.toNat 0)
    (by rw [List.length_replicate]; omega) hs.out
  have he : ∀ res, AppliesTo window convert input shape region out res ↔ Pixels window convert input shape region
      (BoxIterator.beginPosition region) (List.replicate window.size.toNat 0) out res := by
    intro res
    unfold AppliesTo
    rw [if_neg (by omega)]
  simp only [he]
  refine ⟨key.1, fun res hr => ?_⟩
  obtain ⟨o, h1, h2, h3, h4⟩ := key.2 res hr
  refine ⟨o, h1, h2, fun p hp => ?_, fun p hp hnp => ?_⟩
  · rw [← index_eq_offset (hs.inside p hp).length_eq]
    exact h3 p ((hm p).2 hp)
  · rw [← index_eq_offset hp.length_eq]
    refine h4 _ fun q hq e => ?_
    have hq' := hs.inside q ((hm q).1 hq)
    have b1 := index_bounds hp
    have b2 := index_bounds hq'
    have := index_inj hq' hp (by omega)
    subst this
    exact hnp ((hm q).1 hq)

theorem isMedian_perm {l l' : List ℚ} {m : ℚ} (hp : l.Perm l') (h : IsMedian l m) : IsMedian l' m := by
  rcases h with ⟨k, hk, h⟩ | ⟨k, x, y, hk, hx, hy, e⟩
  · exact .inl ⟨k, by rw [← hp.length_eq]; exact hk, h.perm hp⟩
  · exact .inr ⟨k, x, y, by rw [← hp.length_eq]; exact hk, hx.perm hp, hy.perm hp, e⟩

theorem isMedian_unique {l : List ℚ} {m m' : ℚ} (h : IsMedian l m) (h' : IsMedian l m') : m = m' := by
  rcases h with ⟨k, hk, h⟩ | ⟨k, x, y, hk, hx, hy, e⟩
  · rcases h' with ⟨k', hk', h'⟩ | ⟨k', x', y', hk', hx', hy', e'⟩
    · obtain rfl : k = k' := by omega
      exact h.unique h'
    · omega
  · rcases h' with ⟨k', hk', h'⟩ | ⟨k', x', y', hk', hx', hy', e'⟩
    · omega
    · obtain rfl : k = k' := by omega
      rw [e, e', hx.unique hx', hy.unique hy']

/-- The enumeration of the window does not matter. -/
theorem neighborhood_perm {window : Box} {F : Position → ℚ} {p : Position}
    (hle : List.Forall₂ (· ≤ ·) window.front window.back) {l : List (List Int)} (hl : l.Nodup)
    (hm : ∀ k, k ∈ l ↔ InBox window.front window.back k) :
    (neighborhood window F p).Perm (l.map fun k => F (List.zipWith (· + ·) p k)) := by
  unfold neighborhood
  refine List.Perm.map _ ?_
  refine (List.perm_ext_iff_of_nodup nodup_enum hl).2 fun k => ?_
  rw [hm k, mem_enum hle.length_eq]

/-- **C51**, in full: whatever the window and the implementation of `std::nth_element`, the pixels of the region are the
medians in the window. -/
def C51_Statement : Prop :=
  ∀ (window : Box) (input : Position → Res ℚ) (F : Position → ℚ) (shape : Position) (region : Box) (out : List ℚ),
    Suitable window input F shape region out → ∀ res, AppliesTo window id input shape region out res →
    ∃ o, res = .ok o ∧ ∀ p, InBox region.front region.back p →
      ∃ m, o[(offset shape p).toNat]? = some m ∧ IsWindowMedian window.front window.back F p m

/-- **C51** for windows with an odd number of positions: there is only one result, whatever the implementation of
`std::nth_element`; the pixels of the region are the medians, and the others are unchanged.
Missing: the windows with an even number of positions. -/
theorem C51_odd_partial {window : Box} {convert : ℚ → β} {input : Position → Res ℚ} {F : Position → ℚ}
    {shape : Position} {region : Box} {out : List β} (hs : Suitable window input F shape region out)
    (hpos : Pos shape) (hodd : window.size % 2 = 1) :
    ∃ o, (∀ res, AppliesTo window convert input shape region out res ↔ res = .ok o) ∧ o.length = out.length ∧
      (∀ p, InBox region.front region.back p →
        ∃ m, o[(offset shape p).toNat]? = some (convert m) ∧ IsWindowMedian window.front window.back F p m) ∧
      ∀ p, InShape shape p → ¬ InBox region.front region.back p →
        o[(offset shape p).toNat]? = out[(offset shape p).toNat]? := by
  have hQ : ∀ v r v', (v.length : Int) = window.size → Median convert v r v' →
      ∃ y, r = .ok y ∧ ∃ m, IsMedian v m ∧ y = convert m := by
    intro v r v' hv h
    obtain ⟨m, hm, rfl⟩ := (C51_median_odd (convert := convert) (v := v) (by omega) r).1 ⟨v', h⟩
    exact ⟨_, rfl, m, hm, rfl⟩
  obtain ⟨⟨res, hr⟩, h2⟩ := appliesTo_spec hs hQ
  obtain ⟨o, rfl, ho, ho1, ho2⟩ := h2 res hr
  refine ⟨o, fun res' => ⟨fun h' => ?_, ?_⟩, ho, fun p hp => ?_, ho2⟩
  · obtain ⟨o', rfl, ho', ho1', ho2'⟩ := h2 res' h'
    congr 1
    refine List.ext_getElem? fun k => ?_
    by_cases hk : k < out.length
    · have hpc := hs.out
      unfold pixelCount at hpc
      obtain ⟨g1, g2⟩ := unravel_spec (s := shape) (k := (k : Int)) (fun x hx => (hpos x hx).le) (by omega) (by omega)
      have e : (offset shape (unravel shape k)).toNat = k := by
        rw [← index_eq_offset g1.length_eq, g2]
        omega
      by_cases hin : InBox region.front region.back (unravel shape k)
      · obtain ⟨y, hy, m, hm, rfl⟩ := ho1 _ hin
        obtain ⟨y', hy', m', hm', rfl⟩ := ho1' _ hin
        rw [e] at hy hy'
        rw [hy, hy', isMedian_unique hm hm']
      · have e1 := ho2 _ g1 hin
        have e2 := ho2' _ g1 hin
        rw [e] at e1 e2
        rw [e1, e2]
    · rw [List.getElem?_eq_none (by omega), List.getElem?_eq_none (by omega)]
  · rintro rfl
    exact hr
  · obtain ⟨y, hy, m, hm, rfl⟩ := ho1 p hp
    exact ⟨m, hy, fun l hl hml => isMedian_perm (neighborhood_perm hs.nonempty hl hml) hm⟩

/-- What is computed with windows of at least four positions, in even number: see `C51_median_even`. -/
theorem C51_even {window : Box} {convert : ℚ → β} {input : Position → Res ℚ} {F : Position → ℚ}
    {shape : Position} {region : Box} {out : List β} (hs : Suitable window input F shape region out) {n : Nat}
    (hn : 1 < n) (heven : window.size = 2 * n) {res : Res (List β)}
    (hr : AppliesTo window convert input shape region out res) :
    ∃ o, res = .ok o ∧ ∀ p, InBox region.front region.back p → ∃ k x y, k ≤ n ∧
      o[(offset shape p).toNat]? = some (convert ((x + y) / 2)) ∧
      ∀ l : List (List Int), l.Nodup → (∀ k, k ∈ l ↔ InBox window.front window.back k) →
        IsNth (l.map fun k => F (List.zipWith (· + ·) p k)) k x ∧
        IsNth (l.map fun k => F (List.zipWith (· + ·) p k)) (n + 1) y := by
  have hQ : ∀ v r v', (v.length : Int) = window.size → Median convert v r v' →
      ∃ z, r = .ok z ∧ ∃ k x y, k ≤ n ∧ IsNth v k x ∧ IsNth v (n + 1) y ∧ z = convert ((x + y) / 2) := by
    intro v r v' hv h
    obtain ⟨k, x, y, hk, hx, hy, rfl⟩ :=
      (C51_median_even (convert := convert) (v := v) (n := n) (by omega) hn r).1 ⟨v', h⟩
    exact ⟨_, rfl, k, x, y, hk, hx, hy, rfl⟩
  obtain ⟨o, rfl, ho, ho1, ho2⟩ := (appliesTo_spec hs hQ).2 res hr
  refine ⟨o, rfl, fun p hp => ?_⟩
  obtain ⟨z, hz, k, x, y, hk, hx, hy, rfl⟩ := ho1 p hp
  refine ⟨k, x, y, hk, hz, fun l hl hml => ?_⟩
  have hperm := neighborhood_perm (F := F) (p := p) hs.nonempty hl hml
  exact ⟨hx.perm hperm, hy.perm hperm⟩

/-- The behaviour is undefined with windows of two positions. -/
theorem C51_two {window : Box} {convert : ℚ → β} {input : Position → Res ℚ} {F : Position → ℚ}
    {shape : Position} {region : Box} {out : List β} (hs : Suitable window input F shape region out)
    (htwo : window.size = 2) (res : Res (List β)) :
    AppliesTo window convert input shape region out res ↔ res = .error .ub := by
  have hrin : InShape shape region.front := hs.inside region.front ⟨BoxIterator.le_refl_forall₂ _, hs.bounds⟩
  have hg := gather_window hs.dim hs.front_length hs.nonempty hs.extrapolated (p := region.front) hrin.length_eq
    (neighbors := List.replicate window.size.toNat 0) (by rw [List.length_replicate]; omega)
  have hne : window.front ≠ [] := by
    intro e
    have := hs.front_length
    rw [e] at this
    exact hs.dim (List.length_eq_zero_iff.1 this.symm)
  have hnl : ((neighborhood window F region.front).length : Int) = window.size := by
    rw [length_neighborhood, length_enum hs.nonempty, Box.size,
      shapeSize_eq (Box.shape_ne_nil hs.nonempty.length_eq hne), Box.shape]
  have hm := C51_median_small (convert := convert) (v := neighborhood window F region.front) (.inr (by omega))
  have hstart : region.front ≠ BoxIterator.endPosition region := by
    have hrf : region.front ≠ [] := by
      intro e
      have h1 := hrin.length_eq
      rw [e] at h1
      exact hs.dim (List.length_eq_zero_iff.1 h1.symm)
    unfold BoxIterator.endPosition
    cases hf : region.front with
    | nil => exact absurd hf hrf
    | cons a l =>
      intro e
      simp only [BoxIterator.decHead, List.cons.injEq, and_true] at e
      omega
  unfold AppliesTo
  rw [if_neg (by omega)]
  unfold BoxIterator.beginPosition
  constructor
  · intro h
    generalize hb : region.front = b at h
    cases h with
    | done => exact absurd hb hstart
    | failGather _ h => subst hb; cases (hg _).1 h
    | failMedian _ h h2 =>
      subst hb
      cases (hg _).1 h
      cases (hm _).1 ⟨_, h2⟩
      rfl
    | failWrite _ h h2 _ =>
      subst hb
      cases (hg _).1 h
      cases (hm _).1 ⟨_, h2⟩
    | next _ h h2 _ _ =>
      subst hb
      cases (hg _).1 h
      cases (hm _).1 ⟨_, h2⟩
  · rintro rfl
    obtain ⟨v', hv⟩ := (hm _).2 rfl
    exact .failMedian hstart ((hg _).2 rfl) hv

/-- `apply()`, with an odd number of positions in the window: the raster of the medians.
Missing: the windows with an even number of positions, and the rasters without pixel (`C51_apply_empty`). -/
theorem C51_apply_partial {window : Box} {convert : ℚ → β} {zero : β} {input : Position → Res ℚ} {F : Position → ℚ}
    {shape : Position} (hd : shape ≠ []) (hpos : Pos shape) (hsize : shape.prod < 2 ^ 63)
    (hf : window.front.length = shape.length) (hle : List.Forall₂ (· ≤ ·) window.front window.back)
    (hF : ∀ q, q.length = shape.length → input q = .ok (F q)) (hodd : window.size % 2 = 1) :
    ∃ o : Raster β, (∀ res, Applies window convert zero input shape res ↔ res = .ok o) ∧ o.shape = shape ∧
      ∀ p, InShape shape p → ∃ m, o.get p = .ok (convert m) ∧ IsWindowMedian window.front window.back F p m := by
  have hdom : (⟨shape, List.replicate shape.prod.toNat zero⟩ : Raster β).domain =
      Raster.domainOf shape.length shape := rfl
  have hin : ∀ p, InBox (Raster.domainOf shape.length shape).front (Raster.domainOf shape.length shape).back p ↔
      InShape shape p := fun p => by rw [domainOf_fixed]; exact inBox_domain
  have h0 : 0 < shape.prod := by
    have := take_prod_pos hpos shape.length
    rwa [List.take_length] at this
  have hz : InShape shape (List.replicate shape.length 0) := by
    refine List.forall₂_iff_get.2 ⟨by simp, fun i h1 h2 => ?_⟩
    simp only [List.get_eq_getElem, List.getElem_replicate, le_refl, true_and]
    exact hpos _ (List.getElem_mem _)
  have hs : Suitable window input F shape (Raster.domainOf shape.length shape) (List.replicate shape.prod.toNat zero) := by
    refine ⟨hd, hf, hle, ?_, fun p hp => (hin p).1 hp, ?_, hF⟩
    · have := (hin _).2 hz
      refine List.forall₂_iff_get.2 ⟨this.1.length_eq.trans this.2.length_eq, fun i h1 h2 => ?_⟩
      have l1 := this.1.length_eq
      have g1 := this.1.get (i := i) h1 (by omega)
      have g2 := this.2.get (i := i) (by omega) h2
      exact g1.trans g2
    · rw [List.length_replicate, pixelCount]
      omega
  obtain ⟨o, h1, h2, h3, _⟩ := C51_odd_partial (convert := convert) hs hpos hodd
  refine ⟨⟨shape, o⟩, fun res => ?_, rfl, fun p hp => ?_⟩
  · unfold Applies
    rw [SeparableKernel.ofShape_ok hd hpos hsize]
    simp only [hdom, h1]
    constructor
    · rintro ⟨r, rfl, rfl⟩
      rfl
    · rintro rfl
      exact ⟨_, rfl, rfl⟩
  · obtain ⟨m, hm, hm'⟩ := h3 p ((hin p).2 hp)
    refine ⟨m, ?_, hm'⟩
    have hb := index_bounds hp
    unfold Raster.get
    rw [readAt_eq_ok]
    refine ⟨hb.1, ?_⟩
    rw [← hm, index_eq_offset (s := shape) (p := p) hp.length_eq]

theorem carry_whole {b : Int} (hb : b < 0) {k : Int} : ∀ m : Nat,
    BoxIterator.carry (List.replicate (m + 1) 0) (List.replicate (m + 1) b)
      (BoxIterator.incHead (List.replicate m 0 ++ [k])) = List.replicate m 0 ++ [k + 1] := by
  intro m
  induction m with
  | zero => rfl
  | succ m ih =>
    rw [List.replicate_succ (n := m + 1), List.replicate_succ (n := m + 1)]
    cases m with
    | zero =>
      simp only [List.replicate, List.nil_append, List.cons_append, BoxIterator.incHead, BoxIterator.carry]
      rw [if_pos (by omega)]
    | succ m =>
      rw [List.replicate_succ (n := m + 1) (a := (0 : Int)), List.cons_append, List.replicate_succ (n := m), List.cons_append]
        at *
      simp only [BoxIterator.incHead, List.cons_append] at ih ⊢
      rw [BoxIterator.carry, if_pos (by omega)]
      exact congrArg (List.cons 0) ih

theorem index_whole : ∀ {m : Nat} {shape : Position} {k : Int}, shape.length = m + 1 →
    index shape (List.replicate m 0 ++ [k]) = (shape.take m).prod * k := by
  intro m
  induction m with
  | zero =>
    intro shape k h
    match shape, h with
    | [s], _ => simp [index]
  | succ m ih =>
    intro shape k h
    match shape, h with
    | s :: s' :: ss, h =>
      rw [List.replicate_succ, List.cons_append, index]
      · rw [ih (by simpa using h), List.take_succ_cons, List.prod_cons]
        ring
      · intro h; cases h

/-- Nothing is filtered if the output cannot be allocated. -/
theorem C51_apply_too_large {window : Box} {convert : ℚ → β} {zero : β} {input : Position → Res ℚ} {shape : Position}
    (h : 2 ^ 63 ≤ u64 (shapeSize shape)) (res : Res (Raster β)) :
    Applies window convert zero input shape res ↔ res = .error .stdError := by
  have e : Raster.ofShape zero shape = .error .stdError := by
    simp only [Raster.ofShape]
    rw [if_pos h]
  rw [Applies, e]

example : 2 ^ 63 ≤ u64 (shapeSize [-1]) := by decide

/-- Filtering a raster without pixel is undefined, even if it is extrapolated, since the loop over its empty domain is
entered. -/
theorem C51_apply_empty {window : Box} {convert : ℚ → β} {zero : β} {input : Position → Res ℚ} {F : Position → ℚ}
    {shape : Position} (h0 : (0 : Int) ∈ shape)
    (hf : window.front.length = shape.length) (hle : List.Forall₂ (· ≤ ·) window.front window.back)
    (hF : ∀ q, q.length = shape.length → input q = .ok (F q)) (res : Res (Raster β)) :
    Applies window convert zero input shape res ↔ res = .error .ub := by
  have hd : shape ≠ [] := List.ne_nil_of_mem h0
  have hne : window.front ≠ [] := by
    intro e
    rw [e] at hf
    exact hd (List.length_eq_zero_iff.1 hf.symm)
  have hws : window.size = ((enum window.front window.back).length : Int) := by
    rw [length_enum hle, Box.size, shapeSize_eq (Box.shape_ne_nil hle.length_eq hne), Box.shape]
  have e : Raster.ofShape zero shape = .ok ⟨shape, []⟩ := by
    have : u64 (shapeSize shape) = 0 := by rw [shapeSize_eq hd, List.prod_eq_zero h0]; rfl
    simp only [Raster.ofShape, this]
    rfl
  have hdom : (⟨shape, []⟩ : Raster β).domain = ⟨List.replicate shape.length 0, shape.map (· - 1)⟩ :=
    domainOf_fixed shape
  have hstart : List.replicate shape.length (0 : Int) ≠
      BoxIterator.endPosition ⟨List.replicate shape.length 0, shape.map (· - 1)⟩ := by
    unfold BoxIterator.endPosition
    cases hl : shape.length with
    | zero => exact absurd (List.length_eq_zero_iff.1 hl) hd
    | succ n =>
      intro e
      simp [List.replicate_succ, BoxIterator.decHead] at e
  have hg := gather_window hd hf hle hF (p := List.replicate shape.length 0) (by simp)
    (neighbors := List.replicate window.size.toNat 0) (by rw [List.length_replicate]; omega)
  have hmed : ∀ {v : List ℚ} {e : Fail} {v' : List ℚ}, Median convert v (.error e) v' → e = .ub := by
    intro v e v' h
    cases h <;> rfl
  have hw : ∀ (i : Int) (y : β), writeAt ([] : List β) i y = .error .ub := fun i y => writeAt_ub (by simp; omega)
  have key : ∀ r, AppliesTo window convert input shape ⟨List.replicate shape.length 0, shape.map (· - 1)⟩ [] r ↔
      r = .error .ub := by
    intro r
    unfold AppliesTo
    rw [if_neg (by omega)]
    unfold BoxIterator.beginPosition
    constructor
    · intro h
      generalize hb : (⟨List.replicate shape.length 0, shape.map (· - 1)⟩ : Box).front = b at h
      cases h with
      | done => exact absurd hb hstart
      | failGather _ h => subst hb; cases (hg _).1 h
      | failMedian _ _ h => cases hmed h; rfl
      | failWrite _ _ _ h => rw [hw] at h; cases h; rfl
      | next _ _ _ h _ => rw [hw] at h; cases h
    · rintro rfl
      obtain ⟨m, v', hm⟩ := Median.exists convert (neighborhood window F (List.replicate shape.length 0))
      cases m with
      | error f =>
        cases hmed hm
        exact .failMedian hstart ((hg _).2 rfl) hm
      | ok y => exact .failWrite hstart ((hg _).2 rfl) hm (hw _ y)
  rw [Applies, e]
  simp only [hdom, key]
  constructor
  · rintro ⟨r, rfl, rfl⟩
    rfl
  · rintro rfl
    exact ⟨_, rfl, rfl⟩

example : (0 : Int) ∈ [3, 0] ∧ List.Forall₂ (· ≤ ·) [(-1 : Int), -1] [1, 1] ∧ [(-1 : Int), -1].length = [(3 : Int), 0].length := by
  decide

/-- The default region is `whole()`: the loop never ends, and leaves the output. -/
theorem C51_default_region {window : Box} {convert : ℚ → β} {input : Position → Res ℚ} {F : Position → ℚ}
    {shape : Position} {out : List β} (hd : shape ≠ []) (hpos : Pos shape)
    (hf : window.front.length = shape.length) (hle : List.Forall₂ (· ≤ ·) window.front window.back)
    (hF : ∀ q, q.length = shape.length → input q = .ok (F q)) (hout : (out.length : Int) = pixelCount shape)
    (res : Res (List β)) :
    AppliesTo window convert input shape (Box.whole shape.length) out res ↔ res = .error .ub := by
  obtain ⟨m, hm⟩ : ∃ m, shape.length = m + 1 := by
    cases h : shape.length with
    | zero => exact absurd (List.length_eq_zero_iff.1 h) hd
    | succ m => exact ⟨m, rfl⟩
  have hne : window.front ≠ [] := by
    intro e
    rw [e] at hf
    exact hd (List.length_eq_zero_iff.1 hf.symm)
  have hws : window.size = ((enum window.front window.back).length : Int) := by
    rw [length_enum hle, Box.size, shapeSize_eq (Box.shape_ne_nil hle.length_eq hne), Box.shape]
  have hfront : (Box.whole shape.length).front = List.replicate (m + 1) 0 := by
    simp only [Box.whole, Position.zero, Int.natAbs_natCast, hm]
  have hback : (Box.whole shape.length).back = List.replicate (m + 1) (-Position.indexInf) := by
    simp only [Box.whole, Position.inf, Int.natAbs_natCast, hm]
  have hneg : -Position.indexInf < 0 := by decide
  have hmed : ∀ {v : List ℚ} {e : Fail} {v' : List ℚ}, Median convert v (.error e) v' → e = .ub := by
    intro v e v' h
    cases h <;> rfl
  have hsp : shape.prod = (shape.take m).prod * shape.getD m 0 := by
    conv_lhs => rw [← List.take_append_drop m shape]
    rw [List.prod_append, List.drop_eq_getElem_cons (by omega), List.drop_eq_nil_of_le (by omega)]
    simp [List.getD_eq_getElem?_getD, hm]
  have htp : 0 < (shape.take m).prod := take_prod_pos hpos m
  unfold pixelCount at hout
  have key : ∀ (d k : Nat) (neighbors : List ℚ) (out : List β), (neighbors.length : Int) = window.size →
      (out.length : Int) = shape.prod → (k : Int) + d = shape.getD m 0 → ∀ res,
      Pixels window convert input shape (Box.whole shape.length) (List.replicate m 0 ++ [(k : Int)]) neighbors out res ↔
        res = .error .ub := by
    intro d
    induction d with
    | zero =>
      intro k neighbors out hn ho hk res
      have hp : (List.replicate m 0 ++ [(k : Int)]).length = shape.length := by simp [hm]
      have hend : List.replicate m 0 ++ [(k : Int)] ≠ BoxIterator.endPosition (Box.whole shape.length) := by
        unfold BoxIterator.endPosition
        rw [hfront]
        cases m with
        | zero => simp [BoxIterator.decHead]
        | succ m => simp [List.replicate_succ, BoxIterator.decHead]
      have hg := gather_window hd hf hle hF hp hn
      have hw : ∀ y, writeAt out (index shape (List.replicate m 0 ++ [(k : Int)])) y = .error .ub := by
        intro y
        refine writeAt_ub (.inr ?_)
        rw [index_whole hm, ho, hsp]
        have : (k : Int) = shape.getD m 0 := by omega
        rw [this]
      constructor
      · intro h
        generalize hc : List.replicate m 0 ++ [(k : Int)] = c at h
        cases h with
        | done => exact absurd hc hend
        | failGather _ h => subst hc; cases (hg _).1 h
        | failMedian _ _ h => rw [hmed h]
        | failWrite _ _ _ h => subst hc; rw [hw] at h; cases h; rfl
        | next _ _ _ h _ => subst hc; rw [hw] at h; cases h
      · rintro rfl
        obtain ⟨r, v', hv⟩ := Median.exists convert (neighborhood window F (List.replicate m 0 ++ [(k : Int)]))
        cases r with
        | error e =>
          obtain rfl := hmed hv
          exact .failMedian hend ((hg _).2 rfl) hv
        | ok y => exact .failWrite hend ((hg _).2 rfl) hv (hw y)
    | succ d ih =>
      intro k neighbors out hn ho hk res
      have hp : (List.replicate m 0 ++ [(k : Int)]).length = shape.length := by simp [hm]
      have hend : List.replicate m 0 ++ [(k : Int)] ≠ BoxIterator.endPosition (Box.whole shape.length) := by
        unfold BoxIterator.endPosition
        rw [hfront]
        cases m with
        | zero => simp [BoxIterator.decHead]
        | succ m => simp [List.replicate_succ, BoxIterator.decHead]
      have hg := gather_window hd hf hle hF hp hn
      have hidx : 0 ≤ index shape (List.replicate m 0 ++ [(k : Int)]) ∧
          index shape (List.replicate m 0 ++ [(k : Int)]) < out.length := by
        rw [index_whole hm, ho, hsp]
        exact ⟨mul_nonneg htp.le (by omega), by
          refine (mul_lt_mul_iff_right₀ htp).2 ?_
          omega⟩
      have hw : ∀ y, writeAt out (index shape (List.replicate m 0 ++ [(k : Int)])) y =
          .ok (out.set (index shape (List.replicate m 0 ++ [(k : Int)])).toNat y) := fun y => writeAt_ok hidx.1 hidx.2
      have hnext : BoxIterator.next (Box.whole shape.length) (List.replicate m 0 ++ [(k : Int)]) =
          List.replicate m 0 ++ [((k + 1 : Nat) : Int)] := by
        unfold BoxIterator.next
        rw [hfront, hback, if_neg, carry_whole hneg]
        · push_cast; rfl
        · intro e
          have : (k : Int) ∈ List.replicate (m + 1) (-Position.indexInf) := by rw [← e]; simp
          rw [List.mem_replicate] at this
          omega
      have hnl : ∀ {p : Position} {r v'}, Median convert (neighborhood window F p) r v' →
          (v'.length : Int) = window.size := by
        intro p r v' h
        rw [h.perm.length_eq, length_neighborhood, hws]
      have ih' := fun (v' : List ℚ) (y : β) (hv : (v'.length : Int) = window.size) =>
        ih (k + 1) v' (out.set (index shape (List.replicate m 0 ++ [(k : Int)])).toNat y) hv
          (by rw [List.length_set]; exact ho) (by push_cast at hk ⊢; omega)
      constructor
      · intro h
        generalize hc : List.replicate m 0 ++ [(k : Int)] = c at h
        cases h with
        | done => exact absurd hc hend
        | failGather _ h => subst hc; cases (hg _).1 h
        | failMedian _ _ h => rw [hmed h]
        | failWrite _ _ _ h => subst hc; rw [hw] at h; cases h
        | next _ h h2 h3 h4 =>
          subst hc
          cases (hg _).1 h
          rw [hw] at h3
          cases h3
          rw [hnext] at h4
          exact (ih' _ _ (hnl h2) _).1 h4
      · rintro rfl
        obtain ⟨r, v', hv⟩ := Median.exists convert (neighborhood window F (List.replicate m 0 ++ [(k : Int)]))
        cases r with
        | error e =>
          obtain rfl := hmed hv
          exact .failMedian hend ((hg _).2 rfl) hv
        | ok y =>
          refine .next hend ((hg _).2 rfl) hv (hw y) ?_
          rw [hnext]
          exact (ih' _ _ (hnl hv) _).2 rfl
  unfold AppliesTo
  rw [if_neg (by omega)]
  have hstart : BoxIterator.beginPosition (Box.whole shape.length) = List.replicate m 0 ++ [((0 : Nat) : Int)] := by
    unfold BoxIterator.beginPosition
    rw [hfront, List.replicate_succ']
    rfl
  rw [hstart]
  have h0 : 0 < shape.getD m 0 := by
    have e : shape.getD m 0 = shape[m]'(by omega) := by simp [List.getD_eq_getElem?_getD, hm]
    rw [e]
    exact hpos _ (List.getElem_mem _)
  exact key (shape.getD m 0).toNat 0 _ out (by rw [List.length_replicate]; omega) hout (by omega) res

/-- The window of the constructor with a radius always has an odd number of positions. -/
theorem C51_radius {N : Int} {radius : Int} (hr : 0 ≤ radius) (hN : N ≠ 0) :
    (Box.fromCenter radius (Position.zero N)).size % 2 = 1 ∧
    List.Forall₂ (· ≤ ·) (Box.fromCenter radius (Position.zero N)).front (Box.fromCenter radius (Position.zero N)).back := by
  have hn : N.natAbs ≠ 0 := by omega
  have hf : (Box.fromCenter radius (Position.zero N)).front = List.replicate N.natAbs (0 - radius) := by
    simp [Box.fromCenter, Position.zero, Position.subScalar]
  have hb : (Box.fromCenter radius (Position.zero N)).back = List.replicate N.natAbs (0 + radius) := by
    simp [Box.fromCenter, Position.zero, Position.addScalar]
  constructor
  · have hs : (Box.fromCenter radius (Position.zero N)).shape = List.replicate N.natAbs (2 * radius + 1) := by
      unfold Box.shape
      rw [hf, hb]
      simp only [Position.sub, Position.addScalar, List.zipWith_replicate, List.map_replicate, Nat.min_self]
      congr 1
      omega
    rw [Box.size, hs, shapeSize_eq (by simp; omega), List.prod_replicate]
    exact Int.odd_iff.1 (Odd.pow ⟨radius, rfl⟩)
  · rw [hf, hb]
    refine List.forall₂_iff_get.2 ⟨by simp, fun i h1 h2 => ?_⟩
    simp
    omega

example : Box.fromCenter 1 (Position.zero 2) = ⟨[-1, -1], [1, 1]⟩ ∧ (Box.fromCenter 1 (Position.zero 2)).size = 9 := by decide

/-! ## Examples -/

/-- A line of three pixels, with a null background. -/
def exampleInput (q : Position) : ℚ := if q = [0] then 5 else if q = [1] then 8 else if q = [2] then 6 else 0

theorem example_suitable (f b : Int) (h : f ≤ b) : Suitable (β := ℚ) ⟨[f], [b]⟩ (fun q => .ok (exampleInput q)) exampleInput
    [3] ⟨[0], [1]⟩ [0, 0, 9] := by
  refine ⟨by simp, rfl, .cons h .nil, .cons (by decide) .nil, ?_, by decide, fun _ _ => rfl⟩
  rintro p ⟨h1, h2⟩
  match p, h1.length_eq with
  | [x], _ =>
    simp only [List.forall₂_cons] at h1 h2
    exact .cons (by omega) .nil

example : ∃ o, (∀ res, AppliesTo ⟨[-1], [1]⟩ id (fun q => .ok (exampleInput q)) [3] ⟨[0], [1]⟩ [0, 0, 9] res ↔
      res = .ok o) ∧ o.length = 3 ∧
    (∀ p, InBox [0] [1] p → ∃ m, o[(offset [3] p).toNat]? = some (id m) ∧ IsWindowMedian [-1] [1] exampleInput p m) ∧
    ∀ p, InShape [3] p → ¬ InBox [0] [1] p → o[(offset [3] p).toNat]? = [0, 0, (9 : ℚ)][(offset [3] p).toNat]? :=
  C51_odd_partial (example_suitable (-1) 1 (by decide)) (by simp [Pos]) (by decide)

example (res : Res (List ℚ)) :
    AppliesTo ⟨[0], [1]⟩ id (fun q => .ok (exampleInput q)) [3] ⟨[0], [1]⟩ [0, 0, 9] res ↔ res = .error .ub :=
  C51_two (example_suitable 0 1 (by decide)) (by decide) res

example : ∃ o : Raster ℚ, (∀ res, Applies ⟨[-1, 0], [1, 0]⟩ id 0
      (fun q => .ok (q.getD 0 0 * q.getD 1 0 : Int)) [4, 2] res ↔ res = .ok o) ∧ o.shape = [4, 2] ∧
    ∀ p, InShape [4, 2] p → ∃ m, o.get p = .ok (id m) ∧
      IsWindowMedian [-1, 0] [1, 0] (fun q => ((q.getD 0 0 * q.getD 1 0 : Int) : ℚ)) p m :=
  C51_apply_partial (by simp) (by simp [Pos]) (by decide) rfl (by simp) (fun _ _ => rfl) (by decide)

example (res : Res (List ℚ)) : AppliesTo ⟨[-1, 0], [1, 0]⟩ id
    (fun q => .ok (q.getD 0 0 * q.getD 1 0 : Int)) [4, 2] (Box.whole 2) (List.replicate 8 0) res ↔ res = .error .ub :=
  C51_default_region (window := ⟨[-1, 0], [1, 0]⟩) (shape := [4, 2]) (out := List.replicate 8 0) (F := fun q => ((q.getD 0 0 * q.getD 1 0 : Int) : ℚ))
    (by simp) (by simp [Pos]) rfl (by simp) (fun _ _ => rfl) (by decide) res

/-- **C51** is violated by windows of two positions, and also by greater ones: see `C51_even_violated`. -/
theorem C51_violated : ¬ C51_Statement := by
  intro h
  have hs := example_suitable 0 1 (by decide)
  obtain ⟨o, ho, _⟩ := h _ _ _ _ _ _ hs _ ((C51_two hs (by decide) _).2 rfl)
  cases ho

theorem window4 (k : List Int) : k ∈ [[(0 : Int)], [1], [2], [3]] ↔ InBox [0] [3] k := by
  constructor
  · intro h
    simp only [List.mem_cons, List.not_mem_nil, or_false] at h
    rcases h with rfl | rfl | rfl | rfl <;> exact ⟨.cons (by decide) .nil, .cons (by decide) .nil⟩
  · rintro ⟨h1, h2⟩
    match k, h1.length_eq with
    | [x], _ =>
      simp only [List.forall₂_cons] at h1 h2
      have : x = 0 ∨ x = 1 ∨ x = 2 ∨ x = 3 := by omega
      simpa using this

/-- The value of the last of four neighbors. -/
def exampleStep (q : Position) : ℚ := if q = [3] then 8 else 0

theorem exampleStep_suitable : Suitable (β := ℚ) ⟨[0], [3]⟩ (fun q => .ok (exampleStep q)) exampleStep
    [1] ⟨[0], [0]⟩ [0] := by
  refine ⟨by simp, rfl, .cons (by decide) .nil, .cons (by decide) .nil, ?_, by decide, fun _ _ => rfl⟩
  rintro p ⟨h1, h2⟩
  match p, h1.length_eq with
  | [x], _ =>
    simp only [List.forall₂_cons] at h1 h2
    exact .cons (by omega) .nil

/-- The median of 0, 0, 0 and 8 is found to be 4, whatever the implementation of `std::nth_element`. -/
theorem C51_even_violated :
    (∃ res, AppliesTo ⟨[0], [3]⟩ id (fun q => .ok (exampleStep q)) [1] ⟨[0], [0]⟩ [0] res) ∧
    ∀ res, AppliesTo ⟨[0], [3]⟩ id (fun q => .ok (exampleStep q)) [1] ⟨[0], [0]⟩ [(0 : ℚ)] res →
      ∃ o, res = .ok o ∧ o[0]? = some 4 ∧ ¬ IsWindowMedian [0] [3] exampleStep [0] 4 := by
  have hs := exampleStep_suitable
  constructor
  · refine (appliesTo_spec hs (Q := fun _ _ => True) ?_).1
    intro v r v' hv h
    have e : (⟨[0], [3]⟩ : Box).size = 4 := by decide
    obtain ⟨k, x, y, _, _, _, rfl⟩ := (C51_median_even (n := 2) (by omega) (by omega) r).1 ⟨v', h⟩
    exact ⟨_, rfl, trivial⟩
  · intro res hr
    obtain ⟨o, rfl, ho⟩ := C51_even hs (n := 2) (by decide) (by decide) hr
    refine ⟨o, rfl, ?_, ?_⟩
    · obtain ⟨k, x, y, hk, hxy, hl⟩ := ho [0] ⟨.cons (by decide) .nil, .cons (by decide) .nil⟩
      obtain ⟨hx, hy⟩ := hl [[0], [1], [2], [3]] (by decide) window4
      have e : ([[(0 : Int)], [1], [2], [3]].map fun k => exampleStep (List.zipWith (· + ·) [0] k)) = [0, 0, 0, 8] := by
        simp [exampleStep]
      rw [e] at hx hy
      have hx0 : x = 0 := by
        have : IsNth [0, 0, 0, (8 : ℚ)] k 0 := by
          have : k = 0 ∨ k = 1 ∨ k = 2 := by omega
          rcases this with rfl | rfl | rfl <;> norm_num [IsNth]
        exact hx.unique this
      have hy8 : y = 8 := by
        have : IsNth [0, 0, 0, (8 : ℚ)] 3 8 := by norm_num [IsNth]
        exact hy.unique this
      subst hx0 hy8
      have : (offset [1] [0]).toNat = 0 := by decide
      rw [this] at hxy
      rw [hxy]
      norm_num
    · intro hm
      have := hm [[0], [1], [2], [3]] (by decide) window4
      have e : ([[(0 : Int)], [1], [2], [3]].map fun k => exampleStep (List.zipWith (· + ·) [0] k)) = [0, 0, 0, 8] := by
        simp [exampleStep]
      rw [e] at this
      have h0 : IsMedian [0, 0, 0, (8 : ℚ)] 0 :=
        .inr ⟨1, 0, 0, rfl, by norm_num [IsNth], by norm_num [IsNth], by norm_num⟩
      have := isMedian_unique this h0
      norm_num at this

end MedianFilter

end Litl
