import Verif.Model.NaN
import Verif.Props.Distribution
import Verif.Props.Extrema
import Verif.Props.MedianFilter

/-!
# Data with NaNs (C98)
-/

namespace Litl

open Spec NaNOr

variable {α : Type} [LinearOrder α]

omit [LinearOrder α] in
@[simp] theorem num_lt_num [LT α] {a b : α} : (num a : NaNOr α) < num b ↔ a < b := Iff.rfl

omit [LinearOrder α] in
@[simp] theorem not_nan_lt [LT α] (x : NaNOr α) : ¬ (nan : NaNOr α) < x := id

omit [LinearOrder α] in
@[simp] theorem not_lt_nan [LT α] (x : NaNOr α) : ¬ x < (nan : NaNOr α) := by cases x <;> exact id

/-- **C98**: the requirement of the sorting algorithms is met if and only if there is no NaN, or no two different numbers. -/
theorem C98_order (v : List (NaNOr α)) :
    StrictWeak v ↔ nan ∉ v ∨ ∀ a b, (num a : NaNOr α) ∈ v → (num b : NaNOr α) ∈ v → a = b := by
  constructor
  · rintro ⟨-, -, h⟩
    by_cases hn : (nan : NaNOr α) ∈ v
    · right
      intro a b ha hb
      have := h _ ha _ hn _ hb (not_lt_nan _) (not_nan_lt _) (not_nan_lt _) (not_lt_nan _)
      simp only [num_lt_num, not_lt] at this
      exact le_antisymm this.2 this.1
    · exact .inl hn
  · rintro (hn | h)
    · have key : ∀ x ∈ v, ∃ a, x = num a := fun x hx => by
        cases x with
        | nan => exact absurd hx hn
        | num a => exact ⟨a, rfl⟩
      refine ⟨fun x hx => ?_, fun x hx y hy z hz => ?_, fun x hx y hy z hz => ?_⟩
      · obtain ⟨a, rfl⟩ := key x hx
        simp
      · obtain ⟨a, rfl⟩ := key x hx
        obtain ⟨b, rfl⟩ := key y hy
        obtain ⟨c, rfl⟩ := key z hz
        simp only [num_lt_num]
        exact lt_trans
      · obtain ⟨a, rfl⟩ := key x hx
        obtain ⟨b, rfl⟩ := key y hy
        obtain ⟨c, rfl⟩ := key z hz
        simp only [num_lt_num, not_lt]
        exact fun h1 h2 h3 h4 => ⟨h3.trans h1, h2.trans h4⟩
    · have key : ∀ x ∈ v, ∀ y ∈ v, ¬ x < y := fun x hx y hy => by
        cases x with
        | nan => simp
        | num a =>
          cases y with
          | nan => simp
          | num b => simp [h a b hx hy]
      exact ⟨fun x hx => key x hx x hx, fun x hx y hy _ _ hxy => absurd hxy (key x hx y hy),
        fun x hx _ _ z hz _ _ _ _ => ⟨key x hx z hz, key z hz x hx⟩⟩

theorem minLoop_nan (l : List (NaNOr α)) (k i : Nat) : Container.minLoop nan k i l = (nan, k) := by
  induction l generalizing i with
  | nil => rfl
  | cons x l ih => rw [Container.minLoop, if_neg (not_lt_nan _), ih]

theorem maxLoop_nan (l : List (NaNOr α)) (k i : Nat) : Container.maxLoop nan k i l = (nan, k) := by
  induction l generalizing i with
  | nil => rfl
  | cons x l ih => rw [Container.maxLoop, if_neg (not_nan_lt _), ih]

/-- `a`, the i-th value, is the first minimum of the numbers of `l`. -/
def Spec.FirstMinNum (l : List (NaNOr α)) (a : α) (i : Nat) : Prop :=
  l[i]? = some (num a) ∧ (∀ b, num b ∈ l → a ≤ b) ∧ ∀ j b, j < i → l[j]? = some (num b) → a < b

/-- `a`, the i-th value, is the first maximum of the numbers of `l`. -/
def Spec.FirstMaxNum (l : List (NaNOr α)) (a : α) (i : Nat) : Prop :=
  l[i]? = some (num a) ∧ (∀ b, num b ∈ l → b ≤ a) ∧ ∀ j b, j < i → l[j]? = some (num b) → b < a

theorem minLoop_num (pre l : List (NaNOr α)) (a : α) (i : Nat) (h : FirstMinNum pre a i) :
    ∃ b j, Container.minLoop (num a) i pre.length l = (num b, j) ∧ FirstMinNum (pre ++ l) b j := by
  induction l generalizing pre a i with
  | nil => exact ⟨a, i, rfl, by simpa using h⟩
  | cons y l ih =>
    obtain ⟨h1, h2, h3⟩ := h
    have hi : i < pre.length := (List.getElem?_eq_some_iff.1 h1).1
    have hl : pre ++ y :: l = (pre ++ [y]) ++ l := by simp
    have hlen : pre.length + 1 = (pre ++ [y]).length := by simp
    rw [Container.minLoop, hl, hlen]
    split
    · rename_i hy
      cases y with
      | nan => exact absurd hy (not_nan_lt _)
      | num c =>
        have hy : c < a := hy
        refine ih (pre ++ [num c]) c pre.length ⟨by simp, ?_, ?_⟩
        · intro z hz
          rcases List.mem_append.1 hz with hz | hz
          · exact (hy.trans_le (h2 z hz)).le
          · simp at hz; exact hz ▸ le_rfl
        · intro j z hj hz
          rw [List.getElem?_append_left hj] at hz
          exact hy.trans_le (h2 z (List.mem_of_getElem? hz))
    · rename_i hy
      refine ih (pre ++ [y]) a i ⟨by rw [List.getElem?_append_left hi]; exact h1, ?_, ?_⟩
      · intro z hz
        rcases List.mem_append.1 hz with hz | hz
        · exact h2 z hz
        · simp at hz
          subst hz
          exact not_lt.1 hy
      · intro j z hj hz
        rw [List.getElem?_append_left (by omega)] at hz
        exact h3 j z hj hz

theorem maxLoop_num (pre l : List (NaNOr α)) (a : α) (i : Nat) (h : FirstMaxNum pre a i) :
    ∃ b j, Container.maxLoop (num a) i pre.length l = (num b, j) ∧ FirstMaxNum (pre ++ l) b j := by
  induction l generalizing pre a i with
  | nil => exact ⟨a, i, rfl, by simpa using h⟩
  | cons y l ih =>
    obtain ⟨h1, h2, h3⟩ := h
    have hi : i < pre.length := (List.getElem?_eq_some_iff.1 h1).1
    have hl : pre ++ y :: l = (pre ++ [y]) ++ l := by simp
    have hlen : pre.length + 1 = (pre ++ [y]).length := by simp
    rw [Container.maxLoop, hl, hlen]
    split
    · rename_i hy
      cases y with
      | nan => exact absurd hy (not_lt_nan _)
      | num c =>
        have hy : a < c := hy
        refine ih (pre ++ [num c]) c pre.length ⟨by simp, ?_, ?_⟩
        · intro z hz
          rcases List.mem_append.1 hz with hz | hz
          · exact ((h2 z hz).trans_lt hy).le
          · simp at hz; exact hz ▸ le_rfl
        · intro j z hj hz
          rw [List.getElem?_append_left hj] at hz
          exact (h2 z (List.mem_of_getElem? hz)).trans_lt hy
    · rename_i hy
      refine ih (pre ++ [y]) a i ⟨by rw [List.getElem?_append_left hi]; exact h1, ?_, ?_⟩
      · intro z hz
        rcases List.mem_append.1 hz with hz | hz
        · exact h2 z hz
        · simp at hz
          subst hz
          exact not_lt.1 hy
      · intro j z hj hz
        rw [List.getElem?_append_left (by omega)] at hz
        exact h3 j z hj hz

/-- **C98**: `min()` of a container ignores the NaNs, unless the first value is NaN: then, it is NaN. -/
theorem C98_min (l : List (NaNOr α)) :
    Container.min (nan :: l) = .ok (nan, 0) ∧
    ∀ a, ∃ b i, Container.min (num a :: l) = .ok (num b, i) ∧ FirstMinNum (num a :: l) b i := by
  refine ⟨congrArg Except.ok (minLoop_nan l 0 1), fun a => ?_⟩
  obtain ⟨b, i, h1, h2⟩ := minLoop_num [num a] l a 0 ⟨rfl, by simp, fun j b hj => by omega⟩
  exact ⟨b, i, congrArg Except.ok h1, h2⟩

/-- **C98**: `max()` of a container ignores the NaNs, unless the first value is NaN: then, it is NaN. -/
theorem C98_max (l : List (NaNOr α)) :
    Container.max (nan :: l) = .ok (nan, 0) ∧
    ∀ a, ∃ b i, Container.max (num a :: l) = .ok (num b, i) ∧ FirstMaxNum (num a :: l) b i := by
  refine ⟨congrArg Except.ok (maxLoop_nan l 0 1), fun a => ?_⟩
  obtain ⟨b, i, h1, h2⟩ := maxLoop_num [num a] l a 0 ⟨rfl, by simp, fun j b hj => by omega⟩
  exact ⟨b, i, congrArg Except.ok h1, h2⟩

/-- **C98**: values are considered as sorted if no number is less than the number just before: NaNs separate sorted runs. -/
theorem C98_sorted (v : List (NaNOr α)) :
    NaNs.isSorted v = true ↔ ∀ i a b, v[i]? = some (num a) → v[i + 1]? = some (num b) → a ≤ b := by
  induction v with
  | nil => simp [NaNs.isSorted]
  | cons x l ih =>
    cases l with
    | nil => simp [NaNs.isSorted]
    | cons y l =>
      rw [NaNs.isSorted, Bool.and_eq_true, ih, decide_eq_true_eq]
      constructor
      · rintro ⟨h1, h2⟩ i a b ha hb
        cases i with
        | zero =>
          simp at ha hb
          subst ha hb
          exact not_lt.1 h1
        | succ i => exact h2 i a b (by simpa using ha) (by simpa using hb)
      · intro h
        refine ⟨fun hlt => ?_, fun i a b ha hb => h (i + 1) a b (by simpa using ha) (by simpa using hb)⟩
        cases x with
        | nan => exact not_lt_nan _ hlt
        | num a =>
          cases y with
          | nan => exact not_nan_lt _ hlt
          | num b => exact absurd hlt (not_lt.2 (h 0 a b rfl rfl))

/-- Values with NaN which are not considered as sorted cannot be sorted. -/
theorem not_strictWeak_of_nan {v : List (NaNOr α)} (hn : nan ∈ v) (hs : NaNs.isSorted v = false) : ¬ StrictWeak v := by
  intro h
  have h1 := ((C98_order v).1 h).resolve_left (not_not.2 hn)
  have h2 : NaNs.isSorted v = true := (C98_sorted v).2 fun i a b ha hb =>
    (h1 a b (List.mem_of_getElem? ha) (List.mem_of_getElem? hb)).le
  rw [hs] at h2
  cases h2

section Distribution

variable [Zero α] [Add α]

/-- **C98**: if there is some NaN, `nth(n)` is the n-th value in the order of the data if considered as sorted, otherwise the
behavior is undefined. -/
theorem C98_nth {data : List (NaNOr α)} (hn : nan ∈ data) {n : Nat} (h : n < data.length)
    (r : Res (NaNOr α × Distribution (NaNOr α))) :
    NaNs.Nth (NaNs.ofValues data) n r ↔
      r = if NaNs.isSorted data then .ok (data[n], NaNs.ofValues data) else .error .ub := by
  by_cases hs : NaNs.isSorted data = true
  · rw [if_pos hs]
    constructor
    · intro hr
      cases hr with
      | outside h' => exact absurd h' (not_le.2 h)
      | sorted _ h' =>
        have : some data[n] = some _ := (List.getElem?_eq_getElem h).symm.trans h'
        cases this
        rfl
      | undefined h' => exact absurd (hs.symm.trans h') (by simp)
      | unsorted h' => exact absurd (hs.symm.trans h') (by simp)
    · rintro rfl
      exact .sorted hs (List.getElem?_eq_getElem h)
  · have hs' : NaNs.isSorted data = false := by simpa using hs
    rw [if_neg hs]
    constructor
    · intro hr
      cases hr with
      | outside h' => exact absurd h' (not_le.2 h)
      | sorted h' _ => exact absurd h' hs
      | undefined h' => rfl
      | unsorted _ h' => exact absurd h' (not_strictWeak_of_nan hn hs')
    · rintro rfl
      exact .undefined hs' h (not_strictWeak_of_nan hn hs')

/-- **C98**: if there is some NaN, `sort()` does nothing if the data is considered as sorted, otherwise the behavior is undefined. -/
theorem C98_sort {data : List (NaNOr α)} (hn : nan ∈ data) (r : Res (Distribution (NaNOr α))) :
    NaNs.Sorts (NaNs.ofValues data) r ↔ r = if NaNs.isSorted data then .ok (NaNs.ofValues data) else .error .ub := by
  by_cases hs : NaNs.isSorted data = true
  · rw [if_pos hs]
    constructor
    · intro hr
      cases hr with
      | sorted _ => rfl
      | undefined h' => exact absurd (hs.symm.trans h') (by simp)
      | unsorted h' => exact absurd (hs.symm.trans h') (by simp)
    · rintro rfl
      exact .sorted hs
  · have hs' : NaNs.isSorted data = false := by simpa using hs
    rw [if_neg hs]
    constructor
    · intro hr
      cases hr with
      | sorted h' => exact absurd h' hs
      | undefined h' => rfl
      | unsorted _ h' => exact absurd h' (not_strictWeak_of_nan hn hs')
    · rintro rfl
      exact .undefined hs' (not_strictWeak_of_nan hn hs')

omit [Zero α] [Add α] in
theorem skipBelow_num (b : α) (l : List α) (rest : List (NaNOr α)) (hr : ∀ x ∈ rest.head?, x = nan) :
    NaNs.skipBelow b (l.map num ++ rest) = (Distribution.skipBelow b l).map num ++ rest := by
  induction l with
  | nil =>
    cases rest with
    | nil => rfl
    | cons x rest =>
      obtain rfl : x = nan := hr x (by simp)
      simp [NaNs.skipBelow, Distribution.skipBelow]
  | cons x l ih =>
    simp only [List.map_cons, List.cons_append, NaNs.skipBelow, Distribution.skipBelow, num_lt_num]
    split
    · exact ih
    · rfl

omit [Zero α] [Add α] in
theorem countBelow_num (b : α) (c : Nat) (l : List α) (out : List Nat) (rest : List (NaNOr α)) (hr : ∀ x ∈ rest.head?, x = nan) :
    NaNs.countBelow b c (l.map num ++ rest) out =
      (Distribution.countBelow b c l out).map fun p => (p.1.map num ++ rest, p.2) := by
  induction l generalizing out with
  | nil =>
    cases rest with
    | nil => rfl
    | cons x rest =>
      obtain rfl : x = nan := hr x (by simp)
      simp [NaNs.countBelow, Distribution.countBelow, Except.map]
  | cons x l ih =>
    simp only [List.map_cons, List.cons_append, NaNs.countBelow, Distribution.countBelow, num_lt_num]
    split
    · cases readAt out c with
      | error e => rfl
      | ok k =>
        simp only [bind, Except.bind]
        cases writeAt out c (k + 1) with
        | error e => rfl
        | ok out' => exact ih out'
    · rfl

omit [Zero α] [Add α] in
theorem binLoop_num (bins : List α) (c : Nat) (l : List α) (out : List Nat) (rest : List (NaNOr α))
    (hr : ∀ x ∈ rest.head?, x = nan) :
    NaNs.binLoop bins c (l.map num ++ rest) out =
      (Distribution.binLoop bins c l out).map fun p => (p.1.map num ++ rest, p.2) := by
  induction bins generalizing c l out with
  | nil => rfl
  | cons b bins ih =>
    simp only [NaNs.binLoop, Distribution.binLoop]
    split
    · rfl
    · rw [countBelow_num b c l out rest hr]
      cases Distribution.countBelow b c l out with
      | error e => rfl
      | ok p => exact ih (c + 1) p.1 p.2

omit [Zero α] [Add α] in
/-- **C98**: the histogram counts the numbers which are before the first NaN (`l`), and ignores the others. -/
theorem C98_histogram (l : List α) (rest : List (NaNOr α)) (hr : ∀ x ∈ rest.head?, x = nan) (bins : List α) :
    NaNs.histogramSorted (l.map num ++ rest) bins = Distribution.histogramSorted l bins := by
  cases bins with
  | nil => rfl
  | cons b bins =>
    simp only [NaNs.histogramSorted, Distribution.histogramSorted]
    rw [skipBelow_num b l rest hr, binLoop_num bins 0 _ _ rest hr]
    cases Distribution.binLoop bins 0 (Distribution.skipBelow b l) (List.replicate bins.length 0) with
    | error e => rfl
    | ok p =>
      obtain ⟨l', out, c⟩ := p
      simp only [Except.map, bind, Except.bind]
      cases l' with
      | nil =>
        cases rest with
        | nil => rfl
        | cons x rest =>
          obtain rfl : x = nan := hr x (by simp)
          simp [NaNOr.eq]
      | cons x l' => simp [NaNOr.eq]

/-- **C98**: the histogram of data with NaN. -/
theorem C98_histogram_nan {data : List (NaNOr α)} {l : List α} {rest : List (NaNOr α)} (hd : data = l.map num ++ nan :: rest)
    (bins : List α) (r : Res (List Nat × Distribution (NaNOr α))) :
    NaNs.Histogram (NaNs.ofValues data) bins r ↔
      r = if NaNs.isSorted data then (Distribution.histogramSorted l bins).map fun c => (c, NaNs.ofValues data)
        else .error .ub := by
  have hn : (nan : NaNOr α) ∈ data := by simp [hd]
  have hh := C98_histogram l (nan :: rest) (by simp) bins
  rw [← hd] at hh
  constructor
  · intro hr
    cases hr with
    | undefined h =>
      rw [C98_sort hn] at h
      split at h
      · cases h
      · rename_i hs
        rw [if_neg hs]
        cases h
        rfl
    | counts h =>
      rw [C98_sort hn] at h
      split at h
      · rename_i hs
        rw [if_pos hs]
        cases h
        rw [← hh]
        rfl
      · cases h
  · rintro rfl
    split
    · rename_i hs
      rw [← hh]
      exact .counts ((C98_sort hn _).2 (by rw [if_pos hs]))
    · rename_i hs
      exact .undefined ((C98_sort hn _).2 (by rw [if_neg hs]))

/-- **C98**: queries of data with NaN never change the distribution, such that they can be repeated. -/
theorem C98_history {data : List (NaNOr α)} (hn : nan ∈ data) (n : Nat) (bins : List α) (d : Distribution (NaNOr α)) :
    (∀ x, NaNs.Nth (NaNs.ofValues data) n (.ok (x, d)) → d = NaNs.ofValues data) ∧
    (NaNs.Sorts (NaNs.ofValues data) (.ok d) → d = NaNs.ofValues data) ∧
    ∀ c, NaNs.Histogram (NaNs.ofValues data) bins (.ok (c, d)) → d = NaNs.ofValues data := by
  have hs : NaNs.Sorts (NaNs.ofValues data) (.ok d) → d = NaNs.ofValues data := by
    intro h
    rw [C98_sort hn] at h
    split at h
    · cases h; rfl
    · cases h
  refine ⟨fun x h => ?_, hs, fun c h => ?_⟩
  · by_cases hl : n < data.length
    · rw [C98_nth hn hl] at h
      split at h
      · cases h; rfl
      · cases h
    · cases h with
      | sorted _ h' =>
        rfl
      | unsorted h' h'' => exact absurd h'' (not_strictWeak_of_nan hn h')
  · generalize hr : (Except.ok (c, d) : Res (List Nat × Distribution (NaNOr α))) = r at h
    cases h with
    | undefined _ => cases hr
    | counts h' =>
      rename_i d'
      cases hc : NaNs.histogramSorted d'.values bins with
      | error e => rw [hc] at hr; cases hr
      | ok c' =>
        rw [hc] at hr
        cases hr
        exact hs h'

omit [LinearOrder α] [Zero α] in
theorem foldl_add_nan (l : List (NaNOr α)) : l.foldl NaNOr.add nan = nan := by
  induction l with
  | nil => rfl
  | cons x l ih => exact ih

omit [LinearOrder α] [Zero α] in
theorem foldl_add_num (l : List α) (a : α) : (l.map num).foldl NaNOr.add (num a) = num (l.foldl (· + ·) a) := by
  induction l generalizing a with
  | nil => rfl
  | cons x l ih => exact ih (a + x)

/-- **C98**: the sum is NaN as soon as some value is; otherwise, it is that of the numbers. -/
theorem C98_sum (data : List (NaNOr α)) (l : List α) :
    (nan ∈ data → (NaNs.ofValues data).sum = nan) ∧
    (NaNs.ofValues (l.map num)).sum = num (Distribution.ofValues l).sum := by
  refine ⟨fun h => ?_, foldl_add_num l 0⟩
  obtain ⟨s, t, rfl⟩ := List.append_of_mem h
  show (s ++ nan :: t).foldl NaNOr.add (num 0) = nan
  rw [List.foldl_append, List.foldl_cons]
  have : NaNOr.add (s.foldl NaNOr.add (num 0)) nan = nan := by
    cases s.foldl NaNOr.add (num 0) <;> rfl
  rw [this, foldl_add_nan]

/-- The distribution of the same numbers, as values which may be NaN. -/
def Spec.lift (d : Distribution α) : Distribution (NaNOr α) := ⟨d.values.map num, d.sorted, num d.sum⟩

omit [Zero α] [Add α] in
theorem isSorted_num (l : List α) : NaNs.isSorted (l.map num) = decide (l.Pairwise (· ≤ ·)) := by
  rw [Bool.eq_iff_iff, C98_sorted, decide_eq_true_eq]
  constructor
  · intro h
    rw [← List.isChain_iff_pairwise, List.isChain_iff_getElem]
    intro i hi
    exact h i l[i] l[i + 1] (by simp [List.getElem?_eq_getElem (by omega : i < l.length)]) (by
      simp [List.getElem?_eq_getElem hi])
  · intro h i a b ha hb
    simp only [List.getElem?_map, Option.map_eq_some_iff, num.injEq, exists_eq_right] at ha hb
    obtain ⟨h1, rfl⟩ := List.getElem?_eq_some_iff.1 ha
    obtain ⟨h2, rfl⟩ := List.getElem?_eq_some_iff.1 hb
    exact (List.pairwise_iff_getElem.1 h) i (i + 1) h1 h2 (by omega)

omit [LinearOrder α] [Zero α] [Add α] in
theorem exists_map_num (v : List (NaNOr α)) (h : nan ∉ v) : ∃ w : List α, v = w.map num := by
  induction v with
  | nil => exact ⟨[], rfl⟩
  | cons x v ih =>
    obtain ⟨w, rfl⟩ := ih fun hm => h (List.mem_cons_of_mem _ hm)
    cases x with
    | nan => exact absurd List.mem_cons_self h
    | num a => exact ⟨a :: w, rfl⟩

omit [Zero α] [Add α] in
/-- Without NaN, partial sorting is that of numbers. -/
theorem nthElement_num (l : List α) (n : Nat) (v : List (NaNOr α)) :
    NaNs.NthElement (l.map num) n v ↔ ∃ w, v = w.map num ∧ NthElement l n w := by
  constructor
  · intro h
    obtain ⟨w, rfl⟩ := exists_map_num v fun hn => by simpa using h.1.mem_iff.1 hn
    refine ⟨w, rfl, (List.map_perm_map_iff (fun a b hab => by cases hab; rfl)).1 h.1, fun i j a b hi hj ha hb => ?_⟩
    exact not_lt.1 (h.2 i j (num a) (num b) hi hj (by simp [ha]) (by simp [hb]))
  · rintro ⟨w, rfl, h⟩
    refine ⟨h.1.map num, fun i j a b hi hj ha hb => ?_⟩
    simp only [List.getElem?_map, Option.map_eq_some_iff] at ha hb
    obtain ⟨a, ha, rfl⟩ := ha
    obtain ⟨b, hb, rfl⟩ := hb
    exact not_lt.2 (h.2 i j a b hi hj ha hb)

/-- **C98**: without NaN, distributions are those of numbers (C30 to C33). -/
theorem C98_without (l : List α) {n : Nat} (h : n < l.length) (r : Res (NaNOr α × Distribution (NaNOr α))) :
    NaNs.ofValues (l.map num) = lift (Distribution.ofValues l) ∧
    ∀ d : Distribution α, d.values.length = l.length →
      (NaNs.Nth (lift d) n r ↔ ∃ x d', Distribution.Nth d n x d' ∧ r = .ok (num x, lift d')) := by
  constructor
  · unfold NaNs.ofValues lift Distribution.ofValues
    rw [isSorted_num, foldl_add_num]
  · intro d hd
    have hw : StrictWeak (d.values.map num) := (C98_order _).2 (.inl (by simp))
    constructor
    · intro hr
      cases hr with
      | outside h' =>
        have : d.values.length ≤ n := by simpa [lift] using h'
        omega
      | sorted h1 h2 =>
        have h2' : (d.values.map num)[n]? = some _ := h2
        simp only [List.getElem?_map, Option.map_eq_some_iff] at h2'
        obtain ⟨x, h3, rfl⟩ := h2'
        exact ⟨x, d, .sorted h1 h3, rfl⟩
      | undefined _ _ h' => exact absurd hw h'
      | unsorted h1 hw' h2 h3 =>
        obtain ⟨w, rfl, hw⟩ := (nthElement_num _ _ _).1 h2
        simp only [List.getElem?_map, Option.map_eq_some_iff] at h3
        obtain ⟨x, h4, rfl⟩ := h3
        exact ⟨x, { d with values := w }, .unsorted h1 (by omega) hw h4, rfl⟩
    · rintro ⟨x, d', hn, rfl⟩
      cases hn with
      | sorted h1 h2 => exact .sorted h1 (by simp [lift, h2])
      | unsorted h1 h2 h3 h4 =>
        exact .unsorted h1 hw ((nthElement_num _ _ _).2 ⟨_, rfl, h3⟩) (by simp [h4])

omit [Add α] in
/-- **C98**: without NaN, sorting is that of numbers: the distribution is then known to be sorted, and its histogram is that of the
numbers. -/
theorem C98_sort_without (d : Distribution α) (bins : List α) :
    (∀ r, NaNs.Sorts (lift d) r ↔ ∃ d', Distribution.Sorts d d' ∧ r = .ok (lift d')) ∧
    ∀ r, NaNs.Histogram (lift d) bins r ↔
      ∃ c d', Distribution.Histogram d bins c d' ∧ r = c.map fun c => (c, lift d') := by
  have hw : StrictWeak (d.values.map num) := (C98_order _).2 (.inl (by simp))
  have hs : ∀ r, NaNs.Sorts (lift d) r ↔ ∃ d', Distribution.Sorts d d' ∧ r = .ok (lift d') := by
    intro r
    constructor
    · intro h
      cases h with
      | sorted h => exact ⟨d, .sorted h, rfl⟩
      | undefined _ h => exact absurd hw h
      | @unsorted v h _ hp ho =>
        have hp' : v.Perm (d.values.map num) := hp
        obtain ⟨w, rfl⟩ := exists_map_num v fun hn => by simpa using hp'.mem_iff.1 hn
        refine ⟨{ d with values := w, sorted := true }, .unsorted h ⟨?_, ?_⟩, rfl⟩
        · exact (List.map_perm_map_iff (fun a b hab => by cases hab; rfl)).1 hp'
        · exact (List.pairwise_map.1 ho).imp fun h => not_lt.1 h
    · rintro ⟨d', h, rfl⟩
      cases h with
      | sorted h => exact .sorted h
      | @unsorted v h hv =>
        exact .unsorted h hw (hv.1.map num) (List.pairwise_map.2 (hv.2.imp fun h => not_lt.2 h))
  refine ⟨hs, fun r => ?_⟩
  have hh : ∀ l : List α, NaNs.histogramSorted (l.map num) bins = Distribution.histogramSorted l bins := by
    intro l
    have := C98_histogram l [] (by simp) bins
    rwa [List.append_nil] at this
  constructor
  · intro h
    cases h with
    | undefined h =>
      obtain ⟨d', _, h⟩ := (hs _).1 h
      cases h
    | counts h =>
      obtain ⟨d', h1, h2⟩ := (hs _).1 h
      cases h2
      refine ⟨_, d', ⟨h1, rfl⟩, ?_⟩
      rw [← hh]
      rfl
  · rintro ⟨c, d', ⟨h1, rfl⟩, rfl⟩
    rw [← hh]
    exact .counts ((hs _).2 ⟨d', h1, rfl⟩)

/-- The values 2, 1 are sorted as 1, 2. -/
example : NaNs.Sorts (lift (Distribution.ofValues [(2 : ℚ), 1])) (.ok (lift ⟨[1, 2], true, 3⟩)) :=
  ((C98_sort_without _ []).1 _).2 ⟨⟨[1, 2], true, 3⟩, by
    have h : Distribution.ofValues [(2 : ℚ), 1] = ⟨[2, 1], false, 3⟩ := by
      unfold Distribution.ofValues
      norm_num
    rw [h]
    exact .unsorted rfl ⟨List.Perm.swap _ _ _, by norm_num⟩, rfl⟩

end Distribution

/-- **C98**: two containers are equal if they have the same numbers and no NaN: a container with NaN differs from itself. -/
theorem C98_equal (v w : List (NaNOr α)) : NaNs.equal v w = true ↔ v = w ∧ nan ∉ v := by
  induction v generalizing w with
  | nil => cases w <;> simp [NaNs.equal]
  | cons x l ih =>
    cases w with
    | nil => simp [NaNs.equal]
    | cons y m =>
      rw [NaNs.equal, Bool.and_eq_true, ih]
      cases x <;> cases y <;> simp [NaNOr.eq, and_assoc]

/-- **C98**: the median of an odd number of neighbors is undefined if some of them are NaN and others are different numbers;
if there are only NaNs and equal numbers, it is any of them. -/
theorem C98_median_nan {v : List (NaNOr α)} (hv : v.length % 2 = 1) (hn : nan ∈ v) (r : Res (NaNOr α)) :
    NaNs.MedianOdd v r ↔ ((∃ a b, num a ∈ v ∧ num b ∈ v ∧ a ≠ b) ∧ r = .error .ub) ∨
      ((∀ a b, num a ∈ v → num b ∈ v → a = b) ∧ ∃ x ∈ v, r = .ok x) := by
  have hsw := C98_order v
  have hns : ¬ StrictWeak v ↔ ∃ a b, num a ∈ v ∧ num b ∈ v ∧ a ≠ b := by
    rw [hsw, not_or, not_not]
    push Not
    exact ⟨fun h => h.2, fun h => ⟨hn, h⟩⟩
  have hsw' : StrictWeak v ↔ ∀ a b, (num a : NaNOr α) ∈ v → (num b : NaNOr α) ∈ v → a = b :=
    ⟨fun h => (hsw.1 h).resolve_left (not_not.2 hn), fun h => hsw.2 (.inr h)⟩
  constructor
  · intro h
    cases h with
    | undefined h => exact .inl ⟨hns.1 h, rfl⟩
    | middle h1 h2 h3 => exact .inr ⟨hsw'.1 h1, _, h2.1.mem_iff.1 (List.mem_of_getElem? h3), rfl⟩
  · rintro (⟨h, rfl⟩ | ⟨h, x, hx, rfl⟩)
    · exact .undefined (hns.2 h)
    · obtain ⟨s, t, rfl⟩ := List.append_of_mem hx
      have hpos : (s ++ t).length + 1 = (s ++ x :: t).length := by simp; omega
      have hm : (s ++ x :: t).length / 2 ≤ (s ++ t).length := by omega
      have hp : ((s ++ t).take ((s ++ x :: t).length / 2) ++ x :: (s ++ t).drop ((s ++ x :: t).length / 2)).Perm
          (s ++ x :: t) := by
        refine List.perm_middle.trans ?_
        rw [List.take_append_drop]
        exact List.perm_middle.symm
      refine .middle (v' := (s ++ t).take ((s ++ x :: t).length / 2) ++ x :: (s ++ t).drop ((s ++ x :: t).length / 2))
        (hsw'.2 h) ⟨hp, ?_⟩ ?_
      · intro i j y z _ _ hy hz hlt
        have hy := hp.mem_iff.1 (List.mem_of_getElem? hy)
        have hz := hp.mem_iff.1 (List.mem_of_getElem? hz)
        cases y with
        | nan => exact not_lt_nan _ hlt
        | num a =>
          cases z with
          | nan => exact not_nan_lt _ hlt
          | num b =>
            rw [num_lt_num, h a b hy hz] at hlt
            exact lt_irrefl _ hlt
      · have hl : ((s ++ t).take ((s ++ x :: t).length / 2)).length = (s ++ x :: t).length / 2 := by
          rw [List.length_take]
          omega
        rw [List.getElem?_append_right (by omega), hl]
        simp

/-- **C98**: without NaN, it is the median number. -/
theorem C98_median_numbers {l : List ℚ} (hv : l.length % 2 = 1) (r : Res (NaNOr ℚ)) :
    NaNs.MedianOdd (l.map num) r ↔ ∃ m, IsMedian l m ∧ r = .ok (num m) := by
  rw [← MedianFilter.C51_median_odd (convert := num) hv]
  have hw : StrictWeak (l.map (num : ℚ → NaNOr ℚ)) := (C98_order _).2 (.inl (by simp))
  constructor
  · intro h
    cases h with
    | undefined h => exact absurd hw h
    | middle h1 h2 h3 =>
      obtain ⟨w, rfl, h4⟩ := (nthElement_num _ _ _).1 h2
      rw [List.length_map] at h3 h4
      rw [List.getElem?_map, Option.map_eq_some_iff] at h3
      obtain ⟨x, h5, rfl⟩ := h3
      exact ⟨w, .odd hv h4 h5⟩
  · rintro ⟨v', h⟩
    cases h with
    | odd _ h1 h2 =>
      refine .middle (v' := v'.map num) hw ((nthElement_num _ _ _).2 ⟨v', rfl, ?_⟩) ?_
      · rw [List.length_map]; exact h1
      · rw [List.length_map, List.getElem?_map, h2]; rfl
    | none => simp at hv
    | two h => omega
    | even h => omega

/-- **C98** as expected: if some values are NaN, the minimum and the maximum of the distribution are NaN or those of the numbers. -/
def C98_Statement : Prop :=
  ∀ data : List (NaNOr ℚ), data ≠ [] → ∀ r, NaNs.Nth (NaNs.ofValues data) 0 r →
    ∃ x d, r = .ok (x, d) ∧ ∀ a, x = num a → ∀ b, num b ∈ data → a ≤ b

/-- The values 3, NaN, 1 are considered as sorted, hence 3 is their minimum and 1 is their maximum. -/
theorem C98_inverted (r : Res (NaNOr ℚ × Distribution (NaNOr ℚ))) :
    (NaNs.Nth (NaNs.ofValues [num 3, nan, num 1]) 0 r ↔ r = .ok (num 3, NaNs.ofValues [num 3, nan, num 1])) ∧
    (NaNs.Nth (NaNs.ofValues [num 3, nan, num 1]) 2 r ↔ r = .ok (num 1, NaNs.ofValues [num 3, nan, num 1])) := by
  have hs : NaNs.isSorted [num (3 : ℚ), nan, num 1] = true := rfl
  constructor
  · rw [C98_nth (by simp) (by simp), if_pos hs]
    rfl
  · rw [C98_nth (by simp) (by simp), if_pos hs]
    rfl

theorem C98_violated : ¬ C98_Statement := by
  intro h
  obtain ⟨x, d, h1, h2⟩ := h _ (by simp) _ ((C98_inverted _).1.2 rfl)
  cases h1
  have := h2 3 rfl 1 (by simp)
  norm_num at this

/-- Otherwise, e.g. for the values 2, 1, NaN, the behavior is undefined. -/
theorem C98_undefined (r : Res (NaNOr ℚ × Distribution (NaNOr ℚ))) :
    NaNs.Nth (NaNs.ofValues [num 2, num 1, nan]) 0 r ↔ r = .error .ub := by
  have hs : NaNs.isSorted [num (2 : ℚ), num 1, nan] = false := by
    simp [NaNs.isSorted]
  rw [C98_nth (by simp) (by simp), hs]
  rfl

/-- The extrema of the distribution are as expected without NaN.
Missing: data with NaN, see `C98_nth`. -/
theorem C98_partial {l : List ℚ} (hl : l ≠ []) (r : Res (NaNOr ℚ × Distribution (NaNOr ℚ)))
    (h : NaNs.Nth (NaNs.ofValues (l.map num)) 0 r) :
    ∃ x d, r = .ok (num x, d) ∧ x ∈ l ∧ ∀ b ∈ l, x ≤ b := by
  have hpos := List.length_pos_iff.2 hl
  obtain ⟨h1, h2⟩ := C98_without l hpos r
  rw [h1, h2 _ rfl] at h
  obtain ⟨x, d', h3, rfl⟩ := h
  exact ⟨x, _, rfl, C30_min l _ d' x .init h3⟩

/-- Hypotheses of the theorems above: NaN first, NaN elsewhere, a histogram which stops at NaN, and a median which is NaN or 2. -/
example : Container.min [nan, num (2 : ℚ), num 1] = .ok (nan, 0) ∧ Container.min [num (2 : ℚ), nan, num 1] = .ok (num 1, 2) ∧
    NaNs.histogramSorted [num (1 : ℚ), nan, num 1] [0, 2] = .ok [1] ∧
    NaNs.MedianOdd [num (2 : ℚ), nan, num 2] (.ok nan) ∧ NaNs.MedianOdd [num (2 : ℚ), nan, num 2] (.ok (num 2)) := by
  refine ⟨rfl, rfl, rfl, (C98_median_nan rfl (by simp) _).2 (.inr ⟨by simp, nan, by simp, rfl⟩),
    (C98_median_nan rfl (by simp) _).2 (.inr ⟨by simp, num 2, by simp, rfl⟩)⟩

end Litl
