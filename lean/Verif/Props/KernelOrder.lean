import Verif.Spec.KernelOrder
import Verif.Props.Kernel
import Verif.Props.LineKernel
import Verif.Props.Regions

/-!
# Correlation in an arithmetic without laws (C83, C84)

Additions and multiplications are any functions: associativity, commutativity, neutral elements... are not assumed. Special
values (infinities, NaN, signed zeros) are values like others.
-/

namespace Litl

open Spec

variable {α : Type} [Zero α] [Add α] [Mul α]

/-- For examples, an arithmetic without associativity and with a special value: saturated integers, and NaN. -/
inductive Saturated where
  | nan
  | num (x : Int)
deriving DecidableEq

namespace Saturated

instance : Zero Saturated := ⟨num 0⟩

instance : Add Saturated := ⟨fun x y => match x, y with
  | num x, num y => num (max (-128) (min 127 (x + y)))
  | _, _ => nan⟩

instance : Mul Saturated := ⟨fun x y => match x, y with
  | num x, num y => num (max (-128) (min 127 (x * y)))
  | _, _ => nan⟩

theorem mul_nan (x : Saturated) : x * nan = nan := by cases x <;> rfl

theorem add_nan (x : Saturated) : x + nan = nan := by cases x <;> rfl

theorem nan_add (x : Saturated) : nan + x = nan := rfl

theorem good_step (s v x : Saturated) (h1 : s ≠ nan) (h2 : v ≠ nan) (h3 : x ≠ nan) : s + v * x ≠ nan := by
  cases s with
  | nan => exact absurd rfl h1
  | num s => cases v with
    | nan => exact absurd rfl h2
    | num v => cases x with
      | nan => exact absurd rfl h3
      | num x => exact fun h => Saturated.noConfusion h

end Saturated

theorem foldl_absorb {α : Type} [Add α] {ι : Type} {l : List ι} {g : ι → α} {nan : α} (hadd : ∀ x : α, x + nan = nan)
    (hadd' : ∀ x : α, nan + x = nan) {i : ι} (hi : i ∈ l) (hg : g i = nan) (s : α) :
    l.foldl (fun s i => s + g i) s = nan := by
  have hstay : ∀ l : List ι, l.foldl (fun s i => s + g i) nan = nan := by
    intro l
    induction l with
    | nil => rfl
    | cons a l ih => rw [List.foldl_cons, hadd', ih]
  induction l generalizing s with
  | nil => simp at hi
  | cons a l ih =>
    rw [List.foldl_cons]
    rcases List.mem_cons.1 hi with rfl | hi
    · rw [hg, hadd, hstay]
    · exact ih hi _

theorem foldl_good {α : Type} [Add α] {ι : Type} {l : List ι} {g : ι → α} {good : α → Prop}
    (h : ∀ s, ∀ i ∈ l, good s → good (s + g i)) {s : α} (hs : good s) : good (l.foldl (fun s i => s + g i) s) := by
  induction l generalizing s with
  | nil => exact hs
  | cons a l ih => exact ih (fun s i hi => h s i (by simp [hi])) (h _ _ (by simp) hs)

namespace Kernel

/-- The pixel at `p` is the correlation, computed in storage order. -/
def InOrder (k : Kernel α) (shape : Position) (F : Position → α) (o : List α) (p : Position) : Prop :=
  ∃ x, o[(offset shape p).toNat]? = some x ∧ IsOrderedCorrelation k.values k.window.front k.window.back F p x

/-- The pixels where the correlation is right (C45): where extrapolation is needed, and for 1D and 2D kernels, everywhere but at
row starts. -/
def Covered (k : Kernel α) (shape p : Position) : Prop :=
  InShape shape p ∧ (Inside k shape p → Flat k ∧ ¬ RowStart k p)

theorem isOrderedCorrelation_corrFold {k : Kernel α} (hl : k.window.front.length = k.window.back.length)
    (F : Position → α) (p : Position) :
    IsOrderedCorrelation k.values k.window.front k.window.back F p (corrFold k F p) :=
  ⟨enum k.window.front k.window.back, pairwise_enum, fun _ => mem_enum hl, rfl⟩

theorem isOrderedCorrelation_iff {k : Kernel α} (hl : k.window.front.length = k.window.back.length)
    {F : Position → α} {p : Position} {x : α} :
    IsOrderedCorrelation k.values k.window.front k.window.back F p x ↔ x = corrFold k F p := by
  constructor
  · rintro ⟨l, h1, h2, rfl⟩
    have : l = enum k.window.front k.window.back :=
      eq_of_storage_order h1 pairwise_enum fun j => by rw [h2, mem_enum hl]
    rw [this]
    rfl
  · rintro rfl
    exact isOrderedCorrelation_corrFold hl F p

/-- If the raster and the extrapolator do not agree inside the domain, then the former is read where the window is inside the
domain, and the latter elsewhere. -/
theorem order_prepared {k : Kernel α} {input : Raster α} {extrapolator : Position → Res α} {F G : Position → α}
    {out : List α} (h : Prepared k input extrapolator G out)
    (hF : ∀ q, InShape input.shape q → input.get q = .ok (F q)) (ho : OriginInside k) (hw : WindowFits k input.shape) :
    ∃ o, Returns k input extrapolator out o ∧ o.length = out.length ∧
      ∀ p, Covered k input.shape p → (Inside k input.shape p → InOrder k input.shape F o p) ∧
        (¬ Inside k input.shape p → InOrder k input.shape G o p) := by
  obtain ⟨o, h1, h2, h3, h4, _⟩ := correlates_fold h ho hw
  refine ⟨o, h1, h2, fun p hp => ?_⟩
  obtain ⟨hp, hcov⟩ := hp
  refine ⟨fun hin => ?_, fun hin => ?_⟩
  · refine ⟨corrFold k F p, ?_, isOrderedCorrelation_corrFold h.nonempty.length_eq F p⟩
    rw [← index_eq_offset hp.length_eq]
    obtain ⟨hflat, hrow⟩ := hcov hin
    have hin' := (inside_iff h.front_length h.back_length h.nonempty hp.length_eq).1 hin
    have hpos : 0 < k.window.front.length := by
      have := h.front_length
      have : input.shape.length ≠ 0 := by simpa using h.dim
      omega
    rw [h4 p hin' (by
      rw [inner_front h.front_length]
      intro e
      by_contra hne
      refine hrow ⟨?_, hne⟩
      rw [e]
      simp [List.getD_eq_getElem?_getD, hpos])]
    have hc := rowsContiguous_of_flat h.nonempty.length_eq h.front_length hflat
    have hF := getD_of_inside hF
    obtain ⟨hf, hb⟩ := inner_inShape h.front_length h.back_length hin' h.nonempty
    have hle := h.nonempty
    have hfl := h.front_length
    have hdim := h.dim
    have hpl := hp.length_eq
    unfold corrFold
    revert hc hF hf hb hle hfl hdim hpl
    rcases k with ⟨values, ⟨f, b⟩⟩
    rcases input with ⟨s, data⟩
    simp only [Box.shape]
    intro hc hF hf hb hle hfl hdim hpl
    rcases s with _ | ⟨s0, ss⟩
    · exact absurd rfl hdim
    rcases f with _ | ⟨f0, fs⟩
    · simp at hfl
    rcases b with _ | ⟨b0, bs⟩
    · cases hle
    rcases p with _ | ⟨x, q⟩
    · simp at hpl
    exact congrArg some (rawFold_correlation hle hf hb (by simpa using hpl) (by simpa using hfl) hF hc)
  · refine ⟨corrFold k G p, ?_, isOrderedCorrelation_corrFold h.nonempty.length_eq G p⟩
    rw [← index_eq_offset hp.length_eq]
    exact h3 p hp fun hi => hin ((inside_iff h.front_length h.back_length h.nonempty hp.length_eq).2 hi)

/-- **C83** for ND kernels: in any arithmetic, the correlation has one outcome, and the pixels are computed as products added
one by one to zero in storage order, with or without extrapolation. -/
theorem C83_order {k : Kernel α} {input : Raster α} {extrapolator : Position → Res α} {F : Position → α}
    {out : List α} (h : Suitable k input extrapolator F out) (ho : OriginInside k) (hw : WindowFits k input.shape) :
    ∃ o, Returns k input extrapolator out o ∧ o.length = out.length ∧
      ∀ p, Covered k input.shape p → InOrder k input.shape F o p := by
  obtain ⟨o, h1, h2, h3⟩ := order_prepared h.prepared h.inside ho hw
  exact ⟨o, h1, h2, fun p hp => (em _).elim (h3 p hp).1 (h3 p hp).2⟩

omit [Zero α] [Add α] [Mul α] in
/-- In 1D, this is everywhere. -/
theorem covered_1d {k : Kernel α} {shape p : Position} (hfl : k.window.front.length = shape.length)
    (hbl : k.window.back.length = shape.length) (hd : shape.length = 1) (hp : InShape shape p) : Covered k shape p := by
  refine ⟨hp, fun _ => ⟨?_, ?_⟩⟩
  · unfold Flat
    rw [List.drop_eq_nil_of_le (by omega), List.drop_eq_nil_of_le (by omega)]
  · rintro ⟨e, hne⟩
    refine hne ?_
    obtain ⟨x, hx⟩ := List.length_eq_one_iff.1 (hp.length_eq.trans hd)
    obtain ⟨y, hy⟩ := List.length_eq_one_iff.1 (hfl.trans hd)
    rw [hx, hy] at e ⊢
    simpa using e

theorem foldl_window_congr {k : Kernel α} {F F' : Position → α} {p p' : Position}
    (hl : k.window.front.length = k.window.back.length)
    (h : ∀ j, InBox k.window.front k.window.back j →
      F (List.zipWith (· + ·) p j) = F' (List.zipWith (· + ·) p' j)) : corrFold k F p = corrFold k F' p' := by
  unfold corrFold
  refine foldl_congr_left fun s j hj => ?_
  have := h j ((mem_enum hl).1 hj)
  unfold Position.add
  rw [this]

/-- **C83**, shift invariance: pixels whose neighborhoods are the same are the same bit for bit, be they in the same
raster or not (e.g. a tile), whether they need extrapolation or not. -/
theorem C83_shift {k : Kernel α} {input input' : Raster α} {extrapolator extrapolator' : Position → Res α}
    {F F' : Position → α} {out out' o o' : List α} (h : Suitable k input extrapolator F out)
    (h' : Suitable k input' extrapolator' F' out') (ho : OriginInside k) (hw : WindowFits k input.shape)
    (hw' : WindowFits k input'.shape) (hr : Correlates k input extrapolator out (.ok o))
    (hr' : Correlates k input' extrapolator' out' (.ok o')) {p p' : Position} (hp : Covered k input.shape p)
    (hp' : Covered k input'.shape p')
    (heq : ∀ j, InBox k.window.front k.window.back j →
      F (List.zipWith (· + ·) p j) = F' (List.zipWith (· + ·) p' j)) :
    ∃ x, o[(offset input.shape p).toNat]? = some x ∧ o'[(offset input'.shape p').toNat]? = some x := by
  obtain ⟨o1, h1, _, h2⟩ := C83_order h ho hw
  obtain ⟨o2, h3, _, h4⟩ := C83_order h' ho hw'
  obtain rfl : o = o1 := by simpa using (h1 _).1 hr
  obtain rfl : o' = o2 := by simpa using (h3 _).1 hr'
  obtain ⟨x, e1, e2⟩ := h2 p hp
  obtain ⟨x', e3, e4⟩ := h4 p' hp'
  have hl := h.nonempty.length_eq
  rw [isOrderedCorrelation_iff hl] at e2 e4
  refine ⟨x, e1, ?_⟩
  rw [e3, e4, e2, foldl_window_congr hl heq]

/-- **C84** for ND kernels: if some value is absorbing for additions and products, like NaN, and is in the window, then the
output is this value, whatever the weights, including zero. -/
theorem C84_spread {k : Kernel α} {input : Raster α} {extrapolator : Position → Res α} {F : Position → α}
    {out o : List α} (h : Suitable k input extrapolator F out) (ho : OriginInside k) (hw : WindowFits k input.shape)
    (hr : Correlates k input extrapolator out (.ok o)) {nan : α} (hmul : ∀ x : α, x * nan = nan)
    (hadd : ∀ x : α, x + nan = nan) (hadd' : ∀ x : α, nan + x = nan) {p j : Position} (hp : Covered k input.shape p)
    (hj : InBox k.window.front k.window.back j) (hF : F (List.zipWith (· + ·) p j) = nan) :
    o[(offset input.shape p).toNat]? = some nan := by
  obtain ⟨o1, h1, _, h2⟩ := C83_order h ho hw
  obtain rfl : o = o1 := by simpa using (h1 _).1 hr
  obtain ⟨x, e1, l, hpw, h4, rfl⟩ := h2 p hp
  rw [e1]
  congr 1
  exact foldl_absorb hadd hadd' ((h4 j).2 hj) (by rw [hF, hmul]) 0

/-- **C84** for ND kernels: the other way round, if the values of the kernel and of the window have some property which
additions and products preserve, like that of not being NaN, then so has the output, whatever the rest of the input. -/
theorem C84_confined {k : Kernel α} {input : Raster α} {extrapolator : Position → Res α} {F : Position → α}
    {out o : List α} (h : Suitable k input extrapolator F out) (ho : OriginInside k) (hw : WindowFits k input.shape)
    (hr : Correlates k input extrapolator out (.ok o)) {good : α → Prop} (hzero : good 0)
    (hstep : ∀ s v x : α, good s → v ∈ k.values → good x → good (s + v * x)) {p : Position}
    (hp : Covered k input.shape p)
    (hF : ∀ j, InBox k.window.front k.window.back j → good (F (List.zipWith (· + ·) p j))) :
    ∃ x, o[(offset input.shape p).toNat]? = some x ∧ good x := by
  obtain ⟨o1, h1, _, h2⟩ := C83_order h ho hw
  obtain rfl : o = o1 := by simpa using (h1 _).1 hr
  obtain ⟨x, e1, e2⟩ := h2 p hp
  refine ⟨x, e1, ?_⟩
  have hle := h.nonempty
  rw [isOrderedCorrelation_iff hle.length_eq] at e2
  subst e2
  unfold corrFold
  have hlen : k.values.length = (enum k.window.front k.window.back).length := by
    have h3 := length_enum hle
    have h4 := h.values
    have h5 : pixelCount k.window.shape = ((k.window.back.sub k.window.front).addScalar 1).prod := rfl
    omega
  have hv : ∀ j ∈ enum k.window.front k.window.back,
      kernelValue k.values k.window.front k.window.back j ∈ k.values := by
    intro j hj
    obtain ⟨i, hi, rfl⟩ := List.mem_iff_getElem.1 hj
    rw [kernelValue_rank hle hi]
    have : i < k.values.length := by omega
    simp [List.getD_eq_getElem?_getD, this]
  have hF' : ∀ j ∈ enum k.window.front k.window.back, good (F (Position.add p j)) := fun j hj =>
    hF j ((mem_enum hle.length_eq).1 hj)
  exact foldl_good (fun s j hj hs => hstep _ _ _ hs (hv j hj) (hF' j hj)) hzero

/-- A raster, with nearest extrapolation. -/
def exampleF (q : Position) : Saturated :=
  if q.getD 0 0 ≤ 0 then .num 1 else if q.getD 0 0 = 1 then .nan else if q.getD 0 0 ≤ 3 then .num 100 else
    if q.getD 0 0 = 4 then .num (-100) else if q.getD 0 0 ≤ 6 then .num 100 else .num (-100)

/-- A sum of two neighbors: the weight of the pixel itself is zero. -/
def exampleKernel : Kernel Saturated := ⟨[.num 1, .num 0, .num 1], ⟨[-1], [1]⟩⟩

def exampleRaster : Raster Saturated := ⟨[8], [.num 1, .nan, .num 100, .num 100, .num (-100), .num 100, .num 100, .num (-100)]⟩

theorem example_suitable :
    Suitable exampleKernel exampleRaster (fun q => .ok (exampleF q)) exampleF (List.replicate 8 0) ∧
    OriginInside exampleKernel ∧ WindowFits exampleKernel exampleRaster.shape := by
  refine ⟨⟨by simp [exampleRaster], by simp [Pos, exampleRaster], rfl, rfl, by simp [exampleKernel], by decide, by decide, by decide,
    ?_, fun q _ => rfl⟩, by simp [OriginInside, exampleKernel], ?_⟩
  · intro q hq
    match q, hq with
    | [x], .cons h .nil =>
      have : x = 0 ∨ x = 1 ∨ x = 2 ∨ x = 3 ∨ x = 4 ∨ x = 5 ∨ x = 6 ∨ x = 7 := by omega
      rcases this with rfl | rfl | rfl | rfl | rfl | rfl | rfl | rfl <;> rfl
  · intro i hi
    simp only [exampleRaster, List.length_singleton] at hi
    have : i = 0 := by omega
    subst this
    decide

theorem example_covered {x : Int} (h0 : 0 ≤ x) (h1 : x < 8) : Covered exampleKernel [8] [x] :=
  covered_1d rfl rfl rfl (.cons ⟨h0, h1⟩ .nil)

/-- The pixels at 3 and 6 have the same neighbors: they are the same. -/
example {o : List Saturated}
    (h : Correlates exampleKernel exampleRaster (fun q => .ok (exampleF q)) (List.replicate 8 0) (.ok o)) :
    ∃ x, o[3]? = some x ∧ o[6]? = some x := by
  obtain ⟨h1, h2, h3⟩ := example_suitable
  refine C83_shift h1 h1 h2 h3 h3 h h (p := [3]) (p' := [6]) (example_covered (by decide) (by decide))
    (example_covered (by decide) (by decide)) fun j hj => ?_
  match j, hj with
  | [x], ⟨.cons h4 .nil, .cons h5 .nil⟩ =>
    have : x = -1 ∨ x = 0 ∨ x = 1 := by omega
    rcases this with rfl | rfl | rfl <;> rfl

/-- The NaN pixel spreads to three pixels, including itself, although its weight is zero there. -/
example {o : List Saturated}
    (h : Correlates exampleKernel exampleRaster (fun q => .ok (exampleF q)) (List.replicate 8 0) (.ok o)) :
    o[1]? = some .nan ∧ ∃ x, o[3]? = some x ∧ x ≠ .nan := by
  obtain ⟨h1, h2, h3⟩ := example_suitable
  constructor
  · exact C84_spread h1 h2 h3 h Saturated.mul_nan Saturated.add_nan Saturated.nan_add (p := [1]) (j := [0])
      (example_covered (by decide) (by decide)) ⟨.cons (by decide) .nil, .cons (by decide) .nil⟩ rfl
  · refine C84_confined h1 h2 h3 h (good := (· ≠ .nan)) (by decide) (fun s v x g1 g2 g3 => ?_) (p := [3])
      (example_covered (by decide) (by decide)) fun j hj => ?_
    · refine Saturated.good_step s v x g1 ?_ g3
      rintro rfl
      revert g2
      decide
    · match j, hj with
      | [x], ⟨.cons h4 .nil, .cons h5 .nil⟩ =>
        have : x = -1 ∨ x = 0 ∨ x = 1 := by omega
        rcases this with rfl | rfl | rfl <;> decide

end Kernel

namespace LineKernel

/-- **C83** for line kernels: in any arithmetic, the correlation of a line terminates without undefined behaviour, and every
output value is computed as products added one by one to zero in the order of the kernel. -/
theorem C83_line {k : LineKernel α} {read : Int → Res α} {n : Nat} {a s b t : Int} {x : Int → α} {data : List α}
    (ho : 0 ≤ k.origin ∧ k.origin < k.values.length) (hK : k.values.length ≤ n) (hn : n < 2 ^ 63)
    (hline : Line read a s n x) (ht : t ≠ 0) (hfit : Fits (full a n s) (full b n t) data) :
    Sequential k read (full a n s) (full b n t) x data :=
  sequential_full ho (by omega) (by omega) hn hline ht hfit

/-- The value of an output of the correlation of a line. -/
theorem line_value {k : LineKernel α} {read : Int → Res α} {n : Nat} {a s b t : Int} {x : Int → α} {data res : List α}
    (ho : 0 ≤ k.origin ∧ k.origin < k.values.length) (hK : k.values.length ≤ n) (hn : n < 2 ^ 63)
    (hline : Line read a s n x) (ht : t ≠ 0) (hfit : Fits (full a n s) (full b n t) data)
    (hr : Correlates k read (full a n s) (full b n t) data (.ok res)) {i : Nat} (hi : i < n) :
    res[(b + i * t).toNat]? = some (lineFold k.values k.origin n x i) := by
  obtain ⟨res', h1, h2⟩ := C83_line ho hK hn hline ht hfit
  obtain rfl : res = res' := by simpa using (h2 _).1 hr
  have h7 := h1.2.1 i
  rw [full_eq (by omega) hn, full_eq (by omega) hn] at h7
  simp only [zero_add, one_mul] at h7
  exact h7 (by omega)

/-- **C83** for line kernels, shift invariance: output values whose neighborhoods are the same in two lines, and meet the same
elements of the kernel, are the same bit for bit, whatever the strides. -/
theorem C83_line_shift {k : LineKernel α} {read read' : Int → Res α} {n n' : Nat} {a s b t a' s' b' t' : Int}
    {x x' : Int → α} {data data' res res' : List α}
    (ho : 0 ≤ k.origin ∧ k.origin < k.values.length) (hK : k.values.length ≤ n) (hn : n < 2 ^ 63)
    (hline : Line read a s n x) (ht : t ≠ 0) (hfit : Fits (full a n s) (full b n t) data)
    (hr : Correlates k read (full a n s) (full b n t) data (.ok res))
    (hK' : k.values.length ≤ n') (hn' : n' < 2 ^ 63)
    (hline' : Line read' a' s' n' x') (ht' : t' ≠ 0) (hfit' : Fits (full a' n' s') (full b' n' t') data')
    (hr' : Correlates k read' (full a' n' s') (full b' n' t') data' (.ok res')) {i i' : Nat} (hi : i < n) (hi' : i' < n')
    (hin : ∀ j : Nat, j < k.values.length → ((0 ≤ (i : Int) + j - k.origin ∧ (i : Int) + j - k.origin < n) ↔
      (0 ≤ (i' : Int) + j - k.origin ∧ (i' : Int) + j - k.origin < n')))
    (heq : ∀ j : Nat, j < k.values.length → 0 ≤ (i : Int) + j - k.origin → (i : Int) + j - k.origin < n →
      x (i + j - k.origin) = x' (i' + j - k.origin)) :
    ∃ y, res[(b + i * t).toNat]? = some y ∧ res'[(b' + i' * t').toNat]? = some y := by
  refine ⟨_, line_value ho hK hn hline ht hfit hr hi, ?_⟩
  rw [line_value ho hK' hn' hline' ht' hfit' hr' hi']
  congr 1
  unfold lineFold
  have e : (List.range k.values.length).filter (fun j : Nat =>
        decide (0 ≤ (i' : Int) + j - k.origin ∧ (i' : Int) + j - k.origin < n')) =
      (List.range k.values.length).filter (fun j : Nat =>
        decide (0 ≤ (i : Int) + j - k.origin ∧ (i : Int) + j - k.origin < n)) := by
    refine List.filter_congr fun j hj => ?_
    simp only [hin j (by simpa using hj)]
  rw [e]
  refine Kernel.foldl_congr_left fun s j hj => ?_
  obtain ⟨h1, h2⟩ := List.mem_filter.1 hj
  have h2 := of_decide_eq_true h2
  rw [heq j (by simpa using h1) h2.1 h2.2]

/-- **C84** for line kernels: an absorbing value spreads to the outputs whose neighborhood it is in, whatever the weights. -/
theorem C84_line_spread {k : LineKernel α} {read : Int → Res α} {n : Nat} {a s b t : Int} {x : Int → α}
    {data res : List α} (ho : 0 ≤ k.origin ∧ k.origin < k.values.length) (hK : k.values.length ≤ n) (hn : n < 2 ^ 63)
    (hline : Line read a s n x) (ht : t ≠ 0) (hfit : Fits (full a n s) (full b n t) data)
    (hr : Correlates k read (full a n s) (full b n t) data (.ok res)) {nan : α} (hmul : ∀ x : α, x * nan = nan)
    (hadd : ∀ x : α, x + nan = nan) (hadd' : ∀ x : α, nan + x = nan) {i m : Nat} (hi : i < n) (hm : m < n)
    (hwin : -k.origin ≤ (m : Int) - i ∧ (m : Int) - i < k.values.length - k.origin) (hx : x m = nan) :
    res[(b + i * t).toNat]? = some nan := by
  rw [line_value ho hK hn hline ht hfit hr hi]
  congr 1
  unfold lineFold
  have hmem : (m - i + k.origin).toNat ∈ (List.range k.values.length).filter (fun j : Nat =>
      decide (0 ≤ (i : Int) + j - k.origin ∧ (i : Int) + j - k.origin < n)) := by
    refine List.mem_filter.2 ⟨List.mem_range.2 (by omega), decide_eq_true (by omega)⟩
  have hval : x (i + ((m - i + k.origin).toNat : Int) - k.origin) = nan := by
    rw [← hx]
    congr 1
    omega
  exact foldl_absorb hadd hadd' hmem (by rw [hval, hmul]) 0

/-- **C84** for line kernels: and to these outputs only. -/
theorem C84_line_confined {k : LineKernel α} {read : Int → Res α} {n : Nat} {a s b t : Int} {x : Int → α}
    {data res : List α} (ho : 0 ≤ k.origin ∧ k.origin < k.values.length) (hK : k.values.length ≤ n) (hn : n < 2 ^ 63)
    (hline : Line read a s n x) (ht : t ≠ 0) (hfit : Fits (full a n s) (full b n t) data)
    (hr : Correlates k read (full a n s) (full b n t) data (.ok res)) {good : α → Prop} (hzero : good 0)
    (hstep : ∀ s v x : α, good s → v ∈ k.values → good x → good (s + v * x)) {i : Nat} (hi : i < n)
    (hx : ∀ m : Nat, m < n → -k.origin ≤ (m : Int) - i → (m : Int) - i < k.values.length - k.origin → good (x m)) :
    ∃ y, res[(b + i * t).toNat]? = some y ∧ good y := by
  refine ⟨_, line_value ho hK hn hline ht hfit hr hi, ?_⟩
  unfold lineFold
  have hl : ∀ j ∈ (List.range k.values.length).filter (fun j : Nat =>
      decide (0 ≤ (i : Int) + j - k.origin ∧ (i : Int) + j - k.origin < n)),
      k.values.getD j 0 ∈ k.values ∧ good (x (i + j - k.origin)) := by
    intro j hj
    obtain ⟨h1, h2⟩ := List.mem_filter.1 hj
    have h1 := List.mem_range.1 h1
    have h2 := of_decide_eq_true h2
    refine ⟨by simp [List.getD_eq_getElem?_getD, h1], ?_⟩
    have := hx (i + j - k.origin).toNat (by omega) (by omega) (by omega)
    rwa [Int.toNat_of_nonneg h2.1] at this
  exact foldl_good (fun s j hj hs => hstep _ _ _ hs (hl j hj).1 (hl j hj).2) hzero

/-- A line with repeated values and a NaN. -/
def exampleX (i : Int) : Saturated :=
  if i = 0 ∨ i = 3 then .num 100 else if i = 1 ∨ i = 4 then .num 101 else if i = 2 ∨ i = 5 then .num (-99) else .nan

def exampleLine : LineKernel Saturated := ⟨[.num 1, .num 1, .num 0], 1⟩

theorem exampleLine_line : Line (readAt ((List.range 8).map fun i : Nat => exampleX i)) 0 1 8 exampleX := by
  intro i h0 h1
  have : i = 0 ∨ i = 1 ∨ i = 2 ∨ i = 3 ∨ i = 4 ∨ i = 5 ∨ i = 6 ∨ i = 7 := by omega
  rcases this with rfl | rfl | rfl | rfl | rfl | rfl | rfl | rfl <;> rfl

theorem exampleLine_fits : Fits (full 0 8 1) (full 0 8 1) (List.replicate 8 (0 : Saturated)) := by
  rw [full_eq (by norm_num) (by norm_num)]
  intro m hm
  simp only [List.length_replicate] at hm ⊢
  omega

/-- The neighborhoods of 1 and 4 are the same, the NaN at 6 spreads to 5 although its weight is zero there, not to 4. -/
example {res : List Saturated}
    (h : Correlates exampleLine (readAt ((List.range 8).map fun i : Nat => exampleX i)) (full 0 8 1) (full 0 8 1)
      (List.replicate 8 0) (.ok res)) :
    (∃ y, res[1]? = some y ∧ res[4]? = some y) ∧ res[5]? = some .nan ∧ ∃ y, res[4]? = some y ∧ y ≠ .nan := by
  have ho : 0 ≤ exampleLine.origin ∧ exampleLine.origin < exampleLine.values.length := by decide
  have hK : exampleLine.values.length ≤ 8 := by decide
  refine ⟨?_, ?_, ?_⟩
  · refine C83_line_shift ho hK (by norm_num) exampleLine_line (by decide) exampleLine_fits h hK (by norm_num)
      exampleLine_line (by decide) exampleLine_fits h (i := 1) (i' := 4) (by decide) (by decide) ?_ ?_
    · intro j hj
      simp only [exampleLine, List.length_cons, List.length_nil] at hj ⊢
      omega
    · intro j hj _ _
      simp only [exampleLine, List.length_cons, List.length_nil] at hj ⊢
      have : j = 0 ∨ j = 1 ∨ j = 2 := by omega
      rcases this with rfl | rfl | rfl <;> rfl
  · exact C84_line_spread ho hK (by norm_num) exampleLine_line (by decide) exampleLine_fits h Saturated.mul_nan
      Saturated.add_nan Saturated.nan_add (i := 5) (m := 6) (by decide) (by decide) (by decide) rfl
  · refine C84_line_confined ho hK (by norm_num) exampleLine_line (by decide) exampleLine_fits h (good := (· ≠ .nan))
      (by decide) (fun s v x g1 g2 g3 => ?_) (i := 4) (by decide) fun m hm h1 h2 => ?_
    · refine Saturated.good_step s v x g1 ?_ g3
      rintro rfl
      revert g2
      decide
    · simp only [exampleLine, List.length_cons, List.length_nil] at h1 h2
      have : m = 3 ∨ m = 4 ∨ m = 5 := by omega
      rcases this with rfl | rfl | rfl <;> decide

end LineKernel

end Litl
