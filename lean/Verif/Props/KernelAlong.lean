import Verif.Model.KernelAlong
import Verif.Props.SeparableKernel
import Verif.Props.Convolution

/-!
# C120: correlation along an axis by `Kernel1d`
-/

namespace Litl

open Spec SeparableKernel
open Container (ok_bind)

namespace LineKernel

section Any

variable {α : Type} [Zero α] [Add α] [Mul α]

theorem alongLines_iff {kernels : List (Nat × LineKernel α)} {k : LineKernel α} {shape : Position} {axis : Nat} {input : List α}
    (hk : mapAt kernels axis = .ok k) (ps : List Position) (out : List α) (r : Res (List α)) :
    AlongLines k shape axis input ps out r ↔ Lines kernels shape axis input ps out r := by
  constructor
  · intro h
    induction h with
    | done => exact .done
    | fail h => exact .fail hk h
    | next h _ ih => exact .next hk h ih
  · intro h
    induction h with
    | done => exact .done
    | missing h => rw [hk] at h; cases h
    | fail h1 h =>
      rw [hk] at h1
      obtain rfl := Except.ok.inj h1
      exact .fail h
    | next h1 h _ ih =>
      rw [hk] at h1
      obtain rfl := Except.ok.inj h1
      exact .next h ih

/-- **C120**: whatever the kernel, input and axis, `Kernel1d::correlateAlong` has the outcomes, defined or not, of each pass of a
separable kernel which has the same values along this axis. -/
theorem C120_separable {kernels : List (Nat × LineKernel α)} {k : LineKernel α} {axis : Nat}
    (hk : mapAt kernels axis = .ok k) (input : Raster α) (r : Res (Raster α)) :
    k.CorrelatesAlong axis input r ↔ Along kernels axis input r := by
  unfold CorrelatesAlong Along
  cases Raster.ofShape (0 : α) input.shape with
  | error e => exact Iff.rfl
  | ok out => simp only [alongLines_iff hk]

/-- A concrete case of `C120_separable`, with two kernels. -/
example (input : Raster Int) (r : Res (Raster Int)) : (⟨[1, 2, 3], 1⟩ : LineKernel Int).CorrelatesAlong 2 input r ↔
    Along [(0, ⟨[5], 0⟩), (2, ⟨[1, 2, 3], 1⟩)] 2 input r := C120_separable rfl input r

end Any

variable {α : Type} [CommSemiring α]

omit [CommSemiring α] in
theorem along_single (k : LineKernel α) (axis : Nat) : (along k [axis]).kernels = [(axis, k)] := rfl

omit [CommSemiring α] in
theorem mapAt_single (k : LineKernel α) (axis : Nat) : mapAt [(axis, k)] axis = .ok k := by simp [mapAt, List.lookup]

/-- From separable kernels to `Kernel1d`. -/
theorem of_correlates {k : LineKernel α} {axis : Nat} {input out : Raster α}
    (h : ∀ r, (along k [axis]).Correlates input r ↔ r = .ok out) (r : Res (Raster α)) :
    k.CorrelatesAlong axis input r ↔ r = .ok out := by
  rw [C120_separable (mapAt_single k axis)]
  have key : ∀ tmp : Raster α, Along [(axis, k)] axis input (.ok tmp) → tmp = out := by
    intro tmp ht
    have h1 := (h _).1 (AlongSeq.next ht .done)
    unfold printed at h1
    rw [ok_bind] at h1
    cases hx : readAt tmp.data 0 with
    | error e => rw [hx] at h1; cases h1
    | ok x => rw [hx] at h1; exact Except.ok.inj h1
  constructor
  · intro hr
    cases r with
    | error e => exact (h _).1 (AlongSeq.fail hr)
    | ok tmp => rw [key tmp hr]
  · rintro rfl
    have h1 := (h _).2 rfl
    unfold SeparableKernel.Correlates at h1
    rw [along_single, show (along k [axis]).axes = [axis] from rfl] at h1
    generalize hr : (.ok out : Res (Raster α)) = r at h1
    cases h1 with
    | fail => cases hr
    | next ht hd =>
      cases hd
      rw [← hr, ← key _ ht]
      exact ht

omit [CommSemiring α] in
/-- The hypothesis on lengths of C47 and C49, for a single axis: e.g. the kernel is not longer than the raster. -/
theorem large_single {k : LineKernel α} {axis : Nat} {shape : Position} (hax : axis < shape.length)
    (ho : 0 ≤ k.origin ∧ k.origin < k.values.length) (hn : k.values.length < 2 ^ 63)
    (hl : k.values.length - 1 - k.origin + max k.origin 1 ≤ shape.getD axis 0) : LargeEnough (along k [axis]) shape := by
  intro i κ hκ
  rw [along_single] at hκ
  by_cases hi : i = axis
  · subst hi
    simp [List.lookup] at hκ
    subst hκ
    exact ⟨hax, ho, hn, hl⟩
  · have : (i == axis) = false := by simpa using hi
    simp [List.lookup, this] at hκ

/-- **C120**: each pixel is set to the correlation, along the axis only, of the raster with zero extrapolation. -/
theorem C120_value {k : LineKernel α} {axis : Nat} {input : Raster α} {f : List Int → α} (hax : axis < input.shape.length)
    (ho : 0 ≤ k.origin ∧ k.origin < k.values.length) (hn : k.values.length < 2 ^ 63)
    (hl : k.values.length - 1 - k.origin + max k.origin 1 ≤ input.shape.getD axis 0) (hs : Pos input.shape)
    (hsize : input.shape.prod < 2 ^ 63) (hd : (input.data.length : Int) = input.shape.prod) (hf : ZeroExtends input f) :
    ∃ out : Raster α, out.shape = input.shape ∧ (∀ r, k.CorrelatesAlong axis input r ↔ r = .ok out) ∧
      ∀ p, InShape input.shape p → ∃ x, out.get p = .ok x ∧ IsOuterCorrelation
        (axisKernels input.shape.length fun i => if i = axis then some (k.values, k.origin) else none) f p x := by
  obtain ⟨out, h1, h2, h3⟩ := C49_separable (C49_along k [axis]).1 (List.nodup_singleton axis) hs hsize
    (large_single hax ho hn hl) hd hf
  refine ⟨out, h1, of_correlates h2, ?_⟩
  have : kernelAt (along k [axis]) = fun i => if i = axis then some (k.values, k.origin) else none := by
    funext i
    unfold kernelAt
    rw [along_single]
    by_cases hi : i = axis
    · subst hi; simp [List.lookup]
    · have : (i == axis) = false := by simpa using hi
      simp [List.lookup, this, hi]
  rw [← this]
  exact h3

/-- The image as a function of positions. -/
def plane (w h : Int) (data : List α) : List Int → α
  | [x, y] => image w h data x y
  | _ => 0

theorem inShape_two {w h : Int} {p : List Int} : InShape [w, h] p ↔
    ∃ x y, p = [x, y] ∧ (0 ≤ x ∧ x < w) ∧ 0 ≤ y ∧ y < h := by
  unfold InShape
  constructor
  · intro hp
    cases hp with
    | cons h1 hp =>
      cases hp with
      | cons h2 hp =>
        cases hp
        exact ⟨_, _, rfl, h1, h2⟩
  · rintro ⟨x, y, rfl, h1, h2⟩
    exact .cons h1 (.cons h2 .nil)

theorem index_two (w h x y : Int) : index [w, h] [x, y] = x + y * w := by
  simp [index]
  ring

theorem plane_extends {w h : Nat} {data : List α} (hd : data.length = w * h) :
    ZeroExtends ⟨[(w : Int), (h : Int)], data⟩ (plane w h data) := by
  constructor
  · intro p hp
    have h0 := get_eq (r := ⟨[(w : Int), (h : Int)], data⟩) (by simp [hd]) hp
    obtain ⟨x, y, rfl, hx, hy⟩ := inShape_two.1 hp
    rw [h0]
    unfold value plane image
    dsimp only
    rw [if_pos (by omega), index_two]
  · intro p hp
    unfold plane
    split
    · unfold image
      rw [if_neg]
      rintro ⟨a, b, c, d⟩
      exact hp (inShape_two.2 ⟨_, _, rfl, ⟨a, b⟩, c, d⟩)
    · rfl

theorem outer_two {v : List α} {o w h : Int} {data : List α} (x y : Int) :
    outerSum [(v, o), (v, o)] (plane w h data) [x, y] = correlation2d v o (image w h data) x y := by
  simp only [outerSum, correlation2d, plane]
  rw [sum_swap]
  congr 1
  refine List.map_congr_left fun a _ => ?_
  rw [← List.sum_map_mul_left]
  congr 1
  refine List.map_congr_left fun b _ => ?_
  ring

/-- **C120**: correlating along the first axis, then along the second one, or the converse, gives the same image as `correlate2dTo`,
where the width is a value of the type of pixels (see C72). -/
theorem C120_2d {convIn convOut : Int → Int} {k : LineKernel α} {w h : Nat} {input out : List α}
    (ho : 0 ≤ k.origin ∧ k.origin < k.values.length) (hkw : k.values.length ≤ w) (hkh : k.values.length ≤ h)
    (hsize : w * h < 2 ^ 63) (hin : input.length = w * h) (hout : out.length = w * h) (h1 : convIn w = w)
    (h2 : convOut w = w) (h3 : convOut 1 = 1) {a b : Nat} (hab : a = 0 ∧ b = 1 ∨ a = 1 ∧ b = 0) :
    ∃ (mid : Raster α) (res : List α), (∀ r, k.CorrelatesAlong a ⟨[(w : Int), (h : Int)], input⟩ r ↔ r = .ok mid) ∧
      (∀ r, k.CorrelatesAlong b mid r ↔ r = .ok ⟨[(w : Int), (h : Int)], res⟩) ∧
      ∀ r, Convolution.Correlates2d convIn convOut k w h input w h out r ↔ r = .ok res := by
  have hs : Pos [(w : Int), (h : Int)] := by
    intro x hx
    simp only [List.mem_cons, List.not_mem_nil, or_false] at hx
    omega
  have hw : w < 2 ^ 63 := lt_of_le_of_lt (Nat.le_mul_of_pos_right w (by omega)) hsize
  have hp : ([(w : Int), (h : Int)] : List Int).prod = w * h := by simp
  have hp' : (w : Int) * h < 2 ^ 63 := by exact_mod_cast hsize
  have hd : ((input.length : Nat) : Int) = ([(w : Int), (h : Int)] : List Int).prod := by rw [hp, hin]; push_cast; rfl
  have hlarge : ∀ i : Nat, i < 2 → LargeEnough (along k [i]) [(w : Int), (h : Int)] := by
    intro i hi
    refine large_single (by simpa using hi) ho (by omega) ?_
    obtain rfl | rfl : i = 0 ∨ i = 1 := by omega
    · simp only [List.getD_cons_zero]; omega
    · simp only [List.getD_cons_succ, List.getD_cons_zero]; omega
  have ha2 : a < 2 := by omega
  have hb2 : b < 2 := by omega
  have hnd : ((along k [a]).axes ++ (along k [b]).axes).Nodup := by
    rcases hab with ⟨rfl, rfl⟩ | ⟨rfl, rfl⟩ <;> simp [along]
  obtain ⟨mid, o2, m1, m2, m3⟩ := C49_sequence (input := ⟨[(w : Int), (h : Int)], input⟩) (C49_along k [a]).1 (C49_along k [b]).1
    hnd hs (by rw [hp]; exact hp') (hlarge a ha2) (hlarge b hb2) hd (plane_extends hin)
  obtain ⟨hc1, hc2⟩ := C49_combine (C49_along k [a]).1 (C49_along k [b]).1
  have hlook : ∀ i, ((along k [a]).combine (along k [b])).kernels.lookup i = if i < 2 then some k else none := by
    intro i
    rw [hc2, along_single, along_single]
    rcases hab with ⟨rfl, rfl⟩ | ⟨rfl, rfl⟩ <;> rcases i with _ | _ | i <;> simp [List.lookup]
  obtain ⟨⟨sh, o3⟩, e1, e2, e3, e4⟩ := correlates_value (input := ⟨[(w : Int), (h : Int)], input⟩) hc1 hnd hs
    (by rw [hp]; exact hp') (by
      intro i κ hκ
      rw [hlook] at hκ
      split at hκ
      · next hi =>
        obtain rfl := Option.some.inj hκ
        exact hlarge i hi i _ (by simp [along_single])
      · cases hκ) hd (plane_extends hin)
  simp only at e1 e2 e4
  subst e1
  obtain rfl : o2 = ⟨[(w : Int), (h : Int)], o3⟩ := Except.ok.inj ((e3 _).1 ((m3 _).2 rfl))
  obtain ⟨res, r1, r2, r3⟩ := C72_partial (convIn := convIn) (convOut := convOut) (k := k) (out := out) ho hkw hkh hsize hin
    hout h1 h2 h3
  refine ⟨mid, o3, of_correlates m1, of_correlates m2, ?_⟩
  have hax : axisKernels 2 (kernelAt ((along k [a]).combine (along k [b]))) = [(k.values, k.origin), (k.values, k.origin)] := by
    unfold axisKernels kernelAt
    simp [hlook, List.range_succ]
  have : res = o3 := by
    rw [hp] at e2
    refine List.ext_getElem (by rw [r2, hout]; exact_mod_cast e2.symm) fun n hn hn' => ?_
    have hn2 : n < w * h := by rw [r2, hout] at hn; exact hn
    have hw0 : 0 < w := by omega
    have hi : n % w < w := Nat.mod_lt _ hw0
    have hj : n / w < h := Nat.div_lt_of_lt_mul hn2
    have hnm : n % w + w * (n / w) = n := Nat.mod_add_div n w
    have g1 := r3 (n % w) (n / w) hi hj
    rw [hnm, List.getElem?_eq_getElem hn] at g1
    have g2 := e4 [((n % w : Nat) : Int), ((n / w : Nat) : Int)] (inShape_two.2
      ⟨_, _, rfl, ⟨Int.natCast_nonneg _, Int.ofNat_lt.2 hi⟩, Int.natCast_nonneg _, Int.ofNat_lt.2 hj⟩)
    rw [show ([(w : Int), (h : Int)] : List Int).length = 2 from rfl, hax, outer_two] at g2
    rw [Option.some.inj g1, ← g2]
    unfold value
    rw [index_two]
    have : (((n % w : Nat) : Int) + ((n / w : Nat) : Int) * w).toNat = n := by
      have : ((n % w : Nat) : Int) + ((n / w : Nat) : Int) * w = n := by
        rw [mul_comm]; exact_mod_cast hnm
      omega
    rw [this, List.getD_eq_getElem?_getD, List.getElem?_eq_getElem hn']
    rfl
  rw [← this]
  exact r1

/-- Concrete cases: the raster and kernel of `manual_separable_convolve2d_test`, of type `std::int8_t`, and that of C49. -/
example : ∃ (mid : Raster Int) (res : List Int),
    (∀ r, (⟨[1, 1, 1], 1⟩ : LineKernel Int).CorrelatesAlong 0 ⟨[(4 : Nat), (3 : Nat)], List.replicate 12 2⟩ r ↔ r = .ok mid) ∧
    (∀ r, (⟨[1, 1, 1], 1⟩ : LineKernel Int).CorrelatesAlong 1 mid r ↔ r = .ok ⟨[(4 : Nat), (3 : Nat)], res⟩) ∧
    ∀ r, Convolution.Correlates2d (fun n => n.bmod (2 ^ 8)) (fun n => n.bmod (2 ^ 8)) ⟨[1, 1, 1], 1⟩ (4 : Nat) (3 : Nat)
      (List.replicate 12 2) (4 : Nat) (3 : Nat) (List.replicate 12 0) r ↔ r = .ok res :=
  C120_2d (by decide) (by decide) (by decide) (by decide) (by decide) (by decide) (by decide) (by decide) (by decide)
    (.inl ⟨rfl, rfl⟩)

example : ∃ out : Raster Int, out.shape = [3, 4] ∧
    (∀ r, (⟨[1, 2, -1], 1⟩ : LineKernel Int).CorrelatesAlong 1 exampleRaster r ↔ r = .ok out) ∧
    ∀ p, InShape [3, 4] p → ∃ x, out.get p = .ok x ∧
      IsOuterCorrelation [([1], 0), ([1, 2, -1], 1)] exampleExtension p x :=
  C120_value (by decide) (by decide) (by decide) (by decide) (by unfold Pos; decide) (by decide) (by decide) example_extends

end LineKernel

end Litl
