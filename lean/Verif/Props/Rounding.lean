import Verif.Lemmas.Simulation
import Verif.Model.Rounding
import Verif.Props.Kernel
import Verif.Props.LineKernel
import Mathlib.Algebra.Ring.Prod
import Mathlib.Algebra.BigOperators.Group.List.Basic
import Mathlib.Algebra.Order.BigOperators.Group.List

/-!
# Correlation in floating point arithmetic (C82)
-/

namespace Litl

open Spec

variable {K : Type} [Field K] [LinearOrder K] [IsStrictOrderedRing K]

namespace Spec

/-- `x` is the sum of `n` or less given terms, computed accurately: the error is a fraction of the sum of the absolute values of
the terms (which the unit roundoff and the number of terms determine), plus some small number in case of underflow. -/
def IsAccurate (R : Rounding K) (n : Nat) (terms : List K) (x : K) : Prop :=
  |x - terms.sum| ≤ ((1 + R.u) ^ n - 1) * (terms.map fun t => |t|).sum + n * (1 + R.u) ^ n * R.eta

end Spec

namespace Rounded

variable (R : Rounding K)

/-- The exact arithmetic to be compared with: values, sums of absolute values, and numbers of terms. -/
abbrev Exact (_ : Rounding K) : Type := K × K × ℕ

/-- A value without error. -/
def exact (x : Fl R) : Exact R := (x.val, |x.val|, 1)

/-- The error of a sum of `c` terms whose absolute values sum up to `a`. -/
def bound (c : ℕ) (a : K) : K := ((1 + R.u) ^ c - 1) * a + c * (1 + R.u) ^ c * R.eta

theorem one_le_pow (c : ℕ) : 1 ≤ (1 + R.u) ^ c := one_le_pow₀ (by linarith [R.u_nonneg])

theorem bound_mono {c d : ℕ} {a : K} (ha : 0 ≤ a) (h : c ≤ d) : bound R c a ≤ bound R d a := by
  have h1 : (1 + R.u) ^ c ≤ (1 + R.u) ^ d := pow_le_pow_right₀ (by linarith [R.u_nonneg]) h
  have h2 : (c : K) ≤ d := by exact_mod_cast h
  have h3 := one_le_pow R c
  unfold bound
  refine add_le_add (mul_le_mul_of_nonneg_right (by linarith) ha) (mul_le_mul_of_nonneg_right ?_ R.eta_nonneg)
  exact mul_le_mul h2 h1 (by linarith) (by positivity)

/-- The sum of `c` terms and a rounded product. -/
theorem step_bound {s x a k b : K} {c : ℕ} (hs : R.fl s = s) (hx : |x| ≤ a) (h0 : c = 0 → s = 0 ∧ a = 0)
    (h : |s - x| ≤ bound R c a) :
    |R.fl (s + R.fl (k * b)) - (x + k * b)| ≤ bound R (c + 1) (a + |k| * |b|) := by
  have hu := R.u_nonneg
  have he := R.eta_nonneg
  have hn := R.near (k * b)
  rw [abs_mul] at hn
  have ht : 0 ≤ |k| * |b| := by positivity
  have ha : 0 ≤ a := (abs_nonneg x).trans hx
  rcases Nat.eq_zero_or_pos c with rfl | hc
  · obtain ⟨rfl, rfl⟩ := h0 rfl
    have hx0 : x = 0 := abs_eq_zero.1 (le_antisymm hx (abs_nonneg _))
    subst hx0
    rw [zero_add, R.idem, zero_add]
    unfold bound
    simp only [zero_add, pow_one, Nat.cast_one, one_mul]
    nlinarith
  · have hsum := R.sum s (R.fl (k * b)) hs (R.idem _)
    have h1 : |R.fl (s + R.fl (k * b)) - (x + k * b)| ≤
        |R.fl (s + R.fl (k * b)) - (s + R.fl (k * b))| + (|s - x| + |R.fl (k * b) - k * b|) := by
      have e : R.fl (s + R.fl (k * b)) - (x + k * b) =
          (R.fl (s + R.fl (k * b)) - (s + R.fl (k * b))) + ((s - x) + (R.fl (k * b) - k * b)) := by ring
      rw [e]
      exact (abs_add_le _ _).trans (add_le_add le_rfl (abs_add_le _ _))
    have h2 : |s + R.fl (k * b)| ≤ (a + |k| * |b|) + (|s - x| + |R.fl (k * b) - k * b|) := by
      have e : s + R.fl (k * b) = (x + k * b) + ((s - x) + (R.fl (k * b) - k * b)) := by ring
      rw [e]
      refine (abs_add_le _ _).trans (add_le_add ((abs_add_le _ _).trans ?_) (abs_add_le _ _))
      rw [abs_mul]
      linarith
    set E := |s - x| + |R.fl (k * b) - k * b| with hE
    have h3 : E ≤ bound R c a + (R.u * (|k| * |b|) + R.eta) := add_le_add h hn
    have h4 : |R.fl (s + R.fl (k * b)) - (x + k * b)| ≤ R.u * (a + |k| * |b|) + (1 + R.u) * E := by
      have := mul_le_mul_of_nonneg_left h2 hu
      linarith
    have h5 := mul_le_mul_of_nonneg_left h3 (by linarith : 0 ≤ 1 + R.u)
    have hp : (1 + R.u) ^ 1 ≤ (1 + R.u) ^ c := pow_le_pow_right₀ (by linarith) hc
    rw [pow_one] at hp
    set P := (1 + R.u) ^ c with hP
    have hP1 : 1 ≤ P := one_le_pow R c
    refine h4.trans ?_
    have h6 : bound R (c + 1) (a + |k| * |b|) =
        ((1 + R.u) * P - 1) * (a + |k| * |b|) + (c + 1) * ((1 + R.u) * P) * R.eta := by
      unfold bound
      rw [pow_succ', ← hP]
      push_cast
      ring
    have h7 : bound R c a = (P - 1) * a + c * P * R.eta := rfl
    rw [h6]
    rw [h7] at h5
    have h8 : (1 + R.u) * R.eta ≤ (1 + R.u) * P * R.eta := by
      have := mul_le_mul_of_nonneg_right hP1 he
      nlinarith
    have h9 : (1 + R.u) * ((|k| * |b|)) * (1 + R.u) ≤ (1 + R.u) * P * (|k| * |b|) := by
      have := mul_le_mul_of_nonneg_left hp (mul_nonneg (by linarith : 0 ≤ 1 + R.u) ht)
      linarith
    nlinarith

/-- Rounded computations and exact ones. -/
def arithmetics : Sim.Arithmetics (Fl R) (Exact R) where
  Lk := fun f g => g = exact R f
  Li := fun f g => g = exact R f ∨ (f = 0 ∧ g = 0)
  A := fun f g => R.fl f.val = f.val ∧ |g.1| ≤ g.2.1 ∧ (g.2.2 = 0 → f.val = 0 ∧ g.2.1 = 0) ∧
    |f.val - g.1| ≤ bound R g.2.2 g.2.1
  O := fun f g => |f.val - g.1| ≤ bound R g.2.2 g.2.1
  zero := by
    refine ⟨R.zero, by simp, fun _ => ⟨rfl, rfl⟩, ?_⟩
    simp [bound, Fl.val_zero]
  pad := Or.inr ⟨rfl, rfl⟩
  step := by
    rintro s ⟨x, a, c⟩ k _ b b' ⟨h1, h2, h3, h4⟩ rfl hb
    simp only at h1 h2 h3 h4
    rcases hb with rfl | ⟨rfl, rfl⟩
    · refine ⟨by rw [Fl.val_add, R.idem], ?_, fun h => by simp [exact] at h, ?_⟩
      · simp only [exact, Prod.fst_add, Prod.fst_mul, Prod.snd_add, Prod.snd_mul]
        refine (abs_add_le _ _).trans (add_le_add h2 ?_)
        rw [abs_mul]
      · simp only [exact, Prod.fst_add, Prod.fst_mul, Prod.snd_add, Prod.snd_mul, mul_one]
        exact step_bound R h1 h2 h3 h4
    · have e : (s + k * (0 : Fl R)).val = s.val := by
        rw [Fl.val_add, Fl.val_mul, Fl.val_zero, mul_zero, R.zero, add_zero, h1]
      rw [e, mul_zero, add_zero]
      exact ⟨h1, h2, h3, h4⟩
  out := fun h => h.2.2.2

omit [IsStrictOrderedRing K] in
theorem exact_rel (l : List (Fl R)) : List.Forall₂ (fun f g => g = exact R f) l (l.map (exact R)) := by
  induction l with
  | nil => exact .nil
  | cons x l ih => exact .cons rfl ih

theorem out_rel (l : List (Fl R)) : List.Forall₂ (arithmetics R).O l (l.map (exact R)) := by
  induction l with
  | nil => exact .nil
  | cons x l ih =>
    refine .cons ?_ ih
    simp only [arithmetics, exact, sub_self, abs_zero, bound]
    have h1 := one_le_pow R 1
    have h2 := R.eta_nonneg
    refine add_nonneg (mul_nonneg (by linarith) (abs_nonneg _)) (mul_nonneg (mul_nonneg (by simp) (by linarith)) h2)

theorem res_rel (r : Res (Fl R)) : Sim.RelRes (arithmetics R).Li r (r.map (exact R)) := by
  cases r with
  | ok x => exact .ok (Or.inl rfl)
  | error e => exact .error e

omit [IsStrictOrderedRing K] in
theorem getD_fst (l : List (Fl R)) (i : Nat) : ((l.map (exact R)).getD i 0).1 = (l.map Fl.val).getD i 0 := by
  simp only [List.getD_eq_getElem?_getD, List.getElem?_map]
  cases l[i]? <;> rfl

theorem getD_snd (l : List (Fl R)) (i : Nat) : ((l.map (exact R)).getD i 0).2.1 = |(l.map Fl.val).getD i 0| := by
  simp only [List.getD_eq_getElem?_getD, List.getElem?_map]
  cases l[i]? with
  | none => simp
  | some x => rfl

omit [IsStrictOrderedRing K] in
theorem getD_count (l : List (Fl R)) (i : Nat) : ((l.map (exact R)).getD i 0).2.2 ≤ 1 := by
  simp only [List.getD_eq_getElem?_getD, List.getElem?_map]
  cases l[i]? <;> simp [exact]

omit [IsStrictOrderedRing K] in
theorem sum_fst (l : List (Exact R)) : l.sum.1 = (l.map fun x => x.1).sum := by
  induction l with
  | nil => rfl
  | cons x l ih => simp [ih]

omit [IsStrictOrderedRing K] in
theorem sum_snd (l : List (Exact R)) : l.sum.2.1 = (l.map fun x => x.2.1).sum := by
  induction l with
  | nil => rfl
  | cons x l ih => simp [ih]

omit [IsStrictOrderedRing K] in
theorem sum_count (l : List (Exact R)) (h : ∀ x ∈ l, x.2.2 ≤ 1) : l.sum.2.2 ≤ l.length := by
  induction l with
  | nil => exact le_rfl
  | cons x l ih =>
    have h1 := h x (by simp)
    have h2 := ih fun y hy => h y (by simp [hy])
    simp only [List.sum_cons, Prod.snd_add, List.length_cons]
    omega

/-- From exact sums to accurate ones. -/
theorem accurate_of {ι : Type} {l : List ι} {k x : ι → Exact R} {k' x' : ι → K} {f : Fl R} {n : Nat} (hn : l.length ≤ n)
    (h1 : ∀ i ∈ l, (k i).1 = k' i) (h2 : ∀ i ∈ l, (k i).2.1 = |k' i|) (h3 : ∀ i ∈ l, (k i).2.2 ≤ 1)
    (g1 : ∀ i ∈ l, (x i).1 = x' i) (g2 : ∀ i ∈ l, (x i).2.1 = |x' i|) (g3 : ∀ i ∈ l, (x i).2.2 ≤ 1)
    (h : (arithmetics R).O f (l.map fun i => k i * x i).sum) : IsAccurate R n (l.map fun i => k' i * x' i) f.val := by
  simp only [arithmetics] at h
  have e1 : (l.map fun i => k i * x i).sum.1 = (l.map fun i => k' i * x' i).sum := by
    rw [sum_fst, List.map_map]
    congr 1
    refine List.map_congr_left fun i hi => ?_
    simp [h1 i hi, g1 i hi]
  have e2 : (l.map fun i => k i * x i).sum.2.1 = ((l.map fun i => k' i * x' i).map fun t => |t|).sum := by
    rw [sum_snd, List.map_map, List.map_map]
    congr 1
    refine List.map_congr_left fun i hi => ?_
    simp [h2 i hi, g2 i hi, abs_mul]
  have e3 : (l.map fun i => k i * x i).sum.2.2 ≤ l.length := by
    refine (sum_count R _ ?_).trans (by simp)
    intro y hy
    obtain ⟨i, hi, rfl⟩ := List.mem_map.1 hy
    exact Nat.mul_le_mul (h3 i hi) (g3 i hi)
  rw [e1, e2] at h
  refine h.trans (bound_mono R ?_ (e3.trans hn))
  exact List.sum_nonneg (by
    intro y hy
    obtain ⟨i, _, rfl⟩ := List.mem_map.1 hy
    exact abs_nonneg _)

end Rounded

/-! ## ND kernels -/

namespace Kernel

variable {R : Rounding K}

/-- The pixel at `p` is the correlation, computed accurately. -/
def Accurate (k : Kernel (Fl R)) (shape : Position) (F : Position → Fl R) (o : List (Fl R)) (p : Position) : Prop :=
  ∃ x, o[(offset shape p).toNat]? = some x ∧
    ∀ l : List Position, l.Nodup → (∀ j, j ∈ l ↔ InBox k.window.front k.window.back j) →
      IsAccurate R k.values.length (l.map fun j =>
        kernelValue (k.values.map Fl.val) k.window.front k.window.back j * (F (List.zipWith (· + ·) p j)).val) x.val

/-- **C82** for ND kernels: in floating point arithmetic, the correlation terminates, nothing is accessed out of bounds, and
the output is accurate wherever it is right in exact arithmetic (C45): where extrapolation is needed, and for 1D and 2D kernels,
everywhere but at row starts. -/
theorem C82_kernel {k : Kernel (Fl R)} {input : Raster (Fl R)} {extrapolator : Position → Res (Fl R)}
    {F : Position → Fl R} {out : List (Fl R)} (h : Suitable k input extrapolator F out) (ho : OriginInside k)
    (hw : WindowFits k input.shape) :
    (∃ res, Correlates k input extrapolator out res) ∧
    ∀ res, Correlates k input extrapolator out res → ∃ o, res = .ok o ∧ o.length = out.length ∧
      ∀ p, InShape input.shape p → (Inside k input.shape p → Flat k ∧ ¬ RowStart k p) →
        Accurate k input.shape F o p := by
  set k' : Kernel (Rounded.Exact R) := ⟨k.values.map (Rounded.exact R), k.window⟩ with hk'
  set input' : Raster (Rounded.Exact R) := ⟨input.shape, input.data.map (Rounded.exact R)⟩ with hi'
  have hS : Suitable k' input' (fun p => (extrapolator p).map (Rounded.exact R)) (fun p => Rounded.exact R (F p))
      (out.map (Rounded.exact R)) :=
    ⟨h.dim, h.pos, h.front_length, h.back_length, h.nonempty, by simp [hk', h.values], by simp [hi', h.data],
      by simp [hi', h.out], fun q hq => by
        have h1 := h.inside q hq
        rw [Raster.get, readAt_eq_ok] at h1
        rw [Raster.get, readAt_eq_ok]
        exact ⟨h1.1, by simp [hi', h1.2]⟩, fun q hq => by simp only [h.extrapolated q hq]; rfl⟩
  have ho' : OriginInside k' := ho
  have hw' : WindowFits k' input'.shape := hw
  have hkk : Sim.SameKernel (Rounded.arithmetics R) k k' := ⟨Rounded.exact_rel R _, rfl⟩
  have hii : Sim.SameRaster (Rounded.arithmetics R) input input' := ⟨rfl, by
    exact (Rounded.exact_rel R _).imp fun _ _ h => Or.inl h⟩
  have hee := fun p => Rounded.res_rel R (extrapolator p)
  obtain ⟨o', h1, h2, h3⟩ := C45_edges_partial hS ho' hw'
  constructor
  · have hc := (h1 _).2 rfl
    obtain ⟨res, h4, _⟩ := Sim.kernel_correlates (Rounded.arithmetics R).flip (k := k') (k' := k)
      ⟨List.forall₂_iff_get.2 ⟨by simp [hk'], fun i h1 h2 => by simp [hk', Rounded.arithmetics, Sim.Arithmetics.flip]⟩, rfl⟩
      (r' := input) ⟨rfl, List.forall₂_iff_get.2 ⟨by simp [hi'], fun i h1 h2 => Or.inl (by simp [hi'])⟩⟩
      (e' := extrapolator) (fun p => (hee p).flip) (o' := out) (Rounded.out_rel R out).flip hc
    exact ⟨res, h4⟩
  · intro res hres
    obtain ⟨res', h4, h5⟩ := Sim.kernel_correlates (Rounded.arithmetics R) hkk hii hee (Rounded.out_rel R out) hres
    have h6 := (h1 _).1 h4
    subst h6
    cases h5 with
    | @ok o _ h5 =>
      refine ⟨o, rfl, by rw [h5.length_eq, h2]; simp, fun p hp hcase => ?_⟩
      have hright : Correct k' input'.shape (fun p => Rounded.exact R (F p)) o' p := by
        by_cases hin : Inside k input.shape p
        · obtain ⟨hflat, hrow⟩ := hcase hin
          obtain ⟨o'', g1, _, g3⟩ := C45_flat_partial hS ho' hw' hflat
          have : o'' = o' := by
            have := (h1 _).1 ((g1 _).2 rfl)
            simpa using this
          subst this
          exact g3 p hp fun h => hrow h.2
        · exact h3 p hp hin
      obtain ⟨x', hx', hcorr⟩ := hright
      rcases Sim.getElem?_rel h5 (offset input.shape p).toNat with ⟨x, y, e1, e2, e3⟩ | ⟨_, e2⟩
      · refine ⟨x, e1, fun l hn hm => ?_⟩
        have hy : y = x' := by
          rw [show input'.shape = input.shape from rfl, e2] at hx'
          simpa using hx'
        subst hy
        have hc := hcorr l hn hm
        rw [hc] at e3
        have hlen : l.length = k.values.length := by
          have hle := h.nonempty
          have hperm : l.Perm (enum k.window.front k.window.back) :=
            (List.perm_ext_iff_of_nodup hn nodup_enum).2 fun j => by rw [hm, mem_enum hle.length_eq]
          have h7 := length_enum hle
          have h8 := h.values
          rw [hperm.length_eq]
          have h9 : pixelCount k.window.shape = ((k.window.back.sub k.window.front).addScalar 1).prod := by
            rfl
          omega
        refine Rounded.accurate_of R hlen.le (fun j _ => ?_) (fun j _ => ?_) (fun j _ => ?_) (fun j _ => rfl) (fun j _ => rfl)
          (fun j _ => le_rfl) e3
        · exact Rounded.getD_fst R _ _
        · exact Rounded.getD_snd R _ _
        · exact Rounded.getD_count R _ _
      · rw [show input'.shape = input.shape from rfl, e2] at hx'
        cases hx'

/-- **C82** for 1D rasters: the output is accurate everywhere. -/
theorem C82_1d {k : Kernel (Fl R)} {input : Raster (Fl R)} {extrapolator : Position → Res (Fl R)}
    {F : Position → Fl R} {out : List (Fl R)} (h : Suitable k input extrapolator F out) (ho : OriginInside k)
    (hw : WindowFits k input.shape) (hd : input.shape.length = 1) :
    (∃ res, Correlates k input extrapolator out res) ∧
    ∀ res, Correlates k input extrapolator out res → ∃ o, res = .ok o ∧ o.length = out.length ∧
      ∀ p, InShape input.shape p → Accurate k input.shape F o p := by
  have hfl := h.front_length
  have hbl := h.back_length
  obtain ⟨h1, h2⟩ := C82_kernel h ho hw
  refine ⟨h1, fun res hres => ?_⟩
  obtain ⟨o, h3, h4, h5⟩ := h2 res hres
  refine ⟨o, h3, h4, fun p hp => h5 p hp fun _ => ⟨?_, ?_⟩⟩
  · unfold Flat
    rw [List.drop_eq_nil_of_le (by omega), List.drop_eq_nil_of_le (by omega)]
  · rintro ⟨g1, g2⟩
    have hpl := hp.length_eq
    refine g2 ?_
    generalize k.window.front = f at *
    match f, p, hfl, hpl with
    | [f], [p], _, _ => simpa using g1
    | [], _, e, _ => simp at e; omega
    | _ :: _ :: _, _, e, _ => simp at e; omega
    | [_], [], _, e => simp at e; omega
    | [_], _ :: _ :: _, _, e => simp at e; omega

/-- A moving sum of three numbers in `double` precision, with their nearest value extrapolation. -/
example : let R := Binary.rounding 53 (by norm_num) (-1074)
    let F : Position → Fl R := fun q => Fl.of (if q.getD 0 0 ≤ 0 then 1 / 2 else if q.getD 0 0 ≤ 1 then 3 else -7)
    Suitable (⟨[Fl.of 1, Fl.of 1, Fl.of 1], ⟨[-1], [1]⟩⟩ : Kernel (Fl R)) ⟨[3], [F [0], F [1], F [2]]⟩ (fun q => .ok (F q)) F
      [0, 0, 0] ∧
    OriginInside (⟨[Fl.of 1, Fl.of 1, Fl.of 1], ⟨[-1], [1]⟩⟩ : Kernel (Fl R)) ∧
    WindowFits (⟨[Fl.of 1, Fl.of 1, Fl.of 1], ⟨[-1], [1]⟩⟩ : Kernel (Fl R)) [3] := by
  refine ⟨⟨by simp, by simp [Pos], rfl, rfl, by simp, by decide, by decide, by decide, ?_, fun q _ => rfl⟩,
    by simp [OriginInside], ?_⟩
  · intro q hq
    match q, hq with
    | [x], .cons h .nil =>
      have : x = 0 ∨ x = 1 ∨ x = 2 := by omega
      rcases this with rfl | rfl | rfl <;> rfl
  · intro i hi
    simp only [List.length_singleton] at hi
    have : i = 0 := by omega
    subst this
    decide

end Kernel

/-! ## Line kernels -/

namespace LineKernel

variable {R : Rounding K}

/-- **C82** for line kernels: in floating point arithmetic, the correlation of a line terminates without undefined behaviour,
and every output value is the sum of the products of the values of the kernel and of the line, computed accurately. -/
theorem C82_line {k : LineKernel (Fl R)} {read : Int → Res (Fl R)} {n : Nat} {a s b t : Int} {x : Int → Fl R}
    {data : List (Fl R)} (ho : 0 ≤ k.origin ∧ k.origin < k.values.length) (hK : k.values.length ≤ n) (hn : n < 2 ^ 63)
    (hline : Line read a s n x) (ht : t ≠ 0) (hfit : Fits (full a n s) (full b n t) data) :
    (∃ r, Correlates k read (full a n s) (full b n t) data r) ∧
    ∀ r, Correlates k read (full a n s) (full b n t) data r → ∃ res, r = .ok res ∧ res.length = data.length ∧
      ∀ i : Nat, i < n → ∃ y, res[(b + i * t).toNat]? = some y ∧
        IsAccurate R k.values.length ((List.range k.values.length).map fun j : Nat =>
          (k.values.map Fl.val).getD j 0 *
            (if 0 ≤ (i : Int) + j - k.origin ∧ (i : Int) + j - k.origin < n then (x (i + j - k.origin)).val else 0)) y.val := by
  set k' : LineKernel (Rounded.Exact R) := ⟨k.values.map (Rounded.exact R), k.origin⟩ with hk'
  have hkk : Sim.SameLineKernel (Rounded.arithmetics R) k k' := ⟨Rounded.exact_rel R _, rfl⟩
  have hrr := fun p => Rounded.res_rel R (read p)
  have h0 : Correct k' (fun p => (read p).map (Rounded.exact R)) (full a n s) (full b n t) (fun i => Rounded.exact R (x i))
      (data.map (Rounded.exact R)) := by
    refine C46_correlation (by simpa [hk'] using ho) (by simpa [hk'] using hK) hn (fun i h1 h2 => ?_) ht ?_
    · simp only [hline i h1 h2]; rfl
    · intro m hm
      simpa using hfit m hm
  obtain ⟨o', h1, h2⟩ := h0
  constructor
  · have hc := (h2 _).2 rfl
    obtain ⟨res, h4, _⟩ := Sim.line_correlates (Rounded.arithmetics R).flip (k := k') (k' := k)
      ⟨List.forall₂_iff_get.2 ⟨by simp [hk'], fun i h1 h2 => by simp [hk', Rounded.arithmetics, Sim.Arithmetics.flip]⟩, rfl⟩
      (read' := read) (fun p => (hrr p).flip) (o' := data) (Rounded.out_rel R data).flip hc
    exact ⟨res, h4⟩
  · intro r hr
    obtain ⟨res', h4, h5⟩ := Sim.line_correlates (Rounded.arithmetics R) hkk hrr (Rounded.out_rel R data) hr
    have h6 := (h2 _).1 h4
    subst h6
    cases h5 with
    | @ok o _ h5 =>
      refine ⟨o, rfl, by rw [h5.length_eq, h1.1]; simp, fun i hi => ?_⟩
      have h7 := h1.2.1 i
      rw [full_eq (by omega) hn, full_eq (by omega) hn] at h7
      simp only [zero_add, one_mul] at h7
      have h8 := h7 (by omega)
      rcases Sim.getElem?_rel h5 (b + i * t).toNat with ⟨y, y', e1, e2, e3⟩ | ⟨_, e2⟩
      · refine ⟨y, e1, ?_⟩
        have hy : y' = _ := Option.some.inj (e2.symm.trans h8)
        subst hy
        have e : lineCorrelation k'.values k'.origin n (fun i => Rounded.exact R (x i)) i =
            ((List.range k.values.length).map fun j : Nat => (k.values.map (Rounded.exact R)).getD j 0 *
              (if 0 ≤ (i : Int) + j - k.origin ∧ (i : Int) + j - k.origin < n then
                Rounded.exact R (x (i + j - k.origin)) else 0)).sum := by
          unfold lineCorrelation
          rw [hk']
          simp only [List.length_map, mul_ite, mul_zero]
        rw [e] at e3
        refine Rounded.accurate_of R (by simp) (fun j _ => Rounded.getD_fst R _ _) (fun j _ => Rounded.getD_snd R _ _)
          (fun j _ => Rounded.getD_count R _ _) (fun j _ => ?_) (fun j _ => ?_) (fun j _ => ?_) e3
        · split <;> rfl
        · split
          · rfl
          · simp
        · split
          · exact le_rfl
          · simp
      · rw [e2] at h8
        cases h8

/-- The sum of `2^(p+1)`, 1 and `-2^(p+1)`. -/
example : let R := Binary.rounding 24 (by norm_num) (-149)
    let x : Int → Fl R := fun i => Fl.of (if i = 0 then 2 ^ 25 else if i = 1 then 1 else -2 ^ 25)
    Line (readAt [x 0, x 1, x 2]) 0 1 3 x ∧ Fits (full 0 3 1) (full 0 3 1) [x 0, x 0, x 0] := by
  refine ⟨?_, ?_⟩
  · intro i h1 h2
    have : i = 0 ∨ i = 1 ∨ i = 2 := by omega
    rcases this with rfl | rfl | rfl <;> rfl
  · rw [full_eq (by norm_num) (by norm_num)]
    intro m hm
    simp only [List.length_cons, List.length_nil] at hm ⊢
    omega

theorem log_succ (p : Nat) : Int.log 2 |(2 : ℚ) ^ (p + 1) + 1| = p + 1 := by
  have h : |(2 : ℚ) ^ (p + 1) + 1| = ((2 ^ (p + 1) + 1 : ℕ) : ℚ) := by
    rw [abs_of_pos (by positivity)]
    push_cast
    rfl
  have h2 : 1 < 2 ^ (p + 1) := Nat.one_lt_two_pow (by omega)
  have h3 : Nat.log 2 (2 ^ (p + 1) + 1) = p + 1 := (Nat.log_eq_iff (Or.inl (by omega))).2 ⟨by omega, by
    rw [pow_succ 2 (p + 1)]; omega⟩
  rw [h, Int.log_natCast, h3]
  push_cast
  rfl

/-- The bound cannot be relative to the result: on `p` bits, the sum of `2^(p+1)`, 1 and `-2^(p+1)` is 0 instead of 1. -/
theorem C82_cancellation (p : Nat) (hp : 1 ≤ p) {emin : Int} (he : emin ≤ 0) :
    let R := Binary.rounding p hp emin
    let x : List (Fl R) := [Fl.of (2 ^ (p + 1)), Fl.of 1, Fl.of (-2 ^ (p + 1))]
    innerProduct [Fl.of 1, Fl.of 1, Fl.of 1] 0 3 (readAt x) 1 0 = .ok (0 : Fl R) ∧
      lineCorrelation [1, 1, 1] 1 3 (fun i => (x.map Fl.val).getD i.toNat 0) 1 = (1 : ℚ) := by
  intro R x
  have e1 : Binary.fl p emin 1 = 1 := by
    obtain ⟨n, h⟩ := Binary.multiple_of_le (a := 0) (b := Binary.exponent p emin 1) (by
      unfold Binary.exponent
      rw [abs_one, Int.log_one_right]
      omega) 1
    exact Binary.fl_of_dvd (m := n) (by rw [← h]; norm_num)
  have e2 : ∀ y : ℚ, |y| = 2 ^ (p + 1) → (∃ m : Int, y = m * 2 ^ (p + 1)) → Binary.fl p emin y = y := by
    rintro y hy ⟨m, hm⟩
    obtain ⟨n, h⟩ := Binary.multiple_of_le (a := p + 1) (b := Binary.exponent p emin y) (by
      unfold Binary.exponent
      rw [hy, show (2 : ℚ) ^ (p + 1) = ((2 : ℕ) : ℚ) ^ ((p + 1 : ℕ) : ℤ) by rw [zpow_natCast]; norm_num,
        Int.log_zpow (by norm_num)]
      omega) m
    refine Binary.fl_of_dvd (m := n) ?_
    rw [← h, hm]
    congr 1
  have e3 := e2 (2 ^ (p + 1)) (abs_of_pos (by positivity)) ⟨1, by norm_num⟩
  have e4 := e2 (-2 ^ (p + 1)) (by rw [abs_neg]; exact abs_of_pos (by positivity)) ⟨-1, by norm_num⟩
  have e5 : Binary.fl p emin (2 ^ (p + 1) + 1) = 2 ^ (p + 1) := by
    have h : Binary.exponent p emin (2 ^ (p + 1) + 1) = 2 := by
      unfold Binary.exponent
      rw [log_succ]
      omega
    obtain ⟨q, rfl⟩ : ∃ q, p = q + 1 := ⟨p - 1, by omega⟩
    unfold Binary.fl
    rw [h]
    have h2 : ((2 : ℚ) ^ (q + 1 + 1) + 1) / 2 ^ (2 : ℤ) = ((2 ^ q : ℤ) : ℚ) + 1 / 4 := by
      push_cast
      ring
    have h3 : Int.fract (((2 ^ q : ℤ) : ℚ) + 1 / 4) = 1 / 4 := by
      rw [Int.fract_intCast_add, Int.fract_eq_self]; norm_num
    have h4 : ⌊((2 ^ q : ℤ) : ℚ) + 1 / 4⌋ = 2 ^ q := by
      rw [Int.floor_intCast_add]; norm_num
    rw [h2, Binary.roundEven, h3, h4, if_pos (by norm_num)]
    push_cast
    ring
  have e0 := Binary.fl_zero p emin
  constructor
  · have hf : ∀ y z : Fl R, y + z = Fl.of (Binary.fl p emin (y.val + z.val)) := fun _ _ => rfl
    have hm : ∀ y z : Fl R, y * z = Fl.of (Binary.fl p emin (y.val * z.val)) := fun _ _ => rfl
    have hv : ∀ y : ℚ, (Fl.of y : Fl R).val = y := fun _ => rfl
    have h0 : (0 : Fl R) = Fl.of 0 := rfl
    simp [innerProduct, x, List.range_succ, readAt, hf, hm, hv, h0, e0, e1, e3, e4, e5, bind, Except.bind, pure, Except.pure]
  · have hx : x.map Fl.val = [2 ^ (p + 1), 1, -2 ^ (p + 1)] := rfl
    rw [hx]
    simp [lineCorrelation, List.range_succ]

end LineKernel

end Litl
