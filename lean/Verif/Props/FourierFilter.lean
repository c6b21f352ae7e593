import Verif.Spec.FourierFilter
import Verif.Props.Dft
import Verif.Props.Kernel
import Verif.Props.SeparableKernel

/-!
# Filtering in Fourier domain (C105)
-/

namespace Litl

open Spec

/-! ## Lemmas -/

theorem wrapped_inShape : ∀ {n p : List Int}, Pos n → p.length = n.length → InShape n (wrapped n p) := by
  intro n
  induction n with
  | nil => intro p _ hp; cases p with | nil => exact .nil | cons => simp at hp
  | cons a n ih =>
    intro p hn hp
    cases p with
    | nil => simp at hp
    | cons x p =>
      have ha : 0 < a := hn a (by simp)
      exact .cons ⟨Int.emod_nonneg _ (by omega), Int.emod_lt_of_pos _ ha⟩
        (ih (fun s hs => hn s (by simp [hs])) (by simpa using hp))

theorem wrapped_of_inShape : ∀ {n p : List Int}, InShape n p → wrapped n p = p := by
  intro n
  induction n with
  | nil => intro p hp; cases hp; rfl
  | cons a n ih =>
    intro p hp
    cases hp with
    | cons hx hp =>
      change _ % _ :: wrapped n _ = _
      rw [ih hp, Int.emod_eq_of_lt hx.1 hx.2]

theorem circular_eq_wrapped_iff : ∀ {n p q k : List Int}, InShape n p → InShape n q → k.length = n.length →
    (wrapped n (k.map fun x => -x) = circular n p q ↔ q = wrapped n (List.zipWith (· + ·) p k)) := by
  intro n
  induction n with
  | nil => intro p q k hp hq hk; cases hp; cases hq; simp [wrapped, circular]
  | cons a n ih =>
    intro p q k hp hq hk
    cases k with
    | nil => simp at hk
    | cons z k =>
      cases hp with
      | cons hx hp =>
        cases hq with
        | cons hy hq =>
          rename_i x p y q
          have ih' := ih hp hq (k := k) (by simpa using hk)
          simp only [wrapped, circular, List.map_cons, List.zipWith_cons_cons, List.cons.injEq] at ih' ⊢
          rw [ih']
          refine and_congr_left fun _ => ?_
          rw [Int.emod_eq_emod_iff_emod_sub_eq_zero, ← Int.dvd_iff_emod_eq_zero]
          constructor
          · intro h
            have h1 : a ∣ (x + z) - y := by
              have := Int.dvd_neg.2 h
              rwa [show -(-z - (x - y)) = x + z - y by ring] at this
            have h2 := (Int.emod_emod_of_dvd (x + z) (dvd_refl a))
            have h3 : (x + z) % a = y % a := (Int.emod_eq_emod_iff_emod_sub_eq_zero).2 (Int.emod_eq_zero_of_dvd h1)
            rw [h3, Int.emod_eq_of_lt hy.1 hy.2]
          · intro h
            have h3 : (x + z) % a = y % a := by rw [Int.emod_eq_of_lt hy.1 hy.2, ← h]
            have h1 := Int.dvd_of_emod_eq_zero ((Int.emod_eq_emod_iff_emod_sub_eq_zero).1 h3)
            have := Int.dvd_neg.2 h1
            rwa [show -(x + z - y) = -z - (x - y) by ring] at this

theorem sum_filter_ite {ι : Type} (l : List ι) (c : ι → Prop) [DecidablePred c] (w : ι → ℂ) :
    ((l.filter fun k => decide (c k)).map w).sum = (l.map fun k => if c k then w k else 0).sum := by
  induction l with
  | nil => rfl
  | cons k l ih =>
    by_cases h : c k
    · simp [h, ih]
    · simp [h, ih]

/-- The circular convolution by a flipped kernel is the correlation. -/
theorem convolution_flipped {n : List Int} {In : List Int → Prop} {w f g F : List Int → ℂ} {W : List (List Int)}
    (hW : W.Nodup) (hIn : ∀ k, k ∈ W ↔ In k) (hlen : ∀ k ∈ W, k.length = n.length) (hn : Pos n)
    (hg : IsFlipped n In w g) {p : List Int} (hp : InShape n p)
    (hF : ∀ k ∈ W, F (List.zipWith (· + ·) p k) = f (wrapped n (List.zipWith (· + ·) p k))) {x : ℂ} :
    x = (W.map fun k => w k * F (List.zipWith (· + ·) p k)).sum ↔ IsConvolution n f g p x := by
  have h1 : ∀ q, InShape n q → f q * g (circular n p q) =
      (W.map fun k => if q = wrapped n (List.zipWith (· + ·) p k) then w k * f q else 0).sum := by
    intro q hq
    rw [hg _ (circular_inShape hp hq)
      (W.filter fun k => decide (wrapped n (k.map fun x => -x) = circular n p q)) (hW.filter _)
      (fun k => by rw [List.mem_filter, hIn, decide_eq_true_eq]), sum_filter_ite, ← List.sum_map_mul_left]
    congr 1
    refine List.map_congr_left fun k hk => ?_
    have e := circular_eq_wrapped_iff hp hq (hlen k hk)
    by_cases h : q = wrapped n (List.zipWith (· + ·) p k)
    · rw [if_pos h, if_pos (e.2 h), mul_comm]
    · rw [if_neg h, if_neg (fun h' => h (e.1 h')), mul_zero]
  have h2 : ((grid n).map fun q => f q * g (circular n p q)).sum =
      (W.map fun k => w k * F (List.zipWith (· + ·) p k)).sum := by
    rw [List.map_congr_left fun q hq => h1 q (mem_grid.1 hq), sum_comm_list]
    congr 1
    refine List.map_congr_left fun k hk => ?_
    have hl : (List.zipWith (· + ·) p k).length = n.length := by simp [hlen k hk, inShape_length hp]
    rw [sum_single (nodup_grid n) (mem_grid.2 (wrapped_inShape hn hl)) fun q => w k * f q, hF k hk]
  constructor
  · intro h l hl hm
    rw [h, ← h2]
    exact ((perm_grid hl hm).map _).sum_eq.symm
  · intro h
    rw [h _ (nodup_grid n) fun q => mem_grid, h2]

/-! ## ND kernels and periodic extrapolation -/

/-- The signal which is stored in a raster. -/
noncomputable def signalOf (r : Raster ℂ) (p : List Int) : ℂ := (r.get p).toOption.getD 0

theorem periodicPosition_eq {n p : List Int} (hn : Pos n) (hp : p.length = n.length) :
    periodicPosition p n = .ok (wrapped n p) := by
  induction n generalizing p with
  | nil => cases p with | nil => rfl | cons => simp at hp
  | cons a n ih =>
    cases p with
    | nil => simp at hp
    | cons x p =>
      obtain ⟨y, g1, g2, g3, g4⟩ := positiveMod_spec (p := x) (hn a (by simp))
      have ih' := ih (fun s hs => hn s (by simp [hs])) (p := p) (by simpa using hp)
      have hy : y = x % a := by rw [← g4, Int.emod_eq_of_lt g2 g3]
      subst hy
      simp [periodicPosition, g1, ih', bind, Except.bind, pure, Except.pure, wrapped]

theorem periodic_signal {r : Raster ℂ} (hn : Pos r.shape) {p : List Int} (hp : p.length = r.shape.length) :
    (periodicAt r p).toOption.getD 0 = signalOf r (wrapped r.shape p) := by
  unfold periodicAt signalOf
  rw [periodicPosition_eq hn hp]
  rfl

theorem isConvolution_unique {n : List Int} {f g : List Int → ℂ} {p : List Int} {x y : ℂ} (hx : IsConvolution n f g p x)
    (hy : IsConvolution n f g p y) : x = y := by
  rw [hx _ (nodup_grid n) fun q => mem_grid, hy _ (nodup_grid n) fun q => mem_grid]

/-- **C105**, correlation: the correlation of a periodic signal is its circular convolution by the flipped kernel. -/
theorem C105_correlation {n front back : List Int} {values : List ℂ} {f g F : List Int → ℂ} (hn : Pos n)
    (hf : front.length = n.length) (hb : back.length = n.length)
    (hF : ∀ p, p.length = n.length → F p = f (wrapped n p))
    (hg : IsFlipped n (InBox front back) (kernelValue values front back) g) {p : List Int} (hp : InShape n p) (x : ℂ) :
    IsCorrelation values front back F p x ↔ IsConvolution n f g p x := by
  have hl : front.length = back.length := by omega
  have hlen : ∀ k ∈ enum front back, k.length = n.length := fun k hk => by
    rw [enum_length_of_mem hl hk, hf]
  rw [← convolution_flipped nodup_enum (fun k => mem_enum hl) hlen hn hg hp
    (fun k hk => hF _ (by simp [hlen k hk, inShape_length hp]))]
  exact ⟨fun h => h _ nodup_enum fun k => mem_enum hl, fun h => Kernel.isCorrelation_enum hl h⟩

/-- **C105**, periodic extrapolation: each pixel which the ND kernel computes correctly is that of the Fourier domain: the
coefficients of the raster are multiplied by those of the flipped kernel, and the product is transformed back and normalized.
The pixels which are computed correctly are given by C45. -/
theorem C105_periodic {t : Transform} {ps : List DftPlan} {m : Memory} {i : DftPlan} {k : Kernel ℂ} {input : Raster ℂ}
    {out o : List ℂ} {g F G : List Int → ℂ} (hs : Session t input.shape ps m) (hi : i ∈ ps) (h : Supported input.shape)
    (hii : i.transform.inverted = true)
    (hk : Kernel.Suitable k input (periodicAt input) (fun q => (periodicAt input q).toOption.getD 0) out)
    (hg : IsFlipped input.shape (InBox k.window.front k.window.back)
      (kernelValue k.values k.window.front k.window.back) g)
    (hre : t.real = true → ∀ j, (signalOf input j).im = 0 ∧ (g j).im = 0)
    (hF : ∀ ν, InShape input.shape ν → IsDft (-1) input.shape (signalOf input) ν (F ν))
    (hG : ∀ ν, InShape input.shape ν → IsDft (-1) input.shape g ν (G ν))
    (hin : ∀ ν, InShape (t.directOutShape input.shape) ν → i.input.get? m ν = some (F ν * G ν)) :
    (∃ m', i.Transforms m (.ok m')) ∧ ∀ r, i.Transforms m r → ∃ m' m'', r = .ok m' ∧ i.normalize m' = .ok m'' ∧
      ∀ p, InShape input.shape p →
        Kernel.Correct k input.shape (fun q => (periodicAt input q).toOption.getD 0) o p →
        ∃ y, i.output.get? m'' p = some y ∧ o[(offset input.shape p).toNat]? = some y := by
  obtain ⟨h1, h2⟩ := C67_convolution hs hi h hii hre hF hG hin
  refine ⟨h1, fun r hr => ?_⟩
  obtain ⟨m', m'', e, hn, ho⟩ := h2 r hr
  refine ⟨m', m'', e, hn, fun p hp ⟨x, hx, hc⟩ => ?_⟩
  obtain ⟨y, hy, hy'⟩ := ho p hp
  have := (C105_correlation h.pos hk.front_length hk.back_length
    (fun q hq => periodic_signal h.pos hq) hg hp x).1 hc
  exact ⟨y, hy, by rw [hx, isConvolution_unique this hy']⟩

/-- **C105** in 1D: all pixels of the correlation with periodic extrapolation are those of the Fourier domain.
Missing: the pixels away from the borders for other dimensions, where the correlation itself is wrong (C45). -/
theorem C105_1d_partial {t : Transform} {ps : List DftPlan} {m : Memory} {i : DftPlan} {k : Kernel ℂ} {input : Raster ℂ}
    {out : List ℂ} {g F G : List Int → ℂ} (hs : Session t input.shape ps m) (hi : i ∈ ps) (h : Supported input.shape)
    (hii : i.transform.inverted = true)
    (hk : Kernel.Suitable k input (periodicAt input) (fun q => (periodicAt input q).toOption.getD 0) out)
    (ho : Kernel.OriginInside k) (hw : Kernel.WindowFits k input.shape) (hd : input.shape.length = 1)
    (hg : IsFlipped input.shape (InBox k.window.front k.window.back)
      (kernelValue k.values k.window.front k.window.back) g)
    (hre : t.real = true → ∀ j, (signalOf input j).im = 0 ∧ (g j).im = 0)
    (hF : ∀ ν, InShape input.shape ν → IsDft (-1) input.shape (signalOf input) ν (F ν))
    (hG : ∀ ν, InShape input.shape ν → IsDft (-1) input.shape g ν (G ν))
    (hin : ∀ ν, InShape (t.directOutShape input.shape) ν → i.input.get? m ν = some (F ν * G ν)) :
    ∃ o, Kernel.Returns k input (periodicAt input) out o ∧
      (∃ m', i.Transforms m (.ok m')) ∧ ∀ r, i.Transforms m r → ∃ m' m'', r = .ok m' ∧ i.normalize m' = .ok m'' ∧
        ∀ p, InShape input.shape p → ∃ y, i.output.get? m'' p = some y ∧ o[(offset input.shape p).toNat]? = some y := by
  obtain ⟨o, h1, _, h3⟩ := Kernel.C45_1d_partial hk ho hw hd
  obtain ⟨h4, h5⟩ := C105_periodic (o := o) hs hi h hii hk hg hre hF hG hin
  refine ⟨o, h1, h4, fun r hr => ?_⟩
  obtain ⟨m', m'', e, hn, h6⟩ := h5 r hr
  exact ⟨m', m'', e, hn, fun p hp => h6 p hp (h3 p hp)⟩

/-- **C105** in any dimension: the pixels close to the borders, i.e. those which need extrapolation, are those of the Fourier
domain.
Missing: the other ones, where the correlation itself is wrong (C45). -/
theorem C105_edges_partial {t : Transform} {ps : List DftPlan} {m : Memory} {i : DftPlan} {k : Kernel ℂ} {input : Raster ℂ}
    {out : List ℂ} {g F G : List Int → ℂ} (hs : Session t input.shape ps m) (hi : i ∈ ps) (h : Supported input.shape)
    (hii : i.transform.inverted = true)
    (hk : Kernel.Suitable k input (periodicAt input) (fun q => (periodicAt input q).toOption.getD 0) out)
    (ho : Kernel.OriginInside k) (hw : Kernel.WindowFits k input.shape)
    (hg : IsFlipped input.shape (InBox k.window.front k.window.back)
      (kernelValue k.values k.window.front k.window.back) g)
    (hre : t.real = true → ∀ j, (signalOf input j).im = 0 ∧ (g j).im = 0)
    (hF : ∀ ν, InShape input.shape ν → IsDft (-1) input.shape (signalOf input) ν (F ν))
    (hG : ∀ ν, InShape input.shape ν → IsDft (-1) input.shape g ν (G ν))
    (hin : ∀ ν, InShape (t.directOutShape input.shape) ν → i.input.get? m ν = some (F ν * G ν)) :
    ∃ o, Kernel.Returns k input (periodicAt input) out o ∧
      (∃ m', i.Transforms m (.ok m')) ∧ ∀ r, i.Transforms m r → ∃ m' m'', r = .ok m' ∧ i.normalize m' = .ok m'' ∧
        ∀ p, InShape input.shape p → ¬ Kernel.Inside k input.shape p →
          ∃ y, i.output.get? m'' p = some y ∧ o[(offset input.shape p).toNat]? = some y := by
  obtain ⟨o, h1, _, h3⟩ := Kernel.C45_edges_partial hk ho hw
  obtain ⟨h4, h5⟩ := C105_periodic (o := o) hs hi h hii hk hg hre hF hG hin
  refine ⟨o, h1, h4, fun r hr => ?_⟩
  obtain ⟨m', m'', e, hn, h6⟩ := h5 r hr
  exact ⟨m', m'', e, hn, fun p hp hni => h6 p hp (h3 p hp hni)⟩

/-- **C105** for 1D and 2D kernels, on rasters of any dimension: all pixels but the row starts are those of the Fourier domain.
Missing: row starts, i.e. the first pixel which does not need extrapolation in each row but the first one, and deeper kernels,
where the correlation itself is wrong (C45). -/
theorem C105_flat_partial {t : Transform} {ps : List DftPlan} {m : Memory} {i : DftPlan} {k : Kernel ℂ} {input : Raster ℂ}
    {out : List ℂ} {g F G : List Int → ℂ} (hs : Session t input.shape ps m) (hi : i ∈ ps) (h : Supported input.shape)
    (hii : i.transform.inverted = true)
    (hk : Kernel.Suitable k input (periodicAt input) (fun q => (periodicAt input q).toOption.getD 0) out)
    (ho : Kernel.OriginInside k) (hw : Kernel.WindowFits k input.shape) (hflat : Kernel.Flat k)
    (hg : IsFlipped input.shape (InBox k.window.front k.window.back)
      (kernelValue k.values k.window.front k.window.back) g)
    (hre : t.real = true → ∀ j, (signalOf input j).im = 0 ∧ (g j).im = 0)
    (hF : ∀ ν, InShape input.shape ν → IsDft (-1) input.shape (signalOf input) ν (F ν))
    (hG : ∀ ν, InShape input.shape ν → IsDft (-1) input.shape g ν (G ν))
    (hin : ∀ ν, InShape (t.directOutShape input.shape) ν → i.input.get? m ν = some (F ν * G ν)) :
    ∃ o, Kernel.Returns k input (periodicAt input) out o ∧
      (∃ m', i.Transforms m (.ok m')) ∧ ∀ r, i.Transforms m r → ∃ m' m'', r = .ok m' ∧ i.normalize m' = .ok m'' ∧
        ∀ p, InShape input.shape p → ¬ (Kernel.Inside k input.shape p ∧ Kernel.RowStart k p) →
          ∃ y, i.output.get? m'' p = some y ∧ o[(offset input.shape p).toNat]? = some y := by
  obtain ⟨o, h1, _, h3⟩ := Kernel.C45_flat_partial hk ho hw hflat
  obtain ⟨h4, h5⟩ := C105_periodic (o := o) hs hi h hii hk hg hre hF hG hin
  refine ⟨o, h1, h4, fun r hr => ?_⟩
  obtain ⟨m', m'', e, hn, h6⟩ := h5 r hr
  exact ⟨m', m'', e, hn, fun p hp hni => h6 p hp (h3 p hp hni)⟩

/-- **C105** for ND kernels, in full: all pixels are those of the Fourier domain. -/
def C105_Statement : Prop :=
  ∀ (t : Transform) (ps : List DftPlan) (m : Memory) (i : DftPlan) (k : Kernel ℂ) (input : Raster ℂ) (out : List ℂ)
    (g F G : List Int → ℂ), Session t input.shape ps m → i ∈ ps → Supported input.shape → i.transform.inverted = true →
    Kernel.Suitable k input (periodicAt input) (fun q => (periodicAt input q).toOption.getD 0) out →
    Kernel.OriginInside k → Kernel.WindowFits k input.shape →
    IsFlipped input.shape (InBox k.window.front k.window.back) (kernelValue k.values k.window.front k.window.back) g →
    (t.real = true → ∀ j, (signalOf input j).im = 0 ∧ (g j).im = 0) →
    (∀ ν, InShape input.shape ν → IsDft (-1) input.shape (signalOf input) ν (F ν)) →
    (∀ ν, InShape input.shape ν → IsDft (-1) input.shape g ν (G ν)) →
    (∀ ν, InShape (t.directOutShape input.shape) ν → i.input.get? m ν = some (F ν * G ν)) →
    ∃ o, Kernel.Correlates k input (periodicAt input) out (.ok o) ∧
      ∀ r, i.Transforms m r → ∃ m' m'', r = .ok m' ∧ i.normalize m' = .ok m'' ∧
        ∀ p, InShape input.shape p → ∃ y, i.output.get? m'' p = some y ∧ o[(offset input.shape p).toNat]? = some y

/-! ## Separable kernels and padding -/

theorem wrapped_padded {inner n lo hi p k : List Int} (hp : InShape inner p) (hn : n.length = inner.length)
    (hk : InBox lo hi k) (hl : lo.length = inner.length)
    (hpad : ∀ j, j < inner.length → inner.getD j 0 ≤ n.getD j 0 ∧ inner.getD j 0 - lo.getD j 0 ≤ n.getD j 0 ∧
      inner.getD j 0 + hi.getD j 0 ≤ n.getD j 0) :
    (InShape inner (List.zipWith (· + ·) p k) → wrapped n (List.zipWith (· + ·) p k) = List.zipWith (· + ·) p k) ∧
    (InShape inner (wrapped n (List.zipWith (· + ·) p k)) → InShape inner (List.zipWith (· + ·) p k)) := by
  obtain ⟨hp1, hp2⟩ := forall₂_iff_getD.1 hp
  obtain ⟨k1, k2⟩ := forall₂_iff_getD.1 hk.1
  obtain ⟨k3, k4⟩ := forall₂_iff_getD.1 hk.2
  constructor
  · intro h
    obtain ⟨h1, h2⟩ := forall₂_iff_getD.1 h
    refine wrapped_of_inShape (forall₂_iff_getD.2 ⟨by omega, fun j hj => ?_⟩)
    have := h2 j hj
    have := hpad j (by omega)
    omega
  · intro h
    obtain ⟨h1, h2⟩ := forall₂_iff_getD.1 h
    refine forall₂_iff_getD.2 ⟨by simp; omega, fun j hj => ?_⟩
    have hj' : j < inner.length := by simp at hj; omega
    have e1 := getD_add (u := p) (v := k) (i := j) (by omega)
    unfold Position.add at e1
    have h3 := h2 j (by omega)
    have e2 : (wrapped n (List.zipWith (· + ·) p k)).getD j 0 = (p.getD j 0 + k.getD j 0) % n.getD j 0 := by
      rw [← e1]
      unfold wrapped
      simp only [List.getD_eq_getElem?_getD, List.getElem?_zipWith]
      rw [List.getElem?_eq_getElem (show j < p.length by omega), List.getElem?_eq_getElem (show j < k.length by omega),
        List.getElem?_eq_getElem (show j < n.length by omega)]
      rfl
    rw [e2] at h3
    rw [e1]
    have h4 := hp2 j (by omega)
    have h5 := k2 j (by omega)
    have h6 := k4 j (by omega)
    have h7 := hpad j hj'
    have hN : 0 < n.getD j 0 := by omega
    rcases lt_or_ge (p.getD j 0 + k.getD j 0) 0 with h8 | h8
    · have : (p.getD j 0 + k.getD j 0) % n.getD j 0 = p.getD j 0 + k.getD j 0 + n.getD j 0 := by
        rw [← Int.add_emod_right, Int.emod_eq_of_lt (by omega) (by omega)]
      omega
    · rw [Int.emod_eq_of_lt h8 (by omega)] at h3
      exact h3

/-- **C105**, padding: the correlation of a raster with zero extrapolation is the circular convolution of the padded raster by
the flipped kernel, provided that there are as many zeros as the radius of the kernel on each side: the larger of the two is
enough. -/
theorem C105_padded {inner n : List Int} {ks : List (List ℂ × Int)} {f g F : List Int → ℂ} (hn : Pos n)
    (hl : n.length = inner.length) (hks : ks.length = inner.length)
    (hpad : ∀ j, j < inner.length → inner.getD j 0 ≤ n.getD j 0 ∧
      inner.getD j 0 - (ks.map fun κ => -κ.2).getD j 0 ≤ n.getD j 0 ∧
      inner.getD j 0 + (ks.map fun κ => (κ.1.length : Int) - 1 - κ.2).getD j 0 ≤ n.getD j 0)
    (hF : ∀ p, ¬ InShape inner p → F p = 0) (hf : IsPadded inner n F f) (hg : IsFlipped n (InWindow ks) (outerProduct ks) g)
    {p : List Int} (hp : InShape inner p) (x : ℂ) :
    IsOuterCorrelation ks F p x ↔ IsConvolution n f g p x := by
  have hlw : (ks.map fun κ => -κ.2).length = (ks.map fun κ => (κ.1.length : Int) - 1 - κ.2).length := by simp
  have hm : ∀ k, k ∈ enum (ks.map fun κ => -κ.2) (ks.map fun κ => (κ.1.length : Int) - 1 - κ.2) ↔ InWindow ks k :=
    fun k => mem_enum hlw
  have hlen : ∀ k ∈ enum (ks.map fun κ => -κ.2) (ks.map fun κ => (κ.1.length : Int) - 1 - κ.2),
      k.length = n.length := fun k hk => by
    rw [enum_length_of_mem hlw hk]; simp; omega
  have hpn : InShape n p := by
    obtain ⟨h1, h2⟩ := forall₂_iff_getD.1 hp
    refine forall₂_iff_getD.2 ⟨by omega, fun j hj => ?_⟩
    have := h2 j hj
    have := hpad j (by omega)
    omega
  rw [← convolution_flipped nodup_enum hm hlen hn hg hpn (F := F) (f := f) ?_]
  · constructor
    · exact fun h => h _ nodup_enum hm
    · intro h l hl' hm'
      rw [h]
      refine (List.Perm.map _ ?_).sum_eq
      rw [List.perm_ext_iff_of_nodup nodup_enum hl']
      exact fun k => by rw [hm, hm']
  · intro k hk
    obtain ⟨h1, h2⟩ := wrapped_padded (n := n) hp hl ((hm k).1 hk) (by simpa using hks) hpad
    have hw : InShape n (wrapped n (List.zipWith (· + ·) p k)) :=
      wrapped_inShape hn (by simp [hlen k hk, inShape_length hpn])
    by_cases hi : InShape inner (List.zipWith (· + ·) p k)
    · rw [h1 hi] at hw ⊢
      exact ((hf _ hw).1 hi).symm
    · rw [hF _ hi, (hf _ hw).2 fun h => hi (h2 h)]

/-- **C105**, separable kernels: after padding, filtering in the Fourier domain gives the same pixels as the separable kernel. -/
theorem C105_separable {t : Transform} {n : Position} {ps : List DftPlan} {m : Memory} {i : DftPlan}
    {k : SeparableKernel ℂ} {input : Raster ℂ} {f g F G : List Int → ℂ} (hs : Session t n ps m) (hi : i ∈ ps)
    (h : Supported n) (hii : i.transform.inverted = true) (hwf : SeparableKernel.WellFormed k) (hnd : k.axes.Nodup)
    (hpos : Pos input.shape) (hsize : input.shape.prod < 2 ^ 63) (hlarge : SeparableKernel.LargeEnough k input.shape)
    (hd : (input.data.length : Int) = input.shape.prod) (hl : n.length = input.shape.length)
    (hle : ∀ j, j < input.shape.length → input.shape.getD j 0 ≤ n.getD j 0)
    (hpad : ∀ j κ, k.kernels.lookup j = some κ → input.shape.getD j 0 + κ.origin ≤ n.getD j 0 ∧
      input.shape.getD j 0 + (κ.values.length - 1 - κ.origin) ≤ n.getD j 0)
    (hf : IsPadded input.shape n (signalOf input) f)
    (hg : IsFlipped n (InWindow (axisKernels n.length (SeparableKernel.kernelAt k)))
      (outerProduct (axisKernels n.length (SeparableKernel.kernelAt k))) g)
    (hre : t.real = true → ∀ j, (f j).im = 0 ∧ (g j).im = 0)
    (hF : ∀ ν, InShape n ν → IsDft (-1) n f ν (F ν)) (hG : ∀ ν, InShape n ν → IsDft (-1) n g ν (G ν))
    (hin : ∀ ν, InShape (t.directOutShape n) ν → i.input.get? m ν = some (F ν * G ν)) :
    ∃ out : Raster ℂ, out.shape = input.shape ∧ (∀ r, k.Correlates input r ↔ r = .ok out) ∧
      (∃ m', i.Transforms m (.ok m')) ∧ ∀ r, i.Transforms m r → ∃ m' m'', r = .ok m' ∧ i.normalize m' = .ok m'' ∧
        ∀ p, InShape input.shape p → ∃ y, i.output.get? m'' p = some y ∧ out.get p = .ok y := by
  classical
  have hext : SeparableKernel.ZeroExtends input
      (fun p => if InShape input.shape p then signalOf input p else 0) := by
    refine ⟨fun p hp => ?_, fun p hp => if_neg hp⟩
    rw [if_pos hp, signalOf, SeparableKernel.get_eq hd hp]
    rfl
  obtain ⟨out, hsh, hc, hv⟩ := SeparableKernel.C49_separable hwf hnd hpos hsize hlarge hd hext
  obtain ⟨h1, h2⟩ := C67_convolution hs hi h hii hre hF hG hin
  refine ⟨out, hsh, hc, h1, fun r hr => ?_⟩
  obtain ⟨m', m'', e, hn, ho⟩ := h2 r hr
  refine ⟨m', m'', e, hn, fun p hp => ?_⟩
  have hpn : InShape n p := by
    obtain ⟨h1, h2⟩ := forall₂_iff_getD.1 hp
    refine forall₂_iff_getD.2 ⟨by omega, fun j hj => ?_⟩
    have := h2 j hj
    have := hle j (by omega)
    omega
  obtain ⟨x, hx, hx'⟩ := hv p hp
  obtain ⟨y, hy, hy'⟩ := ho p hpn
  refine ⟨y, hy, ?_⟩
  rw [hx]
  rw [hl] at hg
  have hradii : ∀ j, j < input.shape.length → input.shape.getD j 0 ≤ n.getD j 0 ∧
      input.shape.getD j 0 -
        ((axisKernels input.shape.length (SeparableKernel.kernelAt k)).map fun κ => -κ.2).getD j 0 ≤ n.getD j 0 ∧
      input.shape.getD j 0 + ((axisKernels input.shape.length (SeparableKernel.kernelAt k)).map fun κ =>
        (κ.1.length : Int) - 1 - κ.2).getD j 0 ≤ n.getD j 0 := by
    intro j hj
    have hget : ∀ (φ : List ℂ × Int → Int), ((axisKernels input.shape.length (SeparableKernel.kernelAt k)).map φ).getD j 0 =
        φ ((SeparableKernel.kernelAt k j).getD ([1], 0)) := by
      intro φ
      unfold axisKernels
      simp [List.getD_eq_getElem?_getD, hj]
    rw [hget, hget]
    have h3 := hle j hj
    unfold SeparableKernel.kernelAt
    cases hlk : k.kernels.lookup j with
    | none => simpa using h3
    | some κ =>
      have := hpad j κ hlk
      simp only [Option.map_some, Option.getD_some]
      omega
  have hpadded : IsPadded input.shape n (fun p => if InShape input.shape p then signalOf input p else 0) f := by
    intro q hq
    refine ⟨fun h => ?_, fun h => (hf q hq).2 h⟩
    dsimp only
    rw [if_pos h]
    exact (hf q hq).1 h
  have key := (C105_padded h.pos hl (by simp [axisKernels]) hradii (fun p hp => if_neg hp) hpadded hg hp x).1 hx'
  rw [isConvolution_unique key hy']

/-! ## Non-vacuity -/

theorem exists_flipped (n : List Int) {In : List Int → Prop} {W : List (List Int)} (hW : W.Nodup) (hIn : ∀ k, k ∈ W ↔ In k)
    (w : List Int → ℂ) : ∃ g, IsFlipped n In w g := by
  refine ⟨fun q => ((W.filter fun k => decide (wrapped n (k.map fun x => -x) = q)).map w).sum, fun q _ l hl hm => ?_⟩
  refine (List.Perm.map _ ?_).sum_eq
  rw [List.perm_ext_iff_of_nodup (hW.filter _) hl]
  intro k
  rw [hm, List.mem_filter, hIn, decide_eq_true_eq]

theorem exists_dft (n : List Int) (f : List Int → ℂ) : ∃ F : List Int → ℂ, ∀ ν, InShape n ν → IsDft (-1) n f ν (F ν) :=
  ⟨fun ν => ((grid n).map fun j => f j * wave (-1) n j ν).sum, fun _ _ => isDft_iff.2 rfl⟩

/-- The input of an inverse plan of length 3 can be filled with any coefficients. -/
theorem example_filled (P : List Int → ℂ) : ∃ i m, Session ⟨false, true⟩ [3] [i] m ∧ Supported [3] ∧
    i.transform.inverted = true ∧
    ∀ ν, InShape ((⟨false, true⟩ : Transform).directOutShape [3]) ν → i.input.get? m ν = some (P ν) := by
  have hsup : Supported [3] := ⟨by simp, by intro s hs; simp at hs; omega, by intro s hs; simp at hs; omega⟩
  obtain ⟨i, m, hc⟩ := constructs_exists ⟨false, true⟩ hsup
  obtain ⟨_, his, _, _, _, _, ⟨v, v1, v2, v3⟩, _⟩ := C52_construct hc
  have ht := (constructs_none hc).1
  have hl : v.length = 3 := by
    have : shapeSize ((⟨false, true⟩ : Transform).inShape [3]) = 3 := by rfl
    omega
  have hf : i.Fills (.complex [P [0], P [1], P [2]]) m (m.set i.input.address (.complex [P [0], P [1], P [2]])) :=
    ⟨v, v1, ⟨v2.symm, hl.symm⟩, rfl⟩
  have his' : i.input.shape = [3] := his
  refine ⟨i, _, (Session.construct hc).fill (by simp) hf, hsup, by rw [ht], fun ν hν => ?_⟩
  have : ν ∈ grid [3] := mem_grid.2 hν
  rw [show grid [3] = [[0], [1], [2]] from rfl] at this
  simp only [List.mem_cons, List.not_mem_nil, or_false] at this
  rcases this with rfl | rfl | rfl <;> simp [DftBuffer.get?, Memory.set, his', Values.get?, index]

/-- The input of an inverse plan of shape (2, 2) can be filled with any coefficients. -/
theorem example_filled_2d (P : List Int → ℂ) : ∃ i m, Session ⟨false, true⟩ [2, 2] [i] m ∧ Supported [2, 2] ∧
    i.transform.inverted = true ∧
    ∀ ν, InShape ((⟨false, true⟩ : Transform).directOutShape [2, 2]) ν → i.input.get? m ν = some (P ν) := by
  have hsup : Supported [2, 2] := ⟨by simp, by intro s hs; simp at hs; omega, by intro s hs; simp at hs; omega⟩
  obtain ⟨i, m, hc⟩ := constructs_exists ⟨false, true⟩ hsup
  obtain ⟨_, his, _, _, _, _, ⟨v, v1, v2, v3⟩, _⟩ := C52_construct hc
  have ht := (constructs_none hc).1
  have hl : v.length = 4 := by
    have : shapeSize ((⟨false, true⟩ : Transform).inShape [2, 2]) = 4 := by rfl
    omega
  have hf : i.Fills (.complex [P [0, 0], P [1, 0], P [0, 1], P [1, 1]]) m
      (m.set i.input.address (.complex [P [0, 0], P [1, 0], P [0, 1], P [1, 1]])) :=
    ⟨v, v1, ⟨v2.symm, hl.symm⟩, rfl⟩
  have his' : i.input.shape = [2, 2] := his
  refine ⟨i, _, (Session.construct hc).fill (by simp) hf, hsup, by rw [ht], fun ν hν => ?_⟩
  have : ν ∈ grid [2, 2] := mem_grid.2 hν
  rw [show grid [2, 2] = [[0, 0], [0, 1], [1, 0], [1, 1]] from rfl] at this
  simp only [List.mem_cons, List.not_mem_nil, or_false] at this
  rcases this with rfl | rfl | rfl | rfl <;> simp [DftBuffer.get?, Memory.set, his', Values.get?, index]

/-- **C105** is violated at the row starts of ND kernels: the raster of shape (2, 2) and the horizontal kernel of length 2. -/
theorem C105_violated : ¬ C105_Statement := by
  intro h
  obtain ⟨g, hg⟩ := exists_flipped [2, 2] (In := InBox [0, 0] [1, 0]) nodup_enum (fun k => mem_enum rfl)
    (kernelValue ([1, 1] : List ℂ) [0, 0] [1, 0])
  obtain ⟨F, hF⟩ := exists_dft [2, 2] (signalOf ⟨[2, 2], [0, 1, 2, 3]⟩)
  obtain ⟨G, hG⟩ := exists_dft [2, 2] g
  obtain ⟨i, m, hs, hsup, hii, hin⟩ := example_filled_2d fun ν => F ν * G ν
  have hS : Kernel.Suitable (α := ℂ) ⟨[1, 1], ⟨[0, 0], [1, 0]⟩⟩ ⟨[2, 2], [0, 1, 2, 3]⟩ (periodicAt ⟨[2, 2], [0, 1, 2, 3]⟩)
      (fun q => (periodicAt (⟨[2, 2], [0, 1, 2, 3]⟩ : Raster ℂ) q).toOption.getD 0) [0, 0, 0, 0] :=
    (Kernel.C45_extrapolation_methods (k := ⟨[1, 1], ⟨[0, 0], [1, 0]⟩⟩) (0 : ℂ) (by simp) (by simp [Pos]) rfl (by simp) rfl
      rfl rfl).2.2
  have hO : Kernel.OriginInside (α := ℂ) ⟨[1, 1], ⟨[0, 0], [1, 0]⟩⟩ := by constructor <;> simp
  have hW : Kernel.WindowFits (α := ℂ) ⟨[1, 1], ⟨[0, 0], [1, 0]⟩⟩ [2, 2] := by
    intro i hi
    match i, hi with
    | 0, _ => decide
    | 1, _ => decide
  have hI : Kernel.Inside (α := ℂ) ⟨[1, 1], ⟨[0, 0], [1, 0]⟩⟩ [2, 2] [-0, 1] :=
    (Kernel.inside_iff (k := ⟨[1, 1], ⟨[0, 0], [1, 0]⟩⟩) (input := (⟨[2, 2], [0, 1, 2, 3]⟩ : Raster ℂ)) (p := [-0, 1]) rfl rfl
      (by simp) rfl).2 ⟨by decide, by decide⟩
  obtain ⟨o, ho, hp⟩ := h _ _ _ _ _ _ _ _ _ _ hs (by simp) hsup hii hS hO hW hg (by simp) hF hG hin
  obtain ⟨o', ho', hx⟩ := Kernel.C45_row_start_2d hS hO hW rfl rfl
  have e : o' = o := by
    have := (ho' _).1 ho
    simpa using this.symm
  subst e
  have h1 := hx 1 hI (by decide)
  obtain ⟨⟨_, ht⟩, hc⟩ := C67_convolution hs (by simp) hsup hii (by simp) hF hG hin
  obtain ⟨m1, m2, e1, hn, hc⟩ := hc _ ht
  obtain ⟨m1', m2', e1', hn', hp⟩ := hp _ ht
  cases e1
  cases e1'
  rw [hn] at hn'
  cases hn'
  obtain ⟨y, hy, hy'⟩ := hp [0, 1] (by simp [InShape])
  obtain ⟨z, hz, hz'⟩ := hc [0, 1] (by simp [InShape])
  rw [hy] at hz
  cases hz
  have h2 := (C105_correlation (n := [2, 2]) (front := [0, 0]) (back := [1, 0]) (values := [1, 1])
    (F := fun q => (periodicAt (⟨[2, 2], [0, 1, 2, 3]⟩ : Raster ℂ) q).toOption.getD 0) hsup.pos rfl rfl
    (fun q hq => periodic_signal (r := ⟨[2, 2], [0, 1, 2, 3]⟩) hsup.pos hq) hg (by simp [InShape]) y).2 hz'
    [[0, 0], [1, 0]] (by decide) (by
      intro p
      rw [← mem_enum (f := [0, 0]) (b := [1, 0]) rfl]
      have : enum [0, 0] [1, 0] = [[0, 0], [1, 0]] := by decide
      rw [this])
  have h3 := h1.symm.trans hy'
  have p0 : periodicPosition [0, 1] [2, 2] = .ok [0, 1] := by decide
  have p1 : periodicPosition [1, 1] [2, 2] = .ok [1, 1] := by decide
  have s0 : offset [2, 1] [0, 0] = 0 := by decide
  have s1 : offset [2, 1] [1, 0] = 1 := by decide
  have g0 : (⟨[2, 2], [0, 1, 2, 3]⟩ : Raster ℂ).get [0, 1] = .ok 2 := by simp [Raster.get, index, readAt]
  have g1 : (⟨[2, 2], [0, 1, 2, 3]⟩ : Raster ℂ).get [1, 1] = .ok 3 := by simp [Raster.get, index, readAt]
  simp [kernelValue, periodicAt, p0, p1, s0, s1, bind, Except.bind, g0, g1, Except.toOption] at h2
  simp [List.range_succ] at h3
  rw [h2] at h3
  norm_num at h3

/-- An asymmetric kernel and a signal of length 3: both ways give the same result. -/
example : ∃ (i : DftPlan) (m m' m'' : Memory) (o : List ℂ),
    Kernel.Returns ⟨[1, 2], ⟨[0], [1]⟩⟩ ⟨[3], [4, 5, 6]⟩ (periodicAt ⟨[3], [4, 5, 6]⟩) [0, 0, 0] o ∧
    i.Transforms m (.ok m') ∧ i.normalize m' = .ok m'' ∧
    ∀ p, InShape [3] p → ∃ y, i.output.get? m'' p = some y ∧ o[(offset [3] p).toNat]? = some y := by
  obtain ⟨g, hg⟩ := exists_flipped [3] (In := InBox [0] [1]) nodup_enum (fun k => mem_enum rfl)
    (kernelValue ([1, 2] : List ℂ) [0] [1])
  obtain ⟨F, hF⟩ := exists_dft [3] (signalOf ⟨[3], [4, 5, 6]⟩)
  obtain ⟨G, hG⟩ := exists_dft [3] g
  obtain ⟨i, m, hs, hsup, hii, hin⟩ := example_filled fun ν => F ν * G ν
  obtain ⟨o, h1, ⟨m', h2⟩, h3⟩ := C105_1d_partial (k := ⟨[1, 2], ⟨[0], [1]⟩⟩) (input := ⟨[3], [4, 5, 6]⟩) (out := [0, 0, 0])
    hs (by simp) hsup hii
    (Kernel.C45_extrapolation_methods (k := ⟨[1, 2], ⟨[0], [1]⟩⟩) (input := ⟨[3], [4, 5, 6]⟩) (out := [0, 0, 0]) (0 : ℂ)
      (by simp) (by simp [Pos]) rfl (by simp) rfl rfl rfl).2.2
    (by constructor <;> simp) (by intro i hi; match i, hi with | 0, _ => decide) rfl hg (by simp) hF hG hin
  obtain ⟨_, m'', e, hn, ho⟩ := h3 _ h2
  cases e
  exact ⟨i, m, m', m'', o, h1, h2, hn, ho⟩

/-- The same with a separable kernel of length 2 and a signal of length 2, which is padded to 3. -/
example : ∃ (i : DftPlan) (m m' m'' : Memory) (out : Raster ℂ),
    (∀ r, (SeparableKernel.along (⟨[1, 2], 0⟩ : LineKernel ℂ) [0]).Correlates ⟨[2], [4, 5]⟩ r ↔ r = .ok out) ∧
    i.Transforms m (.ok m') ∧ i.normalize m' = .ok m'' ∧
    ∀ p, InShape [2] p → ∃ y, i.output.get? m'' p = some y ∧ out.get p = .ok y := by
  classical
  obtain ⟨hwf, hlk⟩ := SeparableKernel.C49_along (⟨[1, 2], 0⟩ : LineKernel ℂ) [0]
  have hlk' : ∀ j κ, (SeparableKernel.along (⟨[1, 2], 0⟩ : LineKernel ℂ) [0]).kernels.lookup j = some κ →
      j = 0 ∧ κ = ⟨[1, 2], 0⟩ := by
    intro j κ hj
    rw [hlk] at hj
    by_cases h0 : j = 0
    · subst h0; simp at hj; exact ⟨rfl, hj.symm⟩
    · simp [h0] at hj
  obtain ⟨g, hg⟩ := exists_flipped [3]
    (In := InWindow (axisKernels 1 (SeparableKernel.kernelAt (SeparableKernel.along (⟨[1, 2], 0⟩ : LineKernel ℂ) [0]))))
    nodup_enum (fun k => mem_enum (by simp))
    (outerProduct (axisKernels 1 (SeparableKernel.kernelAt (SeparableKernel.along (⟨[1, 2], 0⟩ : LineKernel ℂ) [0]))))
  obtain ⟨F, hF⟩ := exists_dft [3] fun p => if InShape [2] p then signalOf ⟨[2], [4, 5]⟩ p else 0
  obtain ⟨G, hG⟩ := exists_dft [3] g
  obtain ⟨i, m, hs, hsup, hii, hin⟩ := example_filled fun ν => F ν * G ν
  obtain ⟨out, _, h1, ⟨m', h2⟩, h3⟩ := C105_separable (k := SeparableKernel.along (⟨[1, 2], 0⟩ : LineKernel ℂ) [0])
    (input := ⟨[2], [4, 5]⟩) hs (by simp) hsup hii hwf (by simp [SeparableKernel.along]) (by simp [Pos]) (by simp)
    (by intro j κ hj; obtain ⟨rfl, rfl⟩ := hlk' j κ hj; simp) (by simp) rfl
    (by intro j hj; match j, hj with | 0, _ => decide)
    (by intro j κ hj; obtain ⟨rfl, rfl⟩ := hlk' j κ hj; simp)
    (by intro q hq; exact ⟨fun h => if_pos h, fun h => if_neg h⟩) hg (by simp) hF hG hin
  obtain ⟨_, m'', e, hn, ho⟩ := h3 _ h2
  cases e
  exact ⟨i, m, m', m'', out, h1, h2, hn, ho⟩

/-- A kernel of radius 1 in two dimensions: the weight of [-1, 1] goes to [1, 2] in a raster of shape [4, 3]. -/
example : wrapped [4, 3] ([-1, 1].map fun x => -x) = [1, 2] := by decide

end Litl
