import Verif.Spec.SeparableOrder
import Verif.Props.SeparableKernel
import Verif.Props.KernelOrder

/-!
# Separable correlation in an arithmetic without laws (C83)
-/

namespace Litl

open Spec BoxIterator

namespace SeparableKernel

variable {α : Type}

/-- The kernels of the axes in order, for the specification. -/
def passes (k : SeparableKernel α) : List (Nat × List α × Int) :=
  k.axes.filterMap fun i => (k.kernels.lookup i).map fun κ => (i, κ.values, κ.origin)

variable [Zero α] [Add α] [Mul α]

omit [Add α] [Mul α] in
theorem get_value {r : Raster α} (hd : (r.data.length : Int) = r.shape.prod) {p : Position} (hp : InShape r.shape p) :
    r.get p = .ok (value r.shape r.data p) := by
  have := index_bounds hp
  unfold Raster.get
  rw [readAt_getD (by omega) (by omega)]
  rfl

theorem lineFold_congr {kernel : List α} {origin : Int} {n : Nat} {x y : Int → α} {i : Int}
    (h : ∀ j : Int, 0 ≤ j → j < n → x j = y j) : lineFold kernel origin n x i = lineFold kernel origin n y i := by
  unfold lineFold
  refine Kernel.foldl_congr_left fun s j hj => ?_
  have h2 := of_decide_eq_true (List.mem_filter.1 hj).2
  rw [h _ h2.1 h2.2]

theorem linePass_congr {shape : Position} {κ : Nat × List α × Int} {f g : List Int → α}
    (h : ∀ p, InShape shape p → f p = g p) {p : Position} (hp : InShape shape p) :
    linePass shape κ f p = linePass shape κ g p := by
  unfold linePass
  refine lineFold_congr fun j h0 h1 => h _ (inShape_set hp ⟨h0, by omega⟩)

theorem linePasses_congr {shape : Position} : ∀ {ks : List (Nat × List α × Int)} {f g : List Int → α},
    (∀ p, InShape shape p → f p = g p) → ∀ {p : Position}, InShape shape p → linePasses shape ks f p = linePasses shape ks g p := by
  intro ks
  induction ks with
  | nil => intro f g h p hp; exact h p hp
  | cons κ ks ih =>
    intro f g h p hp
    exact ih (f := linePass shape κ f) (g := linePass shape κ g) (fun q hq => linePass_congr h hq) hp

/-- All the passes, in order. -/
theorem alongSeq_passes {kernels : List (Nat × LineKernel α)} {shape : Position} (hs : Pos shape)
    (hsize : shape.prod < 2 ^ 63) {kernel : Nat → LineKernel α} :
    ∀ {axes : List Nat} {data : List α},
      (∀ i ∈ axes, i < shape.length ∧ mapAt kernels i = .ok (kernel i) ∧ AxisOk (kernel i) (shape.getD i 0)) →
      (data.length : Int) = shape.prod →
      ∃ out : List α, (out.length : Int) = shape.prod ∧
        (∀ r, AlongSeq kernels axes ⟨shape, data⟩ r ↔ r = .ok ⟨shape, out⟩) ∧
        ∀ p, InShape shape p → value shape out p =
          linePasses shape (axes.map fun i => (i, (kernel i).values, (kernel i).origin)) (value shape data) p := by
  have h0 : 0 < shape.prod := by
    have := take_prod_pos hs shape.length
    rwa [List.take_length] at this
  intro axes
  induction axes with
  | nil =>
    intro data _ hd
    exact ⟨data, hd, fun r => ⟨fun h => by cases h; rfl, fun h => h ▸ .done⟩, fun _ _ => rfl⟩
  | cons a axes ih =>
    intro data hax hd
    obtain ⟨ha, hm, hok⟩ := hax a (by simp)
    obtain ⟨⟨sh, tmp⟩, hsh, htl, h1, hv1⟩ := along_spec (input := ⟨shape, data⟩) hs hsize ha hm hok hd
    simp only at hsh htl hv1
    subst hsh
    obtain ⟨out, hol, h2, hv2⟩ := ih (data := tmp) (fun i hi => hax i (by simp [hi])) htl
    have hpr : printed (⟨sh, tmp⟩ : Raster α) (.ok ⟨sh, out⟩) = .ok ⟨sh, out⟩ := by
      unfold printed
      rw [Container.ok_bind]
      simp only
      rw [readAt_getD (by omega) (by omega), Container.ok_bind, readAt_getD (by omega) (by omega), Container.ok_bind]
      rfl
    refine ⟨out, hol, fun r => ⟨fun h => ?_, ?_⟩, fun p hp => ?_⟩
    · cases h with
      | fail h => have := (h1 _).1 h; cases this
      | next h h' =>
        have := (h1 _).1 h
        cases this
        rw [(h2 _).1 h', hpr]
    · rintro rfl
      rw [← hpr]
      exact .next ((h1 _).2 rfl) ((h2 _).2 rfl)
    · rw [hv2 p hp]
      exact linePasses_congr (fun q hq => hv1 q hq) hp

omit [Zero α] [Add α] [Mul α] in
theorem passes_eq {k : SeparableKernel α} {kernel : Nat → LineKernel α}
    (h : ∀ i ∈ k.axes, k.kernels.lookup i = some (kernel i)) :
    passes k = k.axes.map fun i => (i, (kernel i).values, (kernel i).origin) := by
  unfold passes
  rw [← List.filterMap_eq_map]
  refine List.filterMap_congr fun i hi => ?_
  rw [h i hi]
  rfl

/-- **C83** for separable kernels: in any arithmetic, along any axes (distinct or not), the correlation has one outcome, which is
computed axis after axis, as products added one by one to zero in the order of the kernels. -/
theorem C83_separable {k : SeparableKernel α} {input : Raster α} {f : List Int → α}
    (hwf : WellFormed k) (hs : Pos input.shape) (hsize : input.shape.prod < 2 ^ 63)
    (hl : LargeEnough k input.shape) (hd : (input.data.length : Int) = input.shape.prod)
    (hf : ∀ p, InShape input.shape p → input.get p = .ok (f p)) :
    ∃ out : Raster α, out.shape = input.shape ∧ (∀ r, k.Correlates input r ↔ r = .ok out) ∧
      ∀ p, InShape input.shape p → out.get p = .ok (linePasses input.shape (passes k) f p) := by
  let kernel : Nat → LineKernel α := fun i => (k.kernels.lookup i).getD ⟨[], 0⟩
  have hlook : ∀ i ∈ k.axes, k.kernels.lookup i = some (kernel i) := by
    intro i hi
    obtain ⟨κ, hκ⟩ := Option.isSome_iff_exists.1 ((hwf.lookup i).2 hi)
    simp only [kernel, hκ, Option.getD_some]
  obtain ⟨out, ho, h1, h2⟩ := alongSeq_passes (kernels := k.kernels) (kernel := kernel) (axes := k.axes) hs hsize (by
    intro i hi
    have := hl i _ (hlook i hi)
    refine ⟨this.1, ?_, ⟨this.2.1, this.2.2.1, this.2.2.2⟩⟩
    unfold mapAt
    rw [hlook i hi]) hd
  refine ⟨⟨input.shape, out⟩, rfl, h1, fun p hp => ?_⟩
  rw [get_value (r := ⟨input.shape, out⟩) ho hp, h2 p hp, passes_eq hlook]
  congr 1
  refine linePasses_congr (fun q hq => ?_) hp
  have h3 := hf q hq
  rw [get_value hd hq] at h3
  injection h3

/-! ## Shift invariance -/

/-- The offset `k` is in the window: that of the kernel along the axes which have one, zero along the others. -/
def InReach (ks : List (Nat × List α × Int)) (n : Nat) (k : Position) : Prop :=
  k.length = n ∧ ∀ i, i < n → (∀ κ ∈ ks, κ.1 = i → -κ.2.2 ≤ k.getD i 0 ∧ k.getD i 0 < κ.2.1.length - κ.2.2) ∧
    ((∀ κ ∈ ks, κ.1 ≠ i) → k.getD i 0 = 0)

/-- The neighborhoods of `p` in a raster and of `p'` in another one are the same: the same neighbors are in the domains, and they
have the same values. -/
def SameNeighbors (ks : List (Nat × List α × Int)) (s s' : Position) (f f' : List Int → α) (p p' : Position) : Prop :=
  ∀ k, InReach ks s.length k → (InShape s (List.zipWith (· + ·) p k) ↔ InShape s' (List.zipWith (· + ·) p' k)) ∧
    (InShape s (List.zipWith (· + ·) p k) → f (List.zipWith (· + ·) p k) = f' (List.zipWith (· + ·) p' k))

theorem zipWith_set {p k : Position} {i : Nat} {v : Int} (hi : i < p.length) :
    (List.zipWith (· + ·) p k).set i v = List.zipWith (· + ·) p (k.set i (v - p.getD i 0)) := by
  refine List.ext_getElem (by simp) fun j h1 h2 => ?_
  simp only [List.length_set, List.length_zipWith] at h1
  by_cases hj : i = j
  · subst hj
    simp [List.getD_eq_getElem?_getD, hi]
  · rw [List.getElem_set_ne hj, List.getElem_zipWith, List.getElem_zipWith, List.getElem_set_ne hj]

theorem sameNeighbors_pass {κ : Nat × List α × Int} {ks : List (Nat × List α × Int)} {s s' p p' : Position}
    {f f' : List Int → α} (hi : κ.1 < s.length) (hsl : s'.length = s.length) (hp : p.length = s.length)
    (hp' : p'.length = s.length) (hκ : 0 ≤ κ.2.2 ∧ κ.2.2 < κ.2.1.length) (hn : ∀ κ' ∈ ks, κ'.1 ≠ κ.1)
    (h : SameNeighbors (κ :: ks) s s' f f' p p') :
    SameNeighbors ks s s' (linePass s κ f) (linePass s' κ f') p p' := by
  intro k hk
  obtain ⟨hkl, hkb⟩ := hk
  have hk0 : k.getD κ.1 0 = 0 := (hkb κ.1 hi).2 hn
  -- the offsets along the axis
  have hreach : ∀ v : Int, -κ.2.2 ≤ v → v < κ.2.1.length - κ.2.2 → InReach (κ :: ks) s.length (k.set κ.1 v) := by
    intro v h1 h2
    refine ⟨by simp [hkl], fun i hil => ?_⟩
    by_cases hia : κ.1 = i
    · subst hia
      rw [getD_set_self (by omega)]
      refine ⟨fun κ' hκ' he => ?_, fun hno => absurd rfl (hno κ (by simp))⟩
      rcases List.mem_cons.1 hκ' with rfl | hκ'
      · exact ⟨h1, h2⟩
      · exact absurd he (hn κ' hκ')
    · rw [getD_set_ne hia]
      refine ⟨fun κ' hκ' he => ?_, fun hno => (hkb i hil).2 fun κ' hκ' => hno κ' (by simp [hκ'])⟩
      rcases List.mem_cons.1 hκ' with rfl | hκ'
      · exact absurd he hia
      · exact (hkb i hil).1 κ' hκ' he
  have hself : k.set κ.1 0 = k := by rw [← hk0]; exact set_getD_id
  have h00 := h _ (hreach 0 (by omega) (by omega))
  rw [hself] at h00
  refine ⟨h00.1, fun hin => ?_⟩
  have hin' := h00.1.1 hin
  have hg : (List.zipWith (· + ·) p k).getD κ.1 0 = p.getD κ.1 0 := by
    have := getD_add (u := p) (v := k) (i := κ.1) (by omega)
    unfold Position.add at this
    rw [this, hk0, add_zero]
  have hg' : (List.zipWith (· + ·) p' k).getD κ.1 0 = p'.getD κ.1 0 := by
    have := getD_add (u := p') (v := k) (i := κ.1) (by omega)
    unfold Position.add at this
    rw [this, hk0, add_zero]
  have hset : ∀ v : Int, (List.zipWith (· + ·) p k).set κ.1 v = List.zipWith (· + ·) p (k.set κ.1 (v - p.getD κ.1 0)) :=
    fun v => zipWith_set (by omega)
  have hset' : ∀ v : Int, (List.zipWith (· + ·) p' k).set κ.1 v =
      List.zipWith (· + ·) p' (k.set κ.1 (v - p'.getD κ.1 0)) := fun v => zipWith_set (by omega)
  -- a neighbor along the axis is in the domain iff its coordinate is
  have hiff : ∀ (t q : Position), κ.1 < t.length → InShape t q → ∀ v : Int,
      (InShape t (q.set κ.1 v) ↔ 0 ≤ v ∧ v < (t.getD κ.1 0).toNat) := by
    intro t q ht hq v
    constructor
    · intro hv
      have := inShape_getD hv ht
      rw [getD_set_self (by rw [hq.length_eq]; exact ht)] at this
      omega
    · intro hv
      exact inShape_set hq ⟨hv.1, by omega⟩
  unfold linePass lineFold
  rw [hg, hg']
  have hmem : ∀ j : Nat, j < κ.2.1.length →
      ((0 ≤ p.getD κ.1 0 + j - κ.2.2 ∧ p.getD κ.1 0 + j - κ.2.2 < (s.getD κ.1 0).toNat) ↔
        (0 ≤ p'.getD κ.1 0 + j - κ.2.2 ∧ p'.getD κ.1 0 + j - κ.2.2 < (s'.getD κ.1 0).toNat)) ∧
      ((0 ≤ p.getD κ.1 0 + j - κ.2.2 ∧ p.getD κ.1 0 + j - κ.2.2 < (s.getD κ.1 0).toNat) →
        f ((List.zipWith (· + ·) p k).set κ.1 (p.getD κ.1 0 + j - κ.2.2)) =
          f' ((List.zipWith (· + ·) p' k).set κ.1 (p'.getD κ.1 0 + j - κ.2.2))) := by
    intro j hj
    have hj' := h _ (hreach (j - κ.2.2) (by omega) (by omega))
    have e1 := hset (p.getD κ.1 0 + j - κ.2.2)
    have e2 := hset' (p'.getD κ.1 0 + j - κ.2.2)
    rw [show p.getD κ.1 0 + j - κ.2.2 - p.getD κ.1 0 = j - κ.2.2 by ring] at e1
    rw [show p'.getD κ.1 0 + j - κ.2.2 - p'.getD κ.1 0 = j - κ.2.2 by ring] at e2
    rw [← e1, ← e2, hiff s _ hi hin, hiff s' _ (by omega) hin'] at hj'
    exact hj'
  have e : (List.range κ.2.1.length).filter (fun j : Nat =>
        decide (0 ≤ p.getD κ.1 0 + j - κ.2.2 ∧ p.getD κ.1 0 + j - κ.2.2 < (s.getD κ.1 0).toNat)) =
      (List.range κ.2.1.length).filter (fun j : Nat =>
        decide (0 ≤ p'.getD κ.1 0 + j - κ.2.2 ∧ p'.getD κ.1 0 + j - κ.2.2 < (s'.getD κ.1 0).toNat)) := by
    refine List.filter_congr fun j hj => ?_
    simp only [(hmem j (by simpa using hj)).1]
  rw [← e]
  refine Kernel.foldl_congr_left fun z j hj => ?_
  obtain ⟨g1, g2⟩ := List.mem_filter.1 hj
  dsimp only
  rw [(hmem j (by simpa using g1)).2 (of_decide_eq_true g2)]

theorem sameNeighbors_passes {s s' p p' : Position} (hsl : s'.length = s.length) (hp : p.length = s.length)
    (hp' : p'.length = s.length) : ∀ {ks : List (Nat × List α × Int)} {f f' : List Int → α},
    (ks.map fun κ => κ.1).Nodup → (∀ κ ∈ ks, κ.1 < s.length ∧ 0 ≤ κ.2.2 ∧ κ.2.2 < κ.2.1.length) →
    SameNeighbors ks s s' f f' p p' → InShape s p → linePasses s ks f p = linePasses s' ks f' p' := by
  intro ks
  induction ks with
  | nil =>
    intro f f' _ _ h hin
    have hz : ∀ q : Position, q.length = s.length → List.zipWith (· + ·) q (List.replicate s.length (0 : Int)) = q := by
      intro q hq
      refine List.ext_getElem (by simp [hq]) fun i h1 h2 => ?_
      simp
    have := h (List.replicate s.length 0) ⟨by simp, fun i hi => ⟨fun κ hκ => absurd hκ (by simp), fun _ => by
      simp [List.getD_eq_getElem?_getD, hi]⟩⟩
    rw [hz p hp, hz p' hp'] at this
    exact this.2 hin
  | cons κ ks ih =>
    intro f f' hnd hks h hin
    rw [List.map_cons, List.nodup_cons] at hnd
    have hκ := hks κ (by simp)
    refine ih (f := linePass s κ f) (f' := linePass s' κ f') hnd.2 (fun κ' h' => hks κ' (by simp [h'])) ?_ hin
    exact sameNeighbors_pass hκ.1 hsl hp hp' hκ.2 (fun κ' h' he => hnd.1 (he ▸ List.mem_map.2 ⟨κ', h', rfl⟩)) h

omit [Zero α] [Add α] [Mul α] in
theorem mem_passes {k : SeparableKernel α} {κ : Nat × List α × Int} (h : κ ∈ passes k) :
    ∃ κ', k.kernels.lookup κ.1 = some κ' ∧ κ.2 = (κ'.values, κ'.origin) := by
  obtain ⟨i, _, hi⟩ := List.mem_filterMap.1 h
  cases hk : k.kernels.lookup i with
  | none => rw [hk] at hi; cases hi
  | some κ' =>
    rw [hk] at hi
    simp only [Option.map_some, Option.some.injEq] at hi
    subst hi
    exact ⟨κ', hk, rfl⟩

/-- **C83** for separable kernels along distinct axes, shift invariance: pixels whose neighborhoods are the same in two rasters
are the same bit for bit. -/
theorem C83_separable_shift {k : SeparableKernel α} {input input' out out' : Raster α} {f f' : List Int → α}
    (hwf : WellFormed k) (hnd : k.axes.Nodup) (hs : Pos input.shape) (hsize : input.shape.prod < 2 ^ 63)
    (hl : LargeEnough k input.shape) (hd : (input.data.length : Int) = input.shape.prod)
    (hf : ∀ p, InShape input.shape p → input.get p = .ok (f p)) (hr : k.Correlates input (.ok out))
    (hs' : Pos input'.shape) (hsize' : input'.shape.prod < 2 ^ 63)
    (hl' : LargeEnough k input'.shape) (hd' : (input'.data.length : Int) = input'.shape.prod)
    (hf' : ∀ p, InShape input'.shape p → input'.get p = .ok (f' p)) (hr' : k.Correlates input' (.ok out'))
    (hdim : input'.shape.length = input.shape.length) {p p' : Position} (hp : InShape input.shape p)
    (hp' : InShape input'.shape p') (h : SameNeighbors (passes k) input.shape input'.shape f f' p p') :
    ∃ x, out.get p = .ok x ∧ out'.get p' = .ok x := by
  obtain ⟨o, _, h1, h2⟩ := C83_separable hwf hs hsize hl hd hf
  obtain ⟨o', _, h1', h2'⟩ := C83_separable hwf hs' hsize' hl' hd' hf'
  obtain rfl : out = o := by simpa using (h1 _).1 hr
  obtain rfl : out' = o' := by simpa using (h1' _).1 hr'
  refine ⟨_, h2 p hp, ?_⟩
  rw [h2' p' hp']
  congr 1
  refine (sameNeighbors_passes hdim hp.length_eq (hp'.length_eq.trans hdim) ?_ ?_ h hp).symm
  · have : ∀ l : List Nat, l.Nodup → ((l.filterMap fun i =>
        (k.kernels.lookup i).map fun κ => (i, κ.values, κ.origin)).map fun κ => κ.1).Nodup := by
      intro l
      induction l with
      | nil => intro _; simp
      | cons a l ih =>
        intro hnd
        rw [List.nodup_cons] at hnd
        rw [List.filterMap_cons]
        cases hk : k.kernels.lookup a with
        | none => exact ih hnd.2
        | some κ =>
          simp only [Option.map_some, List.map_cons]
          refine List.nodup_cons.2 ⟨?_, ih hnd.2⟩
          intro hm
          obtain ⟨κ', h3, h4⟩ := List.mem_map.1 hm
          obtain ⟨i, hi, h5⟩ := List.mem_filterMap.1 h3
          cases hk' : k.kernels.lookup i with
          | none => rw [hk'] at h5; cases h5
          | some κ'' =>
            rw [hk'] at h5
            simp only [Option.map_some, Option.some.injEq] at h5
            rw [← h5] at h4
            simp only at h4
            exact hnd.1 (h4 ▸ hi)
    exact this _ hnd
  · intro κ hκ
    obtain ⟨κ', h3, h4⟩ := mem_passes hκ
    have := hl _ _ h3
    rw [h4]
    exact ⟨this.1, this.2.1⟩

/-- Saturated sums of 2 x 2 pixels (the pixel itself, those on the right, below, and both) of the raster of rows `100, 50, -90`,
`-90, 100, 50` and `50, -90, 100`. -/
def exampleSeparable : SeparableKernel Saturated := along ⟨[.num 1, .num 1], 0⟩ [0, 1]

def exampleInput : Raster Saturated :=
  ⟨[3, 3], [.num 100, .num 50, .num (-90), .num (-90), .num 100, .num 50, .num 50, .num (-90), .num 100]⟩

theorem exampleSeparable_ok : WellFormed exampleSeparable ∧ exampleSeparable.axes.Nodup ∧ Pos exampleInput.shape ∧
    exampleInput.shape.prod < 2 ^ 63 ∧ LargeEnough exampleSeparable exampleInput.shape ∧
    (exampleInput.data.length : Int) = exampleInput.shape.prod ∧
    ∀ p, InShape exampleInput.shape p → exampleInput.get p = .ok (value exampleInput.shape exampleInput.data p) := by
  refine ⟨(C49_along _ _).1, by decide, by simp [Pos, exampleInput], by decide, ?_, by decide, fun p hp => get_value (by decide) hp⟩
  intro i κ hκ
  unfold exampleSeparable at hκ
  rw [(C49_along _ _).2] at hκ
  split at hκ
  · case isTrue hi =>
      cases hκ
      simp only [List.mem_cons, List.not_mem_nil, or_false] at hi
      rcases hi with rfl | rfl <;> decide
  · cases hκ

/-- The pixels at (0, 0) and (1, 1) have the same neighbors: they are the same. -/
example {out : Raster Saturated} (h : exampleSeparable.Correlates exampleInput (.ok out)) :
    ∃ x, out.get [0, 0] = .ok x ∧ out.get [1, 1] = .ok x := by
  obtain ⟨h1, h2, h3, h4, h5, h6, h7⟩ := exampleSeparable_ok
  refine C83_separable_shift h1 h2 h3 h4 h5 h6 h7 h h3 h4 h5 h6 h7 h rfl (.cons (by decide) (.cons (by decide) .nil))
    (.cons (by decide) (.cons (by decide) .nil)) fun k hk => ?_
  obtain ⟨hk, hb⟩ := hk
  match k, hk with
  | [x, y], _ =>
    have hx := (hb 0 (by decide)).1 (0, [.num 1, .num 1], 0) (by decide) rfl
    have hy := (hb 1 (by decide)).1 (1, [.num 1, .num 1], 0) (by decide) rfl
    simp only [List.getD_cons_zero, List.getD_cons_succ, List.length_cons, List.length_nil] at hx hy
    have hx : x = 0 ∨ x = 1 := by omega
    have hy : y = 0 ∨ y = 1 := by omega
    rcases hx with rfl | rfl <;> rcases hy with rfl | rfl <;>
      exact ⟨⟨fun _ => .cons (by decide) (.cons (by decide) .nil), fun _ => .cons (by decide) (.cons (by decide) .nil)⟩,
        fun _ => rfl⟩

end SeparableKernel

end Litl
