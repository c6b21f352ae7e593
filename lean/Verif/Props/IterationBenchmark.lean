import Verif.Model.IterationBenchmark
import Verif.Lemmas.Arithmetic
import Verif.Lemmas.BoxIter
import Verif.Lemmas.Domain
import Verif.Lemmas.Index
import Mathlib.Algebra.BigOperators.Ring.List

/-!
# C57: all looping strategies are equivalent
-/

namespace Litl.IterationBenchmark

open Spec

variable {α : Type}

/-! ## Specification -/

/-- `r` is the pixel-wise sum of `a` and `b`. -/
def PixelSum (add : α → α → α) (a b r : Raster α) : Prop :=
  r.shape = a.shape ∧ r.data.length = a.data.length ∧
  ∀ p, InShape a.shape p → ∃ x y, a.get p = .ok x ∧ b.get p = .ok y ∧ r.get p = .ok (add x y)

/-- A raster of given shape, with as many values as positions. -/
def HasShape (s : Position) (r : Raster α) : Prop := r.shape = s ∧ (r.data.length : Int) = s.prod

/-- **C57** (as stated in properties.jsonl). -/
def C57_Statement : Prop :=
  ∀ (α : Type) (add : α → α → α) (zero : α) (w h d : Int), NonNeg [w, h, d] →
    ∀ a b c : Raster α, HasShape [w, h, d] a → HasShape [w, h, d] b → HasShape [w, h, d] c →
    ∃ r, PixelSum add a b r ∧ loopOverXyz add w h d a b c = .ok r ∧ loopOverZyx add w h d a b c = .ok r ∧
      IterateOverPositions add a b c r ∧ IterateOverPositionsOptimized add a b c r ∧
      loopOverIndices add a b c = .ok r ∧ iterateOverValues add a b c = .ok r ∧ callOperator add a b = .ok r ∧
      callGenerate add zero a b c = .ok r

/-! ## Lemmas -/

/-- The sum as a raster. -/
def sum (add : α → α → α) (a b : Raster α) : Raster α := ⟨a.shape, List.zipWith add a.data b.data⟩

theorem sum_pixelSum (add : α → α → α) {s : Position} {a b : Raster α} (ha : HasShape s a) (hb : HasShape s b) :
    PixelSum add a b (sum add a b) := by
  obtain ⟨rfl, ha⟩ := ha
  obtain ⟨hs, hb⟩ := hb
  have hl : a.data.length = b.data.length := by omega
  refine ⟨rfl, by simp [sum, hl], fun p hp => ?_⟩
  obtain ⟨h0, h1⟩ := index_bounds hp
  unfold Raster.get
  rw [hs, readAt_ok h0 (by omega), readAt_ok h0 (by omega)]
  refine ⟨_, _, rfl, rfl, ?_⟩
  simp only [sum]
  rw [readAt_ok h0 (by simp; omega)]
  simp

/-- There is only one pixel-wise sum. -/
theorem pixelSum_unique {add : α → α → α} {s : Position} {a b r r' : Raster α} (hs : NonNeg s) (ha : HasShape s a)
    (h : PixelSum add a b r) (h' : PixelSum add a b r') : r = r' := by
  obtain ⟨rfl, ha⟩ := ha
  obtain ⟨h1, h2, h3⟩ := h
  obtain ⟨h1', h2', h3'⟩ := h'
  have : r.data = r'.data := by
    refine List.ext_getElem (by omega) fun k hk hk' => ?_
    obtain ⟨u1, u2⟩ := unravel_spec (s := a.shape) (k := k) hs (by omega) (by omega)
    obtain ⟨x, y, ex, ey, e⟩ := h3 _ u1
    obtain ⟨x', y', ex', ey', e'⟩ := h3' _ u1
    rw [ex] at ex'; rw [ey] at ey'
    cases ex'; cases ey'
    rw [Raster.get, h1, u2, readAt_ok (by omega) (by omega)] at e
    rw [Raster.get, h1', u2, readAt_ok (by omega) (by omega)] at e'
    simp only [Except.ok.injEq, Int.toNat_natCast] at e e'
    rw [e, e']
  cases r; cases r'; simp_all

theorem sumAt_eq {add : α → α → α} {a b c : Raster α} (hb : b.shape = a.shape) (hc : c.shape = a.shape) (p : Position) :
    sumAt add a b c p = sumAtIndex add a b c (index a.shape p) := by
  unfold sumAt sumAtIndex Raster.get Raster.set
  rw [hb, hc]

/-- Summing at some indices. -/
theorem foldlM_sumAtIndex (add : α → α → α) {a b : Raster α} (hl : b.data.length = a.data.length) (ks : List Int)
    (hks : ∀ k ∈ ks, 0 ≤ k ∧ k < a.data.length) (c : Raster α) (hc : c.data.length = a.data.length) :
    ∃ d, ks.foldlM (sumAtIndex add a b) c = .ok d ∧ d.shape = c.shape ∧ ∃ hd : d.data.length = a.data.length,
      ∀ k (hk : k < a.data.length), d.data[k] = if (k : Int) ∈ ks then add a.data[k] b.data[k] else c.data[k] := by
  induction ks generalizing c with
  | nil => exact ⟨c, rfl, rfl, hc, fun k hk => by simp⟩
  | cons i ks ih =>
    obtain ⟨h0, h1⟩ := hks i (by simp)
    have hstep : sumAtIndex add a b c i =
        .ok ⟨c.shape, c.data.set i.toNat (add (a.data[i.toNat]'(by omega)) (b.data[i.toNat]'(by omega)))⟩ := by
      unfold sumAtIndex
      rw [readAt_ok h0 h1, readAt_ok h0 (by omega)]
      simp only [Container.ok_bind]
      rw [writeAt_ok h0 (by omega)]
      rfl
    obtain ⟨d, e, hs, hd, hk⟩ := ih (fun k hk => hks k (by simp [hk]))
      ⟨c.shape, c.data.set i.toNat (add (a.data[i.toNat]'(by omega)) (b.data[i.toNat]'(by omega)))⟩ (by simpa using hc)
    refine ⟨d, ?_, hs, hd, fun k hk' => ?_⟩
    · rw [List.foldlM_cons, hstep]; exact e
    · rw [hk k hk']
      by_cases hm : (k : Int) ∈ ks
      · simp [hm]
      · by_cases hi : (k : Int) = i
        · subst hi; simp [hm]
        · rw [if_neg hm, if_neg (by simp [hm, hi])]
          simp only [List.getElem_set]
          rw [if_neg (by omega)]

/-- Summing at all indices, in any order. -/
theorem foldlM_all (add : α → α → α) {s : Position} {a b c : Raster α} (ha : HasShape s a) (hb : HasShape s b)
    (hc : HasShape s c) (ks : List Int) (hks : ∀ k, k ∈ ks ↔ 0 ≤ k ∧ k < s.prod) :
    ks.foldlM (sumAtIndex add a b) c = .ok (sum add a b) := by
  obtain ⟨hsa, ha⟩ := ha
  obtain ⟨hsb, hb⟩ := hb
  obtain ⟨hsc, hc⟩ := hc
  obtain ⟨d, e, hs, hd, hk⟩ := foldlM_sumAtIndex add (a := a) (b := b) (by omega) ks
    (fun k hk => by rw [hks] at hk; omega) c (by omega)
  rw [e]
  have : d.data = List.zipWith add a.data b.data := by
    refine List.ext_getElem (by simp; omega) fun k h1 h2 => ?_
    rw [hk k (by omega), if_pos ((hks k).2 (by omega))]
    simp
  have hs' : d.shape = a.shape := by rw [hs, hsc, hsa]
  cases d
  simp only [sum] at *
  simp_all

theorem foldlM_positions (add : α → α → α) {s : Position} {a b c : Raster α} (ha : HasShape s a) (hb : HasShape s b)
    (hc : HasShape s c) (ps : List Position) :
    ps.foldlM (sumAt add a b) c = (ps.map (index s)).foldlM (sumAtIndex add a b) c := by
  induction ps generalizing c with
  | nil => rfl
  | cons p ps ih =>
    rw [List.map_cons, List.foldlM_cons, List.foldlM_cons, sumAt_eq (by rw [hb.1, ha.1]) (by rw [hc.1, ha.1]), ha.1]
    cases h : sumAtIndex add a b c (index s p) with
    | error e => rfl
    | ok d =>
      refine ih ?_
      unfold sumAtIndex at h
      rcases readAt_cases a.data (index s p) with ⟨_, e1⟩ | ⟨_, e1⟩
      · rcases readAt_cases b.data (index s p) with ⟨_, e2⟩ | ⟨_, e2⟩
        · rw [e1, e2] at h
          simp only [Container.ok_bind] at h
          unfold writeAt at h
          by_cases h0 : index s p < 0
          · rw [if_pos h0] at h; cases h
          · rw [if_neg h0] at h
            by_cases h1 : (index s p).toNat < c.data.length
            · rw [if_pos h1] at h
              cases h
              exact ⟨hc.1, by simpa using hc.2⟩
            · rw [if_neg h1] at h; cases h
        · rw [e1, e2] at h; cases h
      · rw [e1] at h; cases h

/-- Summing at all positions, in any order. -/
theorem foldlM_all_positions (add : α → α → α) {s : Position} {a b c : Raster α} (hs : NonNeg s) (ha : HasShape s a)
    (hb : HasShape s b) (hc : HasShape s c) (ps : List Position) (hps : ∀ p, p ∈ ps ↔ InShape s p) :
    ps.foldlM (sumAt add a b) c = .ok (sum add a b) := by
  rw [foldlM_positions add ha hb hc]
  refine foldlM_all add ha hb hc _ fun k => ?_
  rw [List.mem_map]
  constructor
  · rintro ⟨p, hp, rfl⟩
    exact index_bounds ((hps p).1 hp)
  · rintro ⟨h0, h1⟩
    obtain ⟨u1, u2⟩ := unravel_spec hs h0 h1
    exact ⟨_, (hps _).2 u1, u2⟩

theorem foldlM_flatMap {β γ δ : Type} (f : δ → γ → Res δ) (g : β → List γ) (l : List β) (c : δ) :
    (l.flatMap g).foldlM f c = l.foldlM (fun c x => (g x).foldlM f c) c := by
  induction l generalizing c with
  | nil => rfl
  | cons x l ih =>
    rw [List.flatMap_cons, List.foldlM_append, List.foldlM_cons]
    congr 1
    funext d
    exact ih d

theorem foldlM_map {β γ δ : Type} (f : δ → γ → Res δ) (g : β → γ) (l : List β) (c : δ) :
    (l.map g).foldlM f c = l.foldlM (fun c x => f c (g x)) c := by
  induction l generalizing c with
  | nil => rfl
  | cons x l ih =>
    rw [List.map_cons, List.foldlM_cons, List.foldlM_cons]
    congr 1
    funext d
    exact ih d

theorem mem_loop {n i : Int} : i ∈ loop n ↔ 0 ≤ i ∧ i < n := by
  unfold loop
  simp only [List.mem_map, List.mem_range]
  constructor
  · rintro ⟨k, hk, rfl⟩; omega
  · intro h; exact ⟨i.toNat, by omega, by omega⟩

theorem inShape_three {w h d : Int} {p : Position} :
    InShape [w, h, d] p ↔ ∃ x y z, p = [x, y, z] ∧ (0 ≤ x ∧ x < w) ∧ (0 ≤ y ∧ y < h) ∧ (0 ≤ z ∧ z < d) := by
  constructor
  · intro hp
    match p, hp with
    | _, .cons hx (.cons hy (.cons hz .nil)) => exact ⟨_, _, _, rfl, hx, hy, hz⟩
  · rintro ⟨x, y, z, rfl, hx, hy, hz⟩
    exact .cons hx (.cons hy (.cons hz .nil))

theorem loopOverXyz_eq (add : α → α → α) {w h d : Int} (hs : NonNeg [w, h, d]) {a b c : Raster α}
    (ha : HasShape [w, h, d] a) (hb : HasShape [w, h, d] b) (hc : HasShape [w, h, d] c) :
    loopOverXyz add w h d a b c = .ok (sum add a b) := by
  rw [← foldlM_all_positions add hs ha hb hc
    ((loop w).flatMap fun x => (loop h).flatMap fun y => (loop d).map fun z => [x, y, z])]
  · unfold loopOverXyz
    simp only [foldlM_flatMap, foldlM_map]
  · intro p
    simp only [inShape_three, List.mem_flatMap, List.mem_map, mem_loop]
    constructor
    · rintro ⟨x, hx, y, hy, z, hz, rfl⟩; exact ⟨x, y, z, rfl, hx, hy, hz⟩
    · rintro ⟨x, y, z, rfl, hx, hy, hz⟩; exact ⟨x, hx, y, hy, z, hz, rfl⟩

theorem loopOverZyx_eq (add : α → α → α) {w h d : Int} (hs : NonNeg [w, h, d]) {a b c : Raster α}
    (ha : HasShape [w, h, d] a) (hb : HasShape [w, h, d] b) (hc : HasShape [w, h, d] c) :
    loopOverZyx add w h d a b c = .ok (sum add a b) := by
  rw [← foldlM_all_positions add hs ha hb hc
    ((loop d).flatMap fun z => (loop h).flatMap fun y => (loop w).map fun x => [x, y, z])]
  · unfold loopOverZyx
    simp only [foldlM_flatMap, foldlM_map]
  · intro p
    simp only [inShape_three, List.mem_flatMap, List.mem_map, mem_loop]
    constructor
    · rintro ⟨z, hz, y, hy, x, hx, rfl⟩; exact ⟨x, y, z, rfl, hx, hy, hz⟩
    · rintro ⟨x, y, z, rfl, hx, hy, hz⟩; exact ⟨z, hz, y, hy, x, hx, rfl⟩

theorem loopOverIndices_eq (add : α → α → α) {s : Position} {a b c : Raster α} (ha : HasShape s a) (hb : HasShape s b)
    (hc : HasShape s c) : loopOverIndices add a b c = .ok (sum add a b) := by
  rw [← foldlM_all add ha hb hc ((List.range c.data.length).map fun k : Nat => (k : Int))]
  · rw [foldlM_map]; rfl
  · intro k
    rw [← hc.2]
    simp only [List.mem_map, List.mem_range]
    constructor
    · rintro ⟨i, hi, rfl⟩; omega
    · intro h; exact ⟨k.toNat, by omega, by omega⟩

theorem visits_domain {s : Position} (hn : s ≠ []) (hs : Pos s) {c : Raster α} (hc : HasShape s c) :
    ∃ l, BoxIterator.Visits c.domain l ∧ ∀ p, p ∈ l ↔ InShape s p := by
  obtain ⟨rfl, _⟩ := hc
  refine ⟨_, BoxIterator.visits_enum ?_ ?_, fun p => ?_⟩
  · simp only [Raster.domain, domainOf_fixed]; simpa using hn
  · simp only [Raster.domain, domainOf_fixed]; exact domain_le hs
  · rw [mem_enum]
    · simp only [Raster.domain, domainOf_fixed]; exact inBox_domain
    · simp [Raster.domain, domainOf_fixed]

theorem iterateOverPositions_iff (add : α → α → α) {s : Position} (hn : s ≠ []) (hs : Pos s) {a b c : Raster α}
    (ha : HasShape s a) (hb : HasShape s b) (hc : HasShape s c) (r : Raster α) :
    IterateOverPositions add a b c r ↔ r = sum add a b := by
  obtain ⟨l, hv, hl⟩ := visits_domain hn hs hc
  have := foldlM_all_positions add (fun x hx => (hs x hx).le) ha hb hc l hl
  constructor
  · rintro ⟨l', hv', h⟩
    rw [LoopTrace.unique hv' hv, this] at h
    exact (Except.ok.inj h).symm
  · rintro rfl; exact ⟨l, hv, this⟩

theorem foldlM_optimized (add : α → α → α) {a b : Raster α} (s : Position) (l : List Position) (c : Raster α)
    (hc : c.shape = s) :
    l.foldlM (fun (d : Raster α) p => sumAtIndex add a b d (index d.shape p)) c =
      (l.map (index s)).foldlM (sumAtIndex add a b) c := by
  induction l generalizing c with
  | nil => rfl
  | cons p l ih =>
    rw [List.map_cons, List.foldlM_cons, List.foldlM_cons, hc]
    cases h : sumAtIndex add a b c (index s p) with
    | error e => rfl
    | ok d =>
      refine ih d ?_
      unfold sumAtIndex at h
      cases h1 : readAt a.data (index s p) with
      | error e => rw [h1] at h; cases h
      | ok x =>
        cases h2 : readAt b.data (index s p) with
        | error e => rw [h1, h2] at h; cases h
        | ok y =>
          rw [h1, h2] at h
          simp only [Container.ok_bind] at h
          cases h3 : writeAt c.data (index s p) (add x y) with
          | error e => rw [h3] at h; cases h
          | ok z => rw [h3] at h; cases h; exact hc

theorem iterateOverPositionsOptimized_iff (add : α → α → α) {s : Position} (hn : s ≠ []) (hs : Pos s) {a b c : Raster α}
    (ha : HasShape s a) (hb : HasShape s b) (hc : HasShape s c) (r : Raster α) :
    IterateOverPositionsOptimized add a b c r ↔ r = sum add a b := by
  rw [← iterateOverPositions_iff add hn hs ha hb hc]
  unfold IterateOverPositionsOptimized IterateOverPositions
  constructor
  · rintro ⟨l, hv, h⟩
    exact ⟨l, hv, by rw [foldlM_positions add ha hb hc, ← foldlM_optimized add s l c hc.1]; exact h⟩
  · rintro ⟨l, hv, h⟩
    exact ⟨l, hv, by rw [foldlM_optimized add s l c hc.1, ← foldlM_positions add ha hb hc]; exact h⟩

theorem iterateOver_eq (add : α → α → α) : ∀ (c a b : List α), a.length = c.length → b.length = c.length →
    iterateOver add a b c = .ok (List.zipWith add a b) := by
  intro c
  induction c with
  | nil => intro a b ha hb; cases a <;> cases b <;> simp_all [iterateOver]
  | cons x c ih =>
    intro a b ha hb
    cases a with
    | nil => simp at ha
    | cons y a =>
      cases b with
      | nil => simp at hb
      | cons z b =>
        simp only [List.length_cons, Nat.add_right_cancel_iff] at ha hb
        rw [iterateOver, ih a b ha hb]; rfl

theorem callGenerate_eq (add : α → α → α) (zero : α) {s : Position} {a b c : Raster α} (ha : HasShape s a)
    (hb : HasShape s b) (hc : HasShape s c) : callGenerate add zero a b c = .ok (sum add a b) := by
  obtain ⟨hsa, ha⟩ := ha
  obtain ⟨hsb, hb⟩ := hb
  obtain ⟨hsc, hc⟩ := hc
  have e1 : a.data.length = c.data.length := by omega
  have e2 : b.data.length = c.data.length := by omega
  unfold callGenerate
  dsimp only
  obtain ⟨m, h1, hl, h2⟩ := Container.generateMem_spec (addArgs add zero) (c.data ++ a.data ++ b.data) () 0
    c.data.length [c.data.length, c.data.length + a.data.length] (by simp)
    (by
      intro k hk
      simp only [List.mem_cons, List.not_mem_nil, or_false] at hk
      simp only [List.length_append, Container.SafeAlias]
      omega)
    (rows := fun i => [a.data.getD i zero, b.data.getD i zero])
    (by
      intro i hi
      rw [Container.readArgs_ok (by simp; omega)]
      simp only [List.pmap, Except.ok.injEq, List.cons.injEq, and_true]
      constructor
      · rw [List.getElem_append_left (by simp; omega), List.getElem_append_right (by omega)]
        simp [List.getD_eq_getElem?_getD, List.getElem?_eq_getElem (show i < a.data.length by omega)]
      · rw [List.getElem_append_right (by simp)]
        simp [List.getD_eq_getElem?_getD, List.getElem?_eq_getElem (show i < b.data.length by omega)])
    (out := fun i => add (a.data.getD i zero) (b.data.getD i zero)) (st := fun _ => ()) rfl
    (fun i hi => rfl)
  rw [h1]
  simp only [Container.ok_bind, sum]
  have : List.take c.data.length m = List.zipWith add a.data b.data := by
    refine List.ext_getElem ?_ fun k hk hk' => ?_
    · rw [List.length_take, hl]; simp; omega
    · simp only [List.length_take] at hk
      rw [List.getElem_take, h2 k (by omega), if_pos (by omega), List.getElem_zipWith]
      simp only [List.length_zipWith] at hk'
      simp [List.getD_eq_getElem?_getD, List.getElem?_eq_getElem (show k < a.data.length by omega),
        List.getElem?_eq_getElem (show k < b.data.length by omega)]
  rw [this, hsa, hsc]
  rfl

/-! ## Theorems -/

/-- **C57** for any number of axes (at least one) of positive length: loops over positions, indices and values, the operator
and `generate()` all terminate and yield the pixel-wise sum, whatever the addition. -/
theorem C57_any_dimension (add : α → α → α) (zero : α) {s : Position} (hn : s ≠ []) (hs : Pos s) {a b c : Raster α}
    (ha : HasShape s a) (hb : HasShape s b) (hc : HasShape s c) :
    ∃ r, PixelSum add a b r ∧ (∀ r', IterateOverPositions add a b c r' ↔ r' = r) ∧
      (∀ r', IterateOverPositionsOptimized add a b c r' ↔ r' = r) ∧
      loopOverIndices add a b c = .ok r ∧ iterateOverValues add a b c = .ok r ∧ callOperator add a b = .ok r ∧
      callGenerate add zero a b c = .ok r := by
  refine ⟨sum add a b, sum_pixelSum add ha hb, iterateOverPositions_iff add hn hs ha hb hc,
    iterateOverPositionsOptimized_iff add hn hs ha hb hc, loopOverIndices_eq add ha hb hc, ?_, ?_,
    callGenerate_eq add zero ha hb hc⟩
  · have h1 := ha.2; have h2 := hb.2; have h3 := hc.2
    unfold iterateOverValues
    rw [iterateOver_eq add _ _ _ (by omega) (by omega), hc.1, ← ha.1]
    rfl
  · have h1 := ha.2; have h2 := hb.2
    unfold callOperator
    rw [Container.vectorOp_eq add _ _ (by omega)]
    rfl

/-- **C57** for 3D rasters with positive lengths.
Missing: rasters with a length of 0, for which iterating over positions is undefined (`C57_violated`);
see `C57_empty_partial` for the other strategies. -/
theorem C57_partial (add : α → α → α) (zero : α) {w h d : Int} (hs : Pos [w, h, d]) {a b c : Raster α}
    (ha : HasShape [w, h, d] a) (hb : HasShape [w, h, d] b) (hc : HasShape [w, h, d] c) :
    ∃ r, PixelSum add a b r ∧ loopOverXyz add w h d a b c = .ok r ∧ loopOverZyx add w h d a b c = .ok r ∧
      IterateOverPositions add a b c r ∧ IterateOverPositionsOptimized add a b c r ∧
      loopOverIndices add a b c = .ok r ∧ iterateOverValues add a b c = .ok r ∧ callOperator add a b = .ok r ∧
      callGenerate add zero a b c = .ok r := by
  have hs' : NonNeg [w, h, d] := fun x hx => (hs x hx).le
  obtain ⟨r, h1, h2, h3, h4⟩ := C57_any_dimension add zero (by simp) hs ha hb hc
  have hr : r = sum add a b := pixelSum_unique hs' ha h1 (sum_pixelSum add ha hb)
  subst hr
  exact ⟨_, h1, loopOverXyz_eq add hs' ha hb hc, loopOverZyx_eq add hs' ha hb hc, (h2 _).2 rfl, (h3 _).2 rfl, h4⟩

/-- **C57**: the program yields the sum for each of the cases of its help message (and `q`), and fails for any other one. -/
theorem C57_program (add : α → α → α) (zero : α) {w h d : Int} (hs : Pos [w, h, d]) {a b c : Raster α}
    (ha : HasShape [w, h, d] a) (hb : HasShape [w, h, d] b) (hc : HasShape [w, h, d] c) :
    ∃ r, PixelSum add a b r ∧ ∀ setup res, Iterate add zero w h d a b c setup res ↔
      res = if setup ∈ ['x', 'z', 'p', 'q', 'i', 'v', 'o', 'g'] then .ok r else .error .stdError := by
  obtain ⟨r, h1, h2, h3, h4, h5, h6, h7, h8, h9⟩ := C57_partial add zero hs ha hb hc
  obtain ⟨r', g1, g2, g3, -⟩ := C57_any_dimension add zero (by simp) hs ha hb hc
  have e4 := (g2 r).1 h4
  subst e4
  refine ⟨r, h1, fun setup res => ?_⟩
  unfold Iterate
  split
  · simp [h2]
  · simp [h3]
  · simp [g2]
  · simp [g3]
  · simp [h6]
  · simp [h7]
  · simp [h8]
  · simp [h9]
  · rename_i n1 n2 n3 n4 n5 n6 n7 n8
    rw [if_neg]
    simp only [List.mem_cons, List.not_mem_nil, or_false, not_or]
    exact ⟨n1, n2, n3, n4, n5, n6, n7, n8⟩

/-- **C57** for 3D rasters with non-negative lengths, without the iterations over positions.
Missing: those, which are undefined for empty rasters (`C57_empty_positions`). -/
theorem C57_empty_partial (add : α → α → α) (zero : α) {w h d : Int} (hs : NonNeg [w, h, d]) {a b c : Raster α}
    (ha : HasShape [w, h, d] a) (hb : HasShape [w, h, d] b) (hc : HasShape [w, h, d] c) :
    ∃ r, PixelSum add a b r ∧ loopOverXyz add w h d a b c = .ok r ∧ loopOverZyx add w h d a b c = .ok r ∧
      loopOverIndices add a b c = .ok r ∧ iterateOverValues add a b c = .ok r ∧ callOperator add a b = .ok r ∧
      callGenerate add zero a b c = .ok r := by
  have h1 := ha.2; have h2 := hb.2; have h3 := hc.2
  refine ⟨sum add a b, sum_pixelSum add ha hb, loopOverXyz_eq add hs ha hb hc, loopOverZyx_eq add hs ha hb hc,
    loopOverIndices_eq add ha hb hc, ?_, ?_, callGenerate_eq add zero ha hb hc⟩
  · unfold iterateOverValues
    rw [iterateOver_eq add _ _ _ (by omega) (by omega), hc.1, ← ha.1]
    rfl
  · unfold callOperator
    rw [Container.vectorOp_eq add _ _ (by omega)]
    rfl

/-- **C57**, negative: for an empty raster of any dimension, the loops over positions do not terminate normally;
the first access of the first one is out of bounds. -/
theorem C57_empty_positions (add : α → α → α) {s : Position} (hn : s ≠ []) (hs : NonNeg s) (h0 : 0 ∈ s)
    {a b c : Raster α} (ha : HasShape s a) (hc : HasShape s c) :
    (∀ r, ¬ IterateOverPositions add a b c r) ∧ (∀ r, ¬ IterateOverPositionsOptimized add a b c r) ∧
    BoxIterator.beginPosition c.domain ≠ BoxIterator.endPosition c.domain ∧
    sumAt add a b c (BoxIterator.beginPosition c.domain) = .error .ub := by
  obtain ⟨rfl, hc⟩ := hc
  have hd : c.domain = ⟨List.replicate c.shape.length 0, c.shape.map (· - 1)⟩ := domainOf_fixed _
  have hne : ¬ List.Forall₂ (· ≤ ·) (List.replicate c.shape.length (0 : Int)) (c.shape.map (· - 1)) := by
    intro h
    obtain ⟨x, y, e⟩ := List.append_of_mem h0
    rw [e] at h
    have hg := (List.forall₂_iff_get.1 h).2 x.length (by simp) (by simp)
    simp at hg
  have hnt : ∀ l, ¬ BoxIterator.Visits c.domain l := by
    intro l
    refine BoxIterator.no_trace_of_empty (by rw [hd]; simpa using hn) (by rw [hd]; exact hne) ?_
    unfold BoxIterator.beginPosition
    exact List.forall₂_same.2 fun _ _ => le_rfl
  have hprod : c.shape.prod = 0 := List.prod_eq_zero_iff.2 h0
  have hda : a.data = [] := by
    have := ha.2
    rw [hprod] at this
    exact List.length_eq_zero_iff.1 (by exact_mod_cast this)
  refine ⟨fun r ⟨l, hl, _⟩ => hnt l hl, fun r ⟨l, hl, _⟩ => hnt l hl, ?_, ?_⟩
  · intro e
    have : BoxIterator.Visits c.domain [] := by
      unfold BoxIterator.Visits
      rw [e]; exact .done
    exact hnt _ this
  · unfold sumAt Raster.get
    rw [hda, readAt_ub (by simp; omega)]
    rfl

/-- **C57**: the loops over values do not check the sizes: if a raster is shorter than the output, values are read out of
bounds. -/
theorem C57_short (add : α → α → α) (a b c : Raster α) :
    (∃ r, iterateOverValues add a b c = .ok r) ∧ c.data.length ≤ a.data.length ∧ c.data.length ≤ b.data.length ∨
    iterateOverValues add a b c = .error .ub ∧ (a.data.length < c.data.length ∨ b.data.length < c.data.length) := by
  obtain ⟨_, a⟩ := a
  obtain ⟨_, b⟩ := b
  obtain ⟨s, c⟩ := c
  have key : ∀ (c a b : List α),
      (∃ l, iterateOver add a b c = .ok l) ∧ c.length ≤ a.length ∧ c.length ≤ b.length ∨
      iterateOver add a b c = .error .ub ∧ (a.length < c.length ∨ b.length < c.length) := by
    intro c
    induction c with
    | nil => intro a b; exact Or.inl ⟨⟨[], by simp [iterateOver]⟩, by simp⟩
    | cons z c ih =>
      intro a b
      cases a with
      | nil => exact Or.inr ⟨by simp [iterateOver], by simp⟩
      | cons x a =>
        cases b with
        | nil => exact Or.inr ⟨by simp [iterateOver], by simp⟩
        | cons y b =>
          rcases ih a b with ⟨⟨l, h⟩, h1, h2⟩ | ⟨h, h1⟩
          · exact Or.inl ⟨⟨add x y :: l, by simp [iterateOver, h, bind, Except.bind, pure, Except.pure]⟩, by simpa using ⟨h1, h2⟩⟩
          · exact Or.inr ⟨by simp [iterateOver, h, bind, Except.bind], by simpa using h1⟩
  rcases key c a b with ⟨⟨l, h⟩, h1⟩ | ⟨h, h1⟩
  · exact Or.inl ⟨⟨⟨s, l⟩, by simp [iterateOverValues, h, bind, Except.bind, pure, Except.pure]⟩, h1⟩
  · exact Or.inr ⟨by simp [iterateOverValues, h, bind, Except.bind], h1⟩

/-- **C57** does not hold: iterating over the positions of an empty raster is undefined. -/
theorem C57_violated : ¬ C57_Statement := by
  intro h
  have hs : HasShape [0, 1, 1] (⟨[0, 1, 1], []⟩ : Raster Int) := ⟨rfl, by decide⟩
  obtain ⟨r, _, _, _, hr, _⟩ := h Int (· + ·) 0 0 1 1 (by unfold NonNeg; decide) _ _ _ hs hs hs
  exact (C57_empty_positions (· + ·) (by simp) (by unfold NonNeg; decide) (by simp) hs hs).1 r hr

/-! ## Non-vacuity -/

/-- The sum of two `char`, converted to `char`. -/
def addChar (x y : Int) : Int := (x + y).bmod 256

example :
    let a : Raster Int := ⟨[2, 1, 2], [1, 2, 100, -100]⟩
    let b : Raster Int := ⟨[2, 1, 2], [3, 4, 50, -50]⟩
    let c : Raster Int := ⟨[2, 1, 2], [0, 0, 0, 0]⟩
    Pos [2, 1, 2] ∧ HasShape [2, 1, 2] a ∧ HasShape [2, 1, 2] b ∧ HasShape [2, 1, 2] c ∧
    loopOverXyz addChar 2 1 2 a b c = .ok ⟨[2, 1, 2], [4, 6, -106, 106]⟩ ∧
    loopOverZyx addChar 2 1 2 a b c = .ok ⟨[2, 1, 2], [4, 6, -106, 106]⟩ ∧
    loopOverIndices addChar a b c = .ok ⟨[2, 1, 2], [4, 6, -106, 106]⟩ ∧
    iterateOverValues addChar a b c = .ok ⟨[2, 1, 2], [4, 6, -106, 106]⟩ ∧
    callOperator addChar a b = .ok ⟨[2, 1, 2], [4, 6, -106, 106]⟩ ∧
    callGenerate addChar 0 a b c = .ok ⟨[2, 1, 2], [4, 6, -106, 106]⟩ := by
  refine ⟨by unfold Pos; decide, ⟨rfl, rfl⟩, ⟨rfl, rfl⟩, ⟨rfl, rfl⟩, rfl, rfl, rfl, rfl, rfl, rfl⟩

/-- Non-vacuity of `C57_program`: a documented case, and an unknown one. -/
example :
    let a : Raster Int := ⟨[2, 1, 2], [1, 2, 100, -100]⟩
    let c : Raster Int := ⟨[2, 1, 2], [0, 0, 0, 0]⟩
    Iterate addChar 0 2 1 2 a a c 'g' (.ok ⟨[2, 1, 2], [2, 4, -56, 56]⟩) ∧
    Iterate addChar 0 2 1 2 a a c 'y' (.error .stdError) :=
  ⟨rfl, rfl⟩

end Litl.IterationBenchmark
