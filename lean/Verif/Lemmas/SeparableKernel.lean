import Verif.Model.SeparableKernel
import Verif.Spec.SeparableKernel
import Verif.Props.LineKernel
import Verif.Lemmas.Domain
import Verif.Lemmas.View
import Verif.Lemmas.BoxIter
import Mathlib.Algebra.BigOperators.Ring.List
import Mathlib.Tactic.Ring

/-!
# Lemmas on separable correlation
-/

namespace Litl

open Spec BoxIterator

/-! ## Sums -/

section Sums

theorem sum_swap {β γ α : Type _} [AddCommMonoid α] (l : List β) (m : List γ) (f : β → γ → α) :
    (l.map fun a => (m.map fun b => f a b).sum).sum = (m.map fun b => (l.map fun a => f a b).sum).sum := by
  induction l with
  | nil => simp
  | cons a l ih =>
    simp only [List.map_cons, List.sum_cons, ih]
    rw [← List.sum_map_add]

variable {α : Type _} [CommSemiring α]

/-- The correlation with the outer product, axis by axis. -/
def outerSum : List (List α × Int) → (List Int → α) → List Int → α
  | κ :: ks, g, x :: p => ((List.range κ.1.length).map fun j : Nat =>
      κ.1.getD j 0 * outerSum ks (fun q => g ((x + j - κ.2) :: q)) p).sum
  | _, g, _ => g []

/-- Adding a kernel along an axis which has none. -/
theorem outerSum_set {κ : List α × Int} : ∀ {ks : List (List α × Int)} {J : Nat} {g : List Int → α} {p : List Int},
    ks[J]? = some ([1], 0) → p.length = ks.length →
    outerSum (ks.set J κ) g p = ((List.range κ.1.length).map fun j : Nat =>
      κ.1.getD j 0 * outerSum ks g (p.set J (p.getD J 0 + j - κ.2))).sum := by
  intro ks
  induction ks with
  | nil => intro J g p h; simp at h
  | cons k0 ks ih =>
    intro J g p h hp
    cases p with
    | nil => simp at hp
    | cons x p =>
      cases J with
      | zero =>
        simp only [List.getElem?_cons_zero, Option.some.injEq] at h
        subst h
        simp [outerSum]
      | succ J =>
        simp only [List.getElem?_cons_succ] at h
        simp only [List.set_cons_succ, outerSum, List.getD_cons_succ]
        have : ∀ i : Nat, outerSum (ks.set J κ) (fun q => g ((x + i - k0.2) :: q)) p =
            ((List.range κ.1.length).map fun j : Nat =>
              κ.1.getD j 0 * outerSum ks (fun q => g ((x + i - k0.2) :: q)) (p.set J (p.getD J 0 + j - κ.2))).sum :=
          fun i => ih h (by simpa using hp)
        simp only [this, ← List.sum_map_mul_left]
        rw [sum_swap]
        congr 1
        refine List.map_congr_left fun j _ => ?_
        congr 1
        refine List.map_congr_left fun i _ => ?_
        ring

theorem outerSum_zero : ∀ {ks : List (List α × Int)} {J : Nat} {g : List Int → α} {p : List Int},
    ks[J]? = some ([1], 0) → p.length = ks.length →
    (∀ q : List Int, q.length = p.length → q.getD J 0 = p.getD J 0 → g q = 0) → outerSum ks g p = 0 := by
  intro ks
  induction ks with
  | nil => intro J g p h; simp at h
  | cons k0 ks ih =>
    intro J g p h hp hg
    cases p with
    | nil => simp at hp
    | cons x p =>
      have hz : ∀ (n : Nat) (f : Nat → α), (∀ j, f j = 0) → ((List.range n).map f).sum = 0 := by
        intro n f hf
        refine List.sum_eq_zero ?_
        intro y hy
        obtain ⟨j, _, rfl⟩ := List.mem_map.1 hy
        exact hf j
      have hc : ∀ (ks : List (List α × Int)) (g : List Int → α) (p : List Int), p.length = ks.length →
          (∀ q : List Int, q.length = p.length → g q = 0) → outerSum ks g p = 0 := by
        intro ks
        induction ks with
        | nil =>
          intro g p hp hg
          simp only [List.length_nil, List.length_eq_zero_iff] at hp
          subst hp
          exact hg [] rfl
        | cons k ks ih =>
          intro g p hp hg
          cases p with
          | nil => simp at hp
          | cons x p =>
            refine hz _ _ fun j => ?_
            rw [ih _ p (by simpa using hp) fun q hq => hg _ (by simp [hq]), mul_zero]
      cases J with
      | zero =>
        simp only [List.getElem?_cons_zero, Option.some.injEq] at h
        subst h
        simp only [outerSum, List.length_singleton, List.range_one, List.map_cons, List.map_nil, List.sum_cons,
          List.sum_nil, add_zero]
        rw [hc ks _ p (by simpa using hp) fun q hq => hg _ (by simp [hq]) (by simp), mul_zero]
      | succ J =>
        simp only [List.getElem?_cons_succ] at h
        simp only [outerSum]
        refine hz _ _ fun j => ?_
        rw [ih h (by simpa using hp) fun q hq hq' => hg _ (by simp [hq]) (by simpa using hq'), mul_zero]

/-- The recursive definition is the sum over the window. -/
theorem outerSum_eq : ∀ {ks : List (List α × Int)} {g : List Int → α} {p : List Int}, p.length = ks.length →
    outerSum ks g p = ((enum (ks.map fun κ => -κ.2) (ks.map fun κ => (κ.1.length : Int) - 1 - κ.2)).map fun k =>
      outerProduct ks k * g (List.zipWith (· + ·) p k)).sum := by
  intro ks
  induction ks with
  | nil =>
    intro g p hp
    simp [outerSum, enum, outerProduct]
  | cons κ ks ih =>
    intro g p hp
    cases p with
    | nil => simp at hp
    | cons x p =>
      have h1 : ∀ j : Nat, outerSum ks (fun q => g ((x + j - κ.2) :: q)) p = _ :=
        fun j => ih (g := fun q => g ((x + j - κ.2) :: q)) (by simpa using hp)
      simp only [outerSum, h1, List.map_cons, enum]
      rw [List.map_flatMap, List.flatMap_def, List.sum_flatten, List.map_map]
      simp only [← List.sum_map_mul_left]
      rw [sum_swap]
      congr 1
      refine List.map_congr_left fun q _ => ?_
      simp only [Function.comp_apply, ints, List.map_map]
      rw [show ((κ.1.length : Int) - 1 - κ.2 - -κ.2 + 1).toNat = κ.1.length by omega]
      congr 1
      refine List.map_congr_left fun j _ => ?_
      simp only [Function.comp_apply, outerProduct, List.zipWith_cons_cons, List.prod_cons]
      rw [show (-κ.2 + (j : Int) + κ.2).toNat = j by omega, show x + (-κ.2 + (j : Int)) = x + j - κ.2 by ring]
      ring

theorem isOuterCorrelation_outerSum {ks : List (List α × Int)} {g : List Int → α} {p : List Int}
    (hp : p.length = ks.length) : IsOuterCorrelation ks g p (outerSum ks g p) := by
  intro l hl hm
  rw [outerSum_eq hp]
  refine (List.Perm.map _ ?_).sum_eq
  rw [List.perm_ext_iff_of_nodup nodup_enum hl]
  intro k
  rw [hm, mem_enum (by simp)]
  rfl

end Sums

/-! ## Lines of a raster -/

theorem index_set : ∀ {s p : List Int} {i : Nat} (v : Int), p.length = s.length → i < p.length →
    index s (p.set i v) = index s p + (v - p.getD i 0) * (s.take i).prod := by
  intro s
  induction s with
  | nil => intro p i v h hi; simp at h; subst h; simp at hi
  | cons s ss ih =>
    intro p i v h hi
    cases p with
    | nil => simp at hi
    | cons x p =>
      have hl : p.length = ss.length := by simpa using h
      cases i with
      | zero => simp [index_cons hl]; ring
      | succ i =>
        rw [List.set_cons_succ, index_cons (by simpa using hl), index_cons hl, ih v hl (by simpa using hi)]
        simp only [List.getD_cons_succ, List.take_succ_cons, List.prod_cons]
        ring

theorem inShape_set {s p : List Int} {i : Nat} {v : Int} (h : InShape s p) (hv : 0 ≤ v ∧ v < s.getD i 0) :
    InShape s (p.set i v) := by
  unfold InShape at *
  induction h generalizing i with
  | nil => simp
  | cons h1 h2 ih =>
    cases i with
    | zero => exact .cons (by simpa using hv) h2
    | succ i => exact .cons h1 (ih (by simpa using hv))

theorem inShape_getD {s p : List Int} {i : Nat} (h : InShape s p) (hi : i < s.length) :
    0 ≤ p.getD i 0 ∧ p.getD i 0 < s.getD i 0 := by
  unfold InShape at h
  induction h generalizing i with
  | nil => simp at hi
  | cons h1 h2 ih =>
    cases i with
    | zero => simpa using h1
    | succ i => simpa using ih (i := i) (by simpa using hi)

theorem getD_set_self {p : List Int} {i : Nat} {v : Int} (h : i < p.length) : (p.set i v).getD i 0 = v := by
  simp [List.getD_eq_getElem?_getD, h]

theorem getD_set_ne {p : List Int} {i j : Nat} {v : Int} (h : i ≠ j) : (p.set i v).getD j 0 = p.getD j 0 := by
  simp [List.getD_eq_getElem?_getD, List.getElem?_set_ne h]

theorem set_getD_id {p : List Int} {i : Nat} : p.set i (p.getD i 0) = p := by
  by_cases h : i < p.length
  · exact set_getD_self h
  · rw [List.set_eq_of_length_le (by omega)]

theorem take_prod_pos {s : List Int} (h : Pos s) (i : Nat) : 0 < (s.take i).prod := by
  have key : ∀ l : List Int, (∀ x ∈ l, 0 < x) → 0 < l.prod := by
    intro l
    induction l with
    | nil => intro _; decide
    | cons x l ih =>
      intro hl
      rw [List.prod_cons]
      exact Int.mul_pos (hl x (by simp)) (ih fun y hy => hl y (by simp [hy]))
  exact key _ fun x hx => h x (List.mem_of_mem_take hx)

namespace SeparableKernel

/-- The value of the raster at a position of its shape. -/
def value {α : Type} [Zero α] (shape : Position) (data : List α) (p : Position) : α :=
  data.getD (index shape p).toNat 0

/-- The value of the correlation along an axis. -/
def passValue {α : Type} [Zero α] [Add α] [Mul α] (k : LineKernel α) (shape : Position) (axis : Nat) (data : List α)
    (p : Position) : α :=
  lineFold k.values k.origin (shape.getD axis 0).toNat (fun i => value shape data (p.set axis i)) (p.getD axis 0)

section Order

variable {α : Type} [Zero α] [Add α] [Mul α]

/-- What is needed along an axis. -/
structure AxisOk (k : LineKernel α) (n : Int) : Prop where
  origin : 0 ≤ k.origin ∧ k.origin < k.values.length
  ksize : k.values.length < 2 ^ 63
  length : k.values.length - 1 - k.origin + max k.origin 1 ≤ n

theorem line_step {k : LineKernel α} {shape : Position} {axis : Nat} {input out : List α} {p : Position}
    (hs : Pos shape) (hsize : shape.prod < 2 ^ 63) (hax : axis < shape.length)
    (hk : AxisOk k (shape.getD axis 0)) (hin : (input.length : Int) = shape.prod) (hout : (out.length : Int) = shape.prod)
    (hp : InShape shape p) (hp0 : p.getD axis 0 = 0) :
    ∃ out', out'.length = out.length ∧
      (∀ r, k.Correlates (readAt input) (line shape axis p) (line shape axis p) out r ↔ r = .ok out') ∧
      (∀ q, InShape shape q → q.set axis 0 = p →
        out'[(index shape q).toNat]? = some (passValue k shape axis input q)) ∧
      (∀ q, InShape shape q → q.set axis 0 ≠ p → out'[(index shape q).toNat]? = out[(index shape q).toNat]?) := by
  have hpl : p.length = shape.length := hp.length_eq
  have hn0 : 0 < shape.getD axis 0 := by
    have := inShape_getD hp hax
    omega
  have hnlt : shape.getD axis 0 < 2 ^ 63 := by
    have hbig : index shape (p.set axis (shape.getD axis 0 - 1)) < shape.prod :=
      (index_bounds (inShape_set hp ⟨by omega, by omega⟩)).2
    have h0 := (index_bounds hp).1
    rw [index_set _ hpl (by omega), hp0] at hbig
    have h1 := take_prod_pos hs axis
    nlinarith
  have hidx : ∀ i : Int, index shape (p.set axis i) = index shape p + i * shapeStride shape axis := by
    intro i
    rw [index_set _ hpl (by omega), hp0, shapeStride_eq, sub_zero]
  have hst : 0 < shapeStride shape axis := by
    rw [shapeStride_eq]
    exact take_prod_pos hs axis
  have hadr : ∀ i : Int, 0 ≤ i → i < (shape.getD axis 0).toNat →
      0 ≤ index shape p + i * shapeStride shape axis ∧ index shape p + i * shapeStride shape axis < shape.prod := by
    intro i h0 h1
    rw [← hidx]
    exact index_bounds (inShape_set hp ⟨h0, by omega⟩)
  have hline : LineKernel.Line (readAt input) (index shape p) (shapeStride shape axis) (shape.getD axis 0).toNat
      (fun i => value shape input (p.set axis i)) := by
    intro i h0 h1
    have := hadr i h0 h1
    rw [readAt_getD (by omega) (by omega), ← hidx]
    rfl
  have hfit : LineKernel.Fits (line shape axis p) (line shape axis p) out := by
    have e : line shape axis p = _ := LineKernel.full_eq (a := index shape p) (stride := shapeStride shape axis)
      (n := (shape.getD axis 0).toNat) (by omega) (by omega)
    rw [e]
    intro m hm
    simp only at hm ⊢
    have := hadr m (by omega) (by omega)
    rw [hout, show (0 : Int) + 1 * m = m by omega]
    exact this
  obtain ⟨out', ⟨hl, h1, h2⟩, h3⟩ := LineKernel.sequential_full (b := index shape p) (t := shapeStride shape axis) hk.origin
    hk.ksize (by have := hk.length; omega) (show (shape.getD axis 0).toNat < 2 ^ 63 by omega) hline (by omega) hfit
  refine ⟨out', hl, h3, ?_, ?_⟩
  · intro q hq hqp
    have hqa := inShape_getD hq hax
    have hq' : q = p.set axis (q.getD axis 0) := by
      rw [← hqp, List.set_set, set_getD_id]
    have e : LineKernel.full (index shape p) (shape.getD axis 0).toNat (shapeStride shape axis) = _ :=
      LineKernel.full_eq (by omega) (by omega)
    rw [e] at h1
    have := h1 (q.getD axis 0).toNat (by simp only; omega)
    simp only at this
    rw [show (0 : Int) + 1 * ((q.getD axis 0).toNat : Int) = q.getD axis 0 by omega, ← hidx, ← hq'] at this
    rw [this]
    unfold passValue
    congr 2
    funext i
    rw [← hqp, List.set_set]
  · intro q hq hqp
    refine (h2 (index shape q).toNat fun m hm he => ?_)
    have e : LineKernel.full (index shape p) (shape.getD axis 0).toNat (shapeStride shape axis) = _ :=
      LineKernel.full_eq (by omega) (by omega)
    rw [e] at hm he
    simp only at hm he
    have hq0 := (index_bounds hq).1
    have hm' : InShape shape (p.set axis m) := inShape_set hp ⟨by omega, by omega⟩
    have he' : index shape q = index shape (p.set axis m) := by
      rw [hidx, ← show (0 : Int) + 1 * m = m by omega, ← he]
      omega
    have := index_inj hq hm' he'
    refine hqp ?_
    rw [this, List.set_set, ← hp0, set_getD_id]

theorem lines_spec {kernels : List (Nat × LineKernel α)} {k : LineKernel α} {shape : Position} {axis : Nat}
    {input : List α} (hs : Pos shape) (hsize : shape.prod < 2 ^ 63) (hax : axis < shape.length)
    (hmap : mapAt kernels axis = .ok k) (hk : AxisOk k (shape.getD axis 0)) (hin : (input.length : Int) = shape.prod) :
    ∀ {ps : List Position} {out : List α}, (out.length : Int) = shape.prod →
      (∀ p ∈ ps, InShape shape p ∧ p.getD axis 0 = 0) →
      ∃ out', out'.length = out.length ∧ (∀ r, Lines kernels shape axis input ps out r ↔ r = .ok out') ∧
        (∀ q, InShape shape q → q.set axis 0 ∈ ps →
          out'[(index shape q).toNat]? = some (passValue k shape axis input q)) ∧
        (∀ q, InShape shape q → q.set axis 0 ∉ ps → out'[(index shape q).toNat]? = out[(index shape q).toNat]?) := by
  intro ps
  induction ps with
  | nil =>
    intro out _ _
    refine ⟨out, rfl, fun r => ⟨fun h => by cases h; rfl, fun h => h ▸ .done⟩, fun q _ h => absurd h (by simp),
      fun _ _ _ => rfl⟩
  | cons p ps ih =>
    intro out hout hps
    obtain ⟨out1, hl1, h1, hv1, hu1⟩ := line_step (input := input) hs hsize hax hk hin hout (hps p (by simp)).1
      (hps p (by simp)).2
    obtain ⟨out2, hl2, h2, hv2, hu2⟩ := ih (out := out1) (by omega) fun q hq => hps q (by simp [hq])
    refine ⟨out2, by omega, fun r => ⟨fun h => ?_, fun h => ?_⟩, ?_, ?_⟩
    · cases h with
      | missing h => rw [hmap] at h; cases h
      | fail h h' =>
        rw [hmap] at h
        cases h
        have := (h1 _).1 h'
        cases this
      | next h h' h'' =>
        rw [hmap] at h
        cases h
        have := (h1 _).1 h'
        cases this
        exact (h2 _).1 h''
    · exact .next hmap ((h1 _).2 rfl) ((h2 _).2 h)
    · intro q hq hqp
      by_cases hqs : q.set axis 0 ∈ ps
      · exact hv2 q hq hqs
      · rw [hu2 q hq hqs]
        exact hv1 q hq ((List.mem_cons.1 hqp).resolve_right hqs)
    · intro q hq hqp
      rw [hu2 q hq (by simp at hqp; exact hqp.2)]
      exact hu1 q hq (by simp at hqp; exact hqp.1)

theorem project_domain {s : Position} {axis : Nat} (hax : axis < s.length) :
    (Raster.domainOf s.length s).project axis = ⟨List.replicate s.length 0, (s.map (· - 1)).set axis 0⟩ := by
  rw [domainOf_fixed]
  unfold Box.project
  simp only [Box.mk.injEq, true_and]
  congr 1
  simp [List.getD_eq_getElem?_getD, hax]

theorem mem_project {s : Position} {axis : Nat} (hs : Pos s) (hax : axis < s.length) {p : Position} :
    p ∈ enum (List.replicate s.length 0) ((s.map (· - 1)).set axis 0) ↔ InShape s p ∧ p.getD axis 0 = 0 := by
  rw [mem_enum (by simp)]
  induction s generalizing axis p with
  | nil => simp at hax
  | cons x s ih =>
    have hx : 0 < x := hs x (by simp)
    cases p with
    | nil => simp [InBox, InShape]
    | cons y p =>
      cases axis with
      | zero =>
        have := inBox_domain (s := s) (p := p)
        unfold InBox InShape at *
        simp only [List.length_cons, List.replicate_succ, List.map_cons, List.set_cons_zero, List.forall₂_cons,
          List.getD_cons_zero]
        rw [← this]
        constructor
        · rintro ⟨⟨h1, h2⟩, h3, h4⟩
          exact ⟨⟨⟨h1, by omega⟩, h2, h4⟩, by omega⟩
        · rintro ⟨⟨⟨h1, _⟩, h2, h4⟩, h3⟩
          exact ⟨⟨h1, h2⟩, by omega, h4⟩
      | succ axis =>
        have := ih (fun z hz => hs z (by simp [hz])) (axis := axis) (by simpa using hax) (p := p)
        unfold InBox InShape at *
        simp only [List.length_cons, List.replicate_succ, List.map_cons, List.set_cons_succ, List.forall₂_cons,
          List.getD_cons_succ]
        constructor
        · rintro ⟨⟨h1, h2⟩, h3, h4⟩
          have := this.1 ⟨h2, h4⟩
          exact ⟨⟨⟨h1, by omega⟩, this.1⟩, this.2⟩
        · rintro ⟨⟨h1, h2⟩, h3⟩
          have := this.2 ⟨h2, h3⟩
          exact ⟨⟨h1.1, this.1⟩, by omega, this.2⟩

theorem project_le {s : Position} {axis : Nat} (hs : Pos s) :
    List.Forall₂ (· ≤ ·) (List.replicate s.length (0 : Int)) ((s.map (· - 1)).set axis 0) := by
  induction s generalizing axis with
  | nil => simp
  | cons x s ih =>
    have hx : 0 < x := hs x (by simp)
    have hs' : Pos s := fun z hz => hs z (by simp [hz])
    cases axis with
    | zero =>
      simp only [List.length_cons, List.replicate_succ, List.map_cons, List.set_cons_zero]
      exact .cons le_rfl (domain_le hs')
    | succ axis =>
      simp only [List.length_cons, List.replicate_succ, List.map_cons, List.set_cons_succ]
      exact .cons (by omega) (ih hs')

omit [Zero α] [Add α] [Mul α] in
theorem ofShape_ok {s : Position} (hne : s ≠ []) (hs : Pos s) (hsize : s.prod < 2 ^ 63) (z : α) :
    Raster.ofShape z s = .ok ⟨s, List.replicate s.prod.toNat z⟩ := by
  have h0 : 0 < s.prod := by
    have := take_prod_pos hs s.length
    rwa [List.take_length] at this
  unfold Raster.ofShape
  rw [shapeSize_eq hne, u64_id (by omega) (by omega)]
  simp only [ge_iff_le]
  rw [if_neg (by omega)]

/-- One pass, along one axis. -/
theorem along_spec {kernels : List (Nat × LineKernel α)} {k : LineKernel α} {axis : Nat} {input : Raster α}
    (hs : Pos input.shape) (hsize : input.shape.prod < 2 ^ 63) (hax : axis < input.shape.length)
    (hmap : mapAt kernels axis = .ok k) (hk : AxisOk k (input.shape.getD axis 0))
    (hin : (input.data.length : Int) = input.shape.prod) :
    ∃ out : Raster α, out.shape = input.shape ∧ (out.data.length : Int) = input.shape.prod ∧
      (∀ r, Along kernels axis input r ↔ r = .ok out) ∧
      (∀ q, InShape input.shape q → value out.shape out.data q = passValue k input.shape axis input.data q) := by
  have hne : input.shape ≠ [] := by
    intro h
    rw [h] at hax
    simp at hax
  have h0 : 0 < input.shape.prod := by
    have := take_prod_pos hs input.shape.length
    rwa [List.take_length] at this
  have hvis := visits_enum (b := ⟨List.replicate input.shape.length 0, (input.shape.map (· - 1)).set axis 0⟩)
    (by intro h; exact hne (by simpa using h)) (project_le hs)
  obtain ⟨out, hl, h1, hv, _⟩ := lines_spec hs hsize hax hmap hk hin
    (ps := enum (List.replicate input.shape.length 0) ((input.shape.map (· - 1)).set axis 0))
    (out := List.replicate input.shape.prod.toNat 0) (by rw [List.length_replicate]; omega)
    (fun p hp => (mem_project hs hax).1 hp)
  refine ⟨⟨input.shape, out⟩, rfl, by rw [hl, List.length_replicate]; omega, fun r => ?_, fun q hq => ?_⟩
  · unfold Along
    rw [ofShape_ok hne hs hsize]
    simp only [Raster.domain]
    rw [project_domain hax]
    constructor
    · rintro ⟨ps, hps, r', hr', rfl⟩
      obtain rfl := LoopTrace.unique hps hvis
      rw [(h1 r').1 hr']
      rfl
    · rintro rfl
      exact ⟨_, hvis, _, (h1 _).2 rfl, rfl⟩
  · unfold value
    have hq0 : InShape input.shape (q.set axis 0) := inShape_set hq ⟨le_rfl, by
      have := inShape_getD hq hax
      omega⟩
    have := hv q hq ((mem_project hs hax).2 ⟨hq0, getD_set_self (by rw [hq.length_eq]; exact hax)⟩)
    rw [List.getD_eq_getElem?_getD, this]
    rfl

end Order

variable {α : Type} [CommSemiring α]

/-- One pass, from a raster which is a correlation. -/
theorem passValue_outer {k : LineKernel α} {shape : Position} {axis : Nat} {data : List α} {ks : List (List α × Int)}
    {f : List Int → α} (hax : axis < shape.length) (hks : ks.length = shape.length)
    (hid : ks[axis]? = some ([1], 0)) (hf : ∀ p, ¬ InShape shape p → f p = 0)
    (hdata : ∀ p, InShape shape p → value shape data p = outerSum ks f p) {p : Position} (hp : InShape shape p) :
    passValue k shape axis data p = outerSum (ks.set axis (k.values, k.origin)) f p := by
  have hpl := hp.length_eq
  have hpa := inShape_getD hp hax
  rw [outerSum_set hid (by omega)]
  unfold passValue
  rw [lineFold_eq]
  unfold lineCorrelation
  congr 1
  refine List.map_congr_left fun j _ => ?_
  simp only
  split_ifs with h
  · rw [hdata _ (inShape_set hp ⟨h.1, by omega⟩)]
  · rw [outerSum_zero hid (by rw [List.length_set]; omega), mul_zero]
    intro q hq hqa
    refine hf q fun hqs => h ?_
    rw [getD_set_self (by omega)] at hqa
    have := inShape_getD hqs hax
    omega

/-- All the passes. -/
theorem alongSeq_spec {kernels : List (Nat × LineKernel α)} {f : List Int → α} {shape : Position} (hs : Pos shape)
    (hsize : shape.prod < 2 ^ 63) (hf : ∀ p, ¬ InShape shape p → f p = 0) {kernel : Nat → LineKernel α} :
    ∀ {axes : List Nat} {ks : List (List α × Int)} {data : List α},
      axes.Nodup → (∀ i ∈ axes, i < shape.length ∧ mapAt kernels i = .ok (kernel i) ∧
        AxisOk (kernel i) (shape.getD i 0) ∧ ks[i]? = some ([1], 0)) →
      ks.length = shape.length → (data.length : Int) = shape.prod →
      (∀ p, InShape shape p → value shape data p = outerSum ks f p) →
      ∃ out : List α, (out.length : Int) = shape.prod ∧
        (∀ r, AlongSeq kernels axes ⟨shape, data⟩ r ↔ r = .ok ⟨shape, out⟩) ∧
        ∀ p, InShape shape p → value shape out p =
          outerSum (axes.foldl (fun ks i => ks.set i ((kernel i).values, (kernel i).origin)) ks) f p := by
  have h0 : 0 < shape.prod := by
    have := take_prod_pos hs shape.length
    rwa [List.take_length] at this
  intro axes
  induction axes with
  | nil =>
    intro ks data _ _ _ hd hv
    exact ⟨data, hd, fun r => ⟨fun h => by cases h; rfl, fun h => h ▸ .done⟩, hv⟩
  | cons a axes ih =>
    intro ks data hnd hax hks hd hv
    obtain ⟨ha, hm, hok, hid⟩ := hax a (by simp)
    obtain ⟨⟨sh, tmp⟩, hsh, htl, h1, hv1⟩ := along_spec (input := ⟨shape, data⟩) hs hsize ha hm hok hd
    simp only at hsh htl hv1
    subst hsh
    have hnd' := List.nodup_cons.1 hnd
    obtain ⟨out, hol, h2, hv2⟩ := ih (ks := ks.set a ((kernel a).values, (kernel a).origin)) (data := tmp) hnd'.2 (by
      intro i hi
      obtain ⟨g1, g2, g3, g4⟩ := hax i (by simp [hi])
      refine ⟨g1, g2, g3, ?_⟩
      rw [List.getElem?_set_ne (by rintro rfl; exact hnd'.1 hi), g4]) (by simpa using hks) htl (by
      intro p hp
      rw [hv1 p hp]
      exact passValue_outer ha hks hid hf hv hp)
    have hpr : printed (⟨sh, tmp⟩ : Raster α) (.ok ⟨sh, out⟩) = .ok ⟨sh, out⟩ := by
      unfold printed
      rw [Container.ok_bind]
      simp only
      rw [readAt_getD (by omega) (by omega), Container.ok_bind, readAt_getD (by omega) (by omega), Container.ok_bind]
      rfl
    refine ⟨out, hol, fun r => ⟨fun h => ?_, ?_⟩, hv2⟩
    · cases h with
      | fail h => have := (h1 _).1 h; cases this
      | next h h' =>
        have := (h1 _).1 h
        cases this
        rw [(h2 _).1 h', hpr]
    · rintro rfl
      rw [← hpr]
      exact .next ((h1 _).2 rfl) ((h2 _).2 rfl)

omit [CommSemiring α] in
/-- The kernels after all the passes. -/
theorem foldl_set {κ : Nat → List α × Int} : ∀ {axes : List Nat} {ks : List (List α × Int)} (i : Nat),
    (axes.foldl (fun ks i => ks.set i (κ i)) ks)[i]? =
      if i ∈ axes ∧ i < ks.length then some (κ i) else ks[i]? := by
  intro axes
  induction axes with
  | nil => intro ks i; simp
  | cons a axes ih =>
    intro ks i
    rw [List.foldl_cons, ih, List.length_set]
    by_cases hi : i ∈ axes
    · by_cases hl : i < ks.length
      · simp [hi, hl]
      · rw [if_neg (by tauto), if_neg (by tauto), List.getElem?_eq_none (by simpa using hl),
          List.getElem?_eq_none (by simpa using hl)]
    · rw [if_neg (by tauto)]
      by_cases hia : i = a
      · subst hia
        by_cases hl : i < ks.length
        · rw [if_pos (by simp [hl]), List.getElem?_set_self hl]
        · rw [if_neg (by tauto), List.getElem?_eq_none (by simpa using hl), List.getElem?_eq_none (by simpa using hl)]
      · rw [if_neg (by simp [hia, hi]), List.getElem?_set_ne (by omega)]

end SeparableKernel

end Litl
