import Verif.Model.Kernel
import Verif.Spec.Kernel
import Verif.Lemmas.Surround
import Verif.Lemmas.BoxSize
import Verif.Lemmas.Layout
import Verif.Lemmas.View
import Verif.Lemmas.Arithmetic
import Verif.Props.BoxAlgebra
import Mathlib.Algebra.BigOperators.Group.List.Lemmas
import Mathlib.Algebra.BigOperators.Ring.List
import Mathlib.Tactic.Ring
import Mathlib.Tactic.Linarith

/-!
# Lemmas about ND kernels
-/

namespace Litl

open Spec
open Container (ok_bind)

variable {α : Type} [Zero α] [Add α] [Mul α]

/-! ## Enumeration of boxes -/

theorem ints_eq_map (a b : Int) : ints a b = (List.range (b - a + 1).toNat).map fun i : Nat => a + (i : Int) := by
  rfl

theorem ints_add (a b c : Int) : ints (a + c) (b + c) = (ints a b).map (· + c) := by
  rw [ints_eq_map, ints_eq_map, show b + c - (a + c) + 1 = b - a + 1 by ring, List.map_map]
  apply List.map_congr_left
  intro i _
  simp only [Function.comp]
  ring

/-- The positions of a shifted box. -/
theorem enum_add : ∀ {f b v : Position}, f.length = b.length → f.length = v.length →
    enum (f.add v) (b.add v) = (enum f b).map fun k => Position.add k v := by
  intro f
  induction f with
  | nil =>
    intro b v hb hv
    have h1 : b = [] := by simpa using hb.symm
    have h2 : v = [] := by simpa using hv.symm
    subst h1 h2
    rfl
  | cons x f ih =>
    intro b v hb hv
    cases b with
    | nil => simp at hb
    | cons y b =>
      cases v with
      | nil => simp at hv
      | cons z v =>
        have e := ih (b := b) (v := v) (by simpa using hb) (by simpa using hv)
        simp only [Position.add, List.zipWith_cons_cons, enum] at e ⊢
        rw [e, ints_add, List.flatMap_map, List.map_flatMap]
        congr 1
        funext q
        simp [List.map_map, Function.comp]

/-- The rank of a position of a box is its index with respect to the front. -/
theorem enum_rank {f b : Position} (h : List.Forall₂ (· ≤ ·) f b) :
    (enum f b).map (fun k => index ((b.sub f).addScalar 1) (Position.sub k f)) =
      (List.range (enum f b).length).map fun i : Nat => (i : Int) := by
  have hl := h.length_eq
  have hp := (forall₂_le_iff hl).1 h
  have hlen := length_enum h
  generalize hs : (b.sub f).addScalar 1 = s at *
  have hsl : s.length = f.length := by
    rw [← hs]
    simp [Position.addScalar, Position.sub, hl]
  have e1 : f = Position.add (List.replicate s.length 0) f := by
    refine ext_getD (by simp [Position.add, hsl]) fun i hi => ?_
    rw [getD_add (by simp [hsl])]
    simp [List.getD_eq_getElem?_getD, List.getElem?_replicate]
    split <;> simp
  have e2 : b = Position.add (s.map (· - 1)) f := by
    refine ext_getD (by simp [Position.add, hsl, hl]) fun i hi => ?_
    rw [getD_add (by simp [hsl]), ← hs]
    have hi' : i < f.length := by omega
    simp [Position.addScalar, Position.sub, List.getD_eq_getElem?_getD, hi, hi']
  have e3 : enum f b = (enum (List.replicate s.length 0) (s.map (· - 1))).map fun k => Position.add k f := by
    conv_lhs => rw [e1, e2]
    exact enum_add (by simp) (by simpa using hsl)
  have e4 := domain_enum hp
  rw [e3, List.map_map, List.length_map]
  have e5 : (enum (List.replicate s.length 0) (s.map (· - 1))).length = s.prod.toNat := by
    have := congrArg List.length e4
    simpa using this
  rw [e5, ← e4]
  apply List.map_congr_left
  intro k hk
  have hk' := (inBox_domain.1 ((mem_enum (by simp)).1 hk)).length_eq
  simp only [Function.comp]
  congr 1
  refine ext_getD ?_ fun i hi => ?_
  · simp [Position.add, Position.sub, hsl, hk']
  · rw [getD_sub (by simp [Position.add, hsl, hk']), getD_add (by rw [hk', hsl])]
    ring

theorem enum_rank_getElem {f b : Position} (h : List.Forall₂ (· ≤ ·) f b) {j : Nat} (hj : j < (enum f b).length) :
    index ((b.sub f).addScalar 1) (Position.sub (enum f b)[j] f) = j := by
  have := congrArg (fun l => l[j]?) (enum_rank h)
  simpa [hj] using this

theorem enum_length_of_mem {f b k : Position} (hl : f.length = b.length) (h : k ∈ enum f b) : k.length = f.length :=
  ((mem_enum hl).1 h).1.length_eq.symm

/-! ## Sums -/

omit [Zero α] [Add α] [Mul α] in
theorem foldlM_fold {ι : Type} {l : List ι} {body : α → ι → Res α} {g : α → ι → α}
    (h : ∀ s, ∀ i ∈ l, body s i = .ok (g s i)) (s : α) : l.foldlM body s = .ok (l.foldl g s) := by
  induction l generalizing s with
  | nil => rfl
  | cons i l ih =>
    rw [List.foldlM_cons, h s i (by simp), ok_bind, List.foldl_cons]
    exact ih (fun s j hj => h s j (by simp [hj])) _

/-- The sum which is computed at an offset of the input, with the operations in order. -/
def rawFold (values : List α) (kWidth rows : Nat) (data : List α) (inWidth o : Int) : α :=
  (List.range rows).foldl (fun s (j : Nat) => (List.range kWidth).foldl (fun s (i : Nat) =>
    s + values.getD (j * kWidth + i) 0 * data.getD (o + j * inWidth + i).toNat 0) s) 0

omit [Add α] [Mul α] in
theorem readAt_getD {data : List α} {k : Int} (h0 : 0 ≤ k) (h1 : k < data.length) :
    readAt data k = .ok (data.getD k.toNat 0) := by
  rw [readAt_ok h0 h1]
  congr 1
  have : k.toNat < data.length := by omega
  simp [List.getD_eq_getElem?_getD, this]

/-- The offsets which are read when summing at offset `o`. -/
def ReadsIn (kWidth rows : Nat) (len : Nat) (inWidth o : Int) : Prop :=
  ∀ j i : Nat, j < rows → i < kWidth → 0 ≤ o + j * inWidth + i ∧ o + j * inWidth + i < len

namespace Kernel

theorem weightedSum_eq {values : List α} {kWidth rows : Nat} {data : List α} {inWidth o : Int}
    (hv : kWidth * rows ≤ values.length) (h : ReadsIn kWidth rows data.length inWidth o) :
    weightedSum values kWidth rows data inWidth o = .ok (rawFold values kWidth rows data inWidth o) := by
  unfold weightedSum rawFold
  rw [Int.toNat_natCast rows]
  refine foldlM_fold (fun s j hj => ?_) 0
  have hj : j < rows := by simpa using hj
  unfold innerProduct
  rw [Int.toNat_natCast]
  refine foldlM_fold (fun s i hi => ?_) s
  have hi : i < kWidth := by simpa using hi
  have h1 := h j i hj hi
  have h2 : j * kWidth + i < values.length := by
    have : (j + 1) * kWidth ≤ rows * kWidth := Nat.mul_le_mul_right _ hj
    have e : (j + 1) * kWidth = j * kWidth + kWidth := by ring
    have e' : rows * kWidth = kWidth * rows := by ring
    omega
  have e : ((j : Int) * (kWidth : Int) + (i : Int)) = ((j * kWidth + i : Nat) : Int) := by push_cast; ring
  rw [e, readAt_getD (by omega) (by exact_mod_cast h2), readAt_getD h1.1 h1.2, ok_bind, ok_bind]
  rfl

/-! ## Loops over rows -/

theorem row_loop {values : List α} {kWidth rows : Nat} {data : List α} {inWidth distance : Int}
    (hv : kWidth * rows ≤ values.length) (n : Nat) (out : List α) (q it : Int) (hq : 0 ≤ q) (hqn : q + n ≤ out.length)
    (h0 : 0 < n → ReadsIn kWidth rows data.length inWidth it)
    (h : ∀ t : Nat, 1 ≤ t → t < n → ReadsIn kWidth rows data.length inWidth (q + t - distance)) :
    ∃ o, (List.range n).foldlM (pixelStep values kWidth rows data inWidth distance) (out, q, it) =
        .ok (o, q + n, if n = 0 then it else q + n - distance) ∧ o.length = out.length ∧
      (0 < n → o[q.toNat]? = some (rawFold values kWidth rows data inWidth it)) ∧
      (∀ t : Nat, 1 ≤ t → t < n → o[(q + t).toNat]? = some (rawFold values kWidth rows data inWidth (q + t - distance))) ∧
      (∀ m : Nat, ¬ (q ≤ m ∧ (m : Int) < q + n) → o[m]? = out[m]?) := by
  induction n with
  | zero => exact ⟨out, by simp; rfl, rfl, by simp, by simp, by simp⟩
  | succ n ih =>
    obtain ⟨o, h1, h2, h3, h4, h5⟩ := ih (by omega) (fun hn => h0 (by omega)) fun t ht htn => h t ht (by omega)
    rw [List.range_succ, List.foldlM_append, h1, ok_bind, List.foldlM_cons]
    have hr : ReadsIn kWidth rows data.length inWidth (if n = 0 then it else q + n - distance) := by
      split
      · exact h0 (by omega)
      · exact h n (by omega) (by omega)
    unfold pixelStep
    simp only
    rw [weightedSum_eq hv hr, ok_bind, writeAt_ok (by omega) (by omega), ok_bind]
    have hqn' : (q + n).toNat < o.length := by omega
    refine ⟨o.set (q + n).toNat
      (rawFold values kWidth rows data inWidth (if n = 0 then it else q + n - distance)), ?_, by simpa using h2, ?_, ?_, ?_⟩
    rotate_left
    · intro _
      by_cases hn : n = 0
      · subst hn
        simp only [if_true, Nat.cast_zero, add_zero]
        rw [List.getElem?_set_self (by omega)]
      · rw [List.getElem?_set_ne (by omega), h3 (by omega)]
    · intro t ht htn
      by_cases hn : t = n
      · subst hn
        rw [List.getElem?_set_self (by omega), if_neg (by omega)]
      · rw [List.getElem?_set_ne (by omega), h4 t ht (by omega)]
    · intro m hm
      rw [List.getElem?_set_ne (by omega), h5 m (by omega)]
    · simp only [List.foldlM_nil, pure, Except.pure, bind, Except.bind]
      push_cast
      rw [add_assoc]

theorem rows_loop {values : List α} {kWidth rows : Nat} {data : List α} {inWidth distance : Int} {shape : Position}
    {n : Nat} (hn : 0 < n) (hv : kWidth * rows ≤ values.length) (out : List α) (l : List Position) (it : Int)
    (hgap : l.Pairwise fun a b => index shape a + n ≤ index shape b)
    (hb : ∀ p ∈ l, 0 ≤ index shape p ∧ index shape p + n ≤ out.length)
    (h0 : ∀ p c, ∀ i : Nat, l[i]? = some p → (it :: l.map fun a => index shape a + n - distance)[i]? = some c →
      ReadsIn kWidth rows data.length inWidth c)
    (h : ∀ p ∈ l, ∀ t : Nat, 1 ≤ t → t < n → ReadsIn kWidth rows data.length inWidth (index shape p + t - distance)) :
    ∃ o it', l.foldlM (rowStep values kWidth rows data inWidth distance n shape) (out, it) = .ok (o, it') ∧
      o.length = out.length ∧
      (∀ p c, ∀ i : Nat, l[i]? = some p → (it :: l.map fun a => index shape a + n - distance)[i]? = some c →
        o[(index shape p).toNat]? = some (rawFold values kWidth rows data inWidth c)) ∧
      (∀ p ∈ l, ∀ t : Nat, 1 ≤ t → t < n → o[(index shape p + t).toNat]? =
        some (rawFold values kWidth rows data inWidth (index shape p + t - distance))) ∧
      (∀ m : Nat, (∀ p ∈ l, ¬ (index shape p ≤ m ∧ (m : Int) < index shape p + n)) → o[m]? = out[m]?) := by
  induction l generalizing out it with
  | nil => exact ⟨out, it, rfl, rfl, by simp, by simp, by simp⟩
  | cons p l ih =>
    rw [List.pairwise_cons] at hgap
    obtain ⟨hp0, hp1⟩ := hb p (by simp)
    obtain ⟨o, r1, r2, r3, r4, r5⟩ := row_loop (values := values) (kWidth := kWidth) (rows := rows) (data := data)
      (inWidth := inWidth) (distance := distance) hv n out (index shape p) it hp0 hp1
      (fun _ => h0 p it 0 (by simp) (by simp)) (h p (by simp))
    rw [if_neg (by omega)] at r1
    obtain ⟨o', it', s1, s2, s3, s4, s5⟩ := ih o (index shape p + n - distance) hgap.2
      (fun q hq => by rw [r2]; exact hb q (by simp [hq]))
      (fun q c i hi hc => h0 q c (i + 1) (by simpa using hi) (by simpa using hc))
      (fun q hq => h q (by simp [hq]))
    refine ⟨o', it', ?_, by omega, ?_, ?_, ?_⟩
    · rw [List.foldlM_cons]
      unfold rowStep
      simp only [Int.toNat_natCast]
      rw [r1, ok_bind]
      exact s1
    · intro q c i hi hc
      cases i with
      | zero =>
        simp only [List.getElem?_cons_zero, Option.some.injEq] at hi hc
        subst hi hc
        rw [s5 _ fun a ha => by have := hgap.1 a ha; omega]
        exact r3 hn
      | succ i => exact s3 q c i (by simpa using hi) (by simpa using hc)
    · intro q hq t ht htn
      rcases List.mem_cons.1 hq with rfl | hq
      · rw [s5 _ fun a ha => by have := hgap.1 a ha; omega]
        exact r4 t ht htn
      · exact s4 q hq t ht htn
    · intro m hm
      rw [s5 m fun a ha => hm a (by simp [ha]), r5 m (hm p (by simp))]

/-! ## Geometry -/

theorem map_eq_range {β γ : Type _} (l : List β) (h : β → γ) (d : β) :
    l.map h = (List.range l.length).map fun j => h (l.getD j d) := by
  apply List.ext_getElem
  · simp
  · intro i h1 h2
    simp at h1
    simp [List.getD_eq_getElem?_getD, h1]

theorem pairwise_lt_getD : ∀ {l : List Int}, l.Pairwise (· < ·) → ∀ j, j < l.length → l.getD 0 0 + j ≤ l.getD j 0 := by
  intro l h j
  induction j with
  | zero => simp
  | succ j ih =>
    intro hj
    have h1 := ih (by omega)
    have h2 := List.pairwise_iff_getElem.1 h j (j + 1) (by omega) hj (by omega)
    simp only [List.getD_eq_getElem?_getD, List.getElem?_eq_getElem hj, List.getElem?_eq_getElem (show j < l.length by omega),
      Option.getD_some] at h1 ⊢
    push_cast
    omega

theorem enum_head {f b : Position} (h : List.Forall₂ (· ≤ ·) f b) : (enum f b)[0]? = some f := by
  induction h with
  | nil => rfl
  | @cons x y f b h1 h2 ih =>
    cases he : enum f b with
    | nil => rw [he] at ih; simp at ih
    | cons q l =>
      rw [he] at ih
      simp only [List.getElem?_cons_zero, Option.some.injEq] at ih
      subst ih
      rw [enum, he, ints_cons h1]
      simp

/-- A box of positions which are in the shape when added to `p`. -/
theorem inShape_add {s p f b k : Position} (hf : InShape s (p.add f)) (hb : InShape s (p.add b))
    (hpl : p.length = s.length) (hfl : f.length = s.length) (hbl : b.length = s.length) (hk : InBox f b k) :
    InShape s (p.add k) := by
  have h1 := inBox_iff.1 hk
  have hkl : k.length = s.length := by omega
  have h2 := forall₂_iff_getD.1 hf
  have h3 := forall₂_iff_getD.1 hb
  refine forall₂_iff_getD.2 ⟨by simp [Position.add, hpl, hkl], ?_⟩
  intro i hi
  have hi' : i < s.length := by simpa [Position.add, hpl, hkl] using hi
  have h4 := h2.2 i (by simpa [Position.add, hpl, hfl] using hi')
  have h5 := h3.2 i (by simpa [Position.add, hpl, hbl] using hi')
  have h6 := h1.2 i (by omega)
  rw [getD_add (by omega)] at h4 h5 ⊢
  omega

/-- Indices increase at least by 1 from row to row of the kernel. -/
theorem rows_index {s p f b : Position} (hle : List.Forall₂ (· ≤ ·) f b) (hf : InShape s (p.add f))
    (hb : InShape s (p.add b)) (hpl : p.length = s.length) (hfl : f.length = s.length) {j : Nat}
    (hj : j < (enum f b).length) : index s f + j ≤ index s ((enum f b).getD j []) := by
  have hbl : b.length = s.length := by rw [← hle.length_eq]; exact hfl
  have hin : ∀ k ∈ enum f b, InShape s (p.add k) := fun k hk =>
    inShape_add hf hb hpl hfl hbl ((mem_enum hle.length_eq).1 hk)
  have hkl : ∀ k ∈ enum f b, k.length = s.length := fun k hk => by
    rw [enum_length_of_mem hle.length_eq hk, hfl]
  have hpw : ((enum f b).map fun k => index s (p.add k)).Pairwise (· < ·) := by
    rw [List.pairwise_map]
    refine List.Pairwise.imp_of_mem ?_ pairwise_enum
    intro a c ha hc h
    refine index_lt_of_storageLt (hin a ha) (hin c hc) ?_
    have hla := hkl a ha
    have hlc := hkl c hc
    clear hin hkl hf hb hfl hbl ha hc
    induction h generalizing p s with
    | @tail x y a c _ ih =>
      cases p with
      | nil => simp at hpl hla; omega
      | cons z p =>
        cases s with
        | nil => simp at hla
        | cons s0 s =>
          exact StorageLt.tail (ih (s := s) (by simpa using hpl) (by simpa using hla) (by simpa using hlc))
    | @head x y a hxy =>
      cases p with
      | nil => simp at hpl hla; omega
      | cons z p => exact StorageLt.head (by simp only; omega)
  have h := pairwise_lt_getD hpw j (by simpa using hj)
  have h0 := enum_head hle
  have hj2 : (enum f b)[j] ∈ enum f b := List.getElem_mem hj
  simp only [List.getD_eq_getElem?_getD, List.getElem?_map, h0, Option.map_some, Option.getD_some,
    List.getElem?_eq_getElem hj] at h ⊢
  rw [index_add hpl hfl, index_add hpl (hkl _ hj2)] at h
  omega

/-- All reads are in the input when the window is. -/
theorem readsIn {s0 f0 b0 x : Int} {ss fs bs q : Position} {len : Nat}
    (hle : List.Forall₂ (· ≤ ·) (f0 :: fs) (b0 :: bs)) (hf : InShape (s0 :: ss) (Position.add (x :: q) (f0 :: fs)))
    (hb : InShape (s0 :: ss) (Position.add (x :: q) (b0 :: bs))) (hql : q.length = ss.length)
    (hfl : fs.length = ss.length) (hlen : (len : Int) = (s0 :: ss).prod) :
    ReadsIn (b0 - f0 + 1).toNat (enum fs bs).length len s0 (index (s0 :: ss) (x :: q) + index (s0 :: ss) (f0 :: fs)) := by
  intro j i hj hi
  cases hle with
  | cons h0 hle =>
    have hbl : bs.length = ss.length := by rw [← hle.length_eq]; exact hfl
    have hf' : InShape (s0 :: ss) ((x + f0) :: Position.add q fs) := hf
    have hb' : InShape (s0 :: ss) ((x + b0) :: Position.add q bs) := hb
    obtain ⟨g1, g2⟩ := inShape_cons.1 hf'
    obtain ⟨g3, g4⟩ := inShape_cons.1 hb'
    have hr := rows_index hle g2 g4 hql hfl hj
    have hjm : (enum fs bs).getD j [] ∈ enum fs bs := by
      simp [List.getD_eq_getElem?_getD, List.getElem?_eq_getElem hj]
    have hk := inShape_add g2 g4 hql hfl hbl ((mem_enum hle.length_eq).1 hjm)
    have hkl : ((enum fs bs).getD j []).length = ss.length := by
      rw [enum_length_of_mem hle.length_eq hjm, hfl]
    have hfull : InShape (s0 :: ss) ((x + (f0 + i)) :: Position.add q ((enum fs bs).getD j [])) :=
      inShape_cons.2 ⟨by omega, hk⟩
    have h1 := index_bounds hfull
    have h2 := index_bounds g2
    rw [index_cons (by rw [length_add (by omega)]; exact hql), index_add hql hkl] at h1
    rw [index_add hql hfl] at h2
    rw [index_cons hql, index_cons hfl]
    have hs0 : 0 ≤ s0 := by omega
    have h3 := mul_le_mul_of_nonneg_left hr hs0
    have h4 := mul_nonneg hs0 h2.1
    have h5 : (0 : Int) ≤ j * s0 := mul_nonneg (by omega) hs0
    constructor
    · nlinarith
    · rw [hlen]
      nlinarith

/-! ## The sum is the correlation -/

/-- The rows of the kernel are `inWidth` apart in the input. -/
def RowsContiguous (s f b : Position) : Prop :=
  ∀ j : Nat, j < (enum f.tail b.tail).length →
    index s.tail ((enum f.tail b.tail).getD j []) = index s.tail f.tail + j

omit [Add α] [Mul α] in
theorem kernelValue_rank {values : List α} {f b : Position} (h : List.Forall₂ (· ≤ ·) f b) {j : Nat}
    (hj : j < (enum f b).length) : kernelValue values f b (enum f b)[j] = values.getD j 0 := by
  have hl := h.length_eq
  have hk : ((enum f b)[j]).length = f.length := enum_length_of_mem hl (List.getElem_mem hj)
  unfold kernelValue
  have e : List.zipWith (fun b f => b - f + 1) b f = (b.sub f).addScalar 1 := by
    simp [Position.sub, Position.addScalar, List.map_zipWith]
  rw [e, ← index_eq_offset (by simp [Position.addScalar, Position.sub, hl, hk])]
  have := enum_rank_getElem h hj
  rw [show List.zipWith (fun x1 x2 => x1 - x2) (enum f b)[j] f = Position.sub (enum f b)[j] f from rfl, this]
  simp

omit [Add α] [Mul α] in
theorem kernelValue_row {values : List α} {f0 b0 : Int} {fs bs : Position}
    (h : List.Forall₂ (· ≤ ·) (f0 :: fs) (b0 :: bs)) {i j : Nat} (hj : j < (enum fs bs).length) :
    kernelValue values (f0 :: fs) (b0 :: bs) ((f0 + i) :: (enum fs bs).getD j []) =
      values.getD (j * (b0 - f0 + 1).toNat + i) 0 := by
  cases h with
  | cons h0 h =>
    have hl := h.length_eq
    have hg : (enum fs bs).getD j [] = (enum fs bs)[j] := by
      simp [List.getD_eq_getElem?_getD, List.getElem?_eq_getElem hj]
    have hk : ((enum fs bs)[j]).length = fs.length := enum_length_of_mem hl (List.getElem_mem hj)
    unfold kernelValue
    have e : List.zipWith (fun b f => b - f + 1) (b0 :: bs) (f0 :: fs) = (b0 - f0 + 1) :: (bs.sub fs).addScalar 1 := by
      simp [Position.sub, Position.addScalar, List.map_zipWith]
    rw [e, hg, List.zipWith_cons_cons,
      ← index_eq_offset (by simp [Position.addScalar, Position.sub, hl, hk]),
      index_cons (by simp [Position.addScalar, Position.sub, hl, hk])]
    have := enum_rank_getElem h hj
    rw [show List.zipWith (fun x1 x2 => x1 - x2) (enum fs bs)[j] fs = Position.sub (enum fs bs)[j] fs from rfl, this]
    congr 1
    have e2 : f0 + (i : Int) - f0 + (b0 - f0 + 1) * j = ((j * (b0 - f0 + 1).toNat + i : Nat) : Int) := by
      push_cast
      rw [Int.toNat_of_nonneg (by omega)]
      ring
    rw [e2, Int.toNat_natCast]

omit [Zero α] [Add α] [Mul α] in
theorem foldl_congr_left {ι : Type} {l : List ι} {f g : α → ι → α} (h : ∀ s, ∀ i ∈ l, f s i = g s i) {s : α} :
    l.foldl f s = l.foldl g s := by
  induction l generalizing s with
  | nil => rfl
  | cons i l ih =>
    rw [List.foldl_cons, List.foldl_cons, h s i (by simp)]
    exact ih fun s j hj => h s j (by simp [hj])

omit [Zero α] [Add α] [Mul α] in
theorem foldl_eq_range {ι : Type} (l : List ι) (f : α → ι → α) (d : ι) {s : α} :
    l.foldl f s = (List.range l.length).foldl (fun s j => f s (l.getD j d)) s := by
  have h := map_eq_range l id d
  rw [List.map_id] at h
  conv_lhs => rw [h]
  rw [List.foldl_map]
  rfl

theorem rawFold_correlation {values data : List α} {s0 f0 b0 x : Int} {ss fs bs q : Position} {F : Position → α}
    (hle : List.Forall₂ (· ≤ ·) (f0 :: fs) (b0 :: bs)) (hf : InShape (s0 :: ss) (Position.add (x :: q) (f0 :: fs)))
    (hb : InShape (s0 :: ss) (Position.add (x :: q) (b0 :: bs))) (hql : q.length = ss.length)
    (hfl : fs.length = ss.length)
    (hF : ∀ r, InShape (s0 :: ss) r → data.getD (index (s0 :: ss) r).toNat 0 = F r)
    (hc : RowsContiguous (s0 :: ss) (f0 :: fs) (b0 :: bs)) :
    rawFold values (b0 - f0 + 1).toNat (enum fs bs).length data s0
        (index (s0 :: ss) (x :: q) + index (s0 :: ss) (f0 :: fs)) =
      (enum (f0 :: fs) (b0 :: bs)).foldl (fun s j =>
        s + kernelValue values (f0 :: fs) (b0 :: bs) j * F (Position.add (x :: q) j)) 0 := by
  have hle' := hle
  cases hle with
  | cons h0 hle =>
    have hbl : bs.length = ss.length := by rw [← hle.length_eq]; exact hfl
    have hf' : InShape (s0 :: ss) ((x + f0) :: Position.add q fs) := hf
    have hb' : InShape (s0 :: ss) ((x + b0) :: Position.add q bs) := hb
    obtain ⟨g1, g2⟩ := inShape_cons.1 hf'
    obtain ⟨g3, g4⟩ := inShape_cons.1 hb'
    rw [enum, List.foldl_flatMap, foldl_eq_range (enum fs bs) _ []]
    unfold rawFold
    refine foldl_congr_left fun s j hj => ?_
    have hj : j < (enum fs bs).length := by simpa using hj
    have hjm : (enum fs bs).getD j [] ∈ enum fs bs := by
      simp [List.getD_eq_getElem?_getD, List.getElem?_eq_getElem hj]
    have hk := inShape_add g2 g4 hql hfl hbl ((mem_enum hle.length_eq).1 hjm)
    have hkl : ((enum fs bs).getD j []).length = ss.length := by
      rw [enum_length_of_mem hle.length_eq hjm, hfl]
    rw [ints_eq_map, List.map_map, List.foldl_map]
    refine foldl_congr_left fun s i hi => ?_
    have hi : i < (b0 - f0 + 1).toNat := by simpa using hi
    simp only [Function.comp]
    rw [kernelValue_row hle' hj]
    congr 2
    have hfull : InShape (s0 :: ss) (Position.add (x :: q) ((f0 + i) :: (enum fs bs).getD j [])) :=
      inShape_cons.2 ⟨by simp only; omega, hk⟩
    rw [← hF _ hfull, index_add (by simpa using hql) (by simpa using hkl), index_cons hfl, index_cons hkl]
    have := hc j hj
    simp only [List.tail_cons] at this
    rw [this]
    congr 2
    ring

theorem rowsContiguous_of_flat {s f b : Position} (hl : f.length = b.length) (hs : f.length = s.length)
    (hd : f.drop 2 = b.drop 2) : RowsContiguous s f b := by
  intro j hj
  cases f with
  | nil =>
    have : b = [] := by simpa using hl.symm
    subst this
    simp [enum] at hj
    subst hj
    have : s = [] := by simpa using hs.symm
    subst this
    simp [index]
  | cons f0 fs =>
    cases b with
    | nil => simp at hl
    | cons b0 bs =>
      cases s with
      | nil => simp at hs
      | cons s0 ss =>
        simp only [List.tail_cons] at hj ⊢
        cases fs with
        | nil =>
          have : bs = [] := by simpa using hl.symm
          subst this
          have : ss = [] := by simpa using hs.symm
          subst this
          simp [enum] at hj
          subst hj
          simp [index]
        | cons f1 fs =>
          cases bs with
          | nil => simp at hl
          | cons b1 bs =>
            cases ss with
            | nil => simp at hs
            | cons s1 ss =>
              simp only [List.drop_succ_cons, List.drop_zero] at hd
              subst hd
              have he : ∀ l : List Int, enum l l = [l] := by
                intro l
                induction l with
                | nil => rfl
                | cons y l ih => simp [enum, ih, ints]
              have hen : enum (f1 :: fs) (b1 :: fs) = (ints f1 b1).map (· :: fs) := by simp [enum, he]
              rw [hen] at hj ⊢
              have hj' : j < (b1 - f1 + 1).toNat := by simpa [ints] using hj
              have hfs : fs.length = ss.length := by simpa using hs
              have hg : ((ints f1 b1).map (· :: fs)).getD j [] = (f1 + j) :: fs := by
                simp [ints_eq_map, List.getD_eq_getElem?_getD, hj']
              rw [hg, index_cons hfs, index_cons hfs]
              ring

/-! ## Without extrapolation -/

/-- Consistent inputs and outputs: `F` is the extrapolated input. -/
structure Suitable (k : Kernel α) (input : Raster α) (extrapolator : Position → Res α) (F : Position → α)
    (out : List α) : Prop where
  dim : input.shape ≠ []
  pos : Pos input.shape
  front_length : k.window.front.length = input.shape.length
  back_length : k.window.back.length = input.shape.length
  nonempty : List.Forall₂ (· ≤ ·) k.window.front k.window.back
  values : (k.values.length : Int) = pixelCount k.window.shape
  data : (input.data.length : Int) = pixelCount input.shape
  out : (out.length : Int) = pixelCount input.shape
  inside : ∀ q, InShape input.shape q → input.get q = .ok (F q)
  extrapolated : ∀ q, q.length = input.shape.length → extrapolator q = .ok (F q)

/-- What the correlation requires, but for the agreement of the extrapolator and the raster inside the domain. -/
structure Prepared (k : Kernel α) (input : Raster α) (extrapolator : Position → Res α) (F : Position → α)
    (out : List α) : Prop where
  dim : input.shape ≠ []
  pos : Pos input.shape
  front_length : k.window.front.length = input.shape.length
  back_length : k.window.back.length = input.shape.length
  nonempty : List.Forall₂ (· ≤ ·) k.window.front k.window.back
  values : (k.values.length : Int) = pixelCount k.window.shape
  data : (input.data.length : Int) = pixelCount input.shape
  out : (out.length : Int) = pixelCount input.shape
  extrapolated : ∀ q, q.length = input.shape.length → extrapolator q = .ok (F q)

omit [Zero α] [Add α] [Mul α] in
theorem Suitable.prepared {k : Kernel α} {input : Raster α} {extrapolator : Position → Res α} {F : Position → α} {out : List α}
    (h : Suitable k input extrapolator F out) : Prepared k input extrapolator F out :=
  ⟨h.dim, h.pos, h.front_length, h.back_length, h.nonempty, h.values, h.data, h.out, h.extrapolated⟩

/-- The origin of the kernel is in the window. -/
def OriginInside (k : Kernel α) : Prop := (∀ x ∈ k.window.front, x ≤ 0) ∧ ∀ x ∈ k.window.back, 0 ≤ x

omit [Add α] [Mul α] in
theorem getD_of_inside {input : Raster α} {F : Position → α}
    (h : ∀ q, InShape input.shape q → input.get q = .ok (F q)) (q : Position) (hq : InShape input.shape q) :
    input.data.getD (index input.shape q).toNat 0 = F q := by
  have h1 := h q hq
  rw [Raster.get, readAt_eq_ok] at h1
  simp [List.getD_eq_getElem?_getD, h1.2]

/-- The box of positions which do not need extrapolation. -/
theorem mem_inner {s f b p : Position} (hfl : f.length = s.length) (hbl : b.length = s.length) :
    InBox ((Raster.domainOf s.length s).shrink ⟨f, b⟩).front ((Raster.domainOf s.length s).shrink ⟨f, b⟩).back p ↔
      p.length = s.length ∧ ∀ i, i < s.length → 0 ≤ p.getD i 0 + f.getD i 0 ∧ p.getD i 0 + b.getD i 0 < s.getD i 0 := by
  rw [domainOf_fixed]
  simp only [Box.shrink]
  rw [inBox_iff]
  rw [length_sub (by simp [hfl]), length_sub (by simp [hbl])]
  simp only [List.length_replicate, List.length_map]
  constructor
  · rintro ⟨⟨h1, h2⟩, h3⟩
    refine ⟨h2, fun i hi => ?_⟩
    have := h3 i (by omega)
    rw [getD_sub (by simp [hfl]), getD_sub (by simp [hbl])] at this
    simp [List.getD_eq_getElem?_getD, hi] at this ⊢
    omega
  · rintro ⟨h1, h2⟩
    refine ⟨⟨h1.symm, h1⟩, fun i hi => ?_⟩
    have := h2 i (by omega)
    rw [getD_sub (by simp [hfl]), getD_sub (by simp [hbl])]
    have hi' : i < s.length := by omega
    simp [List.getD_eq_getElem?_getD, hi'] at this ⊢
    omega

theorem inner_inShape {s f b p : Position} (hfl : f.length = s.length) (hbl : b.length = s.length)
    (hp : InBox ((Raster.domainOf s.length s).shrink ⟨f, b⟩).front ((Raster.domainOf s.length s).shrink ⟨f, b⟩).back p)
    (hle : List.Forall₂ (· ≤ ·) f b) : InShape s (p.add f) ∧ InShape s (p.add b) := by
  obtain ⟨h1, h2⟩ := (mem_inner hfl hbl).1 hp
  have h3 := forall₂_iff_getD.1 hle
  constructor
  · refine forall₂_iff_getD.2 ⟨by simp [Position.add, h1, hfl], fun i hi => ?_⟩
    have hi' : i < s.length := by simpa [Position.add, h1, hfl] using hi
    have := h2 i hi'
    have := h3.2 i (by omega)
    rw [getD_add (by omega)]
    omega
  · refine forall₂_iff_getD.2 ⟨by simp [Position.add, h1, hbl], fun i hi => ?_⟩
    have hi' : i < s.length := by simpa [Position.add, h1, hbl] using hi
    have := h2 i hi'
    have := h3.2 i (by omega)
    rw [getD_add (by omega)]
    omega

theorem inner_spec {k : Kernel α} {input : Raster α} {extrapolator : Position → Res α} {F : Position → α}
    {out : List α} (h : Prepared k input extrapolator F out) (ho : OriginInside k)
    (hne : List.Forall₂ (· ≤ ·) (input.domain.shrink k.window).front (input.domain.shrink k.window).back) :
    let inner := input.domain.shrink k.window
    let rows := enum inner.front (inner.project 0).back
    let sum := rawFold k.values (k.window.shape.getD 0 0).toNat
      (enum k.window.front.tail k.window.back.tail).length input.data (input.shape.getD 0 0)
    let first := index input.shape k.window.front
    ∃ o, innerRows k input inner rows out = .ok o ∧ o.length = out.length ∧
      (∀ p, InBox inner.front inner.back p → (p.getD 0 0 = inner.front.getD 0 0 → p = inner.front) →
        o[(index input.shape p).toNat]? = some (sum (index input.shape p + first))) ∧
      (∀ a b, ∀ i : Nat, rows[i]? = some a → rows[i + 1]? = some b →
        o[(index input.shape b).toNat]? = some (sum (index input.shape a + inner.shape.getD 0 0 + first))) ∧
      (∀ p, InShape input.shape p → ¬ InBox inner.front inner.back p →
        o[(index input.shape p).toNat]? = out[(index input.shape p).toNat]?) := by
  obtain ⟨vals, ⟨wf, wb⟩⟩ := k
  obtain ⟨s, data⟩ := input
  obtain ⟨hdim, hpos, hfl, hbl, hle, hval, hdata, hout, hext⟩ := h
  obtain ⟨ho1, ho2⟩ := ho
  simp only [Raster.domain] at *
  have hmem : ∀ p : Position, InBox ((Raster.domainOf s.length s).shrink ⟨wf, wb⟩).front
      ((Raster.domainOf s.length s).shrink ⟨wf, wb⟩).back p → InShape s (p.add wf) ∧ InShape s (p.add wb) :=
    fun p hp => inner_inShape hfl hbl hp hle
  cases s with
  | nil => exact absurd rfl hdim
  | cons s0 ss =>
    cases wf with
    | nil => simp at hfl
    | cons f0 fs =>
      cases wb with
      | nil => simp at hbl
      | cons b0 bs =>
        have hfl' : fs.length = ss.length := by simpa using hfl
        have hbl' : bs.length = ss.length := by simpa using hbl
        have hss : Pos ss := fun x hx => hpos x (by simp [hx])
        have hs0 : 0 < s0 := hpos s0 (by simp)
        have hf0 : f0 ≤ 0 := ho1 f0 (by simp)
        have hb0 : 0 ≤ b0 := ho2 b0 (by simp)
        obtain ⟨gs, hgs⟩ : ∃ gs, gs = Position.sub (List.replicate ss.length 0) fs := ⟨_, rfl⟩
        obtain ⟨hs, hhs⟩ : ∃ hs, hs = Position.sub (ss.map (· - 1)) bs := ⟨_, rfl⟩
        have hbox : (Raster.domainOf (s0 :: ss).length (s0 :: ss)).shrink ⟨f0 :: fs, b0 :: bs⟩ =
            ⟨(0 - f0) :: gs, (s0 - 1 - b0) :: hs⟩ := by
          rw [domainOf_fixed, hgs, hhs]; rfl
        rw [hbox] at hne hmem ⊢
        simp only [Box.project, List.getD_cons_zero, List.set_cons_zero, List.tail_cons, Box.shape, Position.sub,
          Position.addScalar, List.zipWith_cons_cons, List.map_cons] at hne hmem ⊢
        obtain ⟨n, hn⟩ : ∃ n : Nat, s0 - 1 - b0 - (0 - f0) + 1 = n := by
          have := (List.forall₂_cons.1 hne).1
          exact ⟨(s0 - 1 - b0 - (0 - f0) + 1).toNat, by omega⟩
        have hn0 : 0 < n := by
          have := (List.forall₂_cons.1 hne).1
          omega
        have hkw : ((b0 - f0 + 1).toNat : Int) = b0 - f0 + 1 := by
          have := (List.forall₂_cons.1 hle).1
          omega
        have hgl : gs.length = ss.length := by rw [hgs, length_sub (by simp [hfl'])]; simp
        have hhl : hs.length = ss.length := by rw [hhs, length_sub (by simp [hbl'])]; simp
        have hne' := (List.forall₂_cons.1 hne).2
        have hle' := (List.forall₂_cons.1 hle).2
        have hint : ints (0 - f0) (0 - f0) = [0 - f0] := by simp [ints]
        have hrows : enum ((0 - f0) :: gs) ((0 - f0) :: hs) = (enum gs hs).map ((0 - f0) :: ·) := by
          rw [enum, hint, List.map_eq_flatMap]
          rfl
        have hfirst : index (s0 :: ss) ((0 - f0) :: gs) = - index (s0 :: ss) (f0 :: fs) := by
          have e : Position.add ((0 - f0) :: gs) (f0 :: fs) = List.replicate (s0 :: ss).length 0 := by
            have hgs' : Position.add gs fs = List.replicate ss.length 0 := by
              rw [hgs]
              exact add_sub_cancel'' (by simp [hfl'])
            simp only [Position.add] at hgs' ⊢
            simp [List.replicate_succ, hgs']
          have h1 := index_add (s := s0 :: ss) (p := (0 - f0) :: gs) (q := f0 :: fs) (by simp [hgl]) hfl
          rw [e, index_zeros _ _ rfl] at h1
          omega
        -- Rows are in the domain
        have hin : ∀ q ∈ enum gs hs, ∀ x, 0 - f0 ≤ x → x ≤ s0 - 1 - b0 →
            InBox ((0 - f0) :: gs) ((s0 - 1 - b0) :: hs) (x :: q) := by
          intro q hq x h1 h2
          have := (mem_enum hne'.length_eq).1 hq
          exact ⟨.cons h1 this.1, .cons h2 this.2⟩
        have hql : ∀ q ∈ enum gs hs, q.length = ss.length := fun q hq => by
          rw [enum_length_of_mem hne'.length_eq hq, hgl]
        have hshape : ∀ q ∈ enum gs hs, ∀ x, 0 - f0 ≤ x → x ≤ s0 - 1 - b0 → InShape (s0 :: ss) (x :: q) := by
          intro q hq x h1 h2
          have hx := hin q hq x h1 h2
          have := (mem_inner (s := s0 :: ss) hfl hbl).1 (by rw [hbox]; exact hx)
          refine forall₂_iff_getD.2 ⟨this.1, fun i hi => ?_⟩
          have h3 := this.2 i (by omega)
          have hif : i < (f0 :: fs).length := by omega
          have hib : i < (b0 :: bs).length := by omega
          have h4 := ho1 _ (List.getElem_mem hif)
          have h5 := ho2 _ (List.getElem_mem hib)
          have e1 : (f0 :: fs).getD i 0 = (f0 :: fs)[i] := by
            simp [List.getD_eq_getElem?_getD, List.getElem?_eq_getElem hif]
          have e2 : (b0 :: bs).getD i 0 = (b0 :: bs)[i] := by
            simp [List.getD_eq_getElem?_getD, List.getElem?_eq_getElem hib]
          omega
        have hreads : ∀ q ∈ enum gs hs, ∀ x, 0 - f0 ≤ x → x ≤ s0 - 1 - b0 →
            ReadsIn (b0 - f0 + 1).toNat (enum fs bs).length data.length s0
              (index (s0 :: ss) (x :: q) + index (s0 :: ss) (f0 :: fs)) := by
          intro q hq x h1 h2
          have := hmem _ (hin q hq x h1 h2)
          exact readsIn hle this.1 this.2 (hql q hq) hfl' hdata
        -- Gap
        have hpw : (enum gs hs).Pairwise fun a b => index ss a + 1 ≤ index ss b := by
          refine List.Pairwise.imp_of_mem ?_ pairwise_enum
          intro a b ha hb hab
          have h1 := (inShape_cons.1 (hshape a ha (0 - f0) le_rfl (by omega))).2
          have h2 := (inShape_cons.1 (hshape b hb (0 - f0) le_rfl (by omega))).2
          have := index_lt_of_storageLt h1 h2 hab
          omega
        have hgap : ((enum gs hs).map ((0 - f0) :: ·)).Pairwise fun a b =>
            index (s0 :: ss) a + s0 ≤ index (s0 :: ss) b := by
          rw [List.pairwise_map]
          refine List.Pairwise.imp_of_mem ?_ hpw
          intro a b ha hb hab
          rw [index_cons (hql a ha), index_cons (hql b hb)]
          have := mul_le_mul_of_nonneg_left hab hs0.le
          linarith
        have hvals : (b0 - f0 + 1).toNat * (enum fs bs).length ≤ vals.length := by
          have h1 := length_enum hle'
          have h2 : ((b0 - f0 + 1).toNat * (enum fs bs).length : Int) = vals.length := by
            rw [hval, h1, hkw]
            simp [pixelCount, Box.shape, Position.sub, Position.addScalar]
          exact_mod_cast h2.le
        obtain ⟨o, it', r1, r2, r3, r4, r5⟩ := rows_loop (values := vals) (kWidth := (b0 - f0 + 1).toNat)
          (rows := (enum fs bs).length) (data := data) (inWidth := s0)
          (distance := index (s0 :: ss) ((0 - f0) :: gs)) (shape := s0 :: ss) hn0 hvals out
          ((enum gs hs).map ((0 - f0) :: ·)) 0 (hgap.imp fun h => by omega)
          (by
            intro p hp
            obtain ⟨q, hq, rfl⟩ := List.mem_map.1 hp
            have h1 := index_bounds (hshape q hq (0 - f0) le_rfl (by omega))
            have h2 := index_bounds (hshape q hq (s0 - 1 - b0) (by omega) le_rfl)
            rw [index_cons (hql q hq)] at h1 h2 ⊢
            unfold pixelCount at hout
            omega)
          (by
            intro p c i hi hc
            have hpm := List.mem_of_getElem? hi
            obtain ⟨q, hq, rfl⟩ := List.mem_map.1 hpm
            have hr := hreads q hq (0 - f0) le_rfl (by omega)
            cases i with
            | zero =>
              have h0 := enum_head hne'
              simp only [List.getElem?_map, h0, Option.map_some, Option.some.injEq, List.cons.injEq, true_and,
                List.getElem?_cons_zero] at hi hc
              subst hi hc
              rw [hfirst] at hr
              simpa using hr
            | succ i =>
              rw [List.getElem?_cons_succ, List.getElem?_map, Option.map_eq_some_iff] at hc
              obtain ⟨a, ha, rfl⟩ := hc
              obtain ⟨hlt, ha'⟩ := List.getElem?_eq_some_iff.1 ha
              obtain ⟨hlt2, hi'⟩ := List.getElem?_eq_some_iff.1 hi
              have hg := List.pairwise_iff_getElem.1 hgap i (i + 1) hlt hlt2 (by omega)
              rw [ha', hi'] at hg
              obtain ⟨q', hq', rfl⟩ := List.mem_map.1 (List.mem_of_getElem? ha)
              have hr' := hreads q' hq' (0 - f0) le_rfl (by omega)
              intro j t hj ht
              have g1 := hr j t hj ht
              have g2 := hr' j t hj ht
              rw [hfirst]
              omega)
          (by
            intro p hp t ht htn
            obtain ⟨q, hq, rfl⟩ := List.mem_map.1 hp
            have hr := hreads q hq (0 - f0 + t) (by omega) (by omega)
            rw [hfirst]
            rw [index_cons (hql q hq)] at hr ⊢
            have e : 0 - f0 + (t : Int) + s0 * index ss q + index (s0 :: ss) (f0 :: fs) =
              0 - f0 + s0 * index ss q + t - -index (s0 :: ss) (f0 :: fs) := by ring
            rwa [e] at hr)
        have hsize : (Box.size ⟨f0 :: fs, b0 :: bs⟩).tdiv (b0 - f0 + 1) = (enum fs bs).length := by
          have h1 := length_enum hle'
          rw [Box.size, shapeSize_eq (Box.shape_ne_nil hle.length_eq (by simp))]
          have e : (Box.shape ⟨f0 :: fs, b0 :: bs⟩).prod = (b0 - f0 + 1) * ((Position.sub bs fs).addScalar 1 : List Int).prod := by
            simp [Box.shape, Position.sub, Position.addScalar]
          have := (List.forall₂_cons.1 hle).1
          rw [e, Int.mul_tdiv_cancel_left _ (by omega), h1]
        refine ⟨o, ?_, r2, ?_, ?_, ?_⟩
        · unfold innerRows
          simp only [Box.shape, Position.sub, Position.addScalar, List.zipWith_cons_cons, List.map_cons,
            List.getD_cons_zero]
          have := (List.forall₂_cons.1 hle).1
          rw [if_neg (by omega), hsize, hn, hrows]
          rw [hkw] at r1
          rw [r1]
          rfl
        · rintro p hp hstart
          cases p with
          | nil => simp [InBox] at hp
          | cons x q =>
            have hx := (List.forall₂_cons.1 hp.1)
            have hx' := (List.forall₂_cons.1 hp.2)
            have hq : q ∈ enum gs hs := (mem_enum hne'.length_eq).2 ⟨hx.2, hx'.2⟩
            simp only [List.getD_cons_zero] at hstart
            by_cases hx0 : x = 0 - f0
            · have := hstart hx0
              rw [this]
              have h0 := enum_head hne'
              have := r3 ((0 - f0) :: gs) 0 0 (by simp [List.getElem?_map, h0]) (by simp)
              rw [this, hfirst]
              simp
            · have h1 := r4 ((0 - f0) :: q) (List.mem_map.2 ⟨q, hq, rfl⟩) (x - (0 - f0)).toNat (by omega) (by omega)
              rw [hfirst, index_cons (hql q hq)] at h1
              rw [index_cons (hql q hq)]
              have e : 0 - f0 + s0 * index ss q + ((x - (0 - f0)).toNat : Int) = x + s0 * index ss q := by omega
              rw [e, sub_neg_eq_add] at h1
              exact h1
        · intro a b i ha hb
          rw [hrows] at ha hb
          have h1 := r3 b (index (s0 :: ss) a + n - index (s0 :: ss) ((0 - f0) :: gs)) (i + 1) hb (by
            rw [List.getElem?_cons_succ, List.getElem?_map, ha]
            rfl)
          rw [h1, hfirst, hn, sub_neg_eq_add]
        · intro p hp hnot
          have hb := index_bounds hp
          apply r5
          intro a ha hcontra
          obtain ⟨q, hq, rfl⟩ := List.mem_map.1 ha
          rw [Int.toNat_of_nonneg hb.1, index_cons (hql q hq)] at hcontra
          cases p with
          | nil => simp [InShape] at hp
          | cons x p =>
            have hpl : p.length = ss.length := by simpa using hp.length_eq
            have hx := (inShape_cons.1 hp).1
            have h1 := (inShape_cons.1 (hshape q hq (0 - f0) le_rfl (by omega))).1
            have h2 := (inShape_cons.1 (hshape q hq (s0 - 1 - b0) (by omega) le_rfl)).1
            obtain ⟨t, ht⟩ : ∃ t, t = x + s0 * index ss p - (0 - f0 + s0 * index ss q) := ⟨_, rfl⟩
            rw [index_cons hpl] at hcontra
            have e := index_inj (p := x :: p) (q := (0 - f0 + t) :: q) hp
              (hshape q hq (0 - f0 + t) (by omega) (by omega)) (by
                rw [index_cons hpl, index_cons (hql q hq)]; omega)
            refine hnot ?_
            rw [e]
            exact hin q hq _ (by omega) (by omega)

/-! ## With extrapolation -/

/-- The correlation, with the operations in storage order. -/
def corrFold (k : Kernel α) (F : Position → α) (p : Position) : α :=
  (enum k.window.front k.window.back).foldl (fun s j =>
    s + kernelValue k.values k.window.front k.window.back j * F (Position.add p j)) 0

theorem outerStep_eq {k : Kernel α} {input : Raster α} {extrapolator : Position → Res α} {F : Position → α}
    {out : List α} (h : Prepared k input extrapolator F out) (o : List α) (p : Position)
    (hp : p.length = input.shape.length) :
    outerStep k extrapolator input.shape o (p, enum (k.window.shift p).front (k.window.shift p).back) =
      writeAt o (index input.shape p) (corrFold k F p) := by
  have hlen := length_enum h.nonempty
  have hv : k.values.length = (enum k.window.front k.window.back).length := by
    have e := h.values
    unfold pixelCount Box.shape at e
    omega
  have he : enum (k.window.shift p).front (k.window.shift p).back =
      (enum k.window.front k.window.back).map fun j => Position.add j p := by
    simp only [Box.shift]
    exact enum_add h.nonempty.length_eq (by rw [h.front_length, hp])
  have hm : ((enum k.window.front k.window.back).map fun j => Position.add j p).mapM extrapolator =
      .ok ((enum k.window.front k.window.back).map fun j => F (Position.add p j)) := by
    have key : ∀ l : List Position, (∀ j ∈ l, j.length = p.length) →
        (l.map fun j => Position.add j p).mapM extrapolator = .ok (l.map fun j => F (Position.add p j)) := by
      intro l
      induction l with
      | nil => intro _; rfl
      | cons j l ih =>
        intro hl
        have hj : j.length = p.length := hl j (by simp)
        have e : Position.add j p = Position.add p j := by
          unfold Position.add
          rw [List.zipWith_comm]
          congr 1
          funext a b
          exact add_comm _ _
        rw [List.map_cons, List.mapM_cons, h.extrapolated _ (by rw [length_add hj]; omega), ok_bind,
          ih fun j' hj' => hl j' (by simp [hj']), ok_bind, e]
        rfl
    exact key _ fun j hj => by rw [enum_length_of_mem h.nonempty.length_eq hj, h.front_length, hp]
  unfold outerStep
  simp only
  rw [he, hm, ok_bind, if_neg (by simp [hv])]
  congr 1
  unfold corrFold
  rw [← List.foldl_map (f := fun j => kernelValue k.values k.window.front k.window.back j * F (Position.add p j))
    (g := fun s x => s + x)]
  congr 1
  apply List.ext_getElem
  · simp [hv]
  · intro i h1 h2
    have hi : i < (enum k.window.front k.window.back).length := by simpa using h2
    simp only [List.getElem_zipWith, List.getElem_map]
    rw [kernelValue_rank h.nonempty hi, List.getElem_append_left (by simpa using hi)]
    simp [List.getD_eq_getElem?_getD, hv, hi]

omit [Zero α] [Add α] [Mul α] in
theorem write_loop {shape : Position} {c : Position → α} {step : List α → Position × List Position → Res (List α)}
    (l : List (Position × List Position))
    (hstep : ∀ o, ∀ pw ∈ l, step o pw = writeAt o (index shape pw.1) (c pw.1))
    (hl : ∀ pw ∈ l, InShape shape pw.1) (out : List α) (hout : (out.length : Int) = pixelCount shape) :
    ∃ o, l.foldlM step out = .ok o ∧ o.length = out.length ∧
      (∀ pw ∈ l, o[(index shape pw.1).toNat]? = some (c pw.1)) ∧
      (∀ p, InShape shape p → (∀ pw ∈ l, pw.1 ≠ p) → o[(index shape p).toNat]? = out[(index shape p).toNat]?) := by
  induction l generalizing out with
  | nil => exact ⟨out, rfl, rfl, by simp, by simp⟩
  | cons pw l ih =>
    have hb := index_bounds (hl pw (by simp))
    unfold pixelCount at hout
    have hw : step out pw = .ok (out.set (index shape pw.1).toNat (c pw.1)) := by
      rw [hstep out pw (by simp), writeAt_ok hb.1 (by omega)]
    obtain ⟨o, h1, h2, h3, h4⟩ := ih (fun o pw' h => hstep o pw' (by simp [h])) (fun pw' h => hl pw' (by simp [h]))
      (out.set (index shape pw.1).toNat (c pw.1)) (by simpa [pixelCount] using hout)
    refine ⟨o, by rw [List.foldlM_cons, hw, ok_bind, h1], by simpa using h2, ?_, ?_⟩
    · intro pw' hpw'
      by_cases hex : ∃ q ∈ l, q.1 = pw'.1
      · obtain ⟨q, hq, e⟩ := hex
        rw [← e]
        exact h3 q hq
      · rcases List.mem_cons.1 hpw' with rfl | hm
        · rw [h4 _ (hl _ (by simp)) fun q hq e => hex ⟨q, hq, e⟩, List.getElem?_set_self (by omega)]
        · exact absurd ⟨pw', hm, rfl⟩ hex
    · intro p hp hne
      rw [h4 p hp fun q hq => hne q (by simp [hq]), List.getElem?_set_ne]
      intro e
      have hb' := index_bounds hp
      exact hne pw (by simp) (index_inj (hl pw (by simp)) hp (by omega))

theorem nonempty_of_size {c : Box} {n : Nat} (hn : n ≠ 0) (hf : Fits n 1 c) (hs : c.size ≠ 0) :
    List.Forall₂ (· ≤ ·) c.front c.back := by
  obtain ⟨h1, h2, h3⟩ := hf
  have hl : c.front.length = c.back.length := by omega
  have hne : c.front ≠ [] := by intro h; rw [h] at h1; simp at h1; omega
  rw [Box.size, shapeSize_eq (Box.shape_ne_nil hl hne)] at hs
  have h0 : (0 : Int) ∉ c.shape := fun h => hs (List.prod_eq_zero h)
  refine forall₂_iff_getD.2 ⟨hl, fun i hi => ?_⟩
  have h4 := h3 i (by omega)
  by_contra hgt
  apply h0
  have hi2 : i < c.back.length := by omega
  have e1 : c.front.getD i 0 = c.front[i] := by simp [List.getD_eq_getElem?_getD, List.getElem?_eq_getElem hi]
  have e2 : c.back.getD i 0 = c.back[i] := by simp [List.getD_eq_getElem?_getD, List.getElem?_eq_getElem hi2]
  refine List.mem_iff_getElem.2 ⟨i, by simp [Box.shape, Position.sub, Position.addScalar]; omega, ?_⟩
  simp only [Box.shape, Position.sub, Position.addScalar, List.getElem_map, List.getElem_zipWith]
  omega

theorem empty_of_size {c : Box} {n : Nat} (hn : n ≠ 0) (h1 : c.front.length = n) (h2 : c.back.length = n)
    (hs : c.size = 0) (p : Position) : ¬ InBox c.front c.back p := by
  intro hp
  have hl : c.front.length = c.back.length := by omega
  have hne : c.front ≠ [] := by intro h; rw [h] at h1; simp at h1; omega
  rw [Box.size, shapeSize_eq (Box.shape_ne_nil hl hne)] at hs
  have h0 : (0 : Int) ∈ c.shape := List.prod_eq_zero_iff.1 hs
  have := (forall₂_le_iff hl).1 (forall₂_le_trans hp.1 hp.2)
  have := this 0 h0
  omega

omit [Zero α] [Add α] [Mul α] in
theorem forall₂_visits_unique {k : Kernel α} {l : List Position} {ws ws' : List (List Position)}
    (h : List.Forall₂ (fun p w => BoxIterator.Visits (k.window.shift p) w) l ws)
    (h' : List.Forall₂ (fun p w => BoxIterator.Visits (k.window.shift p) w) l ws') : ws = ws' := by
  induction h generalizing ws' with
  | nil => cases h'; rfl
  | cons hw _ ih =>
    cases h' with
    | cons hw' ht' => rw [LoopTrace.unique hw hw', ih ht']

theorem outer_spec {k : Kernel α} {input : Raster α} {extrapolator : Position → Res α} {F : Position → α}
    {out : List α} (h : Prepared k input extrapolator F out) {c : Box} (hc : Fits input.shape.length 1 c)
    (hin : ∀ p, InBox c.front c.back p → InShape input.shape p) (o : List α) (ho : o.length = out.length) :
    ∃ o', (∀ res, Outer k extrapolator input.shape c o res ↔ res = .ok o') ∧ o'.length = o.length ∧
      (∀ p, InBox c.front c.back p → o'[(index input.shape p).toNat]? = some (corrFold k F p)) ∧
      (∀ p, InShape input.shape p → ¬ InBox c.front c.back p →
        o'[(index input.shape p).toNat]? = o[(index input.shape p).toNat]?) := by
  have hn : input.shape.length ≠ 0 := by simpa using h.dim
  by_cases hs : c.size = 0
  · refine ⟨o, fun res => ?_, rfl, fun p hp => absurd hp (empty_of_size hn hc.1 hc.2.1 hs p), fun p _ _ => rfl⟩
    simp [Outer, hs]
  · have hle := nonempty_of_size hn hc hs
    have hcf : c.front ≠ [] := by
      intro e
      have := hc.1
      rw [e] at this
      simp at this
      omega
    have hv := BoxIterator.visits_enum hcf hle
    have hlen : ∀ p ∈ enum c.front c.back, p.length = input.shape.length := fun p hp => by
      rw [enum_length_of_mem hle.length_eq hp, hc.1]
    have hws : List.Forall₂ (fun p w => BoxIterator.Visits (k.window.shift p) w) (enum c.front c.back)
        ((enum c.front c.back).map fun p => enum (k.window.shift p).front (k.window.shift p).back) := by
      rw [List.forall₂_map_right_iff, List.forall₂_same]
      intro p hp
      have hpl := hlen p hp
      refine BoxIterator.visits_enum ?_ ?_
      · simp only [Box.shift]
        intro e
        have := congrArg List.length e
        rw [length_add (by rw [h.front_length, hpl]), h.front_length] at this
        exact hn (by simpa using this)
      · have h1 := forall₂_iff_getD.1 h.nonempty
        have hfl := h.front_length
        have hbl := h.back_length
        simp only [Box.shift]
        refine forall₂_iff_getD.2 ⟨by rw [length_add (by omega), length_add (by omega)]; exact h1.1, fun i hi => ?_⟩
        rw [length_add (by omega)] at hi
        rw [getD_add (by omega), getD_add (by omega)]
        have := h1.2 i hi
        omega
    have hzip : (enum c.front c.back).zip
        ((enum c.front c.back).map fun p => enum (k.window.shift p).front (k.window.shift p).back) =
        (enum c.front c.back).map fun p => (p, enum (k.window.shift p).front (k.window.shift p).back) := by
      generalize enum c.front c.back = l
      induction l with
      | nil => rfl
      | cons a l ih => simp [ih]
    obtain ⟨o', h1, h2, h3, h4⟩ := write_loop (shape := input.shape) (c := corrFold k F)
      (step := outerStep k extrapolator input.shape)
      ((enum c.front c.back).map fun p => (p, enum (k.window.shift p).front (k.window.shift p).back))
      (by
        intro o pw hpw
        obtain ⟨p, hp, rfl⟩ := List.mem_map.1 hpw
        exact outerStep_eq h o p (hlen p hp))
      (by
        intro pw hpw
        obtain ⟨p, hp, rfl⟩ := List.mem_map.1 hpw
        exact hin p ((mem_enum hle.length_eq).1 hp)) o (by rw [ho]; exact h.out)
    refine ⟨o', fun res => ?_, h2, ?_, ?_⟩
    · unfold Outer
      simp only [hs, false_and, false_or, ne_eq, not_false_eq_true, true_and]
      constructor
      · rintro ⟨l, ws, g1, g2, rfl⟩
        have e1 := LoopTrace.unique g1 hv
        subst e1
        have e2 := forall₂_visits_unique g2 hws
        subst e2
        rw [hzip, h1]
      · rintro rfl
        exact ⟨_, _, hv, hws, by rw [hzip, h1]⟩
    · intro p hp
      exact h3 (p, _) (List.mem_map.2 ⟨p, (mem_enum hle.length_eq).2 hp, rfl⟩)
    · intro p hp hnot
      refine h4 p hp ?_
      intro pw hpw e
      obtain ⟨q, hq, rfl⟩ := List.mem_map.1 hpw
      simp only at e
      subst e
      exact hnot ((mem_enum hle.length_eq).1 hq)

theorem outers_spec {k : Kernel α} {input : Raster α} {extrapolator : Position → Res α} {F : Position → α}
    {out : List α} (h : Prepared k input extrapolator F out) (cs : List Box)
    (hc : ∀ c ∈ cs, Fits input.shape.length 1 c)
    (hin : ∀ c ∈ cs, ∀ p, InBox c.front c.back p → InShape input.shape p) (o : List α) (ho : o.length = out.length) :
    ∃ o', (∀ res, Outers k extrapolator input.shape cs o res ↔ res = .ok o') ∧ o'.length = o.length ∧
      (∀ c ∈ cs, ∀ p, InBox c.front c.back p → o'[(index input.shape p).toNat]? = some (corrFold k F p)) ∧
      (∀ p, InShape input.shape p → (∀ c ∈ cs, ¬ InBox c.front c.back p) →
        o'[(index input.shape p).toNat]? = o[(index input.shape p).toNat]?) := by
  induction cs generalizing o with
  | nil =>
    refine ⟨o, fun res => ⟨?_, ?_⟩, rfl, by simp, by simp⟩
    · intro hr; cases hr; rfl
    · rintro rfl; exact .done
  | cons c cs ih =>
    obtain ⟨o1, g1, g2, g3, g4⟩ := outer_spec h (hc c (by simp)) (hin c (by simp)) o ho
    obtain ⟨o2, k1, k2, k3, k4⟩ := ih (fun d hd => hc d (by simp [hd])) (fun d hd => hin d (by simp [hd])) o1
      (by omega)
    refine ⟨o2, fun res => ⟨?_, ?_⟩, by omega, ?_, ?_⟩
    · intro hr
      cases hr with
      | fail hf =>
        have := (g1 _).1 hf
        simp at this
      | next hf hr =>
        have := (g1 _).1 hf
        simp only [Except.ok.injEq] at this
        subst this
        exact (k1 _).1 hr
    · intro e
      exact .next ((g1 _).2 rfl) ((k1 _).2 e)
    · intro d hd p hp
      by_cases hex : ∃ d' ∈ cs, InBox d'.front d'.back p
      · obtain ⟨d', hd', hp'⟩ := hex
        exact k3 d' hd' p hp'
      · rcases List.mem_cons.1 hd with rfl | hm
        · rw [k4 p (hin _ (by simp) p hp) fun d' hd' hp' => hex ⟨d', hd', hp'⟩]
          exact g3 p hp
        · exact absurd ⟨d, hm, hp⟩ hex
    · intro p hp hnot
      rw [k4 p hp fun d hd => hnot d (by simp [hd]), g4 p hp (hnot c (by simp))]

/-- On every axis, the window is at most one pixel longer than the raster. -/
def WindowFits (k : Kernel α) (shape : Position) : Prop :=
  ∀ i, i < shape.length → k.window.back.getD i 0 - k.window.front.getD i 0 ≤ shape.getD i 0

theorem correlates_fold {k : Kernel α} {input : Raster α} {extrapolator : Position → Res α} {F : Position → α}
    {out : List α} (h : Prepared k input extrapolator F out) (ho : OriginInside k)
    (hw : WindowFits k input.shape) :
    let inner := input.domain.shrink k.window
    let rows := enum inner.front (inner.project 0).back
    let sum := rawFold k.values (k.window.shape.getD 0 0).toNat
      (enum k.window.front.tail k.window.back.tail).length input.data (input.shape.getD 0 0)
    let first := index input.shape k.window.front
    ∃ o, (∀ res, Correlates k input extrapolator out res ↔ res = .ok o) ∧ o.length = out.length ∧
      (∀ p, InShape input.shape p → ¬ InBox inner.front inner.back p →
        o[(index input.shape p).toNat]? = some (corrFold k F p)) ∧
      (∀ p, InBox inner.front inner.back p → (p.getD 0 0 = inner.front.getD 0 0 → p = inner.front) →
        o[(index input.shape p).toNat]? = some (sum (index input.shape p + first))) ∧
      (∀ a b, ∀ i : Nat, rows[i]? = some a → rows[i + 1]? = some b → InBox inner.front inner.back b →
        o[(index input.shape b).toNat]? = some (sum (index input.shape a + inner.shape.getD 0 0 + first))) := by
  intro inner rows sum first
  have hn : input.shape.length ≠ 0 := by simpa using h.dim
  have hfl := h.front_length
  have hbl := h.back_length
  have hdom : input.domain = Raster.domainOf input.shape.length input.shape := rfl
  have hdf : input.domain.front.length = input.shape.length := by rw [hdom, domainOf_fixed]; simp
  have hdb : input.domain.back.length = input.shape.length := by rw [hdom, domainOf_fixed]; simp
  have hif : inner.front.length = input.shape.length := by
    show (Position.sub _ _).length = _
    rw [length_sub (by omega)]; exact hdf
  have hib : inner.back.length = input.shape.length := by
    show (Position.sub _ _).length = _
    rw [length_sub (by omega)]; exact hdb
  have hfits : Fits input.shape.length 1 inner := by
    refine ⟨hif, hib, fun j hj => ?_⟩
    have := hw j hj
    show (Position.sub _ _).getD j 0 ≤ (Position.sub _ _).getD j 0 + 1
    rw [getD_sub (by omega), getD_sub (by omega), hdom, domainOf_fixed]
    simp [List.getD_eq_getElem?_getD, hj] at this ⊢
    omega
  have hsub : ∀ p, InBox inner.front inner.back p → InShape input.shape p := by
    intro p hp
    obtain ⟨h1, h2⟩ := (mem_inner hfl hbl).1 hp
    refine forall₂_iff_getD.2 ⟨h1, fun i hi => ?_⟩
    have hi' : i < input.shape.length := by omega
    have := h2 i hi'
    have hif' : i < k.window.front.length := by omega
    have hib' : i < k.window.back.length := by omega
    have h3 := ho.1 _ (List.getElem_mem hif')
    have h4 := ho.2 _ (List.getElem_mem hib')
    have e1 : k.window.front.getD i 0 = k.window.front[i] := by
      simp [List.getD_eq_getElem?_getD, List.getElem?_eq_getElem hif']
    have e2 : k.window.back.getD i 0 = k.window.back[i] := by
      simp [List.getD_eq_getElem?_getD, List.getElem?_eq_getElem hib']
    omega
  obtain ⟨hpart, _⟩ := surround_part (d := 1) (by omega) inner k.window (by omega) (by omega) (by omega)
    (by intro j hj; exact hfits.2.2 j (by omega)) ho.1 ho.2
  have hgrow : inner.grow k.window = input.domain :=
    (C10_grow_shrink input.domain k.window input.shape (by omega) (by omega) (by omega) hdf.symm).2.1
  rw [hgrow] at hpart
  have hInDom : ∀ p, InBox input.domain.front input.domain.back p ↔ InShape input.shape p := fun p => by
    rw [hdom, domainOf_fixed]; exact inBox_domain
  have hsplit : ∀ p, InShape input.shape p → ¬ InBox inner.front inner.back p →
      ∃ c ∈ inner.surround k.window, InBox c.front c.back p := fun p hp hnot =>
    ((hpart.cover p).1 ((hInDom p).2 hp)).resolve_left hnot
  have hcin : ∀ c ∈ inner.surround k.window, ∀ p, InBox c.front c.back p → InShape input.shape p :=
    fun c hc p hp => (hInDom p).1 ((hpart.cover p).2 (.inr ⟨c, hc, hp⟩))
  have hcnot : ∀ p, InBox inner.front inner.back p → ∀ c ∈ inner.surround k.window, ¬ InBox c.front c.back p :=
    fun p hp c hc => (List.pairwise_cons.1 hpart.disj).1 c hc p hp
  have hcfits : ∀ c ∈ inner.surround k.window, Fits input.shape.length 1 c := fun c hc => by
    have := hpart.fits c hc
    rwa [hif] at this
  by_cases hs : inner.size = 0
  · have hempty := empty_of_size hn hif hib hs
    obtain ⟨o, g1, g2, g3, _⟩ := outers_spec h (inner.surround k.window) hcfits hcin out rfl
    refine ⟨o, fun res => ?_, g2, ?_, fun p hp => absurd hp (hempty p), fun _ b _ _ _ hb => absurd hb (hempty b)⟩
    · rw [← g1 res]
      constructor
      · rintro (⟨e, he, rfl⟩ | ⟨o', he, hr⟩)
        · rcases he with ⟨_, he⟩ | ⟨he, _⟩
          · simp at he
          · exact absurd hs he
        · rcases he with ⟨_, he⟩ | ⟨he, _⟩
          · simp only [Except.ok.injEq] at he
            subst he
            exact hr
          · exact absurd hs he
      · intro hr
        exact .inr ⟨out, .inl ⟨hs, rfl⟩, hr⟩
    · intro p hp hnot
      obtain ⟨c, hc, hpc⟩ := hsplit p hp hnot
      exact g3 c hc p hpc
  · have hne := nonempty_of_size hn hfits hs
    obtain ⟨o1, f1, f2, f3, f4, f5⟩ := inner_spec h ho hne
    obtain ⟨o, g1, g2, g3, g4⟩ := outers_spec h (inner.surround k.window) hcfits hcin o1 f2
    have hproj : List.Forall₂ (· ≤ ·) (inner.project 0).front (inner.project 0).back := by
      have h1 := forall₂_iff_getD.1 hne
      simp only [Box.project]
      refine forall₂_iff_getD.2 ⟨by rw [List.length_set]; exact h1.1, fun i hi => ?_⟩
      by_cases hi0 : i = 0
      · subst hi0
        have h2 : 0 < List.length inner.back := by omega
        simp [List.getD_eq_getElem?_getD, h2]
      · have := h1.2 i hi
        simp only [List.getD_eq_getElem?_getD, List.getElem?_set_ne (Ne.symm hi0)] at this ⊢
        exact this
    have hfne : inner.front ≠ [] := by
      intro e
      rw [e] at hif
      exact hn hif.symm
    have hv : BoxIterator.Visits (inner.project 0) rows := BoxIterator.visits_enum hfne hproj
    have hinner : ∀ res, Inner k input inner out res ↔ res = .ok o1 := by
      intro res
      unfold Inner
      constructor
      · rintro (⟨h0, _⟩ | ⟨_, l, hl, rfl⟩)
        · exact absurd h0 hs
        · rw [LoopTrace.unique hl hv]
          exact f1
      · rintro rfl
        exact .inr ⟨hs, rows, hv, f1.symm⟩
    refine ⟨o, fun res => ?_, by omega, ?_, ?_, ?_⟩
    · rw [← g1 res]
      constructor
      · rintro (⟨e, he, rfl⟩ | ⟨o', he, hr⟩)
        · have := (hinner _).1 he
          simp at this
        · have := (hinner _).1 he
          simp only [Except.ok.injEq] at this
          subst this
          exact hr
      · intro hr
        exact .inr ⟨o1, (hinner _).2 rfl, hr⟩
    · intro p hp hnot
      obtain ⟨c, hc, hpc⟩ := hsplit p hp hnot
      exact g3 c hc p hpc
    · intro p hp hst
      rw [g4 p (hsub p hp) (hcnot p hp)]
      exact f3 p hp hst
    · intro a b i ha hb hbin
      rw [g4 b (hsub b hbin) (hcnot b hbin)]
      exact f4 a b i ha hb

/-! ## Sums -/

section Sums

variable {α : Type} [Semiring α]

theorem sum_flatMap' {ι κ : Type _} (l : List ι) (m : ι → List κ) (f : κ → α) :
    ((l.flatMap m).map f).sum = (l.map fun a => ((m a).map f).sum).sum := by
  induction l with
  | nil => simp
  | cons a l ih => simp [ih]

theorem isCorrelation_enum {values : List α} {f b : Position} {F : Position → α} {p : Position} {x : α}
    (hl : f.length = b.length)
    (h : x = ((enum f b).map fun k => kernelValue values f b k * F (Position.add p k)).sum) :
    IsCorrelation values f b F p x := by
  intro l hn hm
  rw [h]
  refine (List.Perm.map _ ?_).sum_eq
  exact (List.perm_ext_iff_of_nodup nodup_enum hn).2 fun k => by rw [hm, mem_enum hl]

theorem foldl_add_eq {ι : Type} (l : List ι) (g : ι → α) (s : α) : l.foldl (fun s i => s + g i) s = s + (l.map g).sum := by
  induction l generalizing s with
  | nil => simp
  | cons i l ih => rw [List.foldl_cons, ih, List.map_cons, List.sum_cons, add_assoc]

/-- The sum which is computed at an offset of the input. -/
def rawSum (values : List α) (kWidth rows : Nat) (data : List α) (inWidth o : Int) : α :=
  ((List.range rows).map fun j : Nat => ((List.range kWidth).map fun i : Nat =>
    values.getD (j * kWidth + i) 0 * data.getD (o + j * inWidth + i).toNat 0).sum).sum

theorem rawFold_eq (values : List α) (kWidth rows : Nat) (data : List α) (inWidth o : Int) :
    rawFold values kWidth rows data inWidth o = rawSum values kWidth rows data inWidth o := by
  unfold rawFold rawSum
  simp only [foldl_add_eq, zero_add]

/-- The correlation as a sum in storage order. -/
def corr (k : Kernel α) (F : Position → α) (p : Position) : α :=
  ((enum k.window.front k.window.back).map fun j =>
    kernelValue k.values k.window.front k.window.back j * F (Position.add p j)).sum

theorem corrFold_eq (k : Kernel α) (F : Position → α) (p : Position) : corrFold k F p = corr k F p := by
  unfold corrFold corr
  rw [foldl_add_eq, zero_add]

theorem rawSum_correlation {values data : List α} {s0 f0 b0 x : Int} {ss fs bs q : Position} {F : Position → α}
    (hle : List.Forall₂ (· ≤ ·) (f0 :: fs) (b0 :: bs)) (hf : InShape (s0 :: ss) (Position.add (x :: q) (f0 :: fs)))
    (hb : InShape (s0 :: ss) (Position.add (x :: q) (b0 :: bs))) (hql : q.length = ss.length)
    (hfl : fs.length = ss.length)
    (hF : ∀ r, InShape (s0 :: ss) r → data.getD (index (s0 :: ss) r).toNat 0 = F r)
    (hc : RowsContiguous (s0 :: ss) (f0 :: fs) (b0 :: bs)) :
    IsCorrelation values (f0 :: fs) (b0 :: bs) F (x :: q)
      (rawSum values (b0 - f0 + 1).toNat (enum fs bs).length data s0
        (index (s0 :: ss) (x :: q) + index (s0 :: ss) (f0 :: fs))) := by
  rw [← rawFold_eq, rawFold_correlation hle hf hb hql hfl hF hc, foldl_add_eq, zero_add]
  exact isCorrelation_enum hle.length_eq rfl

theorem correlates_spec {k : Kernel α} {input : Raster α} {extrapolator : Position → Res α} {F : Position → α}
    {out : List α} (h : Suitable k input extrapolator F out) (ho : OriginInside k)
    (hw : WindowFits k input.shape) :
    let inner := input.domain.shrink k.window
    let rows := enum inner.front (inner.project 0).back
    let sum := rawSum k.values (k.window.shape.getD 0 0).toNat
      (enum k.window.front.tail k.window.back.tail).length input.data (input.shape.getD 0 0)
    let first := index input.shape k.window.front
    ∃ o, (∀ res, Correlates k input extrapolator out res ↔ res = .ok o) ∧ o.length = out.length ∧
      (∀ p, InShape input.shape p → ¬ InBox inner.front inner.back p →
        o[(index input.shape p).toNat]? = some (corr k F p)) ∧
      (∀ p, InBox inner.front inner.back p → (p.getD 0 0 = inner.front.getD 0 0 → p = inner.front) →
        o[(index input.shape p).toNat]? = some (sum (index input.shape p + first))) ∧
      (∀ a b, ∀ i : Nat, rows[i]? = some a → rows[i + 1]? = some b → InBox inner.front inner.back b →
        o[(index input.shape b).toNat]? = some (sum (index input.shape a + inner.shape.getD 0 0 + first))) := by
  have := correlates_fold h.prepared ho hw
  simp only [rawFold_eq, corrFold_eq] at this
  exact this

end Sums

end Kernel

end Litl
