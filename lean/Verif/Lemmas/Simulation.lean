import Verif.Model.Kernel
import Verif.Model.LineKernel
import Mathlib.Data.List.Forall2

/-!
# Correlations in related arithmetics

The models of correlations only use 0, sums and products: if the values in two arithmetics are related, then so are the
results.
-/

namespace Litl

namespace Sim

variable {α β γ δ : Type}

/-- Related outcomes: both calls return related values, or fail in the same way. -/
inductive RelRes (R : α → β → Prop) : Res α → Res β → Prop where
  | ok {a : α} {b : β} : R a b → RelRes R (.ok a) (.ok b)
  | error (e : Fail) : RelRes R (.error e) (.error e)

theorem RelRes.bind {R : α → β → Prop} {Q : γ → δ → Prop} {x : Res α} {y : Res β} {f : α → Res γ} {g : β → Res δ}
    (h : RelRes R x y) (hf : ∀ a b, R a b → RelRes Q (f a) (g b)) : RelRes Q (x >>= f) (y >>= g) := by
  cases h with
  | ok h => exact hf _ _ h
  | error e => exact .error e

theorem RelRes.imp {R Q : α → β → Prop} (hRQ : ∀ a b, R a b → Q a b) {x : Res α} {y : Res β} (h : RelRes R x y) :
    RelRes Q x y := by
  cases h with
  | ok h => exact .ok (hRQ _ _ h)
  | error e => exact .error e

theorem foldlM_rel {ι : Type} {R : α → β → Prop} {f : α → ι → Res α} {g : β → ι → Res β}
    (h : ∀ a b i, R a b → RelRes R (f a i) (g b i)) :
    ∀ (l : List ι) {a : α} {b : β}, R a b → RelRes R (l.foldlM f a) (l.foldlM g b) := by
  intro l
  induction l with
  | nil => intro a b hab; exact .ok hab
  | cons i l ih =>
    intro a b hab
    simp only [List.foldlM_cons]
    exact (h a b i hab).bind fun a b hab => ih hab

theorem getElem?_rel {L : α → β → Prop} {l : List α} {l' : List β} (h : List.Forall₂ L l l') (i : Nat) :
    (∃ a b, l[i]? = some a ∧ l'[i]? = some b ∧ L a b) ∨ (l[i]? = none ∧ l'[i]? = none) := by
  have hl := h.length_eq
  by_cases hi : i < l.length
  · refine Or.inl ⟨l[i], l'[i]'(hl ▸ hi), List.getElem?_eq_getElem hi, List.getElem?_eq_getElem _, ?_⟩
    exact h.get hi (hl ▸ hi)
  · exact Or.inr ⟨List.getElem?_eq_none (by omega), List.getElem?_eq_none (by omega)⟩

theorem readAt_rel {L : α → β → Prop} {l : List α} {l' : List β} (h : List.Forall₂ L l l') (i : Int) :
    RelRes L (readAt l i) (readAt l' i) := by
  unfold readAt
  by_cases hi : i < 0
  · simp only [hi, if_true]; exact .error _
  · simp only [hi, if_false]
    rcases getElem?_rel h i.toNat with ⟨a, b, h1, h2, h3⟩ | ⟨h1, h2⟩
    · rw [h1, h2]; exact .ok h3
    · rw [h1, h2]; exact .error _

theorem set_rel {O : α → β → Prop} {a : α} {b : β} (hab : O a b) {l : List α} {l' : List β} (h : List.Forall₂ O l l') :
    ∀ i : Nat, List.Forall₂ O (l.set i a) (l'.set i b) := by
  induction h with
  | nil => intro i; exact .nil
  | cons h1 h2 ih =>
    intro i
    cases i with
    | zero => exact .cons hab h2
    | succ i => exact .cons h1 (ih i)

theorem writeAt_rel {O : α → β → Prop} {l : List α} {l' : List β} (h : List.Forall₂ O l l') (i : Int) {a : α} {b : β}
    (hab : O a b) : RelRes (List.Forall₂ O) (writeAt l i a) (writeAt l' i b) := by
  unfold writeAt
  by_cases hi : i < 0
  · simp only [hi, if_true]; exact .error _
  · simp only [hi, if_false, h.length_eq]
    by_cases hl : i.toNat < l'.length
    · simp only [hl, if_true]; exact .ok (set_rel hab h _)
    · simp only [hl, if_false]; exact .error _

theorem mapM_rel {ι : Type} {L : α → β → Prop} {f : ι → Res α} {g : ι → Res β} (h : ∀ i, RelRes L (f i) (g i)) :
    ∀ l : List ι, RelRes (List.Forall₂ L) (l.mapM f) (l.mapM g) := by
  intro l
  induction l with
  | nil => exact .ok .nil
  | cons i l ih =>
    simp only [List.mapM_cons]
    exact (h i).bind fun a b hab => ih.bind fun as bs habs => .ok (.cons hab habs)

theorem replicate_rel {L : α → β → Prop} {a : α} {b : β} (h : L a b) (n : Nat) :
    List.Forall₂ L (List.replicate n a) (List.replicate n b) := by
  induction n with
  | zero => exact .nil
  | succ n ih => exact .cons h ih

/-- Two related arithmetics: `Lk` relates the values of the kernels, `Li` those of the inputs, `A` the sums, and `O` the values of
the outputs, whether or not they are computed. -/
structure Arithmetics (α β : Type) [Zero α] [Add α] [Mul α] [Zero β] [Add β] [Mul β] where
  Lk : α → β → Prop
  Li : α → β → Prop
  A : α → β → Prop
  O : α → β → Prop
  zero : A 0 0
  pad : Li 0 0
  step : ∀ {s s' a a' b b'}, A s s' → Lk a a' → Li b b' → A (s + a * b) (s' + a' * b')
  out : ∀ {s s'}, A s s' → O s s'

/-- The converse relations. -/
def Arithmetics.flip {α β : Type} [Zero α] [Add α] [Mul α] [Zero β] [Add β] [Mul β] (S : Arithmetics α β) :
    Arithmetics β α where
  Lk := fun b a => S.Lk a b
  Li := fun b a => S.Li a b
  A := fun b a => S.A a b
  O := fun b a => S.O a b
  zero := S.zero
  pad := S.pad
  step := fun h1 h2 h3 => S.step h1 h2 h3
  out := fun h => S.out h

theorem RelRes.flip {R : α → β → Prop} {x : Res α} {y : Res β} (h : RelRes R x y) : RelRes (fun b a => R a b) y x := by
  cases h with
  | ok h => exact .ok h
  | error e => exact .error e

variable [Zero α] [Add α] [Mul α] [Zero β] [Add β] [Mul β] (S : Arithmetics α β)

/-! ## ND kernels -/

theorem kernel_innerProduct {v : List α} {v' : List β} (hv : List.Forall₂ S.Lk v v') {d : List α} {d' : List β}
    (hd : List.Forall₂ S.Li d d') (kIt inIt : Int) (n : Nat) {s : α} {s' : β} (hs : S.A s s') :
    RelRes S.A (Kernel.innerProduct v kIt d inIt n s) (Kernel.innerProduct v' kIt d' inIt n s') := by
  unfold Kernel.innerProduct
  refine foldlM_rel (fun a b i hab => ?_) _ hs
  refine (readAt_rel hv _).bind fun x x' hx => (readAt_rel hd _).bind fun y y' hy => ?_
  exact .ok (S.step hab hx hy)

theorem kernel_weightedSum {v : List α} {v' : List β} (hv : List.Forall₂ S.Lk v v') {d : List α} {d' : List β}
    (hd : List.Forall₂ S.Li d d') (kWidth kRowCount inWidth inIt : Int) :
    RelRes S.A (Kernel.weightedSum v kWidth kRowCount d inWidth inIt)
      (Kernel.weightedSum v' kWidth kRowCount d' inWidth inIt) := by
  unfold Kernel.weightedSum
  refine foldlM_rel (fun a b i hab => ?_) _ S.zero
  exact kernel_innerProduct S hv hd _ _ _ hab

theorem kernel_pixelStep {v : List α} {v' : List β} (hv : List.Forall₂ S.Lk v v') {d : List α} {d' : List β}
    (hd : List.Forall₂ S.Li d d') (kWidth kRowCount inWidth distance : Int) (i : Nat) {st : List α × Int × Int}
    {st' : List β × Int × Int} (h : List.Forall₂ S.O st.1 st'.1 ∧ st.2 = st'.2) :
    RelRes (fun a b => List.Forall₂ S.O a.1 b.1 ∧ a.2 = b.2)
      (Kernel.pixelStep v kWidth kRowCount d inWidth distance st i)
      (Kernel.pixelStep v' kWidth kRowCount d' inWidth distance st' i) := by
  obtain ⟨o, q⟩ := st
  obtain ⟨o', q'⟩ := st'
  obtain ⟨h1, h2⟩ := h
  simp only at h2
  subst h2
  unfold Kernel.pixelStep
  refine (kernel_weightedSum S hv hd _ _ _ _).bind fun x x' hx => ?_
  exact (writeAt_rel h1 _ (S.out hx)).bind fun y y' hy => .ok ⟨hy, rfl⟩

theorem kernel_rowStep {v : List α} {v' : List β} (hv : List.Forall₂ S.Lk v v') {d : List α} {d' : List β}
    (hd : List.Forall₂ S.Li d d') (kWidth kRowCount inWidth distance boxWidth : Int) (shape p : Position) {st : List α × Int}
    {st' : List β × Int} (h : List.Forall₂ S.O st.1 st'.1 ∧ st.2 = st'.2) :
    RelRes (fun a b => List.Forall₂ S.O a.1 b.1 ∧ a.2 = b.2)
      (Kernel.rowStep v kWidth kRowCount d inWidth distance boxWidth shape st p)
      (Kernel.rowStep v' kWidth kRowCount d' inWidth distance boxWidth shape st' p) := by
  unfold Kernel.rowStep
  refine RelRes.bind (foldlM_rel (R := fun a b => List.Forall₂ S.O a.1 b.1 ∧ a.2 = b.2)
    (fun a b i hab => kernel_pixelStep S hv hd _ _ _ _ i hab) _ ⟨h.1, by simp only [h.2]⟩) fun a b hab => ?_
  exact .ok ⟨hab.1, by rw [hab.2]⟩

/-- The same kernel in both arithmetics. -/
def SameKernel (k : Kernel α) (k' : Kernel β) : Prop := List.Forall₂ S.Lk k.values k'.values ∧ k.window = k'.window

/-- The same raster in both arithmetics. -/
def SameRaster (r : Raster α) (r' : Raster β) : Prop := r.shape = r'.shape ∧ List.Forall₂ S.Li r.data r'.data

theorem kernel_innerRows {k : Kernel α} {k' : Kernel β} (hk : SameKernel S k k') {r : Raster α} {r' : Raster β}
    (hr : SameRaster S r r') (box : Box) (rows : List Position) {o : List α} {o' : List β} (ho : List.Forall₂ S.O o o') :
    RelRes (List.Forall₂ S.O) (Kernel.innerRows k r box rows o) (Kernel.innerRows k' r' box rows o') := by
  unfold Kernel.innerRows
  rw [hk.2, hr.1]
  dsimp only
  by_cases hw : k'.window.shape.getD 0 0 = 0
  · rw [if_pos hw, if_pos hw]; exact .error _
  · rw [if_neg hw, if_neg hw]
    refine RelRes.bind (foldlM_rel (R := fun a b => List.Forall₂ S.O a.1 b.1 ∧ a.2 = b.2)
      (fun a b p hab => kernel_rowStep S hk.1 hr.2 _ _ _ _ _ _ p hab) _ ⟨ho, rfl⟩) fun a b hab => .ok hab.1

theorem kernel_inner {k : Kernel α} {k' : Kernel β} (hk : SameKernel S k k') {r : Raster α} {r' : Raster β}
    (hr : SameRaster S r r') {box : Box} {o : List α} {o' : List β} (ho : List.Forall₂ S.O o o') {res : Res (List α)}
    (h : Kernel.Inner k r box o res) :
    ∃ res', Kernel.Inner k' r' box o' res' ∧ RelRes (List.Forall₂ S.O) res res' := by
  rcases h with ⟨hb, rfl⟩ | ⟨hb, rows, hv, rfl⟩
  · exact ⟨_, Or.inl ⟨hb, rfl⟩, .ok ho⟩
  · exact ⟨_, Or.inr ⟨hb, rows, hv, rfl⟩, kernel_innerRows S hk hr box rows ho⟩

theorem foldl_zipWith_rel : ∀ {v : List α} {v' : List β}, List.Forall₂ S.Lk v v' → ∀ {d : List α} {d' : List β},
    List.Forall₂ S.Li d d' → ∀ {s : α} {s' : β}, S.A s s' →
    S.A ((List.zipWith (· * ·) v d).foldl (· + ·) s) ((List.zipWith (· * ·) v' d').foldl (· + ·) s') := by
  intro v v' hv
  induction hv with
  | nil => intro d d' _ s s' hs; simpa using hs
  | cons h1 h2 ih =>
    intro d d' hd s s' hs
    cases hd with
    | nil => simpa using hs
    | cons g1 g2 =>
      simp only [List.zipWith_cons_cons, List.foldl_cons]
      exact ih g2 (S.step hs h1 g1)

theorem kernel_outerStep {k : Kernel α} {k' : Kernel β} (hk : SameKernel S k k') {e : Position → Res α}
    {e' : Position → Res β} (he : ∀ p, RelRes S.Li (e p) (e' p)) (shape : Position) (pw : Position × List Position)
    {o : List α} {o' : List β} (ho : List.Forall₂ S.O o o') :
    RelRes (List.Forall₂ S.O) (Kernel.outerStep k e shape o pw) (Kernel.outerStep k' e' shape o' pw) := by
  unfold Kernel.outerStep
  refine (mapM_rel he pw.2).bind fun b b' hb => ?_
  rw [hk.1.length_eq, hb.length_eq]
  by_cases hl : k'.values.length < b'.length
  · rw [if_pos hl, if_pos hl]; exact .error _
  · rw [if_neg hl, if_neg hl]
    exact writeAt_rel ho _ (S.out (foldl_zipWith_rel S hk.1 (List.rel_append hb (replicate_rel S.pad _)) S.zero))

theorem kernel_outer {k : Kernel α} {k' : Kernel β} (hk : SameKernel S k k') {e : Position → Res α}
    {e' : Position → Res β} (he : ∀ p, RelRes S.Li (e p) (e' p)) {shape : Position} {box : Box}
    {o : List α} {o' : List β} (ho : List.Forall₂ S.O o o') {res : Res (List α)} (h : Kernel.Outer k e shape box o res) :
    ∃ res', Kernel.Outer k' e' shape box o' res' ∧ RelRes (List.Forall₂ S.O) res res' := by
  rcases h with ⟨hb, rfl⟩ | ⟨hb, l, ws, hl, hw, rfl⟩
  · exact ⟨_, Or.inl ⟨hb, rfl⟩, .ok ho⟩
  · refine ⟨_, Or.inr ⟨hb, l, ws, hl, ?_, rfl⟩, ?_⟩
    · rw [← hk.2]; exact hw
    · exact foldlM_rel (fun a b pw hab => kernel_outerStep S hk he shape pw hab) _ ho

theorem kernel_outers {k : Kernel α} {k' : Kernel β} (hk : SameKernel S k k') {e : Position → Res α}
    {e' : Position → Res β} (he : ∀ p, RelRes S.Li (e p) (e' p)) {shape : Position} {boxes : List Box}
    {o : List α} {res : Res (List α)} (h : Kernel.Outers k e shape boxes o res) :
    ∀ {o' : List β}, List.Forall₂ S.O o o' →
    ∃ res', Kernel.Outers k' e' shape boxes o' res' ∧ RelRes (List.Forall₂ S.O) res res' := by
  induction h with
  | done => intro o' ho; exact ⟨_, .done, .ok ho⟩
  | fail h =>
    intro o' ho
    obtain ⟨r, h1, h2⟩ := kernel_outer S hk he ho h
    cases h2
    exact ⟨_, .fail h1, .error _⟩
  | next h _ ih =>
    intro o' ho
    obtain ⟨r, h1, h2⟩ := kernel_outer S hk he ho h
    cases h2 with
    | ok h2 =>
      obtain ⟨r', h3, h4⟩ := ih h2
      exact ⟨r', .next h1 h3, h4⟩

/-- Correlations by an ND kernel in related arithmetics have related outcomes. -/
theorem kernel_correlates {k : Kernel α} {k' : Kernel β} (hk : SameKernel S k k') {r : Raster α} {r' : Raster β}
    (hr : SameRaster S r r') {e : Position → Res α} {e' : Position → Res β} (he : ∀ p, RelRes S.Li (e p) (e' p))
    {o : List α} {o' : List β} (ho : List.Forall₂ S.O o o') {res : Res (List α)} (h : Kernel.Correlates k r e o res) :
    ∃ res', Kernel.Correlates k' r' e' o' res' ∧ RelRes (List.Forall₂ S.O) res res' := by
  have hd : r.domain = r'.domain := by unfold Raster.domain; rw [hr.1]
  rcases h with ⟨e, h1, rfl⟩ | ⟨out, h1, h2⟩
  · obtain ⟨x, h3, h4⟩ := kernel_inner S hk hr ho h1
    cases h4
    refine ⟨_, Or.inl ⟨e, ?_, rfl⟩, .error _⟩
    rw [← hd, ← hk.2]
    exact h3
  · obtain ⟨x, h3, h4⟩ := kernel_inner S hk hr ho h1
    cases h4 with
    | @ok _ out' h4 =>
      obtain ⟨y, h5, h6⟩ := kernel_outers S hk he h2 h4
      refine ⟨y, Or.inr ⟨out', ?_, ?_⟩, h6⟩
      · rw [← hd, ← hk.2]; exact h3
      · rw [← hd, ← hk.2, ← hr.1]; exact h5

/-! ## Line kernels -/

/-- The same line kernel in both arithmetics. -/
def SameLineKernel (k : LineKernel α) (k' : LineKernel β) : Prop :=
  List.Forall₂ S.Lk k.values k'.values ∧ k.origin = k'.origin

/-- Related states of the loops. -/
def SameState (s : LineKernel.State α) (s' : LineKernel.State β) : Prop :=
  s.i = s'.i ∧ s.inIt = s'.inIt ∧ s.outIt = s'.outIt ∧ List.Forall₂ S.O s.out s'.out

theorem line_innerProduct {v : List α} {v' : List β} (hv : List.Forall₂ S.Lk v v') {read : Int → Res α}
    {read' : Int → Res β} (hr : ∀ p, RelRes S.Li (read p) (read' p)) (first last stride it : Int) :
    RelRes S.A (LineKernel.innerProduct v first last read stride it)
      (LineKernel.innerProduct v' first last read' stride it) := by
  unfold LineKernel.innerProduct
  by_cases h : last < first
  · rw [if_pos h, if_pos h]; exact .error _
  · rw [if_neg h, if_neg h]
    refine foldlM_rel (fun a b i hab => ?_) _ S.zero
    exact (readAt_rel hv _).bind fun x x' hx => (hr _).bind fun y y' hy => .ok (S.step hab hx hy)

theorem line_put (inn out : DataSamples) {s : LineKernel.State α} {s' : LineKernel.State β} (hs : SameState S s s')
    {x : α} {x' : β} (hx : S.A x x') :
    RelRes (SameState S) (LineKernel.put inn out s x) (LineKernel.put inn out s' x') := by
  obtain ⟨i, it, ot, o⟩ := s
  obtain ⟨i', it', ot', o'⟩ := s'
  obtain ⟨rfl, rfl, rfl, h4⟩ := hs
  unfold LineKernel.put
  exact (writeAt_rel h4 _ (S.out hx)).bind fun y y' hy => .ok ⟨rfl, rfl, rfl, hy⟩

theorem while_rel {σ τ : Type} {R : σ → τ → Prop} {c : σ → Prop} {c' : τ → Prop} {f : σ → Res σ} {g : τ → Res τ}
    (hc : ∀ s t, R s t → (c s ↔ c' t)) (hf : ∀ s t, R s t → RelRes R (f s) (g t)) {s : σ} {r : Res σ}
    (h : While c f s r) : ∀ {t : τ}, R s t → ∃ r', While c' g t r' ∧ RelRes R r r' := by
  induction h with
  | done h1 => intro t hst; exact ⟨_, .done fun h2 => h1 ((hc _ _ hst).2 h2), .ok hst⟩
  | @fail s e h1 h2 =>
    intro t hst
    have h3 := hf s t hst
    rw [h2] at h3
    generalize hy : g t = y at h3
    cases h3
    exact ⟨_, .fail ((hc _ _ hst).1 h1) hy, .error _⟩
  | @next s s' r h1 h2 _ ih =>
    intro t hst
    have h3 := hf s t hst
    rw [h2] at h3
    generalize hy : g t = y at h3
    cases h3 with
    | ok h3 =>
      obtain ⟨r', h4, h5⟩ := ih h3
      exact ⟨r', .next ((hc _ _ hst).1 h1) hy h4, h5⟩

/-- Correlations by a line kernel in related arithmetics have related outcomes. -/
theorem line_correlates {k : LineKernel α} {k' : LineKernel β} (hk : SameLineKernel S k k') {read : Int → Res α}
    {read' : Int → Res β} (hr : ∀ p, RelRes S.Li (read p) (read' p)) {inn out : DataSamples}
    {o : List α} {o' : List β} (ho : List.Forall₂ S.O o o') {res : Res (List α)}
    (h : LineKernel.Correlates k read inn out o res) :
    ∃ res', LineKernel.Correlates k' read' inn out o' res' ∧ RelRes (List.Forall₂ S.O) res res' := by
  have hl := hk.1.length_eq
  have hfw : k.forward = k'.forward := by unfold LineKernel.forward; rw [hl, hk.2]
  have hb : ∀ s t, SameState S s t →
      RelRes (SameState S) (LineKernel.backwardBody k read inn out s) (LineKernel.backwardBody k' read' inn out t) := by
    intro s t hst
    unfold LineKernel.backwardBody
    rw [hl, hk.2, hst.1]
    exact (line_innerProduct S hk.1 hr _ _ _ _).bind fun x x' hx => line_put S inn out hst hx
  have hc : ∀ s t, SameState S s t →
      RelRes (SameState S) (LineKernel.centralBody k read inn out s) (LineKernel.centralBody k' read' inn out t) := by
    intro s t hst
    unfold LineKernel.centralBody
    rw [hl, hst.2.1]
    exact (line_innerProduct S hk.1 hr _ _ _ _).bind fun x x' hx => line_put S inn out hst hx
  have hf : ∀ s t, SameState S s t →
      RelRes (SameState S) (LineKernel.forwardBody k read inn out s) (LineKernel.forwardBody k' read' inn out t) := by
    intro s t hst
    unfold LineKernel.forwardBody
    rw [hk.2, hst.1, hst.2.1]
    exact (line_innerProduct S hk.1 hr _ _ _ _).bind fun x x' hx => line_put S inn out hst hx
  obtain ⟨r1, h1, h2⟩ := h
  have hstart : SameState S (LineKernel.start k inn out o) (LineKernel.start k' inn out o') := by
    unfold LineKernel.start
    rw [hk.2]
    exact ⟨rfl, rfl, rfl, ho⟩
  obtain ⟨r1', g1, e1⟩ := while_rel (c' := fun s => s.i < k'.origin) (fun s t hst => by rw [hst.1, hk.2]) hb h1 hstart
  cases e1 with
  | error e =>
    simp only at h2
    subst h2
    exact ⟨_, ⟨_, g1, rfl⟩, .error _⟩
  | ok e1 =>
    obtain ⟨r2, h3, h4⟩ := h2
    obtain ⟨r2', g2, e2⟩ := while_rel (c' := LineKernel.CentralCond k' inn) (fun s t hst => by
      unfold LineKernel.CentralCond; rw [hst.1, hfw]) hc h3 e1
    cases e2 with
    | error e =>
      simp only at h4
      subst h4
      exact ⟨_, ⟨_, g1, _, g2, rfl⟩, .error _⟩
    | ok e2 =>
      obtain ⟨r3, h5, rfl⟩ := h4
      obtain ⟨r3', g3, e3⟩ := while_rel (c' := fun s => s.i ≤ inn.sampling.back) (fun s t hst => by rw [hst.1]) hf h5 e2
      refine ⟨_, ⟨_, g1, _, g2, _, g3, rfl⟩, ?_⟩
      cases e3 with
      | error e => exact .error _
      | ok e3 => exact .ok e3.2.2.2

end Sim

end Litl
