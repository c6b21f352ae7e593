import Verif.Model.SeparableKernel
import Verif.Lemmas.LineKernel
import Verif.Lemmas.BoxIter
import Verif.Spec.Linear
import Mathlib.Data.List.Forall2
import Mathlib.Algebra.Ring.Prod

/-!
# Related executions

Two executions of the filters on related inputs take the same path, and their results are related.
-/

namespace Litl

variable {α β γ δ : Type _}

/-- Outcomes are related if both fail for the same reason, or both succeed with related values. -/
inductive RelRes (P : α → β → Prop) : Res α → Res β → Prop where
  | ok {a : α} {b : β} : P a b → RelRes P (.ok a) (.ok b)
  | error {e : Fail} : RelRes P (.error e) (.error e)

namespace RelRes

theorem bind {P : α → β → Prop} {Q : γ → δ → Prop} {x : Res α} {y : Res β} (h : RelRes P x y) {f : α → Res γ} {g : β → Res δ}
    (hfg : ∀ a b, P a b → RelRes Q (f a) (g b)) : RelRes Q (x >>= f) (y >>= g) := by
  cases h with
  | ok h => exact hfg _ _ h
  | error => exact .error

theorem map {P : α → β → Prop} {Q : γ → δ → Prop} {x : Res α} {y : Res β} (h : RelRes P x y) {f : α → γ} {g : β → δ}
    (hfg : ∀ a b, P a b → Q (f a) (g b)) : RelRes Q (x.map f) (y.map g) := by
  cases h with
  | ok h => exact .ok (hfg _ _ h)
  | error => exact .error

theorem mono {P Q : α → β → Prop} {x : Res α} {y : Res β} (h : RelRes P x y) (hPQ : ∀ a b, P a b → Q a b) : RelRes Q x y := by
  cases h with
  | ok h => exact .ok (hPQ _ _ h)
  | error => exact .error

theorem readAt {P : α → β → Prop} {l : List α} {l' : List β} (h : List.Forall₂ P l l') (k : Int) :
    RelRes P (readAt l k) (readAt l' k) := by
  unfold Litl.readAt
  split
  · exact .error
  · generalize k.toNat = n
    induction h generalizing n with
    | nil => simpa using .error
    | cons h _ ih =>
      cases n with
      | zero => simpa using .ok h
      | succ n => simpa using ih n

theorem set {P : α → β → Prop} {l : List α} {l' : List β} (h : List.Forall₂ P l l') {x : α} {y : β} (hx : P x y) (n : Nat) :
    List.Forall₂ P (l.set n x) (l'.set n y) := by
  induction h generalizing n with
  | nil => simp
  | cons h t ih =>
    cases n with
    | zero => exact .cons hx t
    | succ n => exact .cons h (ih n)

theorem writeAt {P : α → β → Prop} {l : List α} {l' : List β} (h : List.Forall₂ P l l') {x : α} {y : β} (hx : P x y) (k : Int) :
    RelRes (List.Forall₂ P) (writeAt l k x) (writeAt l' k y) := by
  unfold Litl.writeAt
  rw [h.length_eq]
  split
  · exact .error
  · split
    · exact .ok (set h hx _)
    · exact .error

theorem foldlM {ι : Type _} {P : α → β → Prop} {f : α → ι → Res α} {g : β → ι → Res β}
    (hfg : ∀ a b i, P a b → RelRes P (f a i) (g b i)) (l : List ι) {a : α} {b : β} (h : P a b) :
    RelRes P (l.foldlM f a) (l.foldlM g b) := by
  induction l generalizing a b with
  | nil => exact .ok h
  | cons i l ih =>
    rw [List.foldlM_cons, List.foldlM_cons]
    exact (hfg a b i h).bind fun a b h => ih h

theorem mapM {ι : Type _} {P : α → β → Prop} {f : ι → Res α} {g : ι → Res β} (hfg : ∀ i, RelRes P (f i) (g i)) (l : List ι) :
    RelRes (List.Forall₂ P) (l.mapM f) (l.mapM g) := by
  induction l with
  | nil => exact .ok .nil
  | cons i l ih =>
    rw [List.mapM_cons, List.mapM_cons]
    exact (hfg i).bind fun a b h => ih.bind fun c d h' => .ok (.cons h h')

end RelRes

/-- The operations of filters preserve relations between the weights `W`, the values of the input `I`, and the sums `S`. -/
structure Respects [Zero α] [Add α] [Mul α] [Zero β] [Add β] [Mul β] (W I S : α → β → Prop) : Prop where
  zero : S 0 0
  padding : I 0 0
  step : ∀ {s : α} {s' : β} {w : α} {w' : β} {x : α} {x' : β}, S s s' → W w w' → I x x' → S (s + w * x) (s' + w' * x')

section

variable [Zero α] [Add α] [Mul α] [Zero β] [Add β] [Mul β] {W I S : α → β → Prop}

/-! ## Kernels -/

namespace Kernel

theorem innerProduct_rel (hr : Respects W I S) {v : List α} {v' : List β} (hv : List.Forall₂ W v v') {x : List α} {x' : List β}
    (hx : List.Forall₂ I x x') (kIt inIt : Int) (n : Nat) {s : α} {s' : β} (hs : S s s') :
    RelRes S (innerProduct v kIt x inIt n s) (innerProduct v' kIt x' inIt n s') := by
  refine RelRes.foldlM (fun a b i h => ?_) _ hs
  exact (RelRes.readAt hv _).bind fun w w' hw => (RelRes.readAt hx _).bind fun y y' hy => .ok (hr.step h hw hy)

theorem weightedSum_rel (hr : Respects W I S) {v : List α} {v' : List β} (hv : List.Forall₂ W v v') {x : List α} {x' : List β}
    (hx : List.Forall₂ I x x') (kWidth kRowCount inWidth inIt : Int) :
    RelRes S (weightedSum v kWidth kRowCount x inWidth inIt) (weightedSum v' kWidth kRowCount x' inWidth inIt) := by
  refine RelRes.foldlM (fun _ _ r h => ?_) _ hr.zero
  exact innerProduct_rel hr hv hx _ _ _ h

theorem innerRows_rel (hr : Respects W I S) {k : Kernel α} {k' : Kernel β} (hv : List.Forall₂ W k.values k'.values)
    (hw : k.window = k'.window) {x : Raster α} {x' : Raster β} (hs : x.shape = x'.shape) (hx : List.Forall₂ I x.data x'.data)
    (box : Box) (rows : List Position) {out : List α} {out' : List β} (ho : List.Forall₂ S out out') :
    RelRes (List.Forall₂ S) (innerRows k x box rows out) (innerRows k' x' box rows out') := by
  unfold innerRows
  rw [← hw, ← hs]
  dsimp only
  split
  · exact .error
  refine RelRes.bind (P := fun (a : List α × Int) (b : List β × Int) => List.Forall₂ S a.1 b.1 ∧ a.2 = b.2)
    (RelRes.foldlM ?_ _ ⟨ho, rfl⟩) fun a b h => .ok h.1
  rintro ⟨a, i⟩ ⟨b, j⟩ p ⟨h, e⟩
  dsimp only at h e
  subst e
  refine RelRes.bind (P := fun (a : List α × Int × Int) (b : List β × Int × Int) => List.Forall₂ S a.1 b.1 ∧ a.2 = b.2)
    (RelRes.foldlM ?_ _ ⟨h, rfl⟩) fun a b h => .ok ⟨h.1, congrArg Prod.snd h.2⟩
  rintro ⟨a, i⟩ ⟨b, j⟩ p ⟨h, e⟩
  dsimp only at h e
  subst e
  exact (weightedSum_rel hr hv hx _ _ _ _).bind fun s s' hs => (RelRes.writeAt h hs _).bind fun c d hc => .ok ⟨hc, rfl⟩

theorem inner_rel (hr : Respects W I S) {k : Kernel α} {k' : Kernel β} (hv : List.Forall₂ W k.values k'.values)
    (hw : k.window = k'.window) {x : Raster α} {x' : Raster β} (hs : x.shape = x'.shape) (hx : List.Forall₂ I x.data x'.data)
    {box : Box} {out : List α} {out' : List β} (ho : List.Forall₂ S out out') {res : Res (List α)} (h : Inner k x box out res) :
    ∃ res', Inner k' x' box out' res' ∧ RelRes (List.Forall₂ S) res res' := by
  rcases h with ⟨h0, rfl⟩ | ⟨h0, rows, hvis, rfl⟩
  · exact ⟨_, .inl ⟨h0, rfl⟩, .ok ho⟩
  · exact ⟨_, .inr ⟨h0, rows, hvis, rfl⟩, innerRows_rel hr hv hw hs hx box rows ho⟩

theorem outerStep_rel (hr : Respects W I S) {k : Kernel α} {k' : Kernel β} (hv : List.Forall₂ W k.values k'.values)
    {e : Position → Res α} {e' : Position → Res β} (he : ∀ p, RelRes I (e p) (e' p)) (shape : Position) {out : List α} {out' : List β}
    (ho : List.Forall₂ S out out') (pw : Position × List Position) :
    RelRes (List.Forall₂ S) (outerStep k e shape out pw) (outerStep k' e' shape out' pw) := by
  refine (RelRes.mapM he pw.2).bind fun b b' hb => ?_
  rw [← hv.length_eq, ← hb.length_eq]
  split
  · exact .error
  refine RelRes.writeAt ho ?_ _
  have hbuf : List.Forall₂ I (b ++ List.replicate (k.values.length - b.length) 0)
      (b' ++ List.replicate (k.values.length - b.length) 0) := by
    refine List.rel_append hb ?_
    generalize k.values.length - b.length = n
    induction n with
    | zero => exact .nil
    | succ n ih => exact .cons hr.padding ih
  generalize (b ++ List.replicate (k.values.length - b.length) 0) = c at hbuf
  generalize (b' ++ List.replicate (k.values.length - b.length) 0) = c' at hbuf
  have key : ∀ {v : List α} {v' : List β}, List.Forall₂ W v v' → ∀ {c : List α} {c' : List β}, List.Forall₂ I c c' →
      ∀ {s : α} {s' : β}, S s s' →
      S ((List.zipWith (· * ·) v c).foldl (· + ·) s) ((List.zipWith (· * ·) v' c').foldl (· + ·) s') := by
    intro v v' h
    induction h with
    | nil => intro c c' _ s s' hs; exact hs
    | cons hw _ ih =>
      intro c c' hc s s' hs
      cases hc with
      | nil => exact hs
      | cons hx hc => exact ih hc (hr.step hs hw hx)
  exact key hv hbuf hr.zero

theorem outer_rel (hr : Respects W I S) {k : Kernel α} {k' : Kernel β} (hv : List.Forall₂ W k.values k'.values)
    (hw : k.window = k'.window) {e : Position → Res α} {e' : Position → Res β} (he : ∀ p, RelRes I (e p) (e' p)) {shape : Position}
    {box : Box} {out : List α} {out' : List β} (ho : List.Forall₂ S out out') {res : Res (List α)}
    (h : Outer k e shape box out res) :
    ∃ res', Outer k' e' shape box out' res' ∧ RelRes (List.Forall₂ S) res res' := by
  rcases h with ⟨h0, rfl⟩ | ⟨h0, l, ws, hl, hws, rfl⟩
  · exact ⟨_, .inl ⟨h0, rfl⟩, .ok ho⟩
  · exact ⟨_, .inr ⟨h0, l, ws, hl, hw ▸ hws, rfl⟩, RelRes.foldlM (fun _ _ pw h => outerStep_rel hr hv he shape h pw) _ ho⟩

theorem outers_rel (hr : Respects W I S) {k : Kernel α} {k' : Kernel β} (hv : List.Forall₂ W k.values k'.values)
    (hw : k.window = k'.window) {e : Position → Res α} {e' : Position → Res β} (he : ∀ p, RelRes I (e p) (e' p)) {shape : Position}
    {boxes : List Box} {out : List α} {res : Res (List α)} (h : Outers k e shape boxes out res) :
    ∀ {out' : List β}, List.Forall₂ S out out' →
    ∃ res', Outers k' e' shape boxes out' res' ∧ RelRes (List.Forall₂ S) res res' := by
  induction h with
  | done => intro out' ho; exact ⟨_, .done, .ok ho⟩
  | fail h =>
    intro out' ho
    obtain ⟨_, h1, h2⟩ := outer_rel hr hv hw he ho h
    cases h2
    exact ⟨_, .fail h1, .error⟩
  | next h _ ih =>
    intro out' ho
    obtain ⟨_, h1, h2⟩ := outer_rel hr hv hw he ho h
    cases h2 with
    | ok h2 =>
      obtain ⟨res', h3, h4⟩ := ih h2
      exact ⟨res', .next h1 h3, h4⟩

/-- Related executions of the correlation by an ND kernel. -/
theorem correlates_rel (hr : Respects W I S) {k : Kernel α} {k' : Kernel β} (hv : List.Forall₂ W k.values k'.values)
    (hw : k.window = k'.window) {x : Raster α} {x' : Raster β} (hs : x.shape = x'.shape) (hx : List.Forall₂ I x.data x'.data)
    {e : Position → Res α} {e' : Position → Res β} (he : ∀ p, RelRes I (e p) (e' p)) {out : List α} {out' : List β}
    (ho : List.Forall₂ S out out') {res : Res (List α)} (h : Correlates k x e out res) :
    ∃ res', Correlates k' x' e' out' res' ∧ RelRes (List.Forall₂ S) res res' := by
  have hd : x.domain = x'.domain := by simp only [Raster.domain, hs]
  rcases h with ⟨e, h1, rfl⟩ | ⟨o, h1, h2⟩
  · obtain ⟨_, h3, h4⟩ := inner_rel hr hv hw hs hx ho h1
    cases h4
    exact ⟨_, .inl ⟨e, by rw [← hd, ← hw]; exact h3, rfl⟩, .error⟩
  · obtain ⟨_, h3, h4⟩ := inner_rel hr hv hw hs hx ho h1
    cases h4 with
    | ok h4 =>
      obtain ⟨res', h5, h6⟩ := outers_rel hr hv hw he h2 h4
      exact ⟨res', .inr ⟨_, by rw [← hd, ← hw]; exact h3, by rw [← hd, ← hw, ← hs]; exact h5⟩, h6⟩

end Kernel

/-! ## Line kernels -/

namespace LineKernel

theorem innerProduct_rel (hr : Respects W I S) {v : List α} {v' : List β} (hv : List.Forall₂ W v v') (first last : Int)
    {read : Int → Res α} {read' : Int → Res β} (hx : ∀ i, RelRes I (read i) (read' i)) (stride it : Int) :
    RelRes S (innerProduct v first last read stride it) (innerProduct v' first last read' stride it) := by
  unfold innerProduct
  split
  · exact .error
  refine RelRes.foldlM (fun a b i h => ?_) _ hr.zero
  exact (RelRes.readAt hv _).bind fun w w' hw => (hx _).bind fun y y' hy => .ok (hr.step h hw hy)

/-- States which differ by the output data only. -/
def StateRel (S : α → β → Prop) (s : State α) (t : State β) : Prop :=
  s.i = t.i ∧ s.inIt = t.inIt ∧ s.outIt = t.outIt ∧ List.Forall₂ S s.out t.out

omit [Zero α] [Add α] [Mul α] [Zero β] [Add β] [Mul β] in
theorem put_rel (inn out : DataSamples) {s : State α} {t : State β} (h : StateRel S s t) {x : α} {y : β} (hx : S x y) :
    RelRes (StateRel S) (put inn out s x) (put inn out t y) := by
  obtain ⟨h1, h2, h3, h4⟩ := h
  unfold put
  rw [h1, h2, h3]
  exact (RelRes.writeAt h4 hx _).bind fun a b h => .ok ⟨rfl, rfl, rfl, h⟩

theorem while_rel {σ τ : Type _} {P : σ → τ → Prop} {cond : σ → Prop} {cond' : τ → Prop} {body : σ → Res σ} {body' : τ → Res τ}
    (hc : ∀ s t, P s t → (cond s ↔ cond' t)) (hb : ∀ s t, P s t → RelRes P (body s) (body' t)) {s : σ} {r : Res σ}
    (h : While cond body s r) : ∀ {t : τ}, P s t → ∃ r', While cond' body' t r' ∧ RelRes P r r' := by
  induction h with
  | @done s h => intro t ht; exact ⟨_, .done fun h' => h ((hc s t ht).2 h'), .ok ht⟩
  | @fail s e h1 h2 =>
    intro t ht
    have := hb s t ht
    rw [h2] at this
    generalize hy : body' t = y at this
    cases this
    exact ⟨_, .fail ((hc s t ht).1 h1) hy, .error⟩
  | @next s s' r h1 h2 _ ih =>
    intro t ht
    have := hb s t ht
    rw [h2] at this
    generalize hy : body' t = y at this
    cases this with
    | ok h3 =>
      obtain ⟨r', h4, h5⟩ := ih h3
      exact ⟨r', .next ((hc s t ht).1 h1) hy h4, h5⟩

/-- Related executions of the correlation of lines. -/
theorem correlates_rel (hr : Respects W I S) {k : LineKernel α} {k' : LineKernel β} (hv : List.Forall₂ W k.values k'.values)
    (ho : k.origin = k'.origin) {read : Int → Res α} {read' : Int → Res β} (hx : ∀ i, RelRes I (read i) (read' i))
    {inn out : DataSamples} {data : List α} {data' : List β} (hd : List.Forall₂ S data data') {res : Res (List α)}
    (h : Correlates k read inn out data res) :
    ∃ res', Correlates k' read' inn out data' res' ∧ RelRes (List.Forall₂ S) res res' := by
  have hl := hv.length_eq
  obtain ⟨r1, h1, h⟩ := h
  have hstart : StateRel S (start k inn out data) (start k' inn out data') := by
    unfold start
    rw [ho]
    exact ⟨rfl, rfl, rfl, hd⟩
  obtain ⟨r1', h1', e1⟩ := while_rel (P := StateRel S) (cond' := fun s => s.i < k'.origin) (body' := backwardBody k' read' inn out)
    (fun s t h => by rw [h.1, ho]) (fun s t h => by
      unfold backwardBody
      rw [← ho, ← hl, h.1]
      exact (innerProduct_rel hr hv _ _ hx _ _).bind fun a b hab => put_rel inn out h hab) h1 hstart
  cases e1 with
  | error => exact ⟨_, ⟨_, h1', rfl⟩, h ▸ .error⟩
  | ok e1 =>
    obtain ⟨r2, h2, h⟩ := h
    obtain ⟨r2', h2', e2⟩ := while_rel (P := StateRel S) (cond' := CentralCond k' inn) (body' := centralBody k' read' inn out)
      (fun s t h => by unfold CentralCond forward; rw [h.1, ho, hl]) (fun s t h => by
        unfold centralBody
        rw [← hl, h.2.1]
        exact (innerProduct_rel hr hv _ _ hx _ _).bind fun a b hab => put_rel inn out h hab) h2 e1
    cases e2 with
    | error => exact ⟨_, ⟨_, h1', _, h2', rfl⟩, h ▸ .error⟩
    | ok e2 =>
      obtain ⟨r3, h3, rfl⟩ := h
      obtain ⟨r3', h3', e3⟩ := while_rel (P := StateRel S) (cond' := fun s => s.i ≤ inn.sampling.back)
        (body' := forwardBody k' read' inn out) (fun s t h => by rw [h.1]) (fun s t h => by
          unfold forwardBody
          rw [← ho, h.1, h.2.1]
          exact (innerProduct_rel hr hv _ _ hx _ _).bind fun a b hab => put_rel inn out h hab) h3 e2
      exact ⟨_, ⟨_, h1', _, h2', _, h3', rfl⟩, e3.map fun a b h => h.2.2.2⟩

end LineKernel

/-! ## Separable kernels -/

namespace SeparableKernel

/-- Line kernels at the same axes, with related weights. -/
def KernelsRel (W : α → β → Prop) : List (Nat × LineKernel α) → List (Nat × LineKernel β) → Prop :=
  List.Forall₂ fun a b => a.1 = b.1 ∧ a.2.origin = b.2.origin ∧ List.Forall₂ W a.2.values b.2.values

omit [Zero α] [Add α] [Mul α] [Zero β] [Add β] [Mul β] in
theorem mapAt_rel {W : α → β → Prop} {m : List (Nat × LineKernel α)} {m' : List (Nat × LineKernel β)} (h : KernelsRel W m m')
    (axis : Nat) :
    RelRes (fun a b : LineKernel _ => a.origin = b.origin ∧ List.Forall₂ W a.values b.values) (mapAt m axis) (mapAt m' axis) := by
  induction h with
  | nil => exact .error
  | @cons a b l l' h _ ih =>
    obtain ⟨i, k⟩ := a
    obtain ⟨j, k'⟩ := b
    obtain ⟨rfl, h1, h2⟩ := h
    unfold mapAt at ih ⊢
    by_cases e : axis == i
    · simpa [List.lookup_cons, e] using .ok ⟨h1, h2⟩
    · simpa [List.lookup_cons, e] using ih

theorem lines_rel (hr : Respects W I S) {m : List (Nat × LineKernel α)} {m' : List (Nat × LineKernel β)} (hm : KernelsRel W m m')
    {shape : Position} {axis : Nat} {x : List α} {x' : List β} (hx : List.Forall₂ I x x') {ps : List Position} {out : List α}
    {res : Res (List α)} (h : Lines m shape axis x ps out res) : ∀ {out' : List β}, List.Forall₂ S out out' →
    ∃ res', Lines m' shape axis x' ps out' res' ∧ RelRes (List.Forall₂ S) res res' := by
  have hk := mapAt_rel hm axis
  induction h with
  | done => intro out' ho; exact ⟨_, .done, .ok ho⟩
  | missing h =>
    intro out' ho
    rw [h] at hk
    generalize hy : mapAt m' axis = y at hk
    cases hk
    exact ⟨_, .missing hy, .error⟩
  | fail h h1 =>
    intro out' ho
    rw [h] at hk
    generalize hy : mapAt m' axis = y at hk
    cases hk with
    | ok hk =>
      obtain ⟨_, h2, h3⟩ := LineKernel.correlates_rel hr hk.2 hk.1 (RelRes.readAt hx) ho h1
      cases h3
      exact ⟨_, .fail hy h2, .error⟩
  | next h h1 _ ih =>
    intro out' ho
    rw [h] at hk
    generalize hy : mapAt m' axis = y at hk
    cases hk with
    | ok hk =>
      obtain ⟨_, h2, h3⟩ := LineKernel.correlates_rel hr hk.2 hk.1 (RelRes.readAt hx) ho h1
      cases h3 with
      | ok h3 =>
        obtain ⟨res', h4, h5⟩ := ih h3
        exact ⟨res', .next hy h2 h4, h5⟩

/-- Rasters of same shape, with related values. -/
def RasterRel (P : α → β → Prop) (x : Raster α) (y : Raster β) : Prop := x.shape = y.shape ∧ List.Forall₂ P x.data y.data

theorem along_rel (hr : Respects W I S) {m : List (Nat × LineKernel α)} {m' : List (Nat × LineKernel β)} (hm : KernelsRel W m m')
    {axis : Nat} {x : Raster α} {x' : Raster β} (hx : RasterRel I x x') {res : Res (Raster α)} (h : Along m axis x res) :
    ∃ res', Along m' axis x' res' ∧ RelRes (RasterRel S) res res' := by
  unfold Along at h ⊢
  have hof : RelRes (RasterRel S) (Raster.ofShape (0 : α) x.shape) (Raster.ofShape (0 : β) x'.shape) := by
    rw [← hx.1]
    unfold Raster.ofShape
    dsimp only
    split
    · exact .error
    · refine .ok ⟨rfl, ?_⟩
      generalize (u64 (shapeSize x.shape)).toNat = n
      induction n with
      | zero => exact .nil
      | succ n ih => exact .cons hr.zero ih
  have hd : x.domain = x'.domain := by simp only [Raster.domain, hx.1]
  generalize Raster.ofShape (0 : α) x.shape = a at hof h
  generalize Raster.ofShape (0 : β) x'.shape = b at hof
  cases hof with
  | error =>
    dsimp only at h ⊢
    exact ⟨_, rfl, h ▸ .error⟩
  | ok hof =>
    obtain ⟨ps, h1, r, h2, rfl⟩ := h
    obtain ⟨r', h3, h4⟩ := lines_rel hr hm hx.2 h2 hof.2
    refine ⟨_, ⟨ps, by rw [← hd]; exact h1, r', by rw [← hx.1]; exact h3, rfl⟩, ?_⟩
    exact h4.map fun a b h => ⟨hx.1, h⟩

/-- Related executions of the correlation by a separable kernel. -/
theorem alongSeq_rel (hr : Respects W S S) {m : List (Nat × LineKernel α)} {m' : List (Nat × LineKernel β)} (hm : KernelsRel W m m')
    {axes : List Nat} {x : Raster α} {res : Res (Raster α)} (h : AlongSeq m axes x res) :
    ∀ {x' : Raster β}, RasterRel S x x' → ∃ res', AlongSeq m' axes x' res' ∧ RelRes (RasterRel S) res res' := by
  induction h with
  | done => intro x' hx; exact ⟨_, .done, .ok hx⟩
  | fail h =>
    intro x' hx
    obtain ⟨_, h1, h2⟩ := along_rel hr hm hx h
    cases h2
    exact ⟨_, .fail h1, .error⟩
  | next h _ ih =>
    intro x' hx
    obtain ⟨_, h1, h2⟩ := along_rel hr hm hx h
    cases h2 with
    | ok h2 =>
      obtain ⟨res', h3, h4⟩ := ih h2
      refine ⟨_, .next h1 h3, ?_⟩
      unfold printed
      exact h4.bind fun a b hab => (RelRes.readAt h2.2 0).bind fun _ _ _ => (RelRes.readAt hab.2 0).bind fun _ _ _ => .ok hab

end SeparableKernel

end

/-! ## Runs are unique -/

section

variable [Zero α] [Add α] [Mul α]

namespace Kernel

theorem Inner.unique {k : Kernel α} {x : Raster α} {box : Box} {out : List α} {r r' : Res (List α)} (h : Inner k x box out r)
    (h' : Inner k x box out r') : r = r' := by
  rcases h with ⟨h0, rfl⟩ | ⟨h0, l, hl, rfl⟩ <;> rcases h' with ⟨h0', rfl⟩ | ⟨h0', l', hl', rfl⟩
  · rfl
  · exact absurd h0 h0'
  · exact absurd h0' h0
  · rw [LoopTrace.unique hl hl']

theorem Outer.unique {k : Kernel α} {e : Position → Res α} {shape : Position} {box : Box} {out : List α} {r r' : Res (List α)}
    (h : Outer k e shape box out r) (h' : Outer k e shape box out r') : r = r' := by
  rcases h with ⟨h0, rfl⟩ | ⟨h0, l, ws, hl, hw, rfl⟩ <;> rcases h' with ⟨h0', rfl⟩ | ⟨h0', l', ws', hl', hw', rfl⟩
  · rfl
  · exact absurd h0 h0'
  · exact absurd h0' h0
  · cases LoopTrace.unique hl hl'
    have : ws = ws' := by
      clear hl hl'
      induction hw generalizing ws' with
      | nil => cases hw'; rfl
      | cons hw _ ih =>
        cases hw' with
        | cons hw' ht' => rw [LoopTrace.unique hw hw', ih _ ht']
    rw [this]

theorem Outers.unique {k : Kernel α} {e : Position → Res α} {shape : Position} {boxes : List Box} {out : List α}
    {r r' : Res (List α)} (h : Outers k e shape boxes out r) (h' : Outers k e shape boxes out r') : r = r' := by
  induction h with
  | done => cases h'; rfl
  | fail h =>
    cases h' with
    | fail h' => exact h.unique h'
    | next h' _ => simpa using h.unique h'
  | next h _ ih =>
    cases h' with
    | fail h' => simpa using h.unique h'
    | next h' ht =>
      have := h.unique h'
      simp only [Except.ok.injEq] at this
      subst this
      exact ih ht

theorem Correlates.unique {k : Kernel α} {x : Raster α} {e : Position → Res α} {out : List α} {r r' : Res (List α)}
    (h : Correlates k x e out r) (h' : Correlates k x e out r') : r = r' := by
  rcases h with ⟨f, h, rfl⟩ | ⟨o, h, ht⟩ <;> rcases h' with ⟨f', h', rfl⟩ | ⟨o', h', ht'⟩
  · exact h.unique h'
  · simpa using h.unique h'
  · simpa using h.unique h'
  · have := h.unique h'
    simp only [Except.ok.injEq] at this
    subst this
    exact ht.unique ht'

end Kernel

namespace LineKernel

theorem Correlates.unique {k : LineKernel α} {read : Int → Res α} {inn out : DataSamples} {data : List α} {r r' : Res (List α)}
    (h : Correlates k read inn out data r) (h' : Correlates k read inn out data r') : r = r' := by
  obtain ⟨r1, h1, h⟩ := h
  obtain ⟨r1', h1', h'⟩ := h'
  cases h1.unique h1'
  cases r1 with
  | error e => exact h.trans h'.symm
  | ok s1 =>
    obtain ⟨r2, h2, h⟩ := h
    obtain ⟨r2', h2', h'⟩ := h'
    cases h2.unique h2'
    cases r2 with
    | error e => exact h.trans h'.symm
    | ok s2 =>
      obtain ⟨r3, h3, rfl⟩ := h
      obtain ⟨r3', h3', rfl⟩ := h'
      rw [h3.unique h3']

end LineKernel

namespace SeparableKernel

theorem Lines.unique {m : List (Nat × LineKernel α)} {shape : Position} {axis : Nat} {x : List α} {ps : List Position}
    {out : List α} {r r' : Res (List α)} (h : Lines m shape axis x ps out r) (h' : Lines m shape axis x ps out r') : r = r' := by
  induction h with
  | done => cases h'; rfl
  | missing h =>
    cases h' with
    | missing h' => rw [h] at h'; simpa using h'
    | fail h' _ => rw [h] at h'; simp at h'
    | next h' _ _ => rw [h] at h'; simp at h'
  | fail h h1 =>
    cases h' with
    | missing h' => rw [h] at h'; simp at h'
    | fail h' h1' =>
      rw [h] at h'
      simp only [Except.ok.injEq] at h'
      subst h'
      exact h1.unique h1'
    | next h' h1' _ =>
      rw [h] at h'
      simp only [Except.ok.injEq] at h'
      subst h'
      simpa using h1.unique h1'
  | next h h1 _ ih =>
    cases h' with
    | missing h' => rw [h] at h'; simp at h'
    | fail h' h1' =>
      rw [h] at h'
      simp only [Except.ok.injEq] at h'
      subst h'
      simpa using h1.unique h1'
    | next h' h1' ht =>
      rw [h] at h'
      simp only [Except.ok.injEq] at h'
      subst h'
      have := h1.unique h1'
      simp only [Except.ok.injEq] at this
      subst this
      exact ih ht

theorem Along.unique {m : List (Nat × LineKernel α)} {axis : Nat} {x : Raster α} {r r' : Res (Raster α)} (h : Along m axis x r)
    (h' : Along m axis x r') : r = r' := by
  unfold Along at h h'
  cases ho : Raster.ofShape (0 : α) x.shape with
  | error e => rw [ho] at h h'; exact h.trans h'.symm
  | ok o =>
    rw [ho] at h h'
    obtain ⟨ps, h1, r, h2, rfl⟩ := h
    obtain ⟨ps', h1', r', h2', rfl⟩ := h'
    cases LoopTrace.unique h1 h1'
    rw [h2.unique h2']

theorem AlongSeq.unique {m : List (Nat × LineKernel α)} {axes : List Nat} {x : Raster α} {r r' : Res (Raster α)}
    (h : AlongSeq m axes x r) (h' : AlongSeq m axes x r') : r = r' := by
  induction h generalizing r' with
  | done => cases h'; rfl
  | fail h =>
    cases h' with
    | fail h' => exact h.unique h'
    | next h' _ => simpa using h.unique h'
  | next h _ ih =>
    cases h' with
    | fail h' => simpa using h.unique h'
    | next h' ht =>
      have := h.unique h'
      simp only [Except.ok.injEq] at this
      subst this
      rw [ih ht]

end SeparableKernel

end

/-! ## Three runs -/

open Spec

theorem RelRes.alike {P : α → β → Prop} {x : Res α} {y : Res β} (h : RelRes P x y) : Alike P x y := by
  cases h with
  | ok h => exact .inr ⟨_, _, rfl, rfl, h⟩
  | error => exact .inl ⟨_, rfl, rfl⟩

theorem RelRes.of_alike {P : α → β → Prop} {x : Res α} {y : Res β} (h : Alike P x y) : RelRes P x y := by
  rcases h with ⟨e, rfl, rfl⟩ | ⟨a, b, rfl, rfl, h⟩
  · exact .error
  · exact .ok h

theorem forall₂_map_right {P : α → β → Prop} (f : α → β) (h : ∀ a, P a (f a)) (l : List α) : List.Forall₂ P l (l.map f) := by
  induction l with
  | nil => exact .nil
  | cons a l ih => exact .cons (h a) ih

theorem forall₂_fst {x : List α} {y : List β} (h : x.length = y.length) :
    List.Forall₂ (fun (p : α × β) a => p.1 = a) (x.zip y) x := by
  induction x generalizing y with
  | nil => exact .nil
  | cons a x ih =>
    cases y with
    | nil => simp at h
    | cons b y => exact .cons rfl (ih (by simpa using h))

theorem forall₂_snd {x : List α} {y : List β} (h : x.length = y.length) :
    List.Forall₂ (fun (p : α × β) b => p.2 = b) (x.zip y) y := by
  induction x generalizing y with
  | nil =>
    cases y with
    | nil => exact .nil
    | cons b y => simp at h
  | cons a x ih =>
    cases y with
    | nil => simp at h
    | cons b y => exact .cons rfl (ih (by simpa using h))

/-- Both results of an execution on pairs. -/
def pairRes (x : Res α) (y : Res β) : Res (α × β) :=
  match x, y with
  | .ok a, .ok b => .ok (a, b)
  | .error e, _ => .error e
  | _, .error e => .error e

/-- Values of three executions: `z` is related to the pair of `x` and `y`. -/
def Triple (T : γ → α × β → Prop) (x : List α) (y : List β) (z : List γ) : Prop :=
  x.length = y.length ∧ List.Forall₂ T z (x.zip y)

theorem pairRes_fst {T : γ → α × β → Prop} {x : Res α} {y : Res β} {z : Res γ} (h : Together (fun a b c => T c (a, b)) x y z) :
    RelRes (fun (p : α × β) a => p.1 = a) (pairRes x y) x ∧ RelRes (fun (p : α × β) b => p.2 = b) (pairRes x y) y ∧
    RelRes T z (pairRes x y) := by
  rcases h with ⟨e, rfl, rfl, rfl⟩ | ⟨a, b, c, rfl, rfl, rfl, h⟩
  · exact ⟨.error, .error, .error⟩
  · exact ⟨.ok rfl, .ok rfl, .ok h⟩

theorem eq_zip {l : List (α × β)} {x : List α} {y : List β} (hx : List.Forall₂ (fun (p : α × β) a => p.1 = a) l x)
    (hy : List.Forall₂ (fun (p : α × β) b => p.2 = b) l y) : x.length = y.length ∧ l = x.zip y := by
  induction hx generalizing y with
  | nil => cases hy; exact ⟨rfl, rfl⟩
  | cons h _ ih =>
    cases hy with
    | cons h' ht =>
      obtain ⟨h1, h2⟩ := ih ht
      exact ⟨by simpa using h1, by rw [h2, List.zip_cons_cons, ← h, ← h']⟩

theorem together_of_pair {T : γ → α × β → Prop} {rx : Res (List α)} {ry : Res (List β)} {rz : Res (List γ)} {rp : Res (List (α × β))}
    (hz : RelRes (List.Forall₂ T) rz rp) (hx : RelRes (List.Forall₂ fun (p : α × β) a => p.1 = a) rp rx)
    (hy : RelRes (List.Forall₂ fun (p : α × β) b => p.2 = b) rp ry) : Together (Triple T) rx ry rz := by
  cases hz with
  | error => cases hx; cases hy; exact .inl ⟨_, rfl, rfl, rfl⟩
  | ok hz =>
    cases hx with
    | ok hx =>
      cases hy with
      | ok hy =>
        obtain ⟨h1, rfl⟩ := eq_zip hx hy
        exact .inr ⟨_, _, _, rfl, rfl, rfl, h1, hz⟩

section

variable [Zero α] [Add α] [Mul α] [Zero β] [Add β] [Mul β] [Zero γ] [Add γ] [Mul γ]

theorem respects_fst : Respects (α := α × β) (β := α) (fun p a => p.1 = a) (fun p a => p.1 = a) (fun p a => p.1 = a) where
  zero := rfl
  padding := rfl
  step := by rintro _ _ _ _ _ _ rfl rfl rfl; rfl

theorem respects_snd : Respects (α := α × β) (β := β) (fun p a => p.2 = a) (fun p a => p.2 = a) (fun p a => p.2 = a) where
  zero := rfl
  padding := rfl
  step := by rintro _ _ _ _ _ _ rfl rfl rfl; rfl

/-- The correlations of three rasters. -/
theorem Kernel.triple {W I S : γ → α × β → Prop} (hr : Respects W I S) {kx : Kernel α} {ky : Kernel β} {kz : Kernel γ}
    (hk : Triple W kx.values ky.values kz.values) (hwx : kz.window = kx.window) (hwy : kz.window = ky.window) {x : Raster α}
    {y : Raster β} {z : Raster γ} (hd : Triple I x.data y.data z.data) (hsx : z.shape = x.shape) (hsy : z.shape = y.shape)
    {ex : Position → Res α} {ey : Position → Res β} {ez : Position → Res γ}
    (he : ∀ p, Together (fun a b c => I c (a, b)) (ex p) (ey p) (ez p)) {ox : List α} {oy : List β} {oz : List γ}
    (ho : Triple S ox oy oz) {rz : Res (List γ)} (h : kz.Correlates z ez oz rz) :
    ∃ rx ry, kx.Correlates x ex ox rx ∧ ky.Correlates y ey oy ry ∧ Together (Triple S) rx ry rz := by
  obtain ⟨rp, h1, e1⟩ := Kernel.correlates_rel (k' := ⟨kx.values.zip ky.values, kz.window⟩) (x' := ⟨z.shape, x.data.zip y.data⟩)
    (e' := fun p => pairRes (ex p) (ey p)) hr hk.2 rfl rfl hd.2 (fun p => (pairRes_fst (he p)).2.2) ho.2 h
  obtain ⟨rx, h2, e2⟩ := Kernel.correlates_rel (k' := kx) (x' := x) (e' := ex) (out' := ox) respects_fst (forall₂_fst hk.1) hwx hsx
    (forall₂_fst hd.1) (fun p => (pairRes_fst (he p)).1) (forall₂_fst ho.1) h1
  obtain ⟨ry, h3, e3⟩ := Kernel.correlates_rel (k' := ky) (x' := y) (e' := ey) (out' := oy) respects_snd (forall₂_snd hk.1) hwy hsy
    (forall₂_snd hd.1) (fun p => (pairRes_fst (he p)).2.1) (forall₂_snd ho.1) h1
  exact ⟨rx, ry, h2, h3, together_of_pair e1 e2 e3⟩

/-- The correlations of three lines. -/
theorem LineKernel.triple {W I S : γ → α × β → Prop} (hr : Respects W I S) {kx : LineKernel α} {ky : LineKernel β}
    {kz : LineKernel γ} (hk : Triple W kx.values ky.values kz.values) (hwx : kz.origin = kx.origin) (hwy : kz.origin = ky.origin)
    {x : Int → Res α} {y : Int → Res β} {z : Int → Res γ} (hd : ∀ i, Together (fun a b c => I c (a, b)) (x i) (y i) (z i))
    {inn out : DataSamples} {ox : List α} {oy : List β} {oz : List γ} (ho : Triple S ox oy oz) {rz : Res (List γ)}
    (h : kz.Correlates z inn out oz rz) :
    ∃ rx ry, kx.Correlates x inn out ox rx ∧ ky.Correlates y inn out oy ry ∧ Together (Triple S) rx ry rz := by
  obtain ⟨rp, h1, e1⟩ := LineKernel.correlates_rel (k' := ⟨kx.values.zip ky.values, kz.origin⟩)
    (read' := fun i => pairRes (x i) (y i)) hr hk.2 rfl (fun p => (pairRes_fst (hd p)).2.2) ho.2 h
  obtain ⟨rx, h2, e2⟩ := LineKernel.correlates_rel (k' := kx) (read' := x) (data' := ox) respects_fst (forall₂_fst hk.1) hwx
    (fun p => (pairRes_fst (hd p)).1) (forall₂_fst ho.1) h1
  obtain ⟨ry, h3, e3⟩ := LineKernel.correlates_rel (k' := ky) (read' := y) (data' := oy) respects_snd (forall₂_snd hk.1) hwy
    (fun p => (pairRes_fst (hd p)).2.1) (forall₂_snd ho.1) h1
  exact ⟨rx, ry, h2, h3, together_of_pair e1 e2 e3⟩

/-- A separable kernel of pairs. -/
def SeparableKernel.twice (m : List (Nat × LineKernel α)) : List (Nat × LineKernel (α × α)) :=
  m.map fun e => (e.1, ⟨e.2.values.map fun w => (w, w), e.2.origin⟩)

omit [Zero α] [Add α] [Mul α] in
theorem SeparableKernel.twice_rel (m : List (Nat × LineKernel α)) :
    KernelsRel (fun w (p : α × α) => w = p.1 ∧ w = p.2) m (twice m) ∧ KernelsRel (fun (p : α × α) w => p.1 = w) (twice m) m ∧
    KernelsRel (fun (p : α × α) w => p.2 = w) (twice m) m := by
  refine ⟨?_, ?_, ?_⟩
  · exact forall₂_map_right _ (fun e => ⟨rfl, rfl, forall₂_map_right _ (fun w => ⟨rfl, rfl⟩) _⟩) _
  · exact (forall₂_map_right _ (fun e => ⟨rfl, rfl, (forall₂_map_right (P := fun w (p : α × α) => p.1 = w) _ (fun w => rfl) _).flip⟩) _).flip
  · exact (forall₂_map_right _ (fun e => ⟨rfl, rfl, (forall₂_map_right (P := fun w (p : α × α) => p.2 = w) _ (fun w => rfl) _).flip⟩) _).flip

/-- The correlations of three rasters by a separable kernel. -/
theorem SeparableKernel.triple {S : α → α × α → Prop} (hr : Respects (fun w (p : α × α) => w = p.1 ∧ w = p.2) S S)
    {k : SeparableKernel α} {x y z : Raster α} (hd : Triple S x.data y.data z.data) (hsx : z.shape = x.shape)
    (hsy : z.shape = y.shape) {rz : Res (Raster α)} (h : k.Correlates z rz) :
    ∃ rx ry, k.Correlates x rx ∧ k.Correlates y ry ∧
      Together (fun a b c => a.shape = c.shape ∧ b.shape = c.shape ∧ Triple S a.data b.data c.data) rx ry rz := by
  obtain ⟨rp, h1, e1⟩ := SeparableKernel.alongSeq_rel (x' := ⟨z.shape, x.data.zip y.data⟩) hr (twice_rel k.kernels).1 h ⟨rfl, hd.2⟩
  obtain ⟨rx, h2, e2⟩ := SeparableKernel.alongSeq_rel (x' := x) respects_fst (twice_rel k.kernels).2.1 h1 ⟨hsx, forall₂_fst hd.1⟩
  obtain ⟨ry, h3, e3⟩ := SeparableKernel.alongSeq_rel (x' := y) respects_snd (twice_rel k.kernels).2.2 h1 ⟨hsy, forall₂_snd hd.1⟩
  refine ⟨rx, ry, h2, h3, ?_⟩
  cases e1 with
  | error => cases e2; cases e3; exact .inl ⟨_, rfl, rfl, rfl⟩
  | ok e1 =>
    cases e2 with
    | ok e2 =>
      cases e3 with
      | ok e3 =>
        obtain ⟨h4, h5⟩ := eq_zip e2.2 e3.2
        exact .inr ⟨_, _, _, rfl, rfl, rfl, by rw [← e2.1, e1.1], by rw [← e3.1, e1.1], h4, h5 ▸ e1.2⟩

end

end Litl
