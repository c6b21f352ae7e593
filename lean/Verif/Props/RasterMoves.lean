import Verif.Model.RasterMoves
import Verif.Props.Holders
import Verif.Props.RasterCtor

/-!
# C124: the sizes of rasters are those of their shapes, whatever the program
-/

namespace Litl

namespace Spec

open Moves (Op)

/-- The number of pixels of a raster; there are none in dimension 0. -/
def Pixels (shape : Position) : Int := if shape = [] then 0 else pixelCount shape

/-- Whether the pixels of a raster were moved, and the raster was not assigned since then; the last operation comes first. -/
def IsMoved {α : Type} : List (Op α) → Nat → Prop
  | [], _ => False
  | .ofShape i _ :: h, k => k ≠ i ∧ IsMoved h k
  | .ofList i _ _ :: h, k => k ≠ i ∧ IsMoved h k
  | .ofContainer i _ _ :: h, k => k ≠ i ∧ IsMoved h k
  | .copy i j :: h, k => IsMoved h (if k = i then j else k)
  | .move i j :: h, k => k = j ∨ IsMoved h (if k = i then j else k)
  | .copyAssign i j :: h, k => IsMoved h (if k = i then j else k)
  | .moveAssign i j :: h, k => k = j ∨ IsMoved h (if k = i then j else k)
  | .moveTo i :: h, k => k = i ∨ IsMoved h k
  | .destroy _ :: h, k => IsMoved h k

/-- The shapes which rasters are given are valid. -/
def ValidShape (shape : Position) : Prop := shape ≠ [] ∧ NonNeg shape ∧ pixelCount shape < 2 ^ 63

/-- The arguments of constructors are valid. -/
def ValidOp {α : Type} : Op α → Prop
  | .ofShape _ s => ValidShape s
  | .ofList _ s l => ValidShape s ∧ l.length < 2 ^ 63
  | .ofContainer _ s l => ValidShape s ∧ l.length < 2 ^ 63
  | _ => True

/-- Constructors from lists. -/
def IsList {α : Type} : Op α → Prop
  | .ofList _ _ _ => True
  | _ => False

end Spec

open Spec Moves Holder Container

/-- **C124**: whatever the program, the size of a raster is the number of its pixels, according to its shape. -/
def C124_Statement : Prop :=
  ∀ (α : Type) (zero : α) (N : Int) (kind : Kind) (h : List (Moves.Op α)) (s : Moves.State α), (∀ op ∈ h, ValidOp op) →
    Runs zero N kind h s → ∀ i r, s i = some r → (r.data.length : Int) = Pixels r.shape

namespace Moves

variable {α : Type}

/-- Sizes and shapes agree. -/
def Agrees (r : Raster α) : Prop := (r.data.length : Int) = Pixels r.shape

theorem u64_pixels {s : Position} (h : ValidShape s) : u64 (shapeSize s) = pixelCount s := by
  have h0 := pixelCount_nonneg h.2.1
  have h1 := h.2.2
  rw [shapeSize_eq h.1]
  exact Int.emod_eq_of_lt h0 (by change s.prod < _ at h1; omega)

theorem pixels_eq {s : Position} (h : s ≠ []) : Pixels s = pixelCount s := if_neg h

theorem ofSize_length {zero : α} {kind : Kind} {n : Nat} {d : List α} (h : ofSize zero kind n none = .ok d) :
    d.length = n ∨ ∃ C, kind = .array C ∧ n = 0 ∧ d.length = C := by
  by_cases hk : ∀ N, kind = .array N → n ≠ 0
  · rw [C70_size_partial zero kind n d h hk]; exact .inl (by simp)
  · push Not at hk
    obtain ⟨C, rfl, rfl⟩ := hk
    rw [C70_array_size] at h
    simp only [or_true, if_true] at h
    cases h
    exact .inr ⟨C, rfl, rfl, by simp⟩

theorem ofShape_agrees {zero : α} {kind : Kind} {s : Position} {r : Raster α} (hs : ValidShape s)
    (hp : ∀ C, kind = .array C → pixelCount s ≠ 0) (h : rasterOfShape zero kind s = .ok r) : Agrees r := by
  unfold rasterOfShape at h
  rw [u64_pixels hs] at h
  have h0 := pixelCount_nonneg hs.2.1
  rcases hd : ofSize zero kind (pixelCount s).toNat none with e | d
  · rw [hd] at h; cases h
  · rw [hd, ok_bind] at h
    cases h
    show (d.length : Int) = Pixels s
    rw [pixels_eq hs.1]
    rcases ofSize_length hd with e | ⟨C, hC, e, _⟩
    · omega
    · have := hp C hC
      omega

theorem ofContainer_agrees {s : Position} {l : List α} {r : Raster α} (hs : ValidShape s) (hl : l.length < 2 ^ 63)
    (h : rasterOfContainer s l = .ok r) : Agrees r := by
  unfold rasterOfContainer at h
  rw [u64_pixels hs] at h
  have h0 := pixelCount_nonneg hs.2.1
  have h1 := hs.2.2
  rw [C70_container _ _ (by omega) (by omega)] at h
  split at h
  · next e =>
    rw [ok_bind] at h
    cases h
    show (l.length : Int) = Pixels s
    rw [pixels_eq hs.1]
    omega
  · cases h

theorem ofList_agrees {zero : α} {N : Int} (hN : N ≠ -1) {kind : Kind} {s : Position} {l : List α} {r : Raster α} (hs : ValidShape s)
    (hl : l.length < 2 ^ 63) (hp : ∀ C, kind = .array C → pixelCount s ≠ 0) (h : rasterOfList zero N kind s l = .ok r) :
    Agrees r := by
  unfold rasterOfList at h
  have h0 := pixelCount_nonneg hs.2.1
  have h1 := hs.2.2
  have hm : Raster.movedFrom N s = s := if_neg hN
  have hz : shapeSize s = pixelCount s := shapeSize_eq hs.1
  rw [hm, hz, SizeError.mayThrow_eq _ _ (by omega) h0 (by omega)] at h
  rcases hd : ofValues zero kind l with e | d
  · rw [hd] at h; cases h
  · rw [hd, ok_bind] at h
    split at h
    · next e =>
      rw [ok_bind] at h
      cases h
      show (d.length : Int) = Pixels s
      rw [pixels_eq hs.1, ← e]
      cases kind with
      | vector =>
        rw [C70_values_vector zero l hl] at hd
        cases hd
        rfl
      | array C =>
        rw [C70_values_array] at hd
        split at hd
        · cases hd; rfl
        · split at hd
          · next e' => subst e'; exact absurd e.symm (by simpa using hp C rfl)
          · cases hd
    · cases h

/-- Whatever holds for rasters which are constructed, and for what remains of rasters, holds for all rasters. -/
theorem induct {zero : α} {N : Int} {kind : Kind} {P Q : Raster α → Prop} (hr : ∀ r, P r ∨ Q r → Q (remainder N kind r)) :
    ∀ {h : List (Op α)} {s : State α}, Runs zero N kind h s →
    (∀ i shape r, .ofShape i shape ∈ h → rasterOfShape zero kind shape = .ok r → P r) →
    (∀ i shape l r, .ofList i shape l ∈ h → rasterOfList zero N kind shape l = .ok r → P r) →
    (∀ i shape l r, .ofContainer i shape l ∈ h → rasterOfContainer shape l = .ok r → P r) →
    (∀ i r, .moveTo i ∈ h → P r ∨ Q r → Q (rasterMoveTo kind r).2) →
    ∀ k r, s k = some r → (¬ IsMoved h k → P r) ∧ (IsMoved h k → Q r) := by
  intro h s hrun
  induction hrun with
  | nil => intro _ _ _ _ k r hk; cases hk
  | @cons h s s' op hrun hstep ih =>
    intro h1 h2 h3 h4 k r hk
    have ih := ih (fun i t r hm => h1 i t r (List.mem_cons_of_mem _ hm)) (fun i t l r hm => h2 i t l r (List.mem_cons_of_mem _ hm))
      (fun i t l r hm => h3 i t l r (List.mem_cons_of_mem _ hm)) (fun i r hm => h4 i r (List.mem_cons_of_mem _ hm))
    have any : ∀ j q, s j = some q → P q ∨ Q q := by
      intro j q hj
      by_cases e : IsMoved h j
      · exact .inr ((ih j q hj).2 e)
      · exact .inl ((ih j q hj).1 e)
    cases op with
    | ofShape i shape =>
      simp only [step] at hstep
      split at hstep
      · cases hstep
      · rcases hq : rasterOfShape zero kind shape with e | q
        · rw [hq] at hstep; cases hstep
        · rw [hq, ok_bind] at hstep
          cases hstep
          simp only [State.set] at hk
          split at hk
          · next e =>
            cases hk
            exact ⟨fun _ => h1 i shape r (by simp) hq, fun hm => absurd e hm.1⟩
          · next e =>
            exact ⟨fun hm => (ih k r hk).1 fun hm' => hm ⟨e, hm'⟩, fun hm => (ih k r hk).2 hm.2⟩
    | ofList i shape l =>
      simp only [step] at hstep
      split at hstep
      · cases hstep
      · rcases hq : rasterOfList zero N kind shape l with e | q
        · rw [hq] at hstep; cases hstep
        · rw [hq, ok_bind] at hstep
          cases hstep
          simp only [State.set] at hk
          split at hk
          · next e =>
            cases hk
            exact ⟨fun _ => h2 i shape l r (by simp) hq, fun hm => absurd e hm.1⟩
          · next e =>
            exact ⟨fun hm => (ih k r hk).1 fun hm' => hm ⟨e, hm'⟩, fun hm => (ih k r hk).2 hm.2⟩
    | ofContainer i shape l =>
      simp only [step] at hstep
      split at hstep
      · cases hstep
      · rcases hq : rasterOfContainer shape l with e | q
        · rw [hq] at hstep; cases hstep
        · rw [hq, ok_bind] at hstep
          cases hstep
          simp only [State.set] at hk
          split at hk
          · next e =>
            cases hk
            exact ⟨fun _ => h3 i shape l r (by simp) hq, fun hm => absurd e hm.1⟩
          · next e =>
            exact ⟨fun hm => (ih k r hk).1 fun hm' => hm ⟨e, hm'⟩, fun hm => (ih k r hk).2 hm.2⟩
    | copy i j =>
      simp only [step] at hstep
      split at hstep
      · next q hi hj =>
        cases hstep
        simp only [State.set] at hk
        simp only [IsMoved]
        split at hk
        · next e => cases hk; rw [if_pos e]; exact ih j r hj
        · next e => rw [if_neg e]; exact ih k r hk
      · cases hstep
    | copyAssign i j =>
      simp only [step] at hstep
      split at hstep
      · next q hi hj =>
        cases hstep
        simp only [State.set] at hk
        simp only [IsMoved]
        split at hk
        · next e => cases hk; rw [if_pos e]; exact ih j r hj
        · next e => rw [if_neg e]; exact ih k r hk
      · cases hstep
    | move i j =>
      simp only [step] at hstep
      split at hstep
      · next q hi hj =>
        cases hstep
        simp only [State.set] at hk
        simp only [IsMoved]
        split at hk
        · next e =>
          cases hk
          exact ⟨fun hm => absurd (.inl e) hm, fun _ => hr q (any j q hj)⟩
        · next e =>
          simp only [e, false_or]
          split at hk
          · next e => cases hk; rw [if_pos e]; exact ih j r hj
          · next e => rw [if_neg e]; exact ih k r hk
      · cases hstep
    | moveAssign i j =>
      simp only [step] at hstep
      split at hstep
      · next q hi hj =>
        cases hstep
        simp only [State.set] at hk
        simp only [IsMoved]
        split at hk
        · next e =>
          cases hk
          exact ⟨fun hm => absurd (.inl e) hm, fun _ => hr q (any j q hj)⟩
        · next e =>
          simp only [e, false_or]
          split at hk
          · next e => cases hk; rw [if_pos e]; exact ih j r hj
          · next e => rw [if_neg e]; exact ih k r hk
      · cases hstep
    | moveTo i =>
      simp only [step] at hstep
      split at hstep
      · next q hi =>
        cases hstep
        simp only [State.set] at hk
        simp only [IsMoved]
        split at hk
        · next e =>
          cases hk
          exact ⟨fun hm => absurd (.inl e) hm, fun _ => h4 i q (by simp) (any i q hi)⟩
        · next e => simp only [e, false_or]; exact ih k r hk
      · cases hstep
    | destroy i =>
      simp only [step] at hstep
      split at hstep
      · cases hstep
        simp only [State.set] at hk
        split at hk
        · cases hk
        · exact ih k r hk
      · cases hstep

end Moves

open Moves (Op State)

/-- No raster is constructed without pixels. -/
def Spec.HasPixels {α : Type} : Op α → Prop
  | .ofShape _ s => pixelCount s ≠ 0
  | .ofList _ s _ => pixelCount s ≠ 0
  | _ => True

/-- **C124** for rasters which were not moved, or which were assigned since then: whatever the program, in fixed dimensions or without
list constructors; for arrays, the property does not hold for shapes without pixels (C70).
Missing: rasters which were moved, for which the property does not hold in general (`C124_moved`), and constructors from lists in
variable dimension, which do not compare the sizes (C21). -/
theorem C124_partial {α : Type} {zero : α} {N : Int} {kind : Kind} {h : List (Op α)} {s : State α} (hrun : Runs zero N kind h s)
    (hv : ∀ op ∈ h, ValidOp op) (hl : N = -1 → ∀ op ∈ h, ¬ IsList op) (ha : ∀ C, kind = .array C → ∀ op ∈ h, HasPixels op)
    {i : Nat} {r : Raster α} (hi : s i = some r) (hm : ¬ IsMoved h i) : (r.data.length : Int) = Pixels r.shape := by
  refine (induct (P := Agrees) (Q := fun _ => True) (fun _ _ => trivial) hrun ?_ ?_ ?_ (fun _ _ _ _ => trivial) i r hi).1 hm
  · intro j shape q hq e
    exact ofShape_agrees (hv _ hq) (fun C hC => ha C hC _ hq) e
  · intro j shape l q hq e
    have hN : N ≠ -1 := fun hN => hl hN _ hq trivial
    exact ofList_agrees hN (hv _ hq).1 (hv _ hq).2 (fun C hC => ha C hC _ hq) e
  · intro j shape l q hq e
    exact ofContainer_agrees (hv _ hq).1 (hv _ hq).2 e

/-- **C124** for arrays in fixed dimensions, whether or not they were moved.
Missing: see `C124_partial`. -/
theorem C124_array_partial {α : Type} {zero : α} {N : Int} (hN : N ≠ -1) {C : Nat} {h : List (Op α)} {s : State α}
    (hrun : Runs zero N (.array C) h s) (hv : ∀ op ∈ h, ValidOp op) (ha : ∀ op ∈ h, HasPixels op) {i : Nat} {r : Raster α}
    (hi : s i = some r) : (r.data.length : Int) = Pixels r.shape := by
  have hrem : ∀ q : Raster α, remainder N (.array C) q = q := by
    intro q
    simp only [remainder, Raster.movedFrom, if_neg hN, Holder.moveTo]
  have := induct (P := Agrees) (Q := Agrees) (fun q hq => by rw [hrem]; exact hq.elim id id) hrun
    (fun j shape q hq e => ofShape_agrees (hv _ hq) (fun _ _ => ha _ hq) e)
    (fun j shape l q hq e => ofList_agrees hN (hv _ hq).1 (hv _ hq).2 (fun _ _ => ha _ hq) e)
    (fun j shape l q hq e => ofContainer_agrees (hv _ hq).1 (hv _ hq).2 e) (fun j q _ hq => hq.elim id id) i r hi
  by_cases e : IsMoved h i
  · exact this.2 e
  · exact this.1 e

/-- Containers are not moved out of rasters. -/
def Spec.IsMoveTo {α : Type} : Op α → Prop
  | .moveTo _ => True
  | _ => False

/-- **C124** for vectors in variable dimension, whether or not they were moved to other rasters: what remains is of dimension 0, and
without pixels.
Missing: `moveTo()`, which only moves the pixels (`C124_moved`), and see `C124_partial`. -/
theorem C124_variable_partial {α : Type} {zero : α} {h : List (Op α)} {s : State α} (hrun : Runs zero (-1) .vector h s)
    (hv : ∀ op ∈ h, ValidOp op) (hl : ∀ op ∈ h, ¬ IsList op) (ht : ∀ op ∈ h, ¬ IsMoveTo op) {i : Nat} {r : Raster α}
    (hi : s i = some r) : (r.data.length : Int) = Pixels r.shape := by
  have := induct (P := Agrees) (Q := Agrees) (fun q _ => by simp [remainder, Raster.movedFrom, Holder.moveTo, Agrees, Pixels]) hrun
    (fun j shape q hq e => ofShape_agrees (hv _ hq) (fun _ hC => by cases hC) e)
    (fun j shape l q hq e => absurd trivial (hl _ hq))
    (fun j shape l q hq e => ofContainer_agrees (hv _ hq).1 (hv _ hq).2 e) (fun j q hq => absurd trivial (ht _ hq)) i r hi
  by_cases e : IsMoved h i
  · exact this.2 e
  · exact this.1 e

/-- **C124**, negative result: whatever the program, once a raster of vectors was moved, and until it is assigned, it has no elements, so
that accessing any of its pixels is undefined; its size is the number of its pixels if and only if it has none. -/
theorem C124_moved {α : Type} {zero : α} {N : Int} {h : List (Op α)} {s : State α} (hrun : Runs zero N .vector h s)
    {i : Nat} {r : Raster α} (hi : s i = some r) (hm : IsMoved h i) :
    r.data = [] ∧ (∀ p, r.get p = .error .ub) ∧ ((r.data.length : Int) = Pixels r.shape ↔ Pixels r.shape = 0) := by
  have e : r.data = [] :=
    (induct (P := fun _ => True) (Q := fun q : Raster α => q.data = []) (fun _ _ => rfl) hrun (fun _ _ _ _ _ => trivial)
      (fun _ _ _ _ _ _ => trivial) (fun _ _ _ _ _ _ => trivial) (fun _ _ _ _ => rfl) i r hi).2 hm
  refine ⟨e, fun p => ?_, ?_⟩
  · unfold Raster.get readAt
    rw [e]
    simp
  · rw [e]
    exact ⟨fun h => h.symm, fun h => h.symm⟩

/-- **C124**, negative result: moving a raster of fixed dimension, to a raster or to a container, does not modify its shape, and
therefore the size is not the number of pixels any more, if there are some. -/
theorem C124_shape {α : Type} {zero : α} {N : Int} (hN : N ≠ -1) {s s' : State α} {i j : Nat} {r : Raster α} (hj : s j = some r)
    (hp : Pixels r.shape ≠ 0) (h : step zero N .vector s (.move i j) = .ok s' ∨ step zero N .vector s (.moveAssign i j) = .ok s' ∨
      step zero N .vector s (.moveTo j) = .ok s') :
    ∃ q, s' j = some q ∧ q.shape = r.shape ∧ (q.data.length : Int) ≠ Pixels q.shape := by
  refine ⟨⟨r.shape, []⟩, ?_, rfl, fun e => hp e.symm⟩
  have hrem : remainder N .vector r = ⟨r.shape, []⟩ := by simp only [remainder, Raster.movedFrom, if_neg hN, Holder.moveTo]
  rcases h with h | h | h
  · simp only [step, hj] at h
    split at h
    · next hq => cases hq; cases h; simp [State.set, hrem]
    · cases h
  · simp only [step, hj] at h
    split at h
    · next hq => cases hq; cases h; simp [State.set, hrem]
    · cases h
  · simp only [step, hj] at h
    cases h
    simp [State.set, rasterMoveTo, Holder.moveTo]

/-- A raster of shape (2, 1) is constructed, and moved. -/
theorem Moves.runs_example : Runs (0 : Nat) 2 .vector [.move 1 0, .ofList 0 [2, 1] [7, 8]]
    (((State.set (fun _ => none) 0 (some ⟨[2, 1], [7, 8]⟩)).set 1 (some ⟨[2, 1], [7, 8]⟩)).set 0 (some ⟨[2, 1], []⟩)) :=
  .cons (.cons .nil rfl) rfl

/-- **C124** does not hold, for rasters which were moved. -/
theorem C124_violated : ¬ C124_Statement := by
  intro h
  have := h Nat 0 2 .vector _ _ (by simp [ValidOp, ValidShape, NonNeg, pixelCount]) Moves.runs_example 0 ⟨[2, 1], []⟩ rfl
  simp [Pixels, pixelCount] at this

/-! ## Examples -/

/-- The new raster of the example above. -/
example : (([7, 8] : List Nat).length : Int) = Pixels [2, 1] :=
  C124_partial (r := ⟨[2, 1], [7, 8]⟩) Moves.runs_example (by simp [ValidOp, ValidShape, NonNeg, pixelCount]) (by simp)
    (fun _ h => by cases h) (i := 1) rfl (by simp [IsMoved])

/-- The raster which was moved. -/
example (p : Position) : (Raster.mk [2, 1] ([] : List Nat)).get p = .error .ub :=
  (C124_moved Moves.runs_example (i := 0) rfl (by simp [IsMoved])).2.1 p

/-- It can be assigned. -/
example : ∃ s, Runs (0 : Nat) 2 .vector [.copyAssign 0 1, .move 1 0, .ofList 0 [2, 1] [7, 8]] s ∧ s 0 = some ⟨[2, 1], [7, 8]⟩ ∧
    ¬ IsMoved ([.copyAssign 0 1, .move 1 0, .ofList 0 [2, 1] [7, 8]] : List (Op Nat)) 0 :=
  ⟨_, .cons Moves.runs_example rfl, rfl, by simp [IsMoved]⟩

/-- In variable dimension. -/
example : ∃ s, Runs (0 : Nat) (-1) .vector [.move 1 0, .ofShape 0 [2, 1]] s ∧ s 0 = some ⟨[], []⟩ ∧
    s 1 = some ⟨[2, 1], [0, 0]⟩ :=
  ⟨_, .cons (.cons .nil rfl) rfl, rfl, rfl⟩

/-- Arrays. -/
example : ∃ s, Runs (0 : Nat) 2 (.array 2) [.move 1 0, .ofShape 0 [2, 1]] s ∧ s 0 = some ⟨[2, 1], [0, 0]⟩ :=
  ⟨_, .cons (.cons .nil rfl) rfl, rfl⟩

end Litl
