import Verif.Model.Iterators
import Verif.Props.Ball
import Verif.Props.Subraster
import Verif.Props.Sampling
import Mathlib.Dynamics.PeriodicPts.Defs

/-!
# C74: increments of iterators
-/

namespace Litl

open Spec

/-- **C74**, in full: `*it++` gives the element before the increment, so that loops with `*it++` visit the same elements as
range-based loops. -/
def C74_Statement : Prop :=
  (∀ (b : Box) (l : List Position), BoxIterator.Visits b l →
    PostLoop (BoxIterator.Post b) (· = BoxIterator.endPosition b) (BoxIterator.beginPosition b) l) ∧
  (∀ (P : Nat) (b : Ball) (c : Position) (l : List Position),
    BallIterator.Settle P b (BoxIterator.beginPosition b.box) c → BallIterator.Loop P b c l →
    PostLoop (BallIterator.Post P b) (· = BoxIterator.endPosition b.box) c l) ∧
  (∀ (v : View) (region : Box) (l : List Subraster.Iter), Subraster.Visits v region l →
    PostLoop (Subraster.Post v region)
      (fun it => it.current = (Subraster.Iter.mk' v region (BoxIterator.endPosition region)).current)
      (Subraster.Iter.mk' v region (BoxIterator.beginPosition region)) (l.map Subraster.Iter.current)) ∧
  (∀ (s : Sampling) (it : Sampling.Iter), s.post it = .ok (it.current, s.advance 1 it)) ∧
  (∀ d : DataSamples, d.post = (d, d.shift 1))

theorem PostLoop.unique {σ : Type _} {τ : Type _} {post : σ → τ → σ → Prop} {stop : σ → Prop}
    (hp : ∀ s v t v' t', post s v t → post s v' t' → v = v' ∧ t = t') {s : σ} {l l' : List τ}
    (h : PostLoop post stop s l) (h' : PostLoop post stop s l') : l = l' := by
  induction h generalizing l' with
  | done h1 =>
    cases h' with
    | done => rfl
    | next h2 => exact absurd h1 h2
  | next h1 h2 _ ih =>
    cases h' with
    | done h3 => exact absurd h3 h1
    | next _ h4 h5 =>
      obtain ⟨rfl, rfl⟩ := hp _ _ _ _ _ h2 h4
      rw [ih h5]

/-- The elements but the first one, and the end. -/
def shifted {τ : Type _} (stop : τ) : List τ → List τ
  | [] => []
  | _ :: l => l ++ [stop]

theorem shifted_eq {τ : Type _} (stop : τ) {l : List τ} (h : l ≠ []) : shifted stop l = l.tail ++ [stop] := by
  cases l with
  | nil => exact absurd rfl h
  | cons => rfl

theorem postLoop_trace {σ : Type _} {step : σ → σ} {stop c : σ} {l : List σ} (h : LoopTrace step stop c l) :
    PostLoop (fun s v t => t = step s ∧ v = t) (· = stop) c (shifted stop l) := by
  induction h with
  | done => exact .done rfl
  | @next c l hc h ih =>
    cases h with
    | done => exact .next hc ⟨rfl, rfl⟩ ih
    | next hc' h' => exact .next hc ⟨rfl, rfl⟩ ih

theorem postLoop_until {σ : Type _} {step : σ → σ} {val : σ → Int} {stop : Int} {c : σ} {l : List σ}
    (h : LoopUntil step (fun s => val s = stop) c l) :
    PostLoop (fun s v t => t = step s ∧ v = val t) (fun s => val s = stop) c (shifted stop (l.map val)) := by
  induction h with
  | done h => exact .done h
  | @next c l hc h ih =>
    cases h with
    | done h' =>
      have := PostLoop.next (post := fun s v t => t = step s ∧ v = val t) (v := val (step c)) hc ⟨rfl, rfl⟩ ih
      rw [h'] at this
      exact this
    | next hc' h' => exact .next hc ⟨rfl, rfl⟩ ih

theorem postLoop_ball {P : Nat} {b : Ball} {c : Position} {l : List Position} (h : BallIterator.Loop P b c l) :
    PostLoop (BallIterator.Post P b) (· = BoxIterator.endPosition b.box) c (shifted (BoxIterator.endPosition b.box) l) := by
  induction h with
  | done => exact .done rfl
  | next hc hn h ih =>
    cases h with
    | done => exact .next hc ⟨hn, rfl⟩ ih
    | next hc' h' _ => exact .next hc ⟨hn, rfl⟩ ih

/-- **C74**, exact result: loops with `*it++` over boxes skip the first position and visit the end position instead, which is
not in the box. -/
theorem C74_box (b : Box) (l l' : List Position) (h : BoxIterator.Visits b l) (hl : l ≠ []) :
    (PostLoop (BoxIterator.Post b) (· = BoxIterator.endPosition b) (BoxIterator.beginPosition b) l' ↔
      l' = l.tail ++ [BoxIterator.endPosition b]) ∧
    (b.front ≠ [] → ¬ InBox b.front b.back (BoxIterator.endPosition b)) := by
  have h1 := postLoop_trace h
  rw [shifted_eq _ hl] at h1
  refine ⟨⟨fun h2 => ?_, fun e => e ▸ h1⟩, fun hf hb => ?_⟩
  · refine h2.unique ?_ h1
    rintro s v t v' t' ⟨rfl, rfl⟩ ⟨rfl, rfl⟩
    exact ⟨rfl, rfl⟩
  · obtain ⟨hb, -⟩ := hb
    unfold BoxIterator.endPosition at hb
    cases hc : b.front with
    | nil => exact hf hc
    | cons x f =>
      rw [hc] at hb
      simp only [BoxIterator.decHead, List.forall₂_cons] at hb
      omega

/-- **C74**, exact result: the same for balls. -/
theorem C74_ball (P : Nat) (b : Ball) (c : Position) (l l' : List Position) (h : BallIterator.Loop P b c l) (hl : l ≠ []) :
    PostLoop (BallIterator.Post P b) (· = BoxIterator.endPosition b.box) c l' ↔
      l' = l.tail ++ [BoxIterator.endPosition b.box] := by
  have h1 := postLoop_ball h
  rw [shifted_eq _ hl] at h1
  refine ⟨fun h2 => h2.unique ?_ h1, fun e => e ▸ h1⟩
  rintro s v t v' t' ⟨g, rfl⟩ ⟨g', rfl⟩
  exact ⟨g.unique g', g.unique g'⟩

/-- **C74**, exact result: loops with `*it++` over subrasters skip the first element, and access the element which is just
before the first one. -/
theorem C74_subraster (v : View) (region : Box) (l : List Subraster.Iter) (l' : List Int)
    (h : Subraster.Visits v region l) (hl : l ≠ []) (hf : region.front ≠ [])
    (hs : region.front.length = v.shape.length) :
    PostLoop (Subraster.Post v region)
      (fun it => it.current = (Subraster.Iter.mk' v region (BoxIterator.endPosition region)).current)
      (Subraster.Iter.mk' v region (BoxIterator.beginPosition region)) l' ↔
      l' = (l.map Subraster.Iter.current).tail ++ [v.ptr region.front - 1] := by
  have h1 := postLoop_until h
  have he : (Subraster.Iter.mk' v region (BoxIterator.endPosition region)).current = v.ptr region.front - 1 := by
    show v.ptr (BoxIterator.decHead region.front) = _
    unfold View.ptr
    cases hc : region.front with
    | nil => exact absurd hc hf
    | cons x f =>
      cases hv : v.shape with
      | nil => rw [hc, hv] at hs; cases hs
      | cons y t =>
        rw [hc, hv] at hs
        have ht : f.length = t.length := by simpa using hs
        rw [BoxIterator.decHead, index_cons ht, index_cons ht]
        ring
  rw [shifted_eq _ (by simpa using hl), he] at h1
  rw [he]
  refine ⟨fun h2 => h2.unique ?_ h1, fun e => e ▸ h1⟩
  rintro s v t v' t' ⟨rfl, rfl⟩ ⟨rfl, rfl⟩
  exact ⟨rfl, rfl⟩

/-- **C74**: the last access of such a loop is undefined iff the region begins at the first pixel of the raster. -/
theorem C74_subraster_ub {α : Type _} (r : Raster α) (front : Position) (hr : (r.data.length : Int) = pixelCount r.shape)
    (hf : InShape r.shape front) :
    readAt r.data ((View.ofRaster r).ptr front - 1) = .error .ub ↔ ∀ x ∈ front, x = 0 := by
  have hb := index_bounds hf
  have hp : (View.ofRaster r).ptr front = index r.shape front := by simp [View.ptr, View.ofRaster]
  have hz : InShape r.shape (List.replicate front.length 0) ∧ index r.shape (List.replicate front.length 0) = 0 := by
    clear hb hp hr
    revert hf
    generalize r.shape = s
    intro hf
    induction hf with
    | nil => exact ⟨List.Forall₂.nil, index_nil⟩
    | cons h1 h2 ih =>
      refine ⟨List.Forall₂.cons ⟨by omega, by omega⟩ ih.1, ?_⟩
      rw [List.length_cons, List.replicate_succ, index_cons (by simpa using h2.length_eq), ih.2]
      simp
  have hiff : (∀ x ∈ front, x = 0) ↔ index r.shape front = 0 := by
    constructor
    · intro h
      rw [List.eq_replicate_of_mem h, hz.2]
    · intro h x hx
      have := index_inj hf hz.1 (h.trans hz.2.symm)
      rw [this] at hx
      exact (List.mem_replicate.1 hx).2
  rw [hiff, hp]
  constructor
  · intro h
    by_contra hc
    rw [readAt_ok (by omega) (by rw [hr]; unfold pixelCount; omega)] at h
    simp at h
  · intro h
    rw [h]
    exact readAt_ub (.inl (by omega))

/-- **C74**: `samplingIterator++` is undefined, and `samples++` does not modify `samples` and returns what it should become. -/
theorem C74_samplings (s : Sampling) (it : Sampling.Iter) (d : DataSamples) :
    s.post it = .error .ub ∧ d.post.2 = d ∧ d.post.1 = d.shift 1 := ⟨rfl, rfl, rfl⟩

/-- **C74** is refuted. -/
theorem C74_violated : ¬ C74_Statement := fun h => by
  have := h.2.2.2.1 ⟨0, 1, 1⟩ ⟨0, 0⟩
  cases this

/-- **C74** is refuted for boxes too, e.g. for a box with two positions. -/
theorem C74_violated_box : ¬ ∀ (b : Box) (l : List Position), BoxIterator.Visits b l →
    PostLoop (BoxIterator.Post b) (· = BoxIterator.endPosition b) (BoxIterator.beginPosition b) l := by
  intro h
  have hv : BoxIterator.Visits ⟨[0], [1]⟩ [[0], [1]] :=
    BoxIterator.visits_enum (b := ⟨[0], [1]⟩) (by decide) (by simp)
  have := ((C74_box _ _ _ hv (by simp)).1).1 (h _ _ hv)
  revert this
  decide

theorem iterate_trace {σ : Type _} {step : σ → σ} {stop c : σ} {l : List σ} (h : LoopTrace step stop c l) :
    ∀ k, k ≤ l.length → step^[k] c = (l ++ [stop]).getD k stop := by
  induction h with
  | done =>
    intro k hk
    have : k = 0 := by simpa using hk
    subst this
    rfl
  | next _ _ ih =>
    intro k hk
    cases k with
    | zero => rfl
    | succ k =>
      rw [Function.iterate_succ_apply, ih k (by simpa using hk)]
      rfl

/-- **C74**, partial: `++it` goes through the positions of the box, in order, then to the end; and incrementing the end
iterator leads to the first position again.
Missing: `it++`, see `C74_box`. -/
theorem C74_increments_partial (b : Box) (l : List Position) (h : BoxIterator.Visits b l) (hf : b.front ≠ []) (k : Nat) :
    (BoxIterator.next b)^[k] (BoxIterator.beginPosition b) =
      (l ++ [BoxIterator.endPosition b]).getD (k % (l.length + 1)) (BoxIterator.endPosition b) := by
  obtain ⟨p, hp⟩ := (C05_terminates_iff_nonempty_partial b hf).1 ⟨l, h⟩
  have hle : List.Forall₂ (· ≤ ·) b.front b.back := forall₂_le_trans hp.1 hp.2
  have hwrap : BoxIterator.next b (BoxIterator.endPosition b) = BoxIterator.beginPosition b := by
    unfold BoxIterator.next
    rw [if_neg (fun e => BoxIterator.decHead_ne hf hle e.symm)]
    have : BoxIterator.incHead (BoxIterator.endPosition b) = b.front := by
      unfold BoxIterator.endPosition
      cases b.front with
      | nil => rfl
      | cons x f => simp [BoxIterator.decHead, BoxIterator.incHead]
    rw [this, BoxIterator.carry_of_le hle.length_eq hle]
    rfl
  have hper : Function.IsPeriodicPt (BoxIterator.next b) (l.length + 1) (BoxIterator.beginPosition b) := by
    show (BoxIterator.next b)^[l.length + 1] _ = _
    rw [Function.iterate_succ_apply', iterate_trace h l.length le_rfl]
    simpa using hwrap
  rw [← hper.iterate_mod_apply k, iterate_trace h _ (Nat.lt_succ_iff.1 (Nat.mod_lt _ (Nat.succ_pos _)))]

/-- **C74**: `it -= n` undoes `it += n`, for samplings as well as samples; so does `samples -= n`. -/
theorem C74_retreat (s : Sampling) (it : Sampling.Iter) (d : DataSamples) (p n : Int) :
    s.retreat n (s.advance n it) = it ∧ d.retreat n (d.advance n p) = p ∧ (d.shift n).unshift n = d := by
  refine ⟨?_, ?_, ?_⟩
  · simp [Sampling.retreat, Sampling.advance]
  · simp [DataSamples.retreat, DataSamples.advance]
  · simp [DataSamples.unshift, DataSamples.shift]

/-- **C74**: iterators over boxes are equal iff their positions are, even if the boxes differ, and are at the first position
after a reset; iterators over two samplings are never equal, even if the samplings are. -/
theorem C74_equality (a b : Box) (s t : Position) (x y : Nat) (i j : Sampling.Iter) :
    (BoxIterator.eq a b s t = true ↔ s = t) ∧ BoxIterator.reset b s = BoxIterator.beginPosition b ∧
      (Sampling.Iter.eq x y i j = true ↔ x = y ∧ i.index = j.index) := by
  simp [BoxIterator.eq, BoxIterator.reset, BoxIterator.beginPosition, Sampling.Iter.eq]

/-! ## Non-vacuity -/

/-- The hypotheses of `C74_box` and `C74_increments_partial`. -/
example : BoxIterator.Visits ⟨[-1, 2], [0, 3]⟩ [[-1, 2], [0, 2], [-1, 3], [0, 3]] ∧
    (BoxIterator.next ⟨[-1, 2], [0, 3]⟩)^[7] [-1, 2] = [-1, 3] :=
  ⟨BoxIterator.visits_enum (b := ⟨[-1, 2], [0, 3]⟩) (by decide) (by simp), by decide⟩

/-- The loop with `*it++` over this box. -/
example : PostLoop (BoxIterator.Post ⟨[-1, 2], [0, 3]⟩) (· = BoxIterator.endPosition ⟨[-1, 2], [0, 3]⟩) [-1, 2]
    [[0, 2], [-1, 3], [0, 3], [-2, 2]] :=
  ((C74_box ⟨[-1, 2], [0, 3]⟩ [[-1, 2], [0, 2], [-1, 3], [0, 3]] _
    (BoxIterator.visits_enum (b := ⟨[-1, 2], [0, 3]⟩) (by decide) (by simp)) (by simp)).1).2 rfl

/-- The hypotheses of `C74_ball`. -/
example : ∃ c l, BallIterator.Loop 1 ⟨1, [0, 0]⟩ c l ∧ l ≠ [] := by
  obtain ⟨l, ⟨c, _, h⟩, hm, -⟩ := C17_ball_iteration 1 (by decide) ⟨1, [0, 0]⟩ (by decide) (by simp)
  refine ⟨c, l, h, fun e => ?_⟩
  have := (hm [0, 0]).2 (by simp [InBall, distancePow])
  rw [e] at this
  cases this

/-- The hypotheses of `C74_subraster` and `C74_subraster_ub`. -/
example : ∃ l, Subraster.Visits ⟨[3, 2], 0⟩ ⟨[0, 0], [1, 1]⟩ l ∧ l ≠ [] ∧ InShape [3, 2] [0, 0] := by
  have hf : InShape [3, 2] [0, 0] := by simp [InShape]
  obtain ⟨l, h, e⟩ := Subraster.visits (v := ⟨[3, 2], 0⟩) (region := ⟨[0, 0], [1, 1]⟩) (by simp) hf
    (by simp [InShape]) (by simp)
  refine ⟨l, h, fun he => ?_, hf⟩
  rw [he] at e
  revert e
  decide

end Litl
