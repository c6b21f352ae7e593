import Verif.Lemmas.Nearest
import Verif.Model.Extrapolation
import Verif.Props.CubicRounding
import Verif.Props.LinearRounding
import Verif.Props.NearestRounding
import Verif.Props.Overflow

/-!
# C114: extrapolated and interpolated values are defined at any position
-/

namespace Litl

open Spec

namespace Spec

/-- A raster with pixels, which can be indexed. -/
structure Indexable {α : Type _} (r : Raster α) : Prop where
  size : (r.data.length : Int) = pixelCount r.shape
  pos : Pos r.shape
  small : pixelCount r.shape < 2 ^ 63
  dim : r.shape ≠ []

/-- The extrapolation methods, for unbounded integers. -/
def extrapolated {α : Type _} (r : Raster α) : ExtrapolationMethod α → Position → Res α
  | .constant v, p => Litl.constantAt v r p
  | .nearest, p => Litl.nearestAt r p
  | .periodic, p => Litl.periodicAt r p

/-- The coordinates whose neighbors have indices. -/
def Handles (R : Rounding ℚ) : InterpolationMethod → ℚ → Prop
  | .nearest, x => -2 ^ 63 - 1 < R.fl (x + 1 / 2) ∧ R.fl (x + 1 / 2) < 2 ^ 63
  | .linear, x => -2 ^ 63 < x ∧ x < 2 ^ 63 - 1
  | .cubic, x => 1 - 2 ^ 63 < x ∧ x < 2 ^ 63 - 2

end Spec

section Extrapolation

variable {α : Type _}

theorem length_lt {s : Position} (hs : Pos s) (hc : pixelCount s < 2 ^ 63) {n : Int} (hn : n ∈ s) : n < 2 ^ 63 :=
  lt_of_le_of_lt (Checked.length_le_prod hs hn) hc

theorem checked_get {r : Raster α} (h : Indexable r) {p : Position} (hp : InShape r.shape p) : Checked.get r p = r.get p := by
  unfold Checked.get
  rw [Checked.C79_index hp h.small]
  rfl

theorem checked_clampShape : ∀ (p s : Position), (∀ n ∈ s, 0 < n ∧ n < 2 ^ 63) →
    Checked.clampShape p s = .ok (clampShape p s)
  | [], _, _ => rfl
  | _ :: _, [], _ => rfl
  | x :: p, n :: s, h => by
    have hn := h n (by simp)
    have ih := checked_clampShape p s fun m hm => h m (by simp [hm])
    have hb : Checked.ck (n - 1) = .ok (n - 1) := ck_ok (by unfold IsI64; omega)
    simp only [Checked.clampShape, hb, ih, bind, Except.bind, pure, Except.pure]
    rfl

theorem checked_positiveMod {p s : Int} (hp : IsI64 p) (hs : 0 < s) (h : s < 2 ^ 63) :
    Checked.positiveMod p s = positiveMod p s := by
  have hlt := Int.tmod_lt_of_pos p hs
  have hgt := Int.lt_tmod_of_pos p hs
  have hd : IsI64 (p.tdiv s) := by
    have h1 : (p.tdiv s).natAbs ≤ p.natAbs := by
      rw [Int.natAbs_tdiv]
      exact Nat.div_le_self _ _
    obtain ⟨hp1, hp2⟩ := hp
    unfold IsI64
    by_cases h0 : 0 ≤ p
    · omega
    · have h2 : p.tdiv s ≤ 0 := by
        have : 0 ≤ (-p).tdiv s := Int.tdiv_nonneg (by omega) hs.le
        rw [Int.neg_tdiv] at this
        omega
      omega
  unfold Checked.positiveMod positiveMod
  have h0 : ¬ s = 0 := by omega
  rw [if_neg h0, if_neg h0, ck_ok hd]
  show (if p.tmod s < 0 then Checked.ck (p.tmod s + s) else .ok (p.tmod s)) = .ok (if p.tmod s < 0 then p.tmod s + s else p.tmod s)
  split_ifs with h0
  · exact ck_ok (by unfold IsI64; omega)
  · rfl

theorem checked_periodicPosition : ∀ (p s : Position), (∀ x ∈ p, IsI64 x) → (∀ n ∈ s, 0 < n ∧ n < 2 ^ 63) →
    Checked.periodicPosition p s = periodicPosition p s
  | [], _, _, _ => rfl
  | _ :: _, [], _, _ => rfl
  | x :: p, n :: s, hp, h => by
    have hn := h n (by simp)
    have ih := checked_periodicPosition p s (fun y hy => hp y (by simp [hy])) fun m hm => h m (by simp [hm])
    simp only [Checked.periodicPosition, periodicPosition, checked_positiveMod (hp x (by simp)) hn.1 hn.2, ih]

theorem periodicPosition_inShape : ∀ (s p : Position), Pos s → p.length = s.length →
    ∃ q, periodicPosition p s = .ok q ∧ InShape s q
  | [], p, _, hl => by
    have : p = [] := by simpa using hl
    subst this
    exact ⟨[], rfl, .nil⟩
  | n :: s, [], _, hl => by simp at hl
  | n :: s, x :: p, hs, hl => by
    obtain ⟨q, h1, h2⟩ := periodicPosition_inShape s p (fun m hm => hs m (by simp [hm])) (by simpa using hl)
    obtain ⟨y, g1, g2, g3, _⟩ := positiveMod_spec (p := x) (hs n (by simp))
    exact ⟨y :: q, by simp [periodicPosition, g1, h1, bind, Except.bind, pure, Except.pure], .cons ⟨g2, g3⟩ h2⟩

/-- **C114**: extrapolation on machine integers is that of unbounded integers (see `C41_constant`, `C41_nearest` and
`C41_periodic`), at any position of type `Index`, including the extrema of the type: nothing overflows. -/
theorem C114_extrapolation {r : Raster α} (h : Indexable r) (m : ExtrapolationMethod α) {p : Position}
    (hl : p.length = r.shape.length) (hp : ∀ x ∈ p, IsI64 x) : m.at r p = extrapolated r m p := by
  have hs : ∀ n ∈ r.shape, 0 < n ∧ n < 2 ^ 63 := fun n hn => ⟨h.pos n hn, length_lt h.pos h.small hn⟩
  cases m with
  | constant v =>
    show (if Raster.contains r.shape p then _ else _) = (if Raster.contains r.shape p then _ else _)
    split_ifs with hc
    · exact checked_get h ((contains_iff_inShape hl).1 hc)
    · rfl
  | nearest =>
    show (Checked.clampShape p r.shape >>= fun q => Checked.get r q) = r.get (clampShape p r.shape)
    rw [checked_clampShape p r.shape hs]
    exact checked_get h (clampShape_spec h.pos hl).1
  | periodic =>
    show (Checked.periodicPosition p r.shape >>= fun q => Checked.get r q) = (periodicPosition p r.shape >>= fun q => r.get q)
    rw [checked_periodicPosition p r.shape hp hs]
    obtain ⟨q, h1, h2⟩ := periodicPosition_inShape r.shape p h.pos hl
    rw [h1]
    exact checked_get h h2

theorem get_mem {r : Raster α} {p : Position} {v : α} (h : r.get p = .ok v) : v ∈ r.data := by
  unfold Raster.get readAt at h
  split at h
  · cases h
  · split at h
    · next w hw => cases h; exact List.mem_of_getElem? hw
    · cases h

/-- At any position of type `Index`, there is a value: that of a pixel, or the constant out of the domain. -/
theorem C114_values {r : Raster α} (h : Indexable r) (m : ExtrapolationMethod α) {p : Position}
    (hl : p.length = r.shape.length) (hp : ∀ x ∈ p, IsI64 x) :
    ∃ v, m.at r p = .ok v ∧ (v ∈ r.data ∨ m = .constant v ∧ ¬ InShape r.shape p) := by
  rw [C114_extrapolation h m hl hp]
  cases m with
  | constant c =>
    show ∃ v, (if Raster.contains r.shape p then _ else _) = _ ∧ _
    split_ifs with hc
    · have hi := (contains_iff_inShape hl).1 hc
      obtain ⟨v, hv, _⟩ := get_inShape r p h.size hi
      exact ⟨v, hv, .inl (get_mem hv)⟩
    · exact ⟨c, rfl, .inr ⟨rfl, fun hi => hc ((contains_iff_inShape hl).2 hi)⟩⟩
  | nearest =>
    obtain ⟨q, v, _, h1, h2, _⟩ := C41_nearest r p h.size h.pos hl
    exact ⟨v, h1.trans h2, .inl (get_mem h2)⟩
  | periodic =>
    obtain ⟨q, v, _, h1, h2, _⟩ := C41_periodic r p h.size h.pos hl
    exact ⟨v, h1.trans h2, .inl (get_mem h2)⟩

/-- The checked computations fail as undefined behaviours only. -/
theorem checked_index_ub : ∀ (s p : Position) (e : Fail), Checked.index s p = .error e → e = .ub
  | [], _, _, h => by cases h
  | [_], [], _, h => by cases h
  | [_], [_], _, h => by cases h
  | _ :: _ :: _, [], _, h => by cases h
  | s :: [], p :: q :: ps, e, h => by
    simp only [Checked.index, Checked.ck, bind, Except.bind] at h
    split_ifs at h <;> dsimp only at h <;> (try split_ifs at h) <;> simp_all
  | s :: t :: ss, p :: ps, e, h => by
    simp only [Checked.index, bind, Except.bind] at h
    cases hi : Checked.index (t :: ss) ps with
    | error e' =>
      rw [hi] at h
      cases h
      exact checked_index_ub _ _ _ hi
    | ok i =>
      rw [hi] at h
      simp only [Checked.ck] at h
      split_ifs at h <;> dsimp only at h <;> (try split_ifs at h) <;> simp_all

theorem checked_get_empty {r : Raster α} (h : r.data = []) (p : Position) : Checked.get r p = .error .ub := by
  unfold Checked.get
  cases hi : Checked.index r.shape p with
  | error e => rw [checked_index_ub _ _ _ hi]; rfl
  | ok i => 
    rw [h]
    simp [bind, Except.bind, readAt]

theorem checked_clampShape_ub : ∀ (p s : Position) (e : Fail), Checked.clampShape p s = .error e → e = .ub
  | [], _, _, h => by cases h
  | _ :: _, [], _, h => by cases h
  | p :: ps, s :: ss, e, h => by
    simp only [Checked.clampShape, Checked.ck, bind, Except.bind, pure, Except.pure] at h
    cases hi : Checked.clampShape ps ss with
    | error e' =>
      rw [hi] at h
      have := checked_clampShape_ub _ _ _ hi
      split_ifs at h <;> simp_all
    | ok q =>
      rw [hi] at h
      split_ifs at h
      simp_all

theorem checked_positiveMod_ub (p s : Int) (e : Fail) (h : Checked.positiveMod p s = .error e) : e = .ub := by
  simp only [Checked.positiveMod, Checked.ck, bind, Except.bind] at h
  split_ifs at h <;> simp_all

theorem checked_periodicPosition_ub : ∀ (p s : Position), p.length = s.length → (0 : Int) ∈ s →
    Checked.periodicPosition p s = .error .ub
  | _, [], _, h => by cases h
  | [], _ :: _, h, _ => by simp at h
  | p :: ps, s :: ss, hl, h => by
    simp only [Checked.periodicPosition, bind, Except.bind]
    cases hi : Checked.positiveMod p s with
    | error e => rw [checked_positiveMod_ub _ _ _ hi]
    | ok q =>
      rcases List.mem_cons.1 h with rfl | h
      · simp [Checked.positiveMod] at hi
      · simp [checked_periodicPosition_ub ps ss (by simpa using hl) h]

/-- **C114**: a raster without pixels can be extrapolated by a constant only; otherwise, the behaviour is undefined at any
position. -/
theorem C114_empty (r : Raster α) (h0 : (0 : Int) ∈ r.shape) (hd : r.data = []) {p : Position} (hl : p.length = r.shape.length) :
    (∀ v, (ExtrapolationMethod.constant v).at r p = .ok v) ∧ ExtrapolationMethod.nearest.at r p = .error .ub ∧
      ExtrapolationMethod.periodic.at r p = .error .ub := by
  refine ⟨fun v => ?_, ?_, ?_⟩
  · have hn : ¬ Raster.contains r.shape p = true := fun hc => by
      have hp := (contains_iff_inShape hl).1 hc
      have key : ∀ s q : Position, InShape s q → (0 : Int) ∉ s := by
        intro s q hq
        induction hq with
        | nil => simp
        | cons hx _ ih =>
          intro hm
          rcases List.mem_cons.1 hm with rfl | hm
          · omega
          · exact ih hm
      exact key _ _ hp h0
    show (if Raster.contains r.shape p then _ else _) = _
    rw [if_neg hn]
  · show (Checked.clampShape p r.shape >>= fun q => Checked.get r q) = _
    cases hi : Checked.clampShape p r.shape with
    | error e => rw [checked_clampShape_ub _ _ _ hi]; rfl
    | ok q => exact checked_get_empty hd q
  · show (Checked.periodicPosition p r.shape >>= fun q => Checked.get r q) = _
    rw [checked_periodicPosition_ub p r.shape hl h0]
    rfl

/-- The hypotheses of `C114_empty`: an image without rows. -/
example : ExtrapolationMethod.nearest.at (⟨[3, 0], []⟩ : Raster Nat) [1, -2] = .error .ub :=
  (C114_empty ⟨[3, 0], []⟩ (by simp) rfl rfl).2.1

/-- In the domain, the value is that of the pixel, whichever the method. -/
theorem C114_inside {r : Raster α} (h : Indexable r) (m : ExtrapolationMethod α) {p : Position} (hp : InShape r.shape p) :
    m.at r p = r.get p := by
  have hl : p.length = r.shape.length := List.Forall₂.length_eq hp
  have hi : ∀ x ∈ p, IsI64 x := by
    have key : ∀ s q : Position, InShape s q → (∀ n ∈ s, n < 2 ^ 63) → ∀ x ∈ q, IsI64 x := by
      intro s q hq
      induction hq with
      | nil => simp
      | cons hx _ ih =>
        intro hs x hm
        rcases List.mem_cons.1 hm with rfl | hm
        · have := hs _ (List.mem_cons_self ..)
          exact ⟨by omega, by omega⟩
        · exact ih (fun n hn => hs n (by simp [hn])) x hm
    exact key _ _ hp fun n hn => length_lt h.pos h.small hn
  rw [C114_extrapolation h m hl hi]
  cases m with
  | constant c => exact if_pos ((contains_iff_inShape hl).2 hp)
  | nearest => exact congrArg r.get ((clampShape_spec h.pos hl).2.1 hp)
  | periodic =>
    obtain ⟨q, v, _, h1, _, h3, _⟩ := C41_periodic r p h.size h.pos hl
    rw [h3 hp] at h1
    exact h1

end Extrapolation

section Interpolation

variable {R : Rounding ℚ}

theorem isI64_of_ck {x y : Int} (h : Checked.ck x = .ok y) : IsI64 x := (Checked.ck_inv h).1

theorem isI64_of_floorOf {x : ℚ} {f : Int} (h : floorOf x = .ok f) : IsI64 f := by
  unfold floorOf at h
  cases hi : indexOf x with
  | error e => rw [hi] at h; cases h
  | ok o =>
    rw [hi] at h
    obtain ⟨h1, h2⟩ := Checked.ck_inv h
    rwa [h2]

/-- The increment overflows at the last index. -/
theorem floor_next_ub {x : ℚ} (h : 2 ^ 63 - 1 ≤ x) :
    Checked.ck (floorIndex x + 1) = .error .ub := by
  refine Checked.ck_ub fun hi => ?_
  have hf : floorIndex x = ⌊x⌋ := by
    unfold floorIndex
    rw [toIndex_of_nonneg (by linarith), if_neg (by linarith), sub_zero]
  have : (2 ^ 63 - 1 : Int) ≤ ⌊x⌋ := Int.le_floor.2 (by push_cast; linarith)
  have := hi.2
  omega

theorem linearFlRev_defined (r : Position → Res (Fl R)) (n : Nat)
    (hr : ∀ q : Position, q.length = n → (∀ k ∈ q, IsI64 k) → ∃ v, r q = .ok v) :
    ∀ (xs : List ℚ) (idx : Position), xs ≠ [] → xs.length + idx.length = n → (∀ k ∈ idx, IsI64 k) →
    ((∀ x ∈ xs, Handles R .linear x) → ∃ v, linearFlRev r xs idx = .ok v) ∧
      ((∃ x ∈ xs, ¬ Handles R .linear x) → linearFlRev r xs idx = .error .ub) := by
  intro xs
  induction xs with
  | nil => intro idx h; exact absurd rfl h
  | cons x t ih =>
    intro idx _ hlen hidx
    have hadd : ∀ k : Int, IsI64 k → ∀ j ∈ k :: idx, IsI64 j := by
      intro k hk j hj
      rcases List.mem_cons.1 hj with rfl | hj
      · exact hk
      · exact hidx j hj
    by_cases hx : Handles R .linear x
    · obtain ⟨hf, hg⟩ := floor_next hx.1 hx.2
      have hf' := isI64_of_floorOf hf
      have hg' := isI64_of_ck hg
      cases t with
      | nil =>
        obtain ⟨v0, h0⟩ := hr (floorIndex x :: idx) (by simpa [Nat.add_comm] using hlen) (hadd _ hf')
        obtain ⟨v1, h1⟩ := hr ((floorIndex x + 1) :: idx) (by simpa [Nat.add_comm] using hlen) (hadd _ hg')
        refine ⟨fun _ => ?_, fun h => ?_⟩
        · simp only [linearFlRev, hf, hg, h0, h1, bind, Except.bind, pure, Except.pure]
          exact ⟨_, rfl⟩
        · obtain ⟨y, hy, hn⟩ := h
          rw [List.mem_singleton] at hy
          exact absurd (hy ▸ hx) hn
      | cons y pos =>
        have hl : ∀ k : Int, (y :: pos).length + (k :: idx).length = n := by
          intro k
          simp only [List.length_cons] at hlen ⊢
          omega
        obtain ⟨a1, a2⟩ := ih (floorIndex x :: idx) (by simp) (hl _) (hadd _ hf')
        obtain ⟨b1, b2⟩ := ih ((floorIndex x + 1) :: idx) (by simp) (hl _) (hadd _ hg')
        refine ⟨fun h => ?_, fun h => ?_⟩
        · obtain ⟨v0, h0⟩ := a1 fun z hz => h z (List.mem_cons_of_mem _ hz)
          obtain ⟨v1, h1⟩ := b1 fun z hz => h z (List.mem_cons_of_mem _ hz)
          simp only [linearFlRev, hf, hg, h0, h1, bind, Except.bind, pure, Except.pure]
          exact ⟨_, rfl⟩
        · obtain ⟨z, hz, hn⟩ := h
          have hz' : z ∈ y :: pos := by
            rcases List.mem_cons.1 hz with rfl | hz
            · exact absurd hx hn
            · exact hz
          simp only [linearFlRev, hf, a2 ⟨z, hz', hn⟩, bind, Except.bind]
    · refine ⟨fun h => absurd (h x (by simp)) hx, fun _ => ?_⟩
      by_cases hb : -2 ^ 63 < x ∧ x < 2 ^ 63
      · have hf := floorOf_eq hb.1 hb.2
        have hg := floor_next_ub (not_lt.1 fun h => hx ⟨hb.1, h⟩)
        have hf' := isI64_of_floorOf hf
        cases t with
        | nil =>
          obtain ⟨v0, h0⟩ := hr (floorIndex x :: idx) (by simpa [Nat.add_comm] using hlen) (hadd _ hf')
          simp only [linearFlRev, hf, hg, h0, bind, Except.bind]
        | cons y pos =>
          have hl : (y :: pos).length + (floorIndex x :: idx).length = n := by
            simp only [List.length_cons] at hlen ⊢
            omega
          obtain ⟨a1, a2⟩ := ih (floorIndex x :: idx) (by simp) hl (hadd _ hf')
          by_cases hall : ∀ z ∈ y :: pos, Handles R .linear z
          · obtain ⟨v0, h0⟩ := a1 hall
            simp only [linearFlRev, hf, hg, h0, bind, Except.bind]
          · push Not at hall
            simp only [linearFlRev, hf, a2 hall, bind, Except.bind]
      · cases t <;> simp only [linearFlRev, floorOf_ub hb, bind, Except.bind]

/-- If one of the neighbors has no index, one of the computations of the indices overflows. -/
theorem floor_neighbors_ub {x : ℚ} (h2 : x < 2 ^ 63) (h : ¬ Handles R .cubic x) :
    Checked.ck (floorIndex x - 1) = .error .ub ∨
    Checked.ck (floorIndex x - 1) = .ok (floorIndex x - 1) ∧
      (Checked.ck (floorIndex x + 1) = .error .ub ∨
      Checked.ck (floorIndex x + 1) = .ok (floorIndex x + 1) ∧ Checked.ck (floorIndex x + 2) = .error .ub) := by
  by_cases hx : 1 - 2 ^ 63 < x
  · right
    have hge : 2 ^ 63 - 2 ≤ x := not_lt.1 fun h' => h ⟨hx, h'⟩
    have hf : floorIndex x = ⌊x⌋ := by
      unfold floorIndex
      rw [toIndex_of_nonneg (by linarith), if_neg (by linarith), sub_zero]
    have g1 : (2 ^ 63 - 2 : Int) ≤ ⌊x⌋ := Int.le_floor.2 (by push_cast; linarith)
    have g2 : ⌊x⌋ < (2 ^ 63 : Int) := Int.floor_lt.2 (by push_cast; exact h2)
    rw [hf]
    refine ⟨ck_ok (by unfold IsI64; omega), ?_⟩
    by_cases g3 : ⌊x⌋ = 2 ^ 63 - 1
    · exact .inl (Checked.ck_ub (by unfold IsI64; omega))
    · exact .inr ⟨ck_ok (by unfold IsI64; omega), Checked.ck_ub (by unfold IsI64; omega)⟩
  · left
    refine Checked.ck_ub fun hi => ?_
    have hneg : x < 0 := by linarith
    have hc : ⌈x⌉ ≤ 1 - 2 ^ 63 := Int.ceil_le.2 (by push_cast; linarith)
    unfold floorIndex at hi
    rw [toIndex_of_neg hneg, if_pos hneg] at hi
    have := hi.1
    omega

theorem cubicFlRev_defined (r : Position → Res (Fl R)) (n : Nat)
    (hr : ∀ q : Position, q.length = n → (∀ k ∈ q, IsI64 k) → ∃ v, r q = .ok v) :
    ∀ (xs : List ℚ) (idx : Position), xs ≠ [] → xs.length + idx.length = n → (∀ k ∈ idx, IsI64 k) →
    ((∀ x ∈ xs, Handles R .cubic x) → ∃ v, cubicFlRev r xs idx = .ok v) ∧
      ((∃ x ∈ xs, ¬ Handles R .cubic x) → cubicFlRev r xs idx = .error .ub) := by
  intro xs
  induction xs with
  | nil => intro idx h; exact absurd rfl h
  | cons x t ih =>
    intro idx _ hlen hidx
    have hadd : ∀ k : Int, IsI64 k → ∀ j ∈ k :: idx, IsI64 j := by
      intro k hk j hj
      rcases List.mem_cons.1 hj with rfl | hj
      · exact hk
      · exact hidx j hj
    cases t with
    | nil =>
      have hread : ∀ k : Int, Checked.ck k = .ok k → ∃ v, r (k :: idx) = .ok v := fun k hk =>
        hr (k :: idx) (by simpa [Nat.add_comm] using hlen) (hadd _ (isI64_of_ck hk))
      by_cases hx : Handles R .cubic x
      · obtain ⟨hf, he, hg, hh⟩ := floor_neighbors hx.1 hx.2
        obtain ⟨v0, h0⟩ := hread _ he
        obtain ⟨v1, h1⟩ := hread _ (ck_ok (isI64_of_floorOf hf))
        obtain ⟨v2, h2⟩ := hread _ hg
        obtain ⟨v3, h3⟩ := hread _ hh
        refine ⟨fun _ => ?_, fun h => ?_⟩
        · simp only [cubicFlRev, hf, he, hg, hh, h0, h1, h2, h3, bind, Except.bind, pure, Except.pure]
          exact ⟨_, rfl⟩
        · obtain ⟨y, hy, hn⟩ := h
          rw [List.mem_singleton] at hy
          exact absurd (hy ▸ hx) hn
      · refine ⟨fun h => absurd (h x (by simp)) hx, fun _ => ?_⟩
        by_cases hb : -2 ^ 63 < x ∧ x < 2 ^ 63
        · have hf := floorOf_eq hb.1 hb.2
          obtain ⟨v1, h1⟩ := hread _ (ck_ok (isI64_of_floorOf hf))
          rcases floor_neighbors_ub (R := R) hb.2 hx with he | ⟨he, hg | ⟨hg, hh⟩⟩
          · simp only [cubicFlRev, hf, he, bind, Except.bind]
          · obtain ⟨v0, h0⟩ := hread _ he
            simp only [cubicFlRev, hf, he, h0, h1, hg, bind, Except.bind]
          · obtain ⟨v0, h0⟩ := hread _ he
            obtain ⟨v2, h2⟩ := hread _ hg
            simp only [cubicFlRev, hf, he, h0, h1, hg, h2, hh, bind, Except.bind]
        · simp only [cubicFlRev, floorOf_ub hb, bind, Except.bind]
    | cons y pos =>
      have hrec : ∀ k : Int, Checked.ck k = .ok k →
          ((∀ x ∈ y :: pos, Handles R .cubic x) → ∃ v, cubicFlRev r (y :: pos) (k :: idx) = .ok v) ∧
          ((∃ x ∈ y :: pos, ¬ Handles R .cubic x) → cubicFlRev r (y :: pos) (k :: idx) = .error .ub) := fun k hk =>
        ih (k :: idx) (by simp) (by simp only [List.length_cons] at hlen ⊢; omega) (hadd _ (isI64_of_ck hk))
      by_cases hx : Handles R .cubic x
      · obtain ⟨hf, he, hg, hh⟩ := floor_neighbors hx.1 hx.2
        refine ⟨fun h => ?_, fun h => ?_⟩
        · have hall : ∀ z ∈ y :: pos, Handles R .cubic z := fun z hz => h z (List.mem_cons_of_mem _ hz)
          obtain ⟨v0, h0⟩ := (hrec _ he).1 hall
          obtain ⟨v1, h1⟩ := (hrec _ (ck_ok (isI64_of_floorOf hf))).1 hall
          obtain ⟨v2, h2⟩ := (hrec _ hg).1 hall
          obtain ⟨v3, h3⟩ := (hrec _ hh).1 hall
          simp only [cubicFlRev, hf, he, hg, hh, h0, h1, h2, h3, bind, Except.bind, pure, Except.pure]
          exact ⟨_, rfl⟩
        · obtain ⟨z, hz, hn⟩ := h
          have hz' : z ∈ y :: pos := by
            rcases List.mem_cons.1 hz with rfl | hz
            · exact absurd hx hn
            · exact hz
          simp only [cubicFlRev, hf, he, (hrec _ he).2 ⟨z, hz', hn⟩, bind, Except.bind]
      · refine ⟨fun h => absurd (h x (by simp)) hx, fun _ => ?_⟩
        by_cases hb : -2 ^ 63 < x ∧ x < 2 ^ 63
        · have hf := floorOf_eq hb.1 hb.2
          have hr1 := hrec _ (ck_ok (isI64_of_floorOf hf))
          rcases floor_neighbors_ub (R := R) hb.2 hx with he | ⟨he, hg'⟩
          · simp only [cubicFlRev, hf, he, bind, Except.bind]
          · by_cases hall : ∀ z ∈ y :: pos, Handles R .cubic z
            · obtain ⟨v0, h0⟩ := (hrec _ he).1 hall
              obtain ⟨v1, h1⟩ := hr1.1 hall
              rcases hg' with hg | ⟨hg, hh⟩
              · simp only [cubicFlRev, hf, he, h0, h1, hg, bind, Except.bind]
              · obtain ⟨v2, h2⟩ := (hrec _ hg).1 hall
                simp only [cubicFlRev, hf, he, h0, h1, hg, h2, hh, bind, Except.bind]
            · push Not at hall
              simp only [cubicFlRev, hf, he, (hrec _ he).2 hall, bind, Except.bind]
        · simp only [cubicFlRev, floorOf_ub hb, bind, Except.bind]

theorem nearest_index {x : ℚ} (h : Handles R .nearest x) :
    indexOf (R.fl (x + 1 / 2)) = .ok (toIndex (R.fl (x + 1 / 2))) ∧ IsI64 (toIndex (R.fl (x + 1 / 2))) := by
  obtain ⟨h1, h2⟩ := h
  have hi : IsI64 (toIndex (R.fl (x + 1 / 2))) := by
    by_cases h0 : 0 ≤ R.fl (x + 1 / 2)
    · rw [toIndex_of_nonneg h0]
      exact ⟨le_trans (by norm_num) (Int.floor_nonneg.2 h0), Int.floor_lt.2 (by push_cast; exact h2)⟩
    · rw [toIndex_of_neg (not_le.1 h0)]
      refine ⟨?_, ?_⟩
      · have : (-2 ^ 63 - 1 : Int) < ⌈R.fl (x + 1 / 2)⌉ := Int.lt_ceil.2 (by push_cast; linarith)
        omega
      · have : ⌈R.fl (x + 1 / 2)⌉ ≤ 0 := Int.ceil_le.2 (by push_cast; exact (not_le.1 h0).le)
        omega
  exact ⟨ck_ok hi, hi⟩

/-- Interpolation of anything which can be read at all positions of type `Index`. -/
theorem interpolation_defined (i : InterpolationMethod) (r : Position → Res (Fl R)) (xs : List ℚ) (hne : xs ≠ [])
    (hr : ∀ q : Position, q.length = xs.length → (∀ k ∈ q, IsI64 k) → ∃ v, r q = .ok v) :
    ((∀ x ∈ xs, Handles R i x) → ∃ v : Fl R, i.at R r xs = .ok v) ∧ ((∃ x ∈ xs, ¬ Handles R i x) → i.at R r xs = .error .ub) := by
  cases i with
  | nearest =>
    refine ⟨fun h => ?_, fun ⟨x, hx, hn⟩ => C93_undefined r xs hx ?_⟩
    · obtain ⟨v, hv⟩ := hr (xs.map fun e => toIndex (R.fl (e + 1 / 2))) (by simp) (by
        intro k hk
        obtain ⟨x, hx, rfl⟩ := List.mem_map.1 hk
        exact (nearest_index (h x hx)).2)
      refine ⟨v, ?_⟩
      show nearestFl R r xs = _
      unfold nearestFl
      rw [mapM_ok _ (fun e => toIndex (R.fl (e + 1 / 2))) xs fun x hx => (nearest_index (h x hx)).1]
      exact hv
    · by_cases h1 : -2 ^ 63 - 1 < R.fl (x + 1 / 2)
      · exact .inr (not_lt.1 fun h2 => hn ⟨h1, h2⟩)
      · exact .inl (not_lt.1 h1)
  | linear =>
    have := linearFlRev_defined r xs.length hr xs.reverse [] (by simpa using hne) (by simp) (by simp)
    simpa [InterpolationMethod.at, linearFl] using this
  | cubic =>
    have := cubicFlRev_defined r xs.length hr xs.reverse [] (by simpa using hne) (by simp) (by simp)
    simpa [InterpolationMethod.at, cubicFl] using this

/-- **C114**: the value interpolated from an extrapolated raster is defined if and only if all of the coordinates have
neighbors of type `Index`... -/
theorem C114_defined {r : Raster (Fl R)} (h : Indexable r) (i : InterpolationMethod) (m : ExtrapolationMethod (Fl R))
    {xs : List ℚ} (hl : xs.length = r.shape.length) :
    (∃ v : Fl R, i.at R (m.at r) xs = .ok v) ↔ ∀ x ∈ xs, Handles R i x := by
  have hne : xs ≠ [] := by
    rintro rfl
    exact h.dim (List.length_eq_zero_iff.1 hl.symm)
  obtain ⟨h1, h2⟩ := interpolation_defined i (m.at r) xs hne fun q hq hk => by
    obtain ⟨v, hv, _⟩ := C114_values h m (hq.trans hl) hk
    exact ⟨v, hv⟩
  refine ⟨fun ⟨v, hv⟩ => ?_, h1⟩
  by_contra hc
  push Not at hc
  rw [h2 hc] at hv
  cases hv

/-- ... otherwise, the behaviour is undefined. -/
theorem C114_undefined {r : Raster (Fl R)} (h : Indexable r) (i : InterpolationMethod) (m : ExtrapolationMethod (Fl R))
    {xs : List ℚ} (hl : xs.length = r.shape.length) {x : ℚ} (hx : x ∈ xs) (hn : ¬ Handles R i x) :
    i.at R (m.at r) xs = .error .ub := by
  have hne : xs ≠ [] := fun h => by rw [h] at hx; cases hx
  exact (interpolation_defined i (m.at r) xs hne fun q hq hk => by
    obtain ⟨v, hv, _⟩ := C114_values h m (hq.trans hl) hk
    exact ⟨v, hv⟩).2 ⟨x, hx, hn⟩

/-! ## Rasters which are not extrapolated -/

namespace Spec

/-- The coordinates whose neighbors are pixels along an axis of length `n`. -/
def Interior (R : Rounding ℚ) : InterpolationMethod → Int → ℚ → Prop
  | .nearest, n, x => -1 < R.fl (x + 1 / 2) ∧ R.fl (x + 1 / 2) < n
  | .linear, n, x => 0 ≤ x ∧ x < n - 1
  | .cubic, n, x => 1 ≤ x ∧ x < n - 2

end Spec

/-- The indices which are read along an axis. -/
def Reads (R : Rounding ℚ) : InterpolationMethod → ℚ → Int → Prop
  | .nearest, x, k => indexOf (R.fl (x + 1 / 2)) = .ok k
  | .linear, x, k => ∃ f, floorOf x = .ok f ∧ (k = f ∨ k = f + 1)
  | .cubic, x, k => ∃ f, floorOf x = .ok f ∧ (k = f - 1 ∨ k = f ∨ k = f + 1 ∨ k = f + 2)

theorem ck_cases (x : Int) : Checked.ck x = .error .ub ∨ Checked.ck x = .ok x := by
  unfold Checked.ck
  split_ifs <;> simp

theorem linearFlRev_congr (r r' : Position → Res (Fl R)) : ∀ (xs : List ℚ) (idx : Position),
    (∀ q, List.Forall₂ (fun x k => Reads R .linear x k) xs.reverse q → r (q ++ idx) = r' (q ++ idx)) →
    linearFlRev r xs idx = linearFlRev r' xs idx := by
  intro xs
  induction xs with
  | nil => intro idx _; rfl
  | cons x t ih =>
    intro idx h
    cases hf : floorOf x with
    | error e => cases t <;> simp only [linearFlRev, hf, bind, Except.bind]
    | ok f =>
      cases t with
      | nil =>
        have hread : ∀ k, Reads R .linear x k → r (k :: idx) = r' (k :: idx) := fun k hk =>
          h [k] (.cons hk .nil)
        have h0 := hread f ⟨f, hf, .inl rfl⟩
        have h1 := hread (f + 1) ⟨f, hf, .inr rfl⟩
        rcases ck_cases (f + 1) with hg | hg <;> simp only [linearFlRev, hf, hg, h0, h1, bind, Except.bind]
      | cons y pos =>
        have hread : ∀ k, Reads R .linear x k →
            linearFlRev r (y :: pos) (k :: idx) = linearFlRev r' (y :: pos) (k :: idx) := fun k hk =>
          ih (k :: idx) fun q hq => by
            have := h (q ++ [k]) (by
              rw [List.reverse_cons]
              exact List.rel_append hq (.cons hk .nil))
            simpa using this
        have h0 := hread f ⟨f, hf, .inl rfl⟩
        have h1 := hread (f + 1) ⟨f, hf, .inr rfl⟩
        rcases ck_cases (f + 1) with hg | hg <;> simp only [linearFlRev, hf, hg, h0, h1, bind, Except.bind]

theorem cubicFlRev_congr (r r' : Position → Res (Fl R)) : ∀ (xs : List ℚ) (idx : Position),
    (∀ q, List.Forall₂ (fun x k => Reads R .cubic x k) xs.reverse q → r (q ++ idx) = r' (q ++ idx)) →
    cubicFlRev r xs idx = cubicFlRev r' xs idx := by
  intro xs
  induction xs with
  | nil => intro idx _; rfl
  | cons x t ih =>
    intro idx h
    cases hf : floorOf x with
    | error e => cases t <;> simp only [cubicFlRev, hf, bind, Except.bind]
    | ok f =>
      cases t with
      | nil =>
        have hread : ∀ k, Reads R .cubic x k → r (k :: idx) = r' (k :: idx) := fun k hk =>
          h [k] (.cons hk .nil)
        have h0 := hread (f - 1) ⟨f, hf, .inl rfl⟩
        have h1 := hread f ⟨f, hf, .inr (.inl rfl)⟩
        have h2 := hread (f + 1) ⟨f, hf, .inr (.inr (.inl rfl))⟩
        have h3 := hread (f + 2) ⟨f, hf, .inr (.inr (.inr rfl))⟩
        rcases ck_cases (f - 1) with he | he <;> rcases ck_cases (f + 1) with hg | hg <;>
          rcases ck_cases (f + 2) with hh | hh <;>
          simp only [cubicFlRev, hf, he, hg, hh, h0, h1, h2, h3, bind, Except.bind]
      | cons y pos =>
        have hread : ∀ k, Reads R .cubic x k →
            cubicFlRev r (y :: pos) (k :: idx) = cubicFlRev r' (y :: pos) (k :: idx) := fun k hk =>
          ih (k :: idx) fun q hq => by
            have := h (q ++ [k]) (by
              rw [List.reverse_cons]
              exact List.rel_append hq (.cons hk .nil))
            simpa using this
        have h0 := hread (f - 1) ⟨f, hf, .inl rfl⟩
        have h1 := hread f ⟨f, hf, .inr (.inl rfl)⟩
        have h2 := hread (f + 1) ⟨f, hf, .inr (.inr (.inl rfl))⟩
        have h3 := hread (f + 2) ⟨f, hf, .inr (.inr (.inr rfl))⟩
        rcases ck_cases (f - 1) with he | he <;> rcases ck_cases (f + 1) with hg | hg <;>
          rcases ck_cases (f + 2) with hh | hh <;>
          simp only [cubicFlRev, hf, he, hg, hh, h0, h1, h2, h3, bind, Except.bind]

theorem interpolationMethod_congr (i : InterpolationMethod) (r r' : Position → Res (Fl R)) (xs : List ℚ)
    (h : ∀ q, List.Forall₂ (fun x k => Reads R i x k) xs q → r q = r' q) : i.at R r xs = i.at R r' xs := by
  cases i with
  | nearest =>
    show nearestFl R r xs = nearestFl R r' xs
    unfold nearestFl
    cases hm : xs.mapM fun e => indexOf (R.fl (e + 1 / 2)) with
    | error e => rfl
    | ok q =>
      refine h q ?_
      clear h
      induction xs generalizing q with
      | nil =>
        cases hm
        exact .nil
      | cons x t ih =>
        rw [List.mapM_cons] at hm
        cases hx : indexOf (R.fl (x + 1 / 2)) with
        | error e => rw [hx] at hm; cases hm
        | ok k =>
          rw [hx] at hm
          cases ht : t.mapM fun e => indexOf (R.fl (e + 1 / 2)) with
          | error e => rw [ht] at hm; cases hm
          | ok q' =>
            rw [ht] at hm
            cases hm
            exact .cons hx (ih q' ht)
  | linear => exact linearFlRev_congr r r' xs.reverse [] (by simpa using h)
  | cubic => exact cubicFlRev_congr r r' xs.reverse [] (by simpa using h)

theorem floorIndex_nonneg {x : ℚ} (h : 0 ≤ x) : floorIndex x = ⌊x⌋ := by
  unfold floorIndex
  rw [toIndex_of_nonneg h, if_neg (not_lt.2 h), sub_zero]

theorem floorOf_inv {x : ℚ} {f : Int} (h : floorOf x = .ok f) : f = floorIndex x := by
  by_cases hb : -2 ^ 63 < x ∧ x < 2 ^ 63
  · rw [floorOf_eq hb.1 hb.2] at h
    cases h
    rfl
  · rw [floorOf_ub hb] at h
    cases h

theorem interior_reads {i : InterpolationMethod} {n k : Int} {x : ℚ} (hn : 0 < n) (h : Interior R i n x) (hk : Reads R i x k) :
    0 ≤ k ∧ k < n := by
  cases i with
  | nearest =>
    obtain ⟨h1, h2⟩ := h
    obtain ⟨_, rfl⟩ := Checked.ck_inv hk
    by_cases h0 : 0 ≤ R.fl (x + 1 / 2)
    · rw [toIndex_of_nonneg h0]
      exact ⟨Int.floor_nonneg.2 h0, Int.floor_lt.2 h2⟩
    · rw [toIndex_of_neg (not_le.1 h0)]
      have h3 : (-1 : Int) < ⌈R.fl (x + 1 / 2)⌉ := Int.lt_ceil.2 (by push_cast; exact h1)
      have h4 : ⌈R.fl (x + 1 / 2)⌉ ≤ 0 := Int.ceil_le.2 (by push_cast; exact (not_le.1 h0).le)
      omega
  | linear =>
    obtain ⟨h1, h2⟩ := h
    obtain ⟨f, hf, hk⟩ := hk
    have hf := floorOf_inv hf
    rw [floorIndex_nonneg h1] at hf
    have h3 : 0 ≤ ⌊x⌋ := Int.floor_nonneg.2 h1
    have h4 : ⌊x⌋ < n - 1 := Int.floor_lt.2 (by push_cast; exact h2)
    omega
  | cubic =>
    obtain ⟨h1, h2⟩ := h
    obtain ⟨f, hf, hk⟩ := hk
    have hf := floorOf_inv hf
    rw [floorIndex_nonneg (by linarith)] at hf
    have h3 : 1 ≤ ⌊x⌋ := Int.le_floor.2 (by push_cast; exact h1)
    have h4 : ⌊x⌋ < n - 2 := Int.floor_lt.2 (by push_cast; exact h2)
    omega

theorem interior_handles (i : InterpolationMethod) {n : Int} {x : ℚ} (hn : n < 2 ^ 63) (h : Interior R i n x) :
    Handles R i x := by
  have hq : (n : ℚ) < 2 ^ 63 := by exact_mod_cast hn
  cases i with
  | nearest => exact ⟨by linarith [h.1], h.2.trans hq⟩
  | linear => exact ⟨by linarith [h.1], by linarith [h.2]⟩
  | cubic => exact ⟨by linarith [h.1], by linarith [h.2]⟩

/-- A raster need not be extrapolated where all of the neighbors are pixels: the result is defined and is that of any
extrapolation method. -/
theorem C114_raster {r : Raster (Fl R)} (h : Indexable r) (i : InterpolationMethod) (m : ExtrapolationMethod (Fl R))
    {xs : List ℚ} (hx : List.Forall₂ (fun n x => Interior R i n x) r.shape xs) :
    i.at R (Checked.get r) xs = i.at R (m.at r) xs ∧ ∃ v : Fl R, i.at R (Checked.get r) xs = .ok v := by
  have hl : xs.length = r.shape.length := (List.Forall₂.length_eq hx).symm
  have key : i.at R (Checked.get r) xs = i.at R (m.at r) xs := by
    refine interpolationMethod_congr i _ _ xs fun q hq => ?_
    have hin : InShape r.shape q := by
      have aux : ∀ s : Position, ∀ ys : List ℚ, List.Forall₂ (fun n x => Interior R i n x) s ys → ∀ q, Pos s →
          List.Forall₂ (fun x k => Reads R i x k) ys q → InShape s q := by
        intro s ys hs
        induction hs with
        | nil => intro q _ hq; cases hq; exact .nil
        | cons h1 _ ih =>
          intro q hp hq
          cases hq with
          | cons h2 ht =>
            exact .cons (interior_reads (hp _ (List.mem_cons_self ..)) h1 h2) (ih _ (fun n hn => hp n (by simp [hn])) ht)
      exact aux _ _ hx q h.pos hq
    rw [checked_get h hin, C114_inside h m hin]
  refine ⟨key, ?_⟩
  rw [key]
  refine (C114_defined h i m hl).2 fun x hxm => ?_
  have aux : ∀ s : Position, ∀ ys : List ℚ, List.Forall₂ (fun n x => Interior R i n x) s ys → (∀ n ∈ s, n < 2 ^ 63) →
      ∀ x ∈ ys, Handles R i x := by
    intro s ys hs
    induction hs with
    | nil => simp
    | cons h1 _ ih =>
      intro hb x hm
      rcases List.mem_cons.1 hm with rfl | hm
      · exact interior_handles i (hb _ (List.mem_cons_self ..)) h1
      · exact ih (fun n hn => hb n (by simp [hn])) x hm
  exact aux _ _ hx (fun n hn => length_lt h.pos h.small hn) x hxm

/-- Along a line, the result is defined only there; elsewhere, including the last pixel for linear interpolation, the
behaviour is undefined. -/
theorem C114_line {n : Int} {data : List (Fl R)} (h : Indexable (⟨[n], data⟩ : Raster (Fl R))) (i : InterpolationMethod) (x : ℚ) :
    ((∃ v : Fl R, i.at R (Checked.get ⟨[n], data⟩) [x] = .ok v) ↔ Interior R i n x) ∧
      (¬ Interior R i n x → i.at R (Checked.get ⟨[n], data⟩) [x] = .error .ub) := by
  have hlen : (data.length : Int) = n := by simpa [pixelCount] using h.size
  have hub : ∀ k : Int, ¬ (0 ≤ k ∧ k < n) → Checked.get (⟨[n], data⟩ : Raster (Fl R)) [k] = .error .ub := by
    intro k hk
    show readAt data k = _
    exact readAt_ub (by omega)
  have hok : ∀ k : Int, 0 ≤ k → k < n → ∃ v, Checked.get (⟨[n], data⟩ : Raster (Fl R)) [k] = .ok v := by
    intro k h0 hk
    obtain ⟨v, hv, _⟩ := get_inShape (⟨[n], data⟩ : Raster (Fl R)) [k] h.size (.cons ⟨h0, hk⟩ .nil)
    exact ⟨v, (checked_get h (.cons ⟨h0, hk⟩ .nil)).trans hv⟩
  have hbad : ¬ Interior R i n x → i.at R (Checked.get ⟨[n], data⟩) [x] = .error .ub := by
    intro hi
    cases i with
    | nearest =>
      show nearestFl R _ [x] = _
      unfold nearestFl
      rw [List.mapM_cons, List.mapM_nil]
      rcases ck_cases (toIndex (R.fl (x + 1 / 2))) with hc | hc
      · unfold indexOf
        rw [hc]
        rfl
      · unfold indexOf
        rw [hc]
        refine hub _ fun hk => hi ?_
        by_cases h0 : 0 ≤ R.fl (x + 1 / 2)
        · rw [toIndex_of_nonneg h0] at hk
          exact ⟨by linarith, Int.floor_lt.1 hk.2⟩
        · have h1 := not_le.1 h0
          rw [toIndex_of_neg h1] at hk
          refine ⟨?_, ?_⟩
          · have : (-1 : Int) < ⌈R.fl (x + 1 / 2)⌉ := by omega
            have := Int.lt_ceil.1 this
            push_cast at this
            exact this
          · have : (0 : Int) < n := h.pos n (by simp)
            have : (0 : ℚ) < n := by exact_mod_cast this
            linarith
    | linear =>
      show linearFlRev _ [x] [] = _
      cases hf : floorOf x with
      | error e =>
        have : e = .ub := by
          by_cases hb : -2 ^ 63 < x ∧ x < 2 ^ 63
          · rw [floorOf_eq hb.1 hb.2] at hf
            cases hf
          · rw [floorOf_ub hb] at hf
            cases hf
            rfl
        simp only [linearFlRev, hf, bind, Except.bind, this]
      | ok f =>
        have hf' := floorOf_inv hf
        by_cases h0 : 0 ≤ f ∧ f < n
        · have hx0 : 0 ≤ x := by
            by_contra hc
            have hc := not_le.1 hc
            have : ⌈x⌉ ≤ 0 := Int.ceil_le.2 (by push_cast; exact hc.le)
            unfold floorIndex at hf'
            rw [toIndex_of_neg hc, if_pos hc] at hf'
            omega
          rw [floorIndex_nonneg hx0] at hf'
          have hge : n - 1 ≤ f := by
            by_contra hc
            have : ⌊x⌋ < n - 1 := by omega
            have := Int.floor_lt.1 this
            push_cast at this
            exact hi ⟨hx0, this⟩
          obtain ⟨v, hv⟩ := hok f h0.1 h0.2
          have hn := hub (f + 1) (by omega)
          rcases ck_cases (f + 1) with hg | hg <;> simp only [linearFlRev, hf, hg, hv, hn, bind, Except.bind]
        · simp only [linearFlRev, hf, hub f h0, bind, Except.bind]
    | cubic =>
      show cubicFlRev _ [x] [] = _
      cases hf : floorOf x with
      | error e =>
        have : e = .ub := by
          by_cases hb : -2 ^ 63 < x ∧ x < 2 ^ 63
          · rw [floorOf_eq hb.1 hb.2] at hf
            cases hf
          · rw [floorOf_ub hb] at hf
            cases hf
            rfl
        simp only [cubicFlRev, hf, bind, Except.bind, this]
      | ok f =>
        have hf' := floorOf_inv hf
        rcases ck_cases (f - 1) with he | he
        · simp only [cubicFlRev, hf, he, bind, Except.bind]
        by_cases h0 : 0 ≤ f - 1 ∧ f - 1 < n
        · have hx0 : 1 ≤ x := by
            by_contra hc
            have hc := not_le.1 hc
            by_cases hneg : x < 0
            · have : ⌈x⌉ ≤ 0 := Int.ceil_le.2 (by push_cast; exact hneg.le)
              unfold floorIndex at hf'
              rw [toIndex_of_neg hneg, if_pos hneg] at hf'
              omega
            · rw [floorIndex_nonneg (not_lt.1 hneg)] at hf'
              have : ⌊x⌋ < 1 := Int.floor_lt.2 (by push_cast; exact hc)
              omega
          rw [floorIndex_nonneg (by linarith)] at hf'
          have hge : n - 2 ≤ f := by
            by_contra hc
            have : ⌊x⌋ < n - 2 := by omega
            have := Int.floor_lt.1 this
            push_cast at this
            exact hi ⟨hx0, this⟩
          obtain ⟨v0, hv0⟩ := hok (f - 1) h0.1 h0.2
          have hnn := hub (f + 2) (by omega)
          by_cases h1 : f < n
          · obtain ⟨v1, hv1⟩ := hok f (by omega) h1
            rcases ck_cases (f + 1) with hg | hg
            · simp only [cubicFlRev, hf, he, hg, hv0, hv1, bind, Except.bind]
            by_cases h2 : f + 1 < n
            · obtain ⟨v2, hv2⟩ := hok (f + 1) (by omega) h2
              rcases ck_cases (f + 2) with hh | hh <;>
                simp only [cubicFlRev, hf, he, hg, hh, hv0, hv1, hv2, hnn, bind, Except.bind]
            · have hv2 := hub (f + 1) (by omega)
              simp only [cubicFlRev, hf, he, hg, hv0, hv1, hv2, bind, Except.bind]
          · have hv1 := hub f (by omega)
            simp only [cubicFlRev, hf, he, hv0, hv1, bind, Except.bind]
        · simp only [cubicFlRev, hf, he, hub (f - 1) h0, bind, Except.bind]
  refine ⟨⟨fun ⟨v, hv⟩ => ?_, fun hi => ?_⟩, hbad⟩
  · by_contra hc
    rw [hbad hc] at hv
    cases hv
  · exact (C114_raster h i .nearest (xs := [x]) (.cons hi .nil)).2

end Interpolation

/-! ## Positions in double precision -/

/-- `double`. -/
local notation "𝔻" => Binary.rounding 53 (by norm_num) (-1074)

namespace Spec

/-- The coordinates of type `double` whose neighbors have indices. -/
def HandlesDouble : InterpolationMethod → ℚ → Prop
  | .nearest, x => -2 ^ 63 ≤ x ∧ x < 2 ^ 63
  | .linear, x => -2 ^ 63 < x ∧ x < 2 ^ 63
  | .cubic, x => -2 ^ 63 < x ∧ x < 2 ^ 63

end Spec

/-- Adding a half goes no further than one. -/
theorem fl_half {x : ℚ} (h : Binary.fl 53 (-1074) x = x) :
    x ≤ Binary.fl 53 (-1074) (x + 1 / 2) ∧ Binary.fl 53 (-1074) (x + 1 / 2) ≤ x + 1 := by
  have h1 := ((Binary.fl_isNearest (p := 53) (by norm_num) (-1074) (x + 1 / 2)).2 x (Binary.isNumber_iff.2 h)).1
  rw [show x - (x + 1 / 2) = -(1 / 2) by ring, abs_neg, abs_of_pos (by norm_num : (0 : ℚ) < 1 / 2), abs_le] at h1
  constructor <;> linarith [h1.1, h1.2]

/-- There are no doubles just below 2^63... -/
theorem double_lt {x : ℚ} (h : Binary.fl 53 (-1074) x = x) (hx : x < 2 ^ 63) : x ≤ 2 ^ 63 - 2 ^ 10 := by
  have := Binary.le_pred_pow (p := 53) (by norm_num) (emin := -1074) (e := 63) (by norm_num) h (by
    rw [show (2 : ℚ) ^ (63 : Int) = 2 ^ 63 by norm_cast]; exact hx)
  rw [show (2 : ℚ) ^ (63 : Int) = 2 ^ 63 by norm_cast, show ((63 : Int) - (53 : Nat)) = 10 by norm_num,
    show (2 : ℚ) ^ (10 : Int) = 2 ^ 10 by norm_cast] at this
  exact this

/-- ... or just above. -/
theorem double_gt {x : ℚ} (h : Binary.fl 53 (-1074) x = x) (hx : 2 ^ 63 < x) : 2 ^ 63 + 2 ^ 11 ≤ x := by
  by_cases h64 : x < 2 ^ 64
  · obtain ⟨m, hm, _⟩ := Binary.fl_binade (p := 53) (emin := -1074) (e := 64) (by norm_num) h
      (by rw [show ((64 : Int) - 1) = 63 by norm_num, show (2 : ℚ) ^ (63 : Int) = 2 ^ 63 by norm_cast]; exact hx.le)
      (by rw [show (2 : ℚ) ^ (64 : Int) = 2 ^ 64 by norm_cast]; exact h64)
    rw [show ((64 : Int) - (53 : Nat)) = 11 by norm_num, show (2 : ℚ) ^ (11 : Int) = 2 ^ 11 by norm_cast] at hm
    have h1 : (2 ^ 52 : ℚ) < m := by
      by_contra hc
      have := not_lt.1 hc
      rw [hm] at hx
      linarith
    have h2 : (2 ^ 52 : Int) < m := by exact_mod_cast h1
    have h3 : (2 ^ 52 : Int) + 1 ≤ m := h2
    have h4 : ((2 : ℚ) ^ 52 + 1) ≤ m := by exact_mod_cast h3
    rw [hm]
    linarith
  · linarith [not_lt.1 h64]

theorem handles_double (i : InterpolationMethod) {x : ℚ} (h : Binary.fl 53 (-1074) x = x) :
    Handles 𝔻 i x ↔ HandlesDouble i x := by
  have hneg : Binary.fl 53 (-1074) (-x) = -x := by rw [Binary.fl_neg, h]
  cases i with
  | nearest =>
    have hh := fl_half h
    show (-2 ^ 63 - 1 < Binary.fl 53 (-1074) (x + 1 / 2) ∧ Binary.fl 53 (-1074) (x + 1 / 2) < 2 ^ 63) ↔
      (-2 ^ 63 ≤ x ∧ x < 2 ^ 63)
    constructor
    · rintro ⟨h1, h2⟩
      refine ⟨?_, by linarith⟩
      by_contra hc
      have := double_gt hneg (by linarith [not_le.1 hc])
      linarith
    · rintro ⟨h1, h2⟩
      have := double_lt h h2
      exact ⟨by linarith, by linarith⟩
  | linear =>
    show (-2 ^ 63 < x ∧ x < 2 ^ 63 - 1) ↔ (-2 ^ 63 < x ∧ x < 2 ^ 63)
    constructor
    · rintro ⟨h1, h2⟩
      exact ⟨h1, by linarith⟩
    · rintro ⟨h1, h2⟩
      have := double_lt h h2
      exact ⟨h1, by linarith⟩
  | cubic =>
    show (1 - 2 ^ 63 < x ∧ x < 2 ^ 63 - 2) ↔ (-2 ^ 63 < x ∧ x < 2 ^ 63)
    constructor
    · rintro ⟨h1, h2⟩
      exact ⟨by linarith, by linarith⟩
    · rintro ⟨h1, h2⟩
      have := double_lt h h2
      have := double_lt hneg (by linarith)
      exact ⟨by linarith, by linarith⟩

/-- **C114**: which positions of type `double` are handled. -/
theorem C114_double {r : Raster (Fl 𝔻)} (h : Indexable r) (i : InterpolationMethod) (m : ExtrapolationMethod (Fl 𝔻))
    {xs : List ℚ} (hl : xs.length = r.shape.length) (hd : ∀ x ∈ xs, Binary.fl 53 (-1074) x = x) :
    (∃ v : Fl 𝔻, i.at 𝔻 (m.at r) xs = .ok v) ↔ ∀ x ∈ xs, HandlesDouble i x := by
  refine (C114_defined h i m hl).trans ?_
  exact ⟨fun hx x hm => (handles_double i (hd x hm)).1 (hx x hm), fun hx x hm => (handles_double i (hd x hm)).2 (hx x hm)⟩

/-- The full property: interpolators of extrapolators return a value at any position. -/
def C114_Statement : Prop :=
  ∀ (r : Raster (Fl 𝔻)), Indexable r → ∀ (i : InterpolationMethod) (m : ExtrapolationMethod (Fl 𝔻)) (xs : List ℚ),
    xs.length = r.shape.length → (∀ x ∈ xs, Binary.fl 53 (-1074) x = x) → ∃ v : Fl 𝔻, i.at 𝔻 (m.at r) xs = .ok v

theorem indexable_line {α : Type _} (a b : α) : Indexable (⟨[2], [a, b]⟩ : Raster α) :=
  ⟨rfl, by simp [Pos], by simp [pixelCount], by simp⟩

theorem double_pow63 : Binary.fl 53 (-1074) (2 ^ 63) = 2 ^ 63 := by
  have := Binary.fl_mul_pow (p := 53) (emin := -1074) (e := 63) (n := 1) (by norm_num) (by norm_num)
  rw [show (2 : ℚ) ^ (63 : Int) = 2 ^ 63 by norm_cast] at this
  simpa using this

/-- It does not hold: positions which have no indices are converted to indices, although the value of the extrapolated
raster is that of the last pixel. -/
theorem C114_violated : ¬ C114_Statement := by
  intro h
  have := h ⟨[2], [Fl.of 1, Fl.of 2]⟩ (indexable_line _ _) .linear .nearest [2 ^ 63] rfl (by
    intro x hx
    rw [List.mem_singleton] at hx
    rw [hx, double_pow63])
  rw [C114_double (indexable_line _ _) .linear .nearest rfl (by
    intro x hx
    rw [List.mem_singleton] at hx
    rw [hx, double_pow63])] at this
  have := (this (2 ^ 63) (by simp)).2
  linarith

/-- The property for the positions which have indices.

Missing: the others, where the behaviour is undefined (`C114_undefined`). -/
theorem C114_partial {r : Raster (Fl 𝔻)} (h : Indexable r) (i : InterpolationMethod) (m : ExtrapolationMethod (Fl 𝔻))
    {xs : List ℚ} (hl : xs.length = r.shape.length) (hd : ∀ x ∈ xs, Binary.fl 53 (-1074) x = x) (hx : ∀ x ∈ xs, |x| < 2 ^ 63) :
    ∃ v : Fl 𝔻, i.at 𝔻 (m.at r) xs = .ok v := by
  rw [C114_double h i m hl hd]
  intro x hm
  have := abs_lt.1 (hx x hm)
  cases i with
  | nearest => exact ⟨this.1.le, this.2⟩
  | linear => exact this
  | cubic => exact this

/-- Interpolators of rasters return a value everywhere between the pixels. -/
def C114_domain_Statement : Prop :=
  ∀ (r : Raster (Fl 𝔻)), Indexable r → ∀ (i : InterpolationMethod) (xs : List ℚ),
    List.Forall₂ (fun n x => 0 ≤ x ∧ x ≤ ((n - 1 : Int) : ℚ)) r.shape xs → (∀ x ∈ xs, Binary.fl 53 (-1074) x = x) →
    ∃ v : Fl 𝔻, i.at 𝔻 (Checked.get r) xs = .ok v

/-- They do not, even at the position of the last pixel. -/
theorem C114_last_pixel {R : Rounding ℚ} {n : Int} {data : List (Fl R)} (h : Indexable (⟨[n], data⟩ : Raster (Fl R))) :
    linearFl (Checked.get ⟨[n], data⟩) [((n - 1 : Int) : ℚ)] = .error .ub ∧
      cubicFl (Checked.get ⟨[n], data⟩) [((n - 1 : Int) : ℚ)] = .error .ub := by
  refine ⟨(C114_line h .linear _).2 fun hi => ?_, (C114_line h .cubic _).2 fun hi => ?_⟩
  · have := hi.2
    push_cast at this
    linarith
  · have := hi.2
    push_cast at this
    linarith

theorem C114_domain_violated : ¬ C114_domain_Statement := by
  intro h
  have h1 : Binary.fl 53 (-1074) (((2 - 1 : Int)) : ℚ) = ((2 - 1 : Int) : ℚ) := Binary.fl_intCast (by norm_num) (by norm_num)
  obtain ⟨v, hv⟩ := h ⟨[2], [Fl.of 1, Fl.of 2]⟩ (indexable_line _ _) .linear [((2 - 1 : Int) : ℚ)] (.cons ⟨by norm_num, le_rfl⟩ .nil) (by
    intro x hx
    rw [List.mem_singleton] at hx
    rw [hx, h1])
  have := (C114_last_pixel (indexable_line (Fl.of 1 : Fl 𝔻) (Fl.of 2))).1
  change linearFl _ _ = _ at hv
  rw [this] at hv
  cases hv

/-- The property for nearest-neighbor interpolation.

Missing: the other methods, which read after the last pixel (`C114_line`), and axes of more than 2^52 pixels. -/
theorem C114_domain_partial {r : Raster (Fl 𝔻)} (h : Indexable r) (hn : ∀ n ∈ r.shape, n ≤ 2 ^ 52) {xs : List ℚ}
    (hx : List.Forall₂ (fun n x => 0 ≤ x ∧ x ≤ ((n - 1 : Int) : ℚ)) r.shape xs) :
    ∃ v : Fl 𝔻, nearestFl 𝔻 (Checked.get r) xs = .ok v := by
  refine (C114_raster h .nearest .nearest ?_).2
  have aux : ∀ s : Position, ∀ ys : List ℚ, List.Forall₂ (fun n x => 0 ≤ x ∧ x ≤ ((n - 1 : Int) : ℚ)) s ys →
      Pos s → (∀ n ∈ s, n ≤ 2 ^ 52) → List.Forall₂ (fun n x => Interior 𝔻 .nearest n x) s ys := by
    intro s ys hs
    induction hs with
    | nil => intro _ _; exact .nil
    | cons h1 _ ih =>
      rename_i n x _ _ _
      intro hp hb
      refine .cons ?_ (ih (fun n hn => hp n (by simp [hn])) fun n hn => hb n (by simp [hn]))
      have hn0 : 0 < n := hp n (by simp)
      have hn1 : n ≤ 2 ^ 52 := hb n (by simp)
      obtain ⟨hx0, hx1⟩ := h1
      have hexact : Binary.fl 53 (-1074) ((n : ℚ) - 1 / 2) = n - 1 / 2 := by
        have := Binary.fl_mul_pow (p := 53) (emin := -1074) (e := -1) (n := 2 * n - 1) (by norm_num) (by
          rw [abs_of_pos (by omega)]
          omega)
        rw [show (((2 * n - 1 : Int)) : ℚ) * 2 ^ (-1 : Int) = n - 1 / 2 by
          rw [zpow_neg_one]
          push_cast
          ring] at this
        exact this
      refine ⟨?_, ?_⟩
      · have : 0 ≤ Binary.fl 53 (-1074) (x + 1 / 2) := Binary.fl_nonneg (by linarith)
        exact lt_of_lt_of_le (by norm_num) this
      · have h2 : Binary.fl 53 (-1074) (x + 1 / 2) ≤ Binary.fl 53 (-1074) ((n : ℚ) - 1 / 2) :=
          Binary.fl_mono (by norm_num) _ (by push_cast at hx1; linarith)
        rw [hexact] at h2
        exact lt_of_le_of_lt h2 (by linarith)
  exact aux _ _ hx h.pos hn

/-! ## Examples -/

-- A raster of shape (3, 2) far from its domain, at the extrema of `Index`.
example : let r : Raster Int := ⟨[3, 2], [1, 2, 3, 4, 5, 6]⟩
    Indexable r ∧ (∀ x ∈ ([-2 ^ 63, 2 ^ 63 - 1] : Position), IsI64 x) ∧
    (ExtrapolationMethod.constant 0).at r [-2 ^ 63, 2 ^ 63 - 1] = .ok 0 ∧
    ExtrapolationMethod.nearest.at r [-2 ^ 63, 2 ^ 63 - 1] = .ok 4 ∧
    ExtrapolationMethod.periodic.at r [-2 ^ 63, 2 ^ 63 - 1] = .ok 5 ∧
    (ExtrapolationMethod.constant 0).at r [1, 1] = r.get [1, 1] := by
  refine ⟨⟨rfl, by simp [Pos], by simp [pixelCount], by simp⟩, ?_, by rfl, by rfl, by rfl, by rfl⟩
  intro x hx
  simp only [List.mem_cons, List.not_mem_nil, or_false] at hx
  rcases hx with rfl | rfl <;> simp [IsI64]

-- Not a raster with pixels: there is no position to clamp to.
example : ExtrapolationMethod.nearest.at (⟨[0], []⟩ : Raster Int) [0] = .error .ub ∧
    ExtrapolationMethod.periodic.at (⟨[0], []⟩ : Raster Int) [0] = .error .ub := ⟨by rfl, by rfl⟩

-- Interpolation out of the domain of a line of two pixels.
example : ∀ i : InterpolationMethod, ∃ v : Fl 𝔻, i.at 𝔻 (ExtrapolationMethod.periodic.at ⟨[2], [Fl.of 1, Fl.of 2]⟩) [-5 / 2] = .ok v := by
  intro i
  refine C114_partial (indexable_line _ _) i _ rfl ?_ ?_
  · intro x hx
    rw [List.mem_singleton] at hx
    have := Binary.fl_mul_pow (p := 53) (emin := -1074) (e := -1) (n := -5) (by norm_num) (by norm_num)
    rw [show (((-5 : Int)) : ℚ) * 2 ^ (-1 : Int) = x by rw [hx]; norm_num] at this
    exact this
  · intro x hx
    rw [List.mem_singleton] at hx
    rw [hx]
    norm_num

-- Linear interpolation at the lowest index is undefined, while nearest-neighbor interpolation is defined.
example : ¬ HandlesDouble .linear (-2 ^ 63) ∧ HandlesDouble .nearest (-2 ^ 63) ∧ ¬ HandlesDouble .nearest (2 ^ 63) := by
  refine ⟨fun h => lt_irrefl _ h.1, ⟨le_rfl, by norm_num⟩, fun h => lt_irrefl _ h.2⟩

-- Between the pixels of a bare line, and at the last one.
example : (∃ v : Fl 𝔻, linearFl (Checked.get ⟨[2], [Fl.of 1, Fl.of 2]⟩ : Position → Res (Fl 𝔻)) [3 / 4] = .ok v) ∧
    linearFl (Checked.get ⟨[2], [Fl.of 1, Fl.of 2]⟩ : Position → Res (Fl 𝔻)) [1] = .error .ub :=
  ⟨(C114_line (indexable_line (Fl.of 1 : Fl 𝔻) (Fl.of 2)) .linear (3 / 4)).1.2 ⟨by norm_num, by norm_num⟩,
    (C114_line (indexable_line (Fl.of 1 : Fl 𝔻) (Fl.of 2)) .linear 1).2 fun h => by
      have := h.2
      norm_num at this⟩

end Litl
