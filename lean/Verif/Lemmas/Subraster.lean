import Verif.Lemmas.Contiguous

/-!
# Lemmas about subraster iteration
-/

namespace Litl

open Spec

namespace Subraster

theorem LoopUntil.row {v : View} {region : Box} {stop : Iter → Prop} {c : Position} {w : Int}
    (hw : region.back.getD 0 0 - region.front.getD 0 0 + 1 = w) {l : List Iter}
    (hrest : LoopUntil (Iter.next v region) stop
      (let row := BoxIterator.next (region.project 0) c; ⟨row, v.ptr row, v.ptr row + w⟩) l) :
    ∀ (n : Nat) (k : Int), k + n = v.ptr c + w → 1 ≤ n →
      (∀ x, k ≤ x → x < v.ptr c + w → ¬ stop ⟨c, x, v.ptr c + w⟩) →
      ∃ l', LoopUntil (Iter.next v region) stop ⟨c, k, v.ptr c + w⟩ l' ∧
        l'.map Iter.current = (List.range n).map (fun j : Nat => k + (j : Int)) ++ l.map Iter.current := by
  intro n
  induction n with
  | zero => intro k _ h; omega
  | succ n ih =>
    intro k hk _ hstop
    by_cases hn : n = 0
    · subst hn
      refine ⟨_, LoopUntil.next (l := l) (hstop k le_rfl (by omega)) ?_, ?_⟩
      · have : Iter.next v region ⟨c, k, v.ptr c + w⟩ =
            (let row := BoxIterator.next (region.project 0) c; ⟨row, v.ptr row, v.ptr row + w⟩) := by
          simp only [Iter.next, hw]
          rw [if_neg (by simp; omega)]
        rw [this]; exact hrest
      · simp
    · obtain ⟨l', h1, h2⟩ := ih (k + 1) (by push_cast at hk; omega) (by omega) (fun x hx => hstop x (by omega))
      refine ⟨_, LoopUntil.next (l := l') (hstop k le_rfl (by push_cast at hk; omega)) ?_, ?_⟩
      · have : Iter.next v region ⟨c, k, v.ptr c + w⟩ = ⟨c, k + 1, v.ptr c + w⟩ := by
          simp only [Iter.next]
          rw [if_pos (by push_cast at hk; omega)]
        rw [this]; exact h1
      · rw [List.map_cons, h2, List.range_succ_eq_map, List.map_cons, List.map_map, List.cons_append]
        congr 2
        · simp
        · refine List.map_congr_left ?_
          intro j _; simp; omega

/-- The iteration over rows. -/
theorem loop_rows {v : View} {region : Box} {w : Nat}
    (hw : region.back.getD 0 0 - region.front.getD 0 0 + 1 = w) (hw1 : 1 ≤ w)
    {c : Position} {rows : List Position}
    (ht : LoopTrace (BoxIterator.next (region.project 0)) (BoxIterator.endPosition region) c rows)
    (hge : ∀ q ∈ rows, v.ptr (BoxIterator.endPosition region) < v.ptr q) :
    ∃ l, LoopUntil (Iter.next v region) (fun it => it.current = v.ptr (BoxIterator.endPosition region))
        ⟨c, v.ptr c, v.ptr c + w⟩ l ∧
      l.map Iter.current = rows.flatMap fun q => (List.range w).map (fun j : Nat => v.ptr q + (j : Int)) := by
  generalize hstop : BoxIterator.endPosition region = stop at *
  induction ht with
  | done => exact ⟨[], LoopUntil.done rfl, rfl⟩
  | @next c rows hne ht ih =>
    obtain ⟨l, h1, h2⟩ := ih (fun q hq => hge q (by simp [hq]))
    have hc := hge c (by simp)
    obtain ⟨l', h3, h4⟩ := LoopUntil.row (v := v) (c := c) hw h1 w (v.ptr c) rfl hw1
      (fun x hx _ => by simp only; omega)
    exact ⟨l', h3, by rw [h4, h2]; rfl⟩

theorem enum_project {f : Int} {fs bs : List Int} :
    enum (f :: fs) (f :: bs) = (enum fs bs).map (f :: ·) := by
  have : ints f f = [f] := by
    rw [ints]
    simp
  simp [enum, this, ← List.map_eq_flatMap]

theorem visits {v : View} {region : Box} (hs : v.shape ≠ [])
    (hf : InShape v.shape region.front) (hb : InShape v.shape region.back)
    (hle : List.Forall₂ (· ≤ ·) region.front region.back) :
    ∃ l, Visits v region l ∧ l.map Iter.current = (enum region.front region.back).map v.ptr := by
  obtain ⟨fr, bk⟩ := region
  obtain ⟨s, o⟩ := v
  simp only at hs hf hb hle
  cases hle with
  | nil => cases hf; exact absurd rfl hs
  | @cons f b fs bs h1 h2 =>
    cases s with
    | nil => exact absurd rfl hs
    | cons s ss =>
      obtain ⟨hf1, hf2⟩ := inShape_cons.1 hf
      obtain ⟨hb1, hb2⟩ := inShape_cons.1 hb
      have hplane : Box.project ⟨f :: fs, b :: bs⟩ 0 = ⟨f :: fs, f :: bs⟩ := by simp [Box.project]
      have ht := BoxIterator.visits_enum (b := ⟨f :: fs, f :: bs⟩) (by simp) (List.Forall₂.cons le_rfl h2)
      have hss : NonNeg (s :: ss) := by
        intro x hx
        obtain ⟨i, hi, rfl⟩ := List.getElem_of_mem hx
        have := (forall₂_iff_getD.1 hf).2 i (by rw [hf.length_eq]; exact hi)
        simp only [List.getD_eq_getElem?_getD, List.getElem?_eq_getElem hi, Option.getD_some] at this
        omega
      obtain ⟨l, hl1, hl2⟩ := loop_rows (v := ⟨s :: ss, o⟩) (region := ⟨f :: fs, b :: bs⟩)
        (w := (b - f + 1).toNat) (by simp; omega) (by omega) (c := f :: fs) (rows := enum (f :: fs) (f :: bs))
        (by rw [hplane]; exact ht) (by
          intro q hq
          have hq' := (mem_enum (by simp [h2.length_eq])).1 hq
          have := index_mono hss hq'.1 hf.length_eq
          simp only [View.ptr, BoxIterator.endPosition, BoxIterator.decHead]
          rw [index_cons hf2.length_eq] at this ⊢
          omega)
      refine ⟨l, ?_, ?_⟩
      · unfold Visits
        simp only [Iter.mk', BoxIterator.beginPosition]
        have e : ((b - f + 1).toNat : Int) = b - f + 1 := by omega
        rw [e] at hl1
        exact hl1
      · rw [hl2, enum_project (f := f)]
        simp only [enum]
        rw [List.flatMap_map, List.map_flatMap]
        refine List.flatMap_congr ?_
        intro q hq
        have hq' := ((mem_enum h2.length_eq).1 hq)
        have hql : q.length = ss.length := hq'.1.length_eq.symm.trans hf2.length_eq
        rw [List.map_map, ints, List.map_map]
        refine List.map_congr_left ?_
        intro j _
        simp only [Function.comp, View.ptr]
        rw [index_cons hql, index_cons hql]
        omega

end Subraster

end Litl
