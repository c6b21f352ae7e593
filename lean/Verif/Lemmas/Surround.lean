import Verif.Lemmas.BoxAlgebra

/-!
# Lemmas about `Box::surround`
-/

namespace Litl

open Spec

/-- The lengths of a box are at least `1 - d`: it is not empty for `d = 0`. -/
def Fits (n : Nat) (d : Int) (c : Box) : Prop :=
  c.front.length = n ∧ c.back.length = n ∧ ∀ j, j < n → c.front.getD j 0 ≤ c.back.getD j 0 + d

/-- Boxes `b` and `out` form a partition of `cur`, and those of `out` are not empty if `d = 0`. -/
structure Part (d : Int) (b cur : Box) (out : List Box) : Prop where
  cover : ∀ p, InBox cur.front cur.back p ↔ InBox b.front b.back p ∨ ∃ c ∈ out, InBox c.front c.back p
  disj : (b :: out).Pairwise fun c d => ∀ p, InBox c.front c.back p → ¬ InBox d.front d.back p
  fits : ∀ c ∈ out, Fits b.front.length d c

theorem Part.absorb {d : Int} {b cur new slab : Box} {out : List Box} (h : Part d b cur out)
    (hc : ∀ p, InBox new.front new.back p ↔ InBox cur.front cur.back p ∨ InBox slab.front slab.back p)
    (hd : ∀ p, InBox cur.front cur.back p → ¬ InBox slab.front slab.back p)
    (hn : Fits b.front.length d slab) : Part d b new (out ++ [slab]) := by
  refine ⟨?_, ?_, ?_⟩
  · intro p
    rw [hc p, h.cover p]
    simp only [List.mem_append, List.mem_singleton]
    constructor
    · rintro ((h1 | ⟨c, h1, h2⟩) | h1)
      · exact Or.inl h1
      · exact Or.inr ⟨c, Or.inl h1, h2⟩
      · exact Or.inr ⟨slab, Or.inr rfl, h1⟩
    · rintro (h1 | ⟨c, h1 | rfl, h2⟩)
      · exact Or.inl (Or.inl h1)
      · exact Or.inl (Or.inr ⟨c, h1, h2⟩)
      · exact Or.inr h2
  · rw [← List.cons_append, List.pairwise_append]
    refine ⟨h.disj, by simp, ?_⟩
    intro c hc' d hd' p hp
    rw [List.mem_singleton] at hd'
    subst hd'
    refine hd p ((h.cover p).2 ?_)
    rcases List.mem_cons.1 hc' with rfl | h1
    · exact Or.inl hp
    · exact Or.inr ⟨c, h1, hp⟩
  · intro c hc'
    rcases List.mem_append.1 hc' with h1 | h1
    · exact h.fits c h1
    · rw [List.mem_singleton.1 h1]; exact hn

/-- Loop invariant of `surround`, at the beginning of iteration `i`. -/
structure SurInv (d : Int) (b m : Box) (i : Nat) (st : Box × List Box) : Prop where
  part : Part d b st.1 st.2
  lf : st.1.front.length = b.front.length
  lb : st.1.back.length = b.front.length
  front : ∀ j, j < b.front.length →
    st.1.front.getD j 0 = b.front.getD j 0 + if j < i then m.front.getD j 0 else 0
  back : ∀ j, j < b.front.length →
    st.1.back.getD j 0 = b.back.getD j 0 + if j < i then m.back.getD j 0 else 0
  count : st.2.length ≤ 2 * i

theorem set_getD_self {l : List Int} {i : Nat} (h : i < l.length) : l.set i (l.getD i 0) = l := by
  simp [List.getD_eq_getElem?_getD, List.getElem?_eq_getElem h]

/-- Absorption of a slab in front of the box along axis `i`. -/
theorem Part.absorb_front {d : Int} {b cur : Box} {out : List Box} {i : Nat} {f : Int} (h : Part d b cur out)
    (hd : 0 ≤ d ∧ d ≤ 1) (hlb : cur.front.length = b.front.length)
    (hl : cur.front.length = cur.back.length) (hi : i < cur.front.length)
    (hne : ∀ j, j < cur.front.length → cur.front.getD j 0 ≤ cur.back.getD j 0 + d) (hf : f < 0) :
    Part d b ⟨cur.front.set i (cur.front.getD i 0 + f), cur.back⟩
      (out ++ [⟨cur.front.set i (cur.front.getD i 0 + f), cur.back.set i (cur.front.getD i 0 - 1)⟩]) := by
  have hset : (cur.front.set i (cur.front.getD i 0 + f)).set i (cur.front.getD i 0) = cur.front := by
    rw [List.set_set, set_getD_self hi]
  have hi' : i < (cur.front.set i (cur.front.getD i 0 + f)).length := by simpa using hi
  have hl' : (cur.front.set i (cur.front.getD i 0 + f)).length = cur.back.length := by simpa using hl
  refine h.absorb ?_ ?_ ?_
  · intro p
    have := inBox_split (p := p) (x := cur.front.getD i 0) hi' hl'
      (by rw [getD_set hi, if_pos rfl]; omega) (by have := hne i hi; omega)
    rw [hset] at this
    rw [this, or_comm]
  · intro p h1 h2
    rw [← hset] at h1
    exact inBox_split_disjoint hi' hl' h2 h1
  · refine ⟨by simpa using hlb, by simp only [List.length_set]; omega, ?_⟩
    intro j hj
    simp only []
    rw [getD_set hi, getD_set (by omega)]
    split
    · omega
    · exact hne j (by omega)

/-- Absorption of a slab at the back of the box along axis `i`. -/
theorem Part.absorb_back {d : Int} {b cur : Box} {out : List Box} {i : Nat} {g : Int} (h : Part d b cur out)
    (hd : 0 ≤ d ∧ d ≤ 1) (hlb : cur.front.length = b.front.length)
    (hl : cur.front.length = cur.back.length) (hi : i < cur.front.length)
    (hne : ∀ j, j < cur.front.length → cur.front.getD j 0 ≤ cur.back.getD j 0 + d) (hg : g > 0) :
    Part d b ⟨cur.front, cur.back.set i (cur.back.getD i 0 + g)⟩
      (out ++ [⟨cur.front.set i (cur.back.getD i 0 + 1), cur.back.set i (cur.back.getD i 0 + g)⟩]) := by
  have hset : (cur.back.set i (cur.back.getD i 0 + g)).set i (cur.back.getD i 0 + 1 - 1) = cur.back := by
    rw [List.set_set, Int.add_sub_cancel, set_getD_self (by omega)]
  have hl' : cur.front.length = (cur.back.set i (cur.back.getD i 0 + g)).length := by simpa using hl
  refine h.absorb ?_ ?_ ?_
  · intro p
    have := inBox_split (p := p) (x := cur.back.getD i 0 + 1) hi hl'
      (by have := hne i hi; omega) (by rw [getD_set (by omega), if_pos rfl]; omega)
    rw [hset] at this
    rw [this]
  · intro p h1 h2
    rw [← hset] at h1
    exact inBox_split_disjoint hi hl' h1 h2
  · refine ⟨by simpa using hlb, by simp only [List.length_set]; omega, ?_⟩
    intro j hj
    simp only []
    rw [getD_set hi, getD_set (by omega)]
    split
    · omega
    · exact hne j (by omega)

theorem surInv_step {d : Int} (hd : 0 ≤ d ∧ d ≤ 1) {b m : Box} {i : Nat} {st : Box × List Box}
    (hb : ∀ j, j < b.front.length → b.front.getD j 0 ≤ b.back.getD j 0 + d)
    (hmf : ∀ j, j < b.front.length → m.front.getD j 0 ≤ 0)
    (hmb : ∀ j, j < b.front.length → 0 ≤ m.back.getD j 0)
    (h : SurInv d b m i st) (hi : i < b.front.length) : SurInv d b m (i + 1) (Box.surroundStep m st i) := by
  obtain ⟨cur, out⟩ := st
  have hne : ∀ j, j < cur.front.length → cur.front.getD j 0 ≤ cur.back.getD j 0 + d := by
    intro j hj
    have hj' : j < b.front.length := by have := h.lf; simp only at this; omega
    have h1 := h.front j hj'
    have h2 := h.back j hj'
    have h3 := hb j hj'
    have h4 := hmf j hj'
    have h5 := hmb j hj'
    simp only at h1 h2
    rw [h1, h2]
    split <;> omega
  have hlf := h.lf
  have hlb := h.lb
  have hcount := h.count
  simp only at hlf hlb hcount
  -- Front
  obtain ⟨mid, hmid⟩ : ∃ mid : Box × List Box, mid =
      (if m.front.getD i 0 < 0 then
        ((⟨cur.front.set i (cur.front.getD i 0 + m.front.getD i 0), cur.back⟩ : Box),
          out ++ [⟨cur.front.set i (cur.front.getD i 0 + m.front.getD i 0),
            cur.back.set i (cur.front.getD i 0 - 1)⟩])
      else (cur, out)) := ⟨_, rfl⟩
  have hstep : Box.surroundStep m (cur, out) i =
      if m.back.getD i 0 > 0 then
        ((⟨mid.1.front, mid.1.back.set i (mid.1.back.getD i 0 + m.back.getD i 0)⟩ : Box),
          mid.2 ++ [⟨mid.1.front.set i (mid.1.back.getD i 0 + 1),
            mid.1.back.set i (mid.1.back.getD i 0 + m.back.getD i 0)⟩])
      else mid := by
    rw [hmid]; rfl
  have hp : Part d b mid.1 mid.2 := by
    rw [hmid]
    split
    · rename_i hf
      exact h.part.absorb_front hd hlf (by simp only; omega) (by simp only; omega) hne hf
    · exact h.part
  have hmb' : mid.1.back = cur.back := by rw [hmid]; split <;> rfl
  have hml : mid.1.front.length = b.front.length := by rw [hmid]; split <;> simp [hlf]
  have hmc : mid.2.length ≤ 2 * i + 1 := by rw [hmid]; split <;> simp <;> omega
  have hmfr : ∀ j, j < b.front.length →
      mid.1.front.getD j 0 = b.front.getD j 0 + if j < i + 1 then m.front.getD j 0 else 0 := by
    intro j hj
    have h1 := h.front j hj
    simp only at h1
    rw [hmid]
    by_cases hf : m.front.getD i 0 < 0
    · rw [if_pos hf]
      simp only
      rw [getD_set (by omega)]
      by_cases hij : i = j
      · subst hij
        rw [if_pos rfl, h1, if_neg (by omega), if_pos (by omega)]; omega
      · rw [if_neg hij, h1]
        congr 1
        by_cases hlt : j < i
        · rw [if_pos hlt, if_pos (by omega)]
        · rw [if_neg hlt, if_neg (by omega)]
    · rw [if_neg hf]
      simp only
      rw [h1]
      congr 1
      by_cases hij : i = j
      · subst hij
        have := hmf i hi
        rw [if_neg (by omega), if_pos (by omega)]; omega
      · by_cases hlt : j < i
        · rw [if_pos hlt, if_pos (by omega)]
        · rw [if_neg hlt, if_neg (by omega)]
  have hbk : ∀ j, j < b.front.length →
      cur.back.getD j 0 = b.back.getD j 0 + if j < i then m.back.getD j 0 else 0 := h.back
  have hne2 : ∀ j, j < mid.1.front.length → mid.1.front.getD j 0 ≤ mid.1.back.getD j 0 + d := by
    intro j hj
    have hj' : j < b.front.length := by omega
    rw [hmb', hmfr j hj', hbk j hj']
    have h3 := hb j hj'
    have h4 := hmf j hj'
    have h5 := hmb j hj'
    split <;> split <;> omega
  rw [hstep]
  by_cases hg : m.back.getD i 0 > 0
  · rw [if_pos hg]
    refine ⟨hp.absorb_back hd hml (by rw [hmb']; omega) (by omega) hne2 hg, hml, by simp [hmb', hlb], hmfr, ?_, ?_⟩
    · intro j hj
      simp only
      rw [hmb', getD_set (by omega)]
      have h1 := hbk j hj
      by_cases hij : i = j
      · subst hij
        rw [if_pos rfl, h1, if_neg (by omega), if_pos (by omega)]; omega
      · rw [if_neg hij, h1]
        congr 1
        by_cases hlt : j < i
        · rw [if_pos hlt, if_pos (by omega)]
        · rw [if_neg hlt, if_neg (by omega)]
    · simp only [List.length_append, List.length_singleton]; omega
  · rw [if_neg hg]
    refine ⟨hp, hml, by rw [hmb', hlb], hmfr, ?_, by omega⟩
    intro j hj
    rw [hmb', hbk j hj]
    congr 1
    by_cases hij : i = j
    · subst hij
      have := hmb i hi
      rw [if_neg (by omega), if_pos (by omega)]; omega
    · by_cases hlt : j < i
      · rw [if_pos hlt, if_pos (by omega)]
      · rw [if_neg hlt, if_neg (by omega)]

theorem surInv_foldl {d : Int} (hd : 0 ≤ d ∧ d ≤ 1) {b m : Box}
    (hl : b.front.length = b.back.length)
    (hb : ∀ j, j < b.front.length → b.front.getD j 0 ≤ b.back.getD j 0 + d)
    (hmf : ∀ j, j < b.front.length → m.front.getD j 0 ≤ 0)
    (hmb : ∀ j, j < b.front.length → 0 ≤ m.back.getD j 0) :
    ∀ i, i ≤ b.front.length → SurInv d b m i ((List.range i).foldl (Box.surroundStep m) (b, [])) := by
  intro i
  induction i with
  | zero =>
    intro _
    exact ⟨⟨by simp, by simp, by simp⟩, rfl, hl.symm, by simp, by simp, by simp⟩
  | succ i ih =>
    intro hi
    rw [List.range_succ, List.foldl_append]
    exact surInv_step hd hb hmf hmb (ih (by omega)) (by omega)

/-- The surrounding boxes of a box of lengths at least `1 - d`. -/
theorem surround_part {d : Int} (hd : 0 ≤ d ∧ d ≤ 1) (b m : Box) (hl : b.front.length = b.back.length)
    (hf : m.front.length = b.front.length) (hbk : m.back.length = b.front.length)
    (hne : ∀ j, j < b.front.length → b.front.getD j 0 ≤ b.back.getD j 0 + d)
    (hmf : ∀ x ∈ m.front, x ≤ 0) (hmb : ∀ x ∈ m.back, 0 ≤ x) :
    Part d b (b.grow m) (b.surround m) ∧ (b.surround m).length ≤ 2 * b.dimension := by
  have hmf' : ∀ j, j < b.front.length → m.front.getD j 0 ≤ 0 := by
    intro j hj
    have hj' : j < m.front.length := by omega
    have := hmf _ (List.getElem_mem hj')
    simpa [List.getD_eq_getElem?_getD, List.getElem?_eq_getElem hj'] using this
  have hmb' : ∀ j, j < b.front.length → 0 ≤ m.back.getD j 0 := by
    intro j hj
    have hj' : j < m.back.length := by omega
    have := hmb _ (List.getElem_mem hj')
    simpa [List.getD_eq_getElem?_getD, List.getElem?_eq_getElem hj'] using this
  have h := surInv_foldl hd hl hne hmf' hmb' b.front.length le_rfl
  have hcur : ((List.range b.front.length).foldl (Box.surroundStep m) (b, [])).1 = b.grow m := by
    obtain ⟨_, h1, h2, h3, h4, _⟩ := h
    generalize ((List.range b.front.length).foldl (Box.surroundStep m) (b, [])).1 = cur at *
    have e1 : cur.front = (b.grow m).front := by
      refine ext_getD (by rw [h1, Box.grow, length_add hf.symm]) ?_
      intro i hi
      rw [h1] at hi
      rw [h3 i hi, if_pos hi, Box.grow, getD_add hf.symm]
    have e2 : cur.back = (b.grow m).back := by
      refine ext_getD (by rw [h2, Box.grow, length_add (by omega)]; omega) ?_
      intro i hi
      rw [h2] at hi
      rw [h4 i hi, if_pos hi, Box.grow, getD_add (by omega)]
    cases cur
    simp only at e1 e2
    rw [e1, e2]
  have hp := h.part
  rw [hcur] at hp
  exact ⟨hp, h.count⟩

end Litl
