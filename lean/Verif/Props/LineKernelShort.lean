import Verif.Props.LineKernel
import Verif.Props.SeparableKernel

/-!
# Correlation of short lines, wherever they are in memory (C47, C49)

`C47_exact_partial` is about lines which are alone in memory: the correlation reads outside of short lines, and the behavior is
undefined because there is nothing there. In the memory of a raster, there are other pixels around the line: the correlation
may run out of the line without running out of the memory. Here, we show that the behavior is still undefined for the lines
which are not longer than the part of the kernel after its origin, because the bound of the second loop, which is unsigned,
wraps around.
-/

namespace Litl

/-- A loop which goes on until the behavior is undefined. -/
theorem While.undefined {σ : Type _} {cond : σ → Prop} {body : σ → Res σ} (Inv : σ → Prop) (μ : σ → Nat)
    (hc : ∀ s, Inv s → cond s)
    (hb : ∀ s, Inv s → body s = .error .ub ∨ ∃ s', body s = .ok s' ∧ Inv s' ∧ μ s' < μ s) {s : σ} (hs : Inv s) (r : Res σ) :
    While cond body s r ↔ r = .error .ub := by
  have h : ∀ n s, μ s < n → Inv s → While cond body s (.error .ub) := by
    intro n
    induction n with
    | zero => intro s h; omega
    | succ n ih =>
      intro s hn hs
      rcases hb s hs with h | ⟨s', h1, h2, h3⟩
      · exact .fail (hc s hs) h
      · exact .next (hc s hs) h1 (ih s' (by omega) h2)
  constructor
  · intro h1
    exact While.unique h1 (h _ s (Nat.lt_succ_self _) hs)
  · rintro rfl
    exact h _ s (Nat.lt_succ_self _) hs

namespace LineKernel

variable {α : Type} [Semiring α]

/-- The scalar product is a value, or the behavior is undefined. -/
theorem innerProduct_memory (values : List α) (first last : Int) (input : List α) (stride it : Int) :
    (∃ x, innerProduct values first last (readAt input) stride it = .ok x) ∨
      innerProduct values first last (readAt input) stride it = .error .ub := by
  unfold innerProduct
  split
  · exact .inr rfl
  · generalize List.range (last - first).toNat = l
    generalize (0 : α) = s
    induction l generalizing s with
    | nil => exact .inl ⟨s, rfl⟩
    | cons t l ih =>
      rw [List.foldlM_cons]
      rcases readAt_cases values (first + t) with ⟨_, h⟩ | ⟨_, h⟩
      · rcases readAt_cases input (it + stride * t) with ⟨_, h'⟩ | ⟨_, h'⟩
        · rw [h, h']
          exact ih _
        · rw [h, h']
          exact .inr rfl
      · rw [h]
        exact .inr rfl

/-- The scalar product with data after the end of the memory. -/
theorem innerProduct_after {values input : List α} {stride it : Int} (hv : values ≠ []) (hit : (input.length : Int) ≤ it) :
    innerProduct values 0 values.length (readAt input) stride it = .error .ub := by
  obtain ⟨n, hn⟩ : ∃ n, values.length = n + 1 := by
    cases values with
    | nil => simp at hv
    | cons a l => exact ⟨l.length, rfl⟩
  have hr : readAt input (it + stride * (0 : Nat)) = .error .ub := by
    rcases readAt_cases input (it + stride * (0 : Nat)) with ⟨h, _⟩ | ⟨_, h⟩
    · simp at h
      omega
    · exact h
  unfold innerProduct
  rw [if_neg (by omega), hn]
  have : ((n + 1 : Nat) - (0 : Int)).toNat = n + 1 := by omega
  rw [this, List.range_succ_eq_map, List.foldlM_cons, hr]
  rcases readAt_cases values (0 + (0 : Nat)) with ⟨_, h⟩ | ⟨_, h⟩ <;> rw [h] <;> rfl

omit [Semiring α] in
theorem put_cases (inn out : DataSamples) (s : State α) (x : α) : put inn out s x = .error .ub ∨
    ∃ s', put inn out s x = .ok s' ∧ s'.i = s.i + inn.sampling.step ∧ s'.inIt = s.inIt + inn.stride * inn.sampling.step := by
  unfold put writeAt
  split
  · exact .inl rfl
  · split
    · exact .inr ⟨_, rfl, rfl, rfl⟩
    · exact .inl rfl

/-- **C47**: if there are not more elements in the line than values after the origin of the kernel, the behavior is undefined,
wherever the line is in the memory and whatever is around it. -/
theorem C47_short {k : LineKernel α} {input data : List α} {n : Nat} {a s b t : Int}
    (ho : 0 ≤ k.origin ∧ k.origin < k.values.length) (hk : k.values.length < 2 ^ 62) (hn0 : 1 ≤ n)
    (hn : n ≤ k.values.length - 1 - k.origin) (ha : 0 ≤ a) (hs : 1 ≤ s) (hm : input.length < 2 ^ 62) :
    Undefined k (readAt input) (full a n s) (full b n t) data := by
  have hv : k.values ≠ [] := by
    intro h
    rw [h] at ho
    simp at ho
    omega
  rw [full_eq hn0 (by omega), full_eq hn0 (by omega)]
  -- First loop
  have hback : ∀ (m : Nat) (st : State α), k.origin - st.i = m → st.inIt = a + s * (st.i - k.origin) →
      ∃ r0, (∀ r, While (fun st => st.i < k.origin)
          (backwardBody k (readAt input) ⟨a, n, ⟨0, n - 1, 1⟩, s⟩ ⟨b, n, ⟨0, n - 1, 1⟩, t⟩) st r ↔ r = r0) ∧
        (r0 = .error .ub ∨ ∃ st' : State α, r0 = .ok st' ∧ st'.i = k.origin ∧ st'.inIt = a) := by
    intro m
    induction m with
    | zero =>
      intro st h1 h2
      have hi : st.i = k.origin := by omega
      refine ⟨.ok st, fun r => ⟨fun h => While.unique h (.done (by omega)), ?_⟩, .inr ⟨st, rfl, hi, ?_⟩⟩
      · rintro rfl
        exact .done (by omega)
      · rw [h2, hi]
        ring
    | succ m ih =>
      intro st h1 h2
      have hc : st.i < k.origin := by omega
      have hbody : backwardBody k (readAt input) ⟨a, n, ⟨0, n - 1, 1⟩, s⟩ ⟨b, n, ⟨0, n - 1, 1⟩, t⟩ st = .error .ub ∨
          ∃ st', backwardBody k (readAt input) ⟨a, n, ⟨0, n - 1, 1⟩, s⟩ ⟨b, n, ⟨0, n - 1, 1⟩, t⟩ st = .ok st' ∧
            st'.i = st.i + 1 ∧ st'.inIt = st.inIt + s := by
        unfold backwardBody
        rcases innerProduct_memory k.values (k.origin - st.i) k.values.length input s a with ⟨x, hx⟩ | hx
        · simp only
          rw [hx, Container.ok_bind]
          simpa using put_cases ⟨a, n, ⟨0, n - 1, 1⟩, s⟩ ⟨b, n, ⟨0, n - 1, 1⟩, t⟩ st x
        · simp only
          rw [hx]
          exact .inl rfl
      rcases hbody with h | ⟨st', h, h3, h4⟩
      · refine ⟨.error .ub, fun r => ⟨fun hr => While.unique hr (.fail hc h), ?_⟩, .inl rfl⟩
        rintro rfl
        exact .fail hc h
      · obtain ⟨r0, g1, g2⟩ := ih st' (by omega) (by rw [h4, h2, h3]; ring)
        refine ⟨r0, fun r => ⟨fun hr => While.unique hr (.next hc h ((g1 r0).2 rfl)), ?_⟩, g2⟩
        rintro rfl
        exact .next hc h ((g1 _).2 rfl)
  -- Second loop
  have hcentral : ∀ st : State α, st.i = k.origin → st.inIt = a → ∀ r,
      While (CentralCond k ⟨a, n, ⟨0, n - 1, 1⟩, s⟩)
        (centralBody k (readAt input) ⟨a, n, ⟨0, n - 1, 1⟩, s⟩ ⟨b, n, ⟨0, n - 1, 1⟩, t⟩) st r ↔ r = .error .ub := by
    intro st hi hit
    refine While.undefined (fun st => k.origin ≤ st.i ∧ st.i - k.origin ≤ input.length ∧ st.i - k.origin ≤ st.inIt)
      (fun st => (input.length + k.origin + 1 - st.i).toNat) ?_ ?_ ⟨by omega, by omega, by omega⟩
    · rintro st ⟨h1, h2, -⟩
      unfold CentralCond forward
      simp only
      rw [u64_id (x := st.i) (by omega) (by omega), u64_id (x := k.origin) (by omega) (by omega),
        u64_id (x := k.values.length - k.origin) (by omega) (by omega),
        u64_id (x := k.values.length - k.origin - 1) (by omega) (by omega), u64_id (x := 1) (by omega) (by omega)]
      simp only [u64]
      omega
    · rintro st ⟨h1, h2, h3⟩
      unfold centralBody
      simp only
      by_cases hlt : (input.length : Int) ≤ st.inIt
      · rw [innerProduct_after hv hlt]
        exact .inl rfl
      · rcases innerProduct_memory k.values 0 k.values.length input s st.inIt with ⟨x, hx⟩ | hx
        · rw [hx]
          rcases put_cases ⟨a, n, ⟨0, n - 1, 1⟩, s⟩ ⟨b, n, ⟨0, n - 1, 1⟩, t⟩ st x with h | ⟨st', h, h4, h5⟩
          · exact .inl h
          · simp only [mul_one] at h4 h5
            exact .inr ⟨st', h, ⟨by omega, by omega, by omega⟩, by omega⟩
        · rw [hx]
          exact .inl rfl
  -- Both
  intro r
  unfold Correlates
  obtain ⟨r0, g1, g2⟩ := hback k.origin.toNat (start k ⟨a, n, ⟨0, n - 1, 1⟩, s⟩ ⟨b, n, ⟨0, n - 1, 1⟩, t⟩ data)
    (by simp only [start]; omega) (by
      simp only [start, DataSamples.advance, DataSamples.iter, DataSamples.mk']
      ring)
  constructor
  · rintro ⟨r1, h1, h2⟩
    obtain rfl := (g1 r1).1 h1
    rcases g2 with rfl | ⟨st', rfl, h3, h4⟩
    · exact h2
    · obtain ⟨r2, h5, h6⟩ := h2
      obtain rfl := (hcentral st' h3 h4 r2).1 h5
      exact h6
  · rintro rfl
    refine ⟨r0, (g1 r0).2 rfl, ?_⟩
    rcases g2 with rfl | ⟨st', rfl, h3, h4⟩
    · rfl
    · exact ⟨_, (hcentral st' h3 h4 _).2 rfl, rfl⟩

/-- The first row of a raster of 4 rows of two pixels, by a kernel with two values after the origin. -/
example : Undefined ⟨[1, 2, 3], 0⟩ (readAt [1, 2, 3, 4, 5, 6, 7, 8]) (full 0 2 1) (full 0 2 1) (List.replicate 8 (0 : Int)) :=
  C47_short (by decide) (by norm_num) (by decide) (by decide) (by decide) (by decide) (by norm_num)

end LineKernel

namespace SeparableKernel

open Spec BoxIterator

variable {α : Type} [Semiring α]

/-- **C49**: a pass along an axis of a raster which is not longer than the part of the kernel after its origin. -/
theorem C49_pass_short {kernels : List (Nat × LineKernel α)} {k : LineKernel α} {axis : Nat} {input : Raster α}
    (hs : Pos input.shape) (hsize : input.shape.prod < 2 ^ 62) (hax : axis < input.shape.length)
    (hmap : mapAt kernels axis = .ok k) (ho : 0 ≤ k.origin ∧ k.origin < k.values.length) (hk : k.values.length < 2 ^ 62)
    (hshort : input.shape.getD axis 0 ≤ k.values.length - 1 - k.origin)
    (hin : (input.data.length : Int) = input.shape.prod) (r : Res (Raster α)) :
    Along kernels axis input r ↔ r = .error .ub := by
  have hne : input.shape ≠ [] := by
    intro h
    rw [h] at hax
    simp at hax
  have hvis := visits_enum (b := ⟨List.replicate input.shape.length 0, (input.shape.map (· - 1)).set axis 0⟩)
    (by intro h; exact hne (by simpa using h)) (project_le hs)
  have hmem : List.replicate input.shape.length (0 : Int) ∈
      enum (List.replicate input.shape.length 0) ((input.shape.map (· - 1)).set axis 0) := by
    rw [mem_enum (by simp)]
    refine ⟨?_, project_le hs⟩
    exact List.forall₂_same.2 fun _ _ => le_rfl
  obtain ⟨p, ps, hps⟩ : ∃ p ps, enum (List.replicate input.shape.length 0) ((input.shape.map (· - 1)).set axis 0) = p :: ps :=
    List.exists_cons_of_ne_nil (List.ne_nil_of_mem hmem)
  have hp : InShape input.shape p := ((mem_project hs hax).1 (by rw [hps]; simp)).1
  have hlen : 0 < input.shape.getD axis 0 := by
    refine hs _ ?_
    rw [List.getD_eq_getElem?_getD, List.getElem?_eq_getElem hax]
    exact List.getElem_mem _
  have hstride : 1 ≤ shapeStride input.shape axis := by
    have := take_prod_pos hs axis
    rw [shapeStride_eq]
    omega
  have hund : ∀ out, LineKernel.Undefined k (readAt input.data) (line input.shape axis p) (line input.shape axis p) out := by
    intro out
    exact LineKernel.C47_short (n := (input.shape.getD axis 0).toNat) ho hk (by omega) (by omega) (index_bounds hp).1 hstride
      (by omega)
  have hL : ∀ out r, Lines kernels input.shape axis input.data (p :: ps) out r ↔ r = .error .ub := by
    intro out r
    constructor
    · intro h
      cases h with
      | missing h => rw [hmap] at h; cases h
      | fail h h' =>
        rw [hmap] at h
        cases h
        exact (hund out _).1 h'
      | next h h' =>
        rw [hmap] at h
        cases h
        have := (hund out _).1 h'
        cases this
    · rintro rfl
      exact .fail hmap ((hund out _).2 rfl)
  unfold Along
  rw [ofShape_ok hne hs (by omega)]
  simp only [Raster.domain]
  rw [project_domain hax]
  constructor
  · rintro ⟨qs, hqs, r', hr', rfl⟩
    obtain rfl := LoopTrace.unique hqs hvis
    simp only at hr'
    rw [hps] at hr'
    rw [(hL _ r').1 hr']
    rfl
  · rintro rfl
    refine ⟨_, hvis, .error .ub, ?_, rfl⟩
    simp only
    rw [hps]
    exact (hL _ _).2 rfl

/-- **C49**: the correlation of a raster which is not longer, along the first axis of the kernel, than the part of the kernel after
its origin. -/
theorem C49_short {k : SeparableKernel α} {κ : LineKernel α} {axis : Nat} {axes : List Nat} {input : Raster α}
    (haxes : k.axes = axis :: axes) (hs : Pos input.shape) (hsize : input.shape.prod < 2 ^ 62)
    (hax : axis < input.shape.length) (hmap : mapAt k.kernels axis = .ok κ)
    (ho : 0 ≤ κ.origin ∧ κ.origin < κ.values.length) (hk : κ.values.length < 2 ^ 62)
    (hshort : input.shape.getD axis 0 ≤ κ.values.length - 1 - κ.origin)
    (hin : (input.data.length : Int) = input.shape.prod) (r : Res (Raster α)) :
    k.Correlates input r ↔ r = .error .ub := by
  have h := C49_pass_short hs hsize hax hmap ho hk hshort hin
  unfold SeparableKernel.Correlates
  rw [haxes]
  constructor
  · intro hr
    cases hr with
    | fail h1 => exact (h _).1 h1
    | next h1 => have := (h _).1 h1; cases this
  · rintro rfl
    exact .fail ((h _).2 rfl)

/-- Four rows of two pixels. -/
example (r : Res (Raster Int)) : (along ⟨[1, 2, 3], 0⟩ [0]).Correlates ⟨[2, 4], [1, 2, 3, 4, 5, 6, 7, 8]⟩ r ↔ r = .error .ub :=
  C49_short (κ := ⟨[1, 2, 3], 0⟩) rfl (by simp [Pos]) (by norm_num) (by decide) rfl (by decide) (by norm_num) (by decide)
    (by decide) r

end SeparableKernel

end Litl
