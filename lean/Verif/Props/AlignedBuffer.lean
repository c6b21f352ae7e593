import Verif.Lemmas.AlignedBuffer

/-!
# Aligned buffers (C35 - C38)
-/

namespace Litl

open Aligned

/-! ## C35: alignment -/

/-- The full property: an allocating buffer is aligned and its elements fit in the block (of the requested number of
bytes, inside of the address space), pointers are accepted if and only if they are aligned, and `alignment()` is the
largest power of two which divides the address. -/
def C35_Statement : Prop :=
  (∀ (malloc : BitVec 64 → BitVec 64) (elem size align : BitVec 64) (k : Nat),
    (alignAs 0 align).toNat = 2 ^ k →
    let bytes := allocBytes elem size (alignAs 0 align)
    (malloc bytes).toNat + bytes.toNat < 2 ^ 64 →
    ∃ d, construct malloc elem size 0 align = .ok (d, alignAs 0 align) ∧ 2 ^ k ∣ d.toNat ∧
      (malloc bytes).toNat ≤ d.toNat ∧
      d.toNat + elem.toNat * size.toNat ≤ (malloc bytes).toNat + bytes.toNat) ∧
  (∀ (malloc : BitVec 64 → BitVec 64) (elem size data align : BitVec 64), data ≠ 0 →
    construct malloc elem size data align =
      if (alignAs data align).toNat ∣ data.toNat then .ok (data, alignAs data align) else .error .alignment) ∧
  (∀ ptr : BitVec 64, ptr ≠ 0 → ∀ r, Alignment ptr r →
    ∃ a v, r = .ok a ∧ a.toNat = 2 ^ v ∧ 2 ^ v ∣ ptr.toNat ∧ ¬ 2 ^ (v + 1) ∣ ptr.toNat)

/-- The number of bytes wraps around silently: an element size of 8 and 2^61 elements allocate 63 bytes only. -/
theorem C35_violated : ¬ C35_Statement := by
  rintro ⟨h, -, -⟩
  obtain ⟨d, -, -, -, h⟩ := h (fun _ => 64) 8 (BitVec.ofNat 64 (2 ^ 61)) 64 6 (by decide) (by decide)
  have e1 : (8 : BitVec 64).toNat * (BitVec.ofNat 64 (2 ^ 61)).toNat = 2 ^ 64 := by decide
  have e2 : (64 : BitVec 64).toNat +
    (allocBytes 8 (BitVec.ofNat 64 (2 ^ 61)) (alignAs 0 64)).toNat = 127 := by decide
  rw [e1, e2] at h
  omega

/-- The requirement: 64 bytes by default or if explicitly asked for with -1, and the given one otherwise. -/
theorem C35_requirement (align : BitVec 64) :
    (alignAs 0 align = if align = 0 ∨ align = -1 then 64 else align) ∧
    (∀ data : BitVec 64, data ≠ 0 →
      alignAs data align = if align = 0 then 1 else if align = -1 then 64 else align) := by
  unfold alignAs
  constructor
  · by_cases h1 : align = -1
    · rw [if_pos h1, if_pos (.inr h1)]
    · by_cases h2 : align = 0
      · rw [if_neg h1, if_pos h2, if_neg (by decide), if_pos (.inl h2)]
      · rw [if_neg h1, if_neg h2, if_neg (not_or.2 ⟨h2, h1⟩)]
  · intro data hd
    by_cases h1 : align = -1
    · subst h1
      rw [if_pos rfl, if_neg (by decide), if_pos rfl]
    · by_cases h2 : align = 0
      · rw [if_neg h1, if_pos h2, if_pos hd, if_pos h2]
      · rw [if_neg h1, if_neg h2, if_neg h2, if_neg h1]

/-- A buffer which allocates its memory is aligned and fits in the block.
Missing: sizes for which the number of bytes is not representable (`C35_violated`). -/
theorem C35_allocated_partial (malloc : BitVec 64 → BitVec 64) (elem size align : BitVec 64) (k : Nat)
    (hk : (alignAs 0 align).toNat = 2 ^ k) (hsize : elem.toNat * size.toNat + 2 ^ k ≤ 2 ^ 64)
    (hblock : (malloc (allocBytes elem size (alignAs 0 align))).toNat +
      (allocBytes elem size (alignAs 0 align)).toNat < 2 ^ 64) :
    ∃ d, construct malloc elem size 0 align = .ok (d, alignAs 0 align) ∧ 2 ^ k ∣ d.toNat ∧
      (malloc (allocBytes elem size (alignAs 0 align))).toNat ≤ d.toNat ∧
      d.toNat + elem.toNat * size.toNat ≤
        (malloc (allocBytes elem size (alignAs 0 align))).toNat +
          (allocBytes elem size (alignAs 0 align)).toNat ∧
      (allocBytes elem size (alignAs 0 align)).toNat = elem.toNat * size.toNat + (2 ^ k - 1) := by
  have h1 : 1 ≤ 2 ^ k := Nat.one_le_two_pow
  have hlt : 2 ^ k < 2 ^ 64 := hk ▸ (alignAs 0 align).isLt
  have hb : (allocBytes elem size (alignAs 0 align)).toNat = elem.toNat * size.toNat + (2 ^ k - 1) := by
    unfold allocBytes
    rw [BitVec.toNat_sub, BitVec.toNat_add, BitVec.toNat_mul, hk]
    generalize elem.toNat * size.toNat = m at *
    simp only [BitVec.ofNat_eq_ofNat, BitVec.toNat_ofNat]
    omega
  rw [hb] at hblock ⊢
  generalize hc : malloc (allocBytes elem size (alignAs 0 align)) = c at *
  have ha := alignUp_toNat c (alignAs 0 align) k hk (by omega)
  refine ⟨alignUp c (alignAs 0 align), ?_, ?_, ?_, ?_, rfl⟩
  · simp only [construct, ne_eq, not_true_eq_false, if_false, hc]
  · rw [ha]; exact Dvd.intro_left _ rfl
  · rw [ha]
    have h2 := Nat.div_add_mod (c.toNat + (2 ^ k - 1)) (2 ^ k)
    have h3 := Nat.mod_lt (c.toNat + (2 ^ k - 1)) (show 2 ^ k > 0 by omega)
    rw [Nat.mul_comm] at h2
    omega
  · rw [ha]
    have h2 := Nat.div_mul_le_self (c.toNat + (2 ^ k - 1)) (2 ^ k)
    omega

-- 100 doubles at a default alignment: 863 bytes are asked for; the block starts at 1001, the data at 1024.
example : (alignAs 0 0).toNat = 2 ^ 6 ∧ (8 : BitVec 64).toNat * (100 : BitVec 64).toNat + 2 ^ 6 ≤ 2 ^ 64 ∧
    allocBytes 8 100 (alignAs 0 0) = 863 ∧
    construct (fun _ => 1001) 8 100 0 0 = .ok (1024, 64) := ⟨by decide, by decide, by decide, by rfl⟩

/-- Existing data is accepted if and only if it is aligned, whichever the requirement (power of two or not). -/
theorem C35_pointed (malloc : BitVec 64 → BitVec 64) (elem size data align : BitVec 64) (hd : data ≠ 0) :
    construct malloc elem size data align =
      if (alignAs data align).toNat ∣ data.toNat then .ok (data, alignAs data align) else .error .alignment := by
  have h0 : alignAs data align ≠ 0 := by
    unfold alignAs
    split
    · decide
    · split
      · decide
      · assumption
  unfold construct
  simp only [if_pos hd, isAligned, if_neg hd, if_neg h0]
  by_cases h1 : alignAs data align = 1
  · rw [h1]
    simp [bind, Except.bind]
  · rw [if_neg h1]
    have e : (data % alignAs data align == 0) = decide ((alignAs data align).toNat ∣ data.toNat) := by
      rw [Bool.eq_iff_iff, beq_iff_eq, decide_eq_true_iff, Nat.dvd_iff_mod_eq_zero]
      constructor
      · intro h
        rw [← BitVec.toNat_umod, h]; rfl
      · intro h
        apply BitVec.eq_of_toNat_eq
        rw [BitVec.toNat_umod, h]; rfl
    simp only [bind, Except.bind, e, decide_eq_true_eq]

example : construct (fun _ => 0) 8 3 1008 16 = .ok (1008, 16) ∧
    construct (fun _ => 0) 8 3 1008 32 = .error .alignment ∧
    construct (fun _ => 0) 8 3 1001 0 = .ok (1001, 1) := ⟨by rfl, by rfl, by rfl⟩

/-- `isAligned()` throws for null pointers, and tells whether the address is a multiple of the requirement, which shall not be 0. -/
theorem C35_is_aligned (ptr as : BitVec 64) :
    isAligned ptr as = if ptr = 0 then .error .exception else if as = 0 then .error .ub
      else .ok (decide (as.toNat ∣ ptr.toNat)) := by
  unfold isAligned
  by_cases hp : ptr = 0
  · simp [hp]
  simp only [if_neg hp]
  by_cases h1 : as = 1
  · subst h1
    simp
  simp only [if_neg h1]
  by_cases h0 : as = 0
  · simp [h0]
  simp only [if_neg h0, Except.ok.injEq]
  rw [Bool.eq_iff_iff, beq_iff_eq, decide_eq_true_iff, Nat.dvd_iff_mod_eq_zero]
  constructor
  · intro h
    rw [← BitVec.toNat_umod, h]; rfl
  · intro h
    apply BitVec.eq_of_toNat_eq
    rw [BitVec.toNat_umod, h]; rfl

example : isAligned 1008 16 = .ok true ∧ isAligned 1008 32 = .ok false ∧ isAligned 1008 0 = .error .ub :=
  ⟨by rfl, by rfl, by rfl⟩

/-- The alignment of a null pointer is not defined: an exception is thrown, and nothing else happens. -/
theorem C35_alignment_null (r : Res (BitVec 64)) : Alignment 0 r ↔ r = .error .exception := by
  simp [Alignment]

/-- `alignment()` terminates with the largest power of two which divides the address.
Missing: the address 2^63, for which the candidate overflows to 0 and a modulo by 0 is evaluated
(`C35_alignment_overflow`). -/
theorem C35_alignment_partial (ptr : BitVec 64) (h0 : ptr ≠ 0) (h63 : ptr.toNat ≠ 2 ^ 63) :
    ∃ v < 63, 2 ^ v ∣ ptr.toNat ∧ ¬ 2 ^ (v + 1) ∣ ptr.toNat ∧
      ∀ r, Alignment ptr r ↔ r = .ok (BitVec.ofNat 64 (2 ^ v)) := by
  have hpos : ptr.toNat ≠ 0 := fun h => h0 (BitVec.eq_of_toNat_eq h)
  have hex : ∃ n, ¬ 2 ^ (n + 1) ∣ ptr.toNat := by
    refine ⟨63, fun h => ?_⟩
    have := Nat.le_of_dvd (by omega) h
    have := ptr.isLt
    omega
  classical
  let v := Nat.find hex
  have hv : ¬ 2 ^ (v + 1) ∣ ptr.toNat := Nat.find_spec hex
  have hv' : 2 ^ v ∣ ptr.toNat := by
    rcases Nat.eq_zero_or_pos v with h | h
    · rw [h]; simp
    · have := Nat.find_min hex (m := v - 1) (by show v - 1 < v; omega)
      rw [not_not, Nat.sub_add_cancel h] at this
      exact this
  have hlt := ptr.isLt
  have hv63 : v < 63 := by
    by_contra hge
    have hd : 2 ^ 63 ∣ ptr.toNat := dvd_trans (pow_dvd_pow 2 (by omega)) hv'
    obtain ⟨m, hm⟩ := hd
    have : m = 1 := by
      rcases m with _ | _ | m
      · omega
      · rfl
      · omega
    subst this
    exact h63 (by omega)
  refine ⟨v, hv63, hv', hv, fun r => ?_⟩
  have e : BitVec.twoPow 64 v = BitVec.ofNat 64 (2 ^ v) := by
    apply BitVec.eq_of_toNat_eq
    rw [BitVec.toNat_twoPow, BitVec.toNat_ofNat]
  have := alignmentLoop_iff ptr v (by omega) hv' hv r v 1 (by omega) (by omega)
  rw [if_neg (show ¬ v = 63 by omega), e] at this
  unfold Alignment
  rw [if_neg h0]
  exact this

example : (48 : BitVec 64) ≠ 0 ∧ (48 : BitVec 64).toNat ≠ 2 ^ 63 ∧ Alignment 48 (.ok 16) := by
  refine ⟨by decide, by decide, ?_⟩
  unfold Alignment
  rw [if_neg (by decide)]
  exact .next (by decide) (by decide) (.next (by decide) (by decide) (.next (by decide) (by decide)
    (.next (by decide) (by decide) (.done (by decide) (by decide)))))

/-- At address 2^63, `alignment()` ends up in a modulo by 0. -/
theorem C35_alignment_overflow (r : Res (BitVec 64)) :
    Alignment (BitVec.ofNat 64 (2 ^ 63)) r ↔ r = .error .ub := by
  have h : (BitVec.ofNat 64 (2 ^ 63)).toNat = 2 ^ 63 := by decide
  have := alignmentLoop_iff (BitVec.ofNat 64 (2 ^ 63)) 63 (by omega) (by rw [h])
    (by rw [h]; intro hd; exact absurd (Nat.le_of_dvd (by decide) hd) (by decide)) r 63 1 (by omega) (by omega)
  rw [if_pos rfl] at this
  unfold Alignment
  rw [if_neg (by decide)]
  exact this

/-! ## C36: no double free -/

variable {α : Type}

/-- Whatever the history: no free of a block which is not allocated (never or not any more), each block has at most
one owner, and owned blocks are allocated. -/
theorem C36_no_double_free (mem : Region → Nat → α) (ops : List (Op α)) (s : State α)
    (h : run (init mem) ops = .ok s) :
    s.badFrees = [] ∧ (∀ i j b, Owns s i b → Owns s j b → i = j) ∧ (∀ i b, Owns s i b → b ∈ s.live) := by
  have := (Inv.init mem).run ops h
  exact ⟨this.good, this.unique, this.owned_live⟩

/-- Blocks are freed only by the destruction or reset of their owner, or explicitly by the user after `release()`. -/
theorem C36_freed_by_owner (mem : Region → Nat → α) (ops : List (Op α)) (s t : State α) (op : Op α)
    (h : run (init mem) ops = .ok s) (hop : step s op = .ok t) (b : Nat) (hb : b ∈ s.live) (hb' : b ∉ t.live) :
    (∃ i, (op = .destroy i ∨ op = .reset i) ∧ Owns s i b) ∨ (op = .userFree b ∧ b ∈ s.released) := by
  have hs := (Inv.init mem).run ops h
  have hmal : ∀ ok, b ∈ (malloc s ok).1.live := by
    intro ok
    cases ok
    · exact hb
    · exact List.mem_cons_of_mem _ hb
  cases op with
  | construct i size data ok =>
    simp only [Aligned.step] at hop
    split at hop
    · cases hop
    · cases hop; exact absurd hb hb'
    · cases hop; exact absurd (hmal ok) hb'
  | copyConstruct i other ok =>
    simp only [Aligned.step] at hop
    split at hop
    · next o _ _ =>
      split at hop
      · cases hop; exact absurd hb hb'
      · cases hop; exact absurd (hmal ok) hb'
      · cases hc : copyTo (malloc s ok).1 o.data (malloc s ok).2 o.size with
        | error e => simp [hc, bind, Except.bind] at hop
        | ok u =>
          simp only [hc, bind, Except.bind] at hop
          cases hop
          exact absurd ((copyTo_same hc).2.1 ▸ hmal ok) hb'
    · cases hop
  | moveConstruct i other =>
    simp only [Aligned.step] at hop
    split at hop
    · cases hop; exact absurd hb hb'
    · cases hop
  | copyAssign i other ok =>
    simp only [Aligned.step] at hop
    split at hop
    · next _ o _ ho =>
      split at hop
      · cases hop; exact absurd hb hb'
      · split at hop
        · cases hc : copyTo (malloc s ok).1 o.data (malloc s ok).2 o.size with
          | error e => simp [hc, bind, Except.bind] at hop
          | ok u =>
            simp only [hc, bind, Except.bind] at hop
            cases hop
            exact absurd ((copyTo_same hc).2.1 ▸ hmal ok) hb'
        · cases hop; exact absurd hb hb'
    · cases hop
  | moveAssign i other =>
    simp only [Aligned.step] at hop
    split at hop
    · split at hop
      · cases hop; exact absurd hb hb'
      · cases hop; exact absurd hb hb'
    · cases hop
  | destroy i =>
    simp only [Aligned.step] at hop
    split at hop
    · next o ho =>
      cases hop
      have := (reset_live hs i o ho b).not.1 hb'
      rw [not_and, not_not] at this
      exact .inl ⟨i, .inl rfl, o, ho, this hb⟩
    · cases hop
  | release i =>
    simp only [Aligned.step] at hop
    split at hop
    · cases hop; exact absurd hb hb'
    · cases hop
  | reset i =>
    simp only [Aligned.step] at hop
    split at hop
    · next o ho =>
      cases hop
      have := (reset_live hs i o ho b).not.1 hb'
      rw [not_and, not_not] at this
      exact .inl ⟨i, .inr rfl, o, ho, this hb⟩
    · cases hop
  | userFree c =>
    simp only [Aligned.step] at hop
    split at hop
    · next hc =>
      cases hop
      simp only [free, if_pos (hs.released_live c hc)] at hb'
      have : b = c := by
        by_contra hne
        exact hb' ((List.mem_erase_of_ne hne).2 hb)
      subst this
      exact .inr ⟨rfl, hc⟩
    · cases hop
  | write i k v =>
    simp only [Aligned.step] at hop
    split at hop
    · split at hop
      · cases hop; exact absurd hb hb'
      · cases hop
    · cases hop

/-- A history with construction, copy, move, release, reset and destruction. -/
def C36_history : List (Op Int) :=
  [.construct 0 2 none true, .write 0 1 7, .copyConstruct 1 0 true, .construct 2 3 (some (.foreign 0, 0)) true,
   .moveAssign 2 1, .release 0, .userFree 0, .reset 2, .destroy 1, .destroy 2, .destroy 0]

example : ∃ s : State Int, run (init fun _ _ => 0) C36_history = .ok s ∧ s.badFrees = [] ∧ s.live = [] :=
  ⟨_, rfl, rfl, rfl⟩

/-! ## C37: leaks -/

/-- The full property. -/
def C37_Statement : Prop :=
  ∀ (α : Type) (mem : Region → Nat → α) (ops : List (Op α)) (s : State α), run (init mem) ops = .ok s →
    (∀ i, s.objs i = none) → ∀ b ∈ s.live, b ∈ s.released

/-- Construct a buffer, move-construct another one from it, and destroy both: the block is never freed. -/
theorem C37_violated : ¬ C37_Statement := by
  intro h
  have := h Unit (fun _ _ => ()) [.construct 0 5 none true, .moveConstruct 1 0, .destroy 1, .destroy 0] _ rfl
    (by intro i; show (if i = 0 then none else if i = 0 then _ else if i = 1 then none else _) = none
        by_cases h0 : i = 0
        · simp [h0]
        · by_cases h1 : i = 1
          · simp [h1]
          · simp [h0, h1, setObj, Aligned.reset, init]) 0 (by decide)
  exact absurd this (by decide)

/-- Copy assignment and move assignment to an owning buffer leak, too. -/
theorem C37_assignments_violated :
    (∃ s : State Unit, run (init fun _ _ => ())
      [.construct 0 5 none true, .construct 1 5 none true, .copyAssign 0 1 true, .destroy 0, .destroy 1] = .ok s ∧
      s.objs 0 = none ∧ s.objs 1 = none ∧ s.live = [0] ∧ s.released = []) ∧
    (∃ s : State Unit, run (init fun _ _ => ())
      [.construct 0 5 none true, .construct 1 5 none true, .moveAssign 0 1, .destroy 0, .destroy 1] = .ok s ∧
      s.objs 0 = none ∧ s.objs 1 = none ∧ s.live = [0] ∧ s.released = []) :=
  ⟨⟨_, rfl, rfl, rfl, rfl, rfl⟩, ⟨_, rfl, rfl, rfl, rfl, rfl⟩⟩

/-- Exactly which operations lose blocks: the move constructor loses the block of the source; the assignments lose the
block of the target. -/
theorem C37_losses (mem : Region → Nat → α) (ops : List (Op α)) (s t : State α) (op : Op α)
    (h : run (init mem) ops = .ok s) (hop : step s op = .ok t) (b : Nat) :
    (b ∈ t.live ∧ b ∉ t.released ∧ ∀ i, ¬ Owns t i b) ↔
      (b ∈ s.live ∧ b ∉ s.released ∧ ∀ i, ¬ Owns s i b) ∨
      ((∃ i other, op = .moveConstruct i other ∧ Owns s other b) ∨
       (∃ i other ok, op = .copyAssign i other ok ∧ i ≠ other ∧ Owns s i b) ∨
       (∃ i other, op = .moveAssign i other ∧ i ≠ other ∧ Owns s i b)) :=
  lost_step_iff ((Inv.init mem).run ops h) op hop b

/-- A block which is lost is lost forever: it stays allocated in all continuations of the program. -/
theorem C37_lost_forever (mem : Region → Nat → α) (ops ops' : List (Op α)) (s t : State α)
    (h : run (init mem) ops = .ok s) (h' : run s ops' = .ok t) (b : Nat)
    (hb : b ∈ s.live ∧ b ∉ s.released ∧ ∀ i, ¬ Owns s i b) :
    b ∈ t.live ∧ b ∉ t.released ∧ ∀ i, ¬ Owns t i b := by
  have := run_inv (P := fun u => Inv u ∧ Lost u b)
    (fun u v op hu huv => ⟨hu.1.step op huv, (lost_step_iff hu.1 op huv b).2 (.inl hu.2)⟩)
    ops' s t ⟨(Inv.init mem).run ops h, hb⟩ h'
  exact this.2

/-- Histories in which owning buffers are not moved by construction, nor assigned to. -/
def Tidy : State α → List (Op α) → Prop
  | _, [] => True
  | s, op :: ops =>
    (match op with
      | .moveConstruct _ other => ∀ b, ¬ Owns s other b
      | .copyAssign i other _ => i = other ∨ ∀ b, ¬ Owns s i b
      | .moveAssign i other => i = other ∨ ∀ b, ¬ Owns s i b
      | _ => True) ∧ ∀ t, step s op = .ok t → Tidy t ops

/-- Histories which do not move-construct from owning buffers and do not assign to owning buffers do not leak.
Missing: these operations (`C37_losses`). -/
theorem C37_no_leak_partial (mem : Region → Nat → α) (ops : List (Op α)) (s : State α) (ht : Tidy (init mem) ops)
    (h : run (init mem) ops = .ok s) :
    (∀ b ∈ s.live, b ∈ s.released ∨ ∃ i, Owns s i b) ∧
    ((∀ i, s.objs i = none) → ∀ b ∈ s.live, b ∈ s.released) := by
  have key : ∀ (ops : List (Op α)) (u : State α), Inv u → (∀ b, ¬ Lost u b) → Tidy u ops →
      run u ops = .ok s → ∀ b, ¬ Lost s b := by
    intro ops
    induction ops with
    | nil => intro u _ hl _ h; cases h; exact hl
    | cons op ops ih =>
      intro u hu hl ht h
      cases hc : step u op with
      | error e => simp [run, hc, bind, Except.bind] at h
      | ok w =>
        simp only [run, hc, bind, Except.bind] at h
        refine ih w (hu.step op hc) (fun b => ?_) (ht.2 w hc) h
        rw [lost_step_iff hu op hc b]
        rintro (h | h | h | h)
        · exact hl b h
        · obtain ⟨i, other, rfl, h⟩ := h
          exact ht.1 b h
        · obtain ⟨i, other, ok, rfl, hne, h⟩ := h
          rcases ht.1 with h' | h'
          · exact hne h'
          · exact h' b h
        · obtain ⟨i, other, rfl, hne, h⟩ := h
          rcases ht.1 with h' | h'
          · exact hne h'
          · exact h' b h
  have hlost := key ops (init mem) (Inv.init mem) (by simp [Lost, init]) ht h
  have h1 : ∀ b ∈ s.live, b ∈ s.released ∨ ∃ i, Owns s i b := by
    intro b hb
    by_contra hcon
    rw [not_or] at hcon
    exact hlost b ⟨hb, hcon.1, fun i hi => hcon.2 ⟨i, hi⟩⟩
  refine ⟨h1, fun hobj b hb => ?_⟩
  rcases h1 b hb with h | ⟨i, o, ho, _⟩
  · exact h
  · rw [hobj i] at ho; cases ho

-- A tidy history: a copy, and a move assignment to a view.
example : Tidy (init (α := Int) fun _ _ => 0)
    [.construct 0 2 none true, .copyConstruct 1 0 true, .construct 2 3 (some (.foreign 0, 0)) true,
     .moveAssign 2 1, .destroy 1, .destroy 2] := by
  refine ⟨trivial, fun s h => ?_⟩
  cases h
  refine ⟨trivial, fun s h => ?_⟩
  cases h
  refine ⟨trivial, fun s h => ?_⟩
  cases h
  refine ⟨.inr ?_, fun s h => ?_⟩
  · rintro b ⟨o, ho, hb⟩
    cases ho
    cases hb
  · exact ⟨trivial, fun s h => ⟨trivial, fun s h => trivial⟩⟩

/-! ## C38: copies -/

namespace Spec

/-- The value of element `k` of buffer `i` after a list of writes, knowing its value before, if each write only changes
the element it designates. -/
def afterWrites (i k : Nat) (before : Option α) (writes : List (Nat × Nat × α)) : Option α :=
  writes.foldl (fun v w => if w.1 = i ∧ w.2.1 = k then some w.2.2 else v) before

end Spec

/-- Writes as operations. -/
def writeOps (writes : List (Nat × Nat × α)) : List (Op α) := writes.map fun w => .write w.1 w.2.1 w.2.2

theorem C38_aux {s t : State α} {i j : Nat} (hij : i ≠ j) (ha : Apart s i j) (writes : List (Nat × Nat × α))
    (hw : ∀ w ∈ writes, w.1 = i ∨ w.1 = j) (h : run s (writeOps writes) = .ok t) (k : Nat) :
    read t i k = Spec.afterWrites i k (read s i k) writes ∧
    read t j k = Spec.afterWrites j k (read s j k) writes := by
  induction writes generalizing s with
  | nil => cases h; exact ⟨rfl, rfl⟩
  | cons w ws ih =>
    obtain ⟨a, l, v⟩ := w
    simp only [writeOps, List.map_cons, run] at h
    cases hc : step s (.write a l v) with
    | error e => simp [hc, bind, Except.bind] at h
    | ok u =>
      simp only [hc, bind, Except.bind] at h
      have hobj := step_write_objs hc
      have ha' : Apart u i j := by
        unfold Apart
        rw [hobj]
        exact ha
      have hrec := ih ha' (fun w hw' => hw w (List.mem_cons_of_mem _ hw')) h
      rw [hrec.1, hrec.2]
      simp only [Spec.afterWrites, List.foldl_cons]
      have hself := read_write_self hc k
      rcases hw (a, l, v) List.mem_cons_self with h | h
      · simp only at h
        subst h
        have hother := read_write_apart hc ha k
        simp only [hself, hother, true_and, if_neg (fun h : a = j ∧ l = k => hij h.1), and_self]
      · simp only at h
        subst h
        have hother := read_write_apart hc ha.symm k
        simp only [hself, hother, true_and, if_neg (fun h : a = i ∧ l = k => hij h.1.symm), and_self]

/-- After copying an owning buffer `i` to `j` by construction or assignment, both have the contents of `i`, and after
any interleaving of writes to both, each one only sees its own writes. -/
theorem C38_deep_copy (mem : Region → Nat → α) (ops : List (Op α)) (s t u : State α) (i j b : Nat) (ok : Bool)
    (h : run (init mem) ops = .ok s) (hi : Owns s i b) (hij : i ≠ j)
    (hc : step s (.copyConstruct j i ok) = .ok t ∨ step s (.copyAssign j i ok) = .ok t)
    (writes : List (Nat × Nat × α)) (hw : ∀ w ∈ writes, w.1 = i ∨ w.1 = j)
    (hu : run t (writeOps writes) = .ok u) (k : Nat) :
    read u i k = Spec.afterWrites i k (read s i k) writes ∧
    read u j k = Spec.afterWrites j k (read s i k) writes := by
  have hs := (Inv.init mem).run ops h
  obtain ⟨o, ho, hb⟩ := hi
  have key : ∀ w, copyTo (malloc s ok).1 o.data (malloc s ok).2 o.size = .ok w →
      t = setObj w j (some ⟨o.size, (malloc s ok).2, (malloc s ok).2.map fun b => (.heap b, 0)⟩) →
      read u i k = Spec.afterWrites i k (read s i k) writes ∧
      read u j k = Spec.afterWrites j k (read s i k) writes := by
    intro w hcw ht
    obtain ⟨_, ha, hr⟩ := deepCopy hs ok hij ho hb hcw
    rw [← ht] at ha hr
    have := C38_aux hij ha writes hw hu k
    rwa [(hr k).1, (hr k).2] at this
  rcases hc with hc | hc
  · simp only [Aligned.step, ho] at hc
    split at hc
    · next hj ho' =>
      cases ho'
      simp only [hb] at hc
      cases hcc : copyTo (malloc s ok).1 o.data (malloc s ok).2 o.size with
      | error e => simp [hcc, bind, Except.bind] at hc
      | ok w =>
        simp only [hcc, bind, Except.bind] at hc
        cases hc
        exact key w hcc rfl
    · cases hc
  · simp only [Aligned.step, ho] at hc
    split at hc
    · next hj ho' =>
      cases ho'
      simp only [if_neg (Ne.symm hij), hb] at hc
      cases hcc : copyTo (malloc s ok).1 o.data (malloc s ok).2 o.size with
      | error e => simp [hcc, bind, Except.bind] at hc
      | ok w =>
        simp only [hcc, bind, Except.bind] at hc
        cases hc
        exact key w hcc rfl
    · cases hc

-- The copy keeps 7 while the original is set to 8.
example : ∃ s : State Int, run (init fun _ _ => 0)
    [.construct 0 2 none true, .write 0 1 7, .copyConstruct 1 0 true, .write 0 1 8, .write 1 0 9] = .ok s ∧
    read s 0 1 = some 8 ∧ read s 1 1 = some 7 ∧ read s 0 0 = some 0 ∧ read s 1 0 = some 9 :=
  ⟨_, rfl, rfl, rfl, rfl, rfl⟩

/-- After copying a non-owning buffer which points to some data, both point to the same data and see the same values
after any list of writes. -/
theorem C38_shared_copy (s t u : State α) (i j : Nat) (ok : Bool) (o : Buffer) (p : Ptr)
    (ho : s.objs i = some o) (hn : o.container = none) (hp : o.data = some p) (hij : i ≠ j)
    (hc : step s (.copyConstruct j i ok) = .ok t ∨ step s (.copyAssign j i ok) = .ok t) :
    (∃ q, t.objs j = some q ∧ q.data = some p ∧ q.size = o.size ∧ q.container = none ∧ t.objs i = some o) ∧
    ∀ writes, run t (writeOps writes) = .ok u → ∀ k, read u i k = read u j k := by
  have ht : t = setObj s j (some ⟨o.size, none, some p⟩) := by
    rcases hc with hc | hc
    · simp only [Aligned.step, ho] at hc
      split at hc
      · next hj ho' =>
        cases ho'
        simp only [hn, hp] at hc
        cases hc; rfl
      · cases hc
    · simp only [Aligned.step, ho] at hc
      split at hc
      · next hj ho' =>
        cases ho'
        simp only [if_neg (Ne.symm hij), hn, hp] at hc
        cases hc; rfl
      · cases hc
  have htj : t.objs j = some ⟨o.size, none, some p⟩ := by rw [ht]; simp [setObj]
  have hti : t.objs i = some o := by rw [ht]; simp [setObj, hij, ho]
  refine ⟨⟨_, htj, rfl, rfl, rfl, hti⟩, fun writes hu k => ?_⟩
  have hobj : u.objs = t.objs := by
    clear ht htj hti hc
    induction writes generalizing t with
    | nil => cases hu; rfl
    | cons w ws ih =>
      simp only [writeOps, List.map_cons, run] at hu
      cases hc : step t (.write w.1 w.2.1 w.2.2) with
      | error e => simp [hc, bind, Except.bind] at hu
      | ok v =>
        simp only [hc, bind, Except.bind] at hu
        rw [ih v hu, step_write_objs hc]
  unfold Aligned.read
  rw [hobj, htj, hti]
  obtain ⟨n, c, d⟩ := o
  simp only at hp
  subst hp
  rfl

example : ∃ s : State Int, run (init fun _ _ => 0)
    [.construct 0 2 (some (.foreign 3, 1)) true, .copyConstruct 1 0 true, .write 0 1 8] = .ok s ∧
    read s 0 1 = some 8 ∧ read s 1 1 = some 8 := ⟨_, rfl, rfl, rfl⟩

/-- A moved-from buffer does not designate memory any more, and the values are found in the destination. -/
theorem C38_moved (s t : State α) (i j : Nat) (hij : i ≠ j)
    (hc : step s (.moveConstruct j i) = .ok t ∨ step s (.moveAssign j i) = .ok t) :
    t.objs i = some ⟨0, none, none⟩ ∧ ∀ k, read t i k = none ∧ read t j k = read s i k := by
  have key : ∀ o q, s.objs i = some o → q.data = o.data → q.size = o.size →
      t = Aligned.reset (setObj s j (some q)) i { o with container := none } →
      t.objs i = some ⟨0, none, none⟩ ∧ ∀ k, read t i k = none ∧ read t j k = read s i k := by
    intro o q ho h1 h2 ht
    have e1 : t.objs i = some ⟨0, none, none⟩ := by rw [ht]; simp [Aligned.reset, setObj]
    have e2 : t.objs j = some q := by rw [ht]; simp [Aligned.reset, setObj, Ne.symm hij]
    have e3 : t.mem = s.mem := by rw [ht]; rfl
    refine ⟨e1, fun k => ⟨?_, ?_⟩⟩
    · unfold Aligned.read
      rw [e1]
    · unfold Aligned.read
      rw [e2, ho, e3]
      obtain ⟨n, c, d⟩ := o
      obtain ⟨n', c', d'⟩ := q
      simp only at h1 h2
      subst h1 h2
      cases d' <;> rfl
  rcases hc with hc | hc
  · simp only [Aligned.step] at hc
    split at hc
    · next o hj ho =>
      cases hc
      exact key o ⟨o.size, none, o.data⟩ ho rfl rfl rfl
    · cases hc
  · simp only [Aligned.step] at hc
    split at hc
    · next _ o hj ho =>
      rw [if_neg (Ne.symm hij)] at hc
      cases hc
      exact key o o ho rfl rfl rfl
    · cases hc

example : ∃ s : State Int, run (init fun _ _ => 0)
    [.construct 0 2 none true, .write 0 1 7, .moveConstruct 1 0] = .ok s ∧
    s.objs 0 = some ⟨0, none, none⟩ ∧ read s 1 1 = some 7 := ⟨_, rfl, rfl, rfl⟩

/-- The copy of a buffer without data (e.g. which was reset or moved from) allocates: it owns a new block. -/
theorem C38_copy_of_null (s : State α) (i j : Nat) (o : Buffer) (ho : s.objs i = some o) (hj : s.objs j = none)
    (hn : o.container = none) (hd : o.data = none) :
    ∃ t, step s (.copyConstruct j i true) = .ok t ∧ Owns t j s.next ∧ s.next ∈ t.live := by
  refine ⟨setObj (malloc s true).1 j (some ⟨o.size, some s.next, some (.heap s.next, 0)⟩), ?_, ?_, ?_⟩
  · simp [Aligned.step, ho, hj, hn, hd, malloc]
  · exact ⟨⟨o.size, some s.next, some (.heap s.next, 0)⟩, by simp [setObj], rfl⟩
  · simp [setObj, malloc]

example : ∃ s t : State Int, run (init fun _ _ => 0) [.construct 0 2 none true, .reset 0] = .ok s ∧ s.live = [] ∧
    step s (.copyConstruct 1 0 true) = .ok t ∧ t.live = [1] := ⟨_, _, rfl, rfl, rfl, rfl⟩

/-- Copying the values of a buffer which owns its data, when the allocation fails, is undefined behaviour: the pointer is
not checked. -/
theorem C38_failed_copy (s : State α) (i j : Nat) (o : Buffer) (ho : s.objs i = some o) (hc : o.container ≠ none)
    (hs : o.size ≠ 0) :
    (s.objs j = none → step s (.copyConstruct j i false) = .error .ub) ∧
    (j ≠ i → s.objs j ≠ none → step s (.copyAssign j i false) = .error .ub) := by
  obtain ⟨size, container, data⟩ := o
  obtain ⟨c, rfl⟩ := Option.ne_none_iff_exists'.1 hc
  obtain ⟨n, rfl⟩ := Nat.exists_eq_succ_of_ne_zero hs
  constructor
  · intro hj
    cases data <;> simp [Aligned.step, ho, hj, malloc, copyTo, bind, Except.bind]
  · intro hij hj
    obtain ⟨b, hb⟩ := Option.ne_none_iff_exists'.1 hj
    cases data <;> simp [Aligned.step, ho, hb, hij, malloc, copyTo, bind, Except.bind]

example : ∃ s : State Int, run (init fun _ _ => 0) [.construct 0 2 none true] = .ok s ∧
    s.objs 0 = some ⟨2, some 0, some (.heap 0, 0)⟩ ∧ s.objs 1 = none := ⟨_, rfl, rfl, rfl⟩

end Litl
