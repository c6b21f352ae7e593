import Verif.Model.AlignedBuffer
import Mathlib.Tactic.Ring
import Mathlib.Tactic.Linarith

/-!
# Lemmas on aligned buffers
-/

namespace Litl.Aligned

/-! ## Addresses -/

theorem and_not_mask (x k : Nat) (hk : k < 64) (hx : x < 2 ^ 64) :
    x &&& (2 ^ 64 - 1 - (2 ^ k - 1)) = x / 2 ^ k * 2 ^ k := by
  have h1 : 2 ^ 64 - 1 - (2 ^ k - 1) = (2 ^ (64 - k) - 1) <<< k := by
    rw [Nat.shiftLeft_eq, Nat.sub_mul, ← Nat.pow_add, Nat.sub_add_cancel hk.le]
    have : 1 ≤ 2 ^ k := Nat.one_le_two_pow
    omega
  have h2 : x / 2 ^ k * 2 ^ k = (x >>> k) <<< k := by
    rw [Nat.shiftLeft_eq, Nat.shiftRight_eq_div_pow]
  rw [h1, h2]
  apply Nat.eq_of_testBit_eq
  intro i
  simp only [Nat.testBit_and, Nat.testBit_shiftLeft, Nat.testBit_two_pow_sub_one, Nat.testBit_shiftRight]
  by_cases hik : k ≤ i
  · have e : k + (i - k) = i := by omega
    rw [e]
    by_cases hi : i < 64
    · have : i - k < 64 - k := by omega
      simp [hik, this]
    · have : x.testBit i = false := by
        apply Nat.testBit_lt_two_pow
        exact lt_of_lt_of_le hx (Nat.pow_le_pow_right (by omega) (by omega))
      simp [this]
  · simp [hik]

theorem alignUp_toNat (c as : BitVec 64) (k : Nat) (has : as.toNat = 2 ^ k)
    (hc : c.toNat + (2 ^ k - 1) < 2 ^ 64) :
    (alignUp c as).toNat = (c.toNat + (2 ^ k - 1)) / 2 ^ k * 2 ^ k := by
  have hk : k < 64 := by
    have := as.isLt
    rw [has] at this
    exact (Nat.pow_lt_pow_iff_right (by omega)).1 this
  have h1 : 1 ≤ 2 ^ k := Nat.one_le_two_pow
  have hs : (as - 1).toNat = 2 ^ k - 1 := by
    rw [BitVec.toNat_sub, has]
    have := as.isLt
    simp only [BitVec.ofNat_eq_ofNat, BitVec.toNat_ofNat]
    omega
  unfold alignUp
  rw [BitVec.toNat_and, BitVec.toNat_not, BitVec.toNat_add, hs, Nat.mod_eq_of_lt hc]
  exact and_not_mask _ _ hk hc

theorem alignmentLoop_iff (p : BitVec 64) (v : Nat) (hv : v ≤ 63) (h1 : 2 ^ v ∣ p.toNat)
    (h2 : ¬ 2 ^ (v + 1) ∣ p.toNat) (r : Res (BitVec 64)) : ∀ (d j : Nat), j + d = v + 1 → 1 ≤ j →
    (AlignmentLoop p (BitVec.twoPow 64 j) r ↔
      r = if v = 63 then .error .ub else .ok (BitVec.twoPow 64 v)) := by
  intro d
  induction d with
  | zero =>
    intro j hj hj1
    obtain rfl : j = v + 1 := by omega
    by_cases h : v = 63
    · subst h
      have h0 : BitVec.twoPow 64 (63 + 1) = 0 := by decide
      constructor
      · intro hl
        cases hl with
        | ub _ => rfl
        | next hn _ _ => exact absurd h0 hn
        | done hn _ => exact absurd h0 hn
      · intro hr
        rw [hr]
        exact .ub h0
    · have hlt : 2 ^ (v + 1) < 2 ^ 64 := Nat.pow_lt_pow_right (by omega) (by omega)
      have ht : (BitVec.twoPow 64 (v + 1)).toNat = 2 ^ (v + 1) := by
        rw [BitVec.toNat_twoPow, Nat.mod_eq_of_lt hlt]
      have h0 : BitVec.twoPow 64 (v + 1) ≠ 0 := by
        intro h0
        rw [h0] at ht
        have : 1 ≤ 2 ^ (v + 1) := Nat.one_le_two_pow
        simp at ht; omega
      have hm : p % BitVec.twoPow 64 (v + 1) ≠ 0 := by
        intro hm
        have := congrArg BitVec.toNat hm
        rw [BitVec.toNat_umod, ht] at this
        exact h2 (Nat.dvd_of_mod_eq_zero this)
      have hs : BitVec.twoPow 64 (v + 1) >>> 1 = BitVec.twoPow 64 v := by
        apply BitVec.eq_of_toNat_eq
        rw [BitVec.toNat_ushiftRight, ht, BitVec.toNat_twoPow, Nat.shiftRight_eq_div_pow,
          Nat.mod_eq_of_lt (lt_trans (Nat.pow_lt_pow_right (by omega) (by omega)) hlt), pow_succ]
        omega
      rw [if_neg h]
      constructor
      · intro hl
        cases hl with
        | ub hn => exact absurd hn h0
        | next _ hn _ => exact absurd hn hm
        | done _ _ => rw [hs]
      · intro hr
        rw [hr, ← hs]
        exact .done h0 hm
  | succ d ih =>
    intro j hj hj1
    have hlt : 2 ^ j < 2 ^ 64 := Nat.pow_lt_pow_right (by omega) (by omega)
    have ht : (BitVec.twoPow 64 j).toNat = 2 ^ j := by
      rw [BitVec.toNat_twoPow, Nat.mod_eq_of_lt hlt]
    have h0 : BitVec.twoPow 64 j ≠ 0 := by
      intro h0
      rw [h0] at ht
      have : 1 ≤ 2 ^ j := Nat.one_le_two_pow
      simp at ht; omega
    have hm : p % BitVec.twoPow 64 j = 0 := by
      apply BitVec.eq_of_toNat_eq
      rw [BitVec.toNat_umod, ht]
      exact Nat.mod_eq_zero_of_dvd (dvd_trans (pow_dvd_pow 2 (by omega)) h1)
    have hs : BitVec.twoPow 64 j <<< 1 = BitVec.twoPow 64 (j + 1) := by
      apply BitVec.eq_of_toNat_eq
      rw [BitVec.toNat_shiftLeft, ht, BitVec.toNat_twoPow, Nat.shiftLeft_eq, pow_succ 2 j, pow_one]
    rw [← ih (j + 1) (by omega) (by omega)]
    constructor
    · intro hl
      cases hl with
      | ub hn => exact absurd hn h0
      | next _ _ hl => rwa [hs] at hl
      | done _ hn => exact absurd hm hn
    · intro hl
      exact .next h0 hm (by rwa [hs])

/-! ## Ownership -/

variable {α : Type}

/-- The invariant: blocks which are owned are allocated, by a single buffer which points to them, and are not in the
hands of the user. -/
structure Inv (s : State α) : Prop where
  owned_live : ∀ i b, Owns s i b → b ∈ s.live
  unique : ∀ i j b, Owns s i b → Owns s j b → i = j
  owned_data : ∀ i o b, s.objs i = some o → o.container = some b → o.data = some (.heap b, 0)
  owned_unreleased : ∀ i b, Owns s i b → b ∉ s.released
  released_live : ∀ b, b ∈ s.released → b ∈ s.live
  nodup : s.live.Nodup
  nodup_released : s.released.Nodup
  fresh : ∀ b, b ∈ s.live → b < s.next
  good : s.badFrees = []

theorem Inv.init (mem : Region → Nat → α) : Inv (init mem) := by
  constructor <;> simp [Aligned.init, Owns]

@[simp] theorem copyN_objs (s : State α) (p q : Ptr) (n : Nat) : (copyN s p q n).objs = s.objs := by
  induction n with
  | zero => rfl
  | succ n ih => simp [copyN, poke, ih]

@[simp] theorem copyN_live (s : State α) (p q : Ptr) (n : Nat) : (copyN s p q n).live = s.live := by
  induction n with
  | zero => rfl
  | succ n ih => simp [copyN, poke, ih]

@[simp] theorem copyN_next (s : State α) (p q : Ptr) (n : Nat) : (copyN s p q n).next = s.next := by
  induction n with
  | zero => rfl
  | succ n ih => simp [copyN, poke, ih]

@[simp] theorem copyN_released (s : State α) (p q : Ptr) (n : Nat) : (copyN s p q n).released = s.released := by
  induction n with
  | zero => rfl
  | succ n ih => simp [copyN, poke, ih]

@[simp] theorem copyN_badFrees (s : State α) (p q : Ptr) (n : Nat) : (copyN s p q n).badFrees = s.badFrees := by
  induction n with
  | zero => rfl
  | succ n ih => simp [copyN, poke, ih]

/-- States which differ by their contents only. -/
def SameButMem (s t : State α) : Prop :=
  t.objs = s.objs ∧ t.live = s.live ∧ t.next = s.next ∧ t.released = s.released ∧ t.badFrees = s.badFrees

theorem copyTo_same {s t : State α} {src : Option Ptr} {dst : Option Nat} {n : Nat}
    (h : copyTo s src dst n = .ok t) : SameButMem s t := by
  unfold copyTo at h
  split at h
  · cases h; exact ⟨rfl, rfl, rfl, rfl, rfl⟩
  · cases h; exact ⟨by simp, by simp, by simp, by simp, by simp⟩
  · cases h

theorem Inv.congr {s t : State α} (hs : Inv s) (h : SameButMem s t) : Inv t := by
  obtain ⟨s1, s2, s3, s4, s5, s6⟩ := s
  obtain ⟨t1, t2, t3, t4, t5, t6⟩ := t
  obtain ⟨h1, h2, h3, h4, h5⟩ := h
  simp only at h1 h2 h3 h4 h5
  subst h1 h2 h3 h4 h5
  exact ⟨hs.owned_live, hs.unique, hs.owned_data, hs.owned_unreleased, hs.released_live, hs.nodup,
    hs.nodup_released, hs.fresh, hs.good⟩

/-- Setting an object to non-owning, or killing it, keeps the invariant. -/
theorem Inv.setObj_none {s : State α} (hs : Inv s) (i : Nat) (b : Option Buffer)
    (hb : ∀ o, b = some o → o.container = none) : Inv (setObj s i b) := by
  have key : ∀ j c, Owns (setObj s i b) j c → Owns s j c := by
    intro j c ⟨o, h1, h2⟩
    simp only [setObj] at h1
    split at h1
    · rw [hb o h1] at h2; cases h2
    · exact ⟨o, h1, h2⟩
  refine ⟨fun j c h => hs.owned_live j c (key j c h), fun j k c h h' => hs.unique j k c (key j c h) (key k c h'),
    ?_, fun j c h => hs.owned_unreleased j c (key j c h), hs.released_live, hs.nodup,
    hs.nodup_released, hs.fresh, hs.good⟩
  intro j o c h1 h2
  obtain ⟨o', h1', h2'⟩ := key j c ⟨o, h1, h2⟩
  simp only [setObj] at h1
  split at h1
  · rw [hb o h1] at h2; cases h2
  · exact hs.owned_data j o c h1 h2

/-- Allocating a block for an object keeps the invariant. -/
theorem Inv.alloc {s t : State α} (hs : Inv s) (ok : Bool) (i size : Nat)
    (ht : SameButMem (malloc s ok).1 t) :
    Inv (setObj t i (some ⟨size, (malloc s ok).2, (malloc s ok).2.map fun b => (.heap b, 0)⟩)) := by
  cases ok with
  | false => exact (hs.congr ht).setObj_none i _ (by simp [malloc])
  | true =>
    obtain ⟨s1, s2, s3, s4, s5, s6⟩ := s
    obtain ⟨t1, t2, t3, t4, t5, t6⟩ := t
    obtain ⟨h1, h2, h3, h4, h5⟩ := ht
    simp only [malloc, if_true] at h1 h2 h3 h4 h5 ⊢
    subst h1 h2 h3 h4 h5
    have key : ∀ j c, Owns (setObj (⟨t1, s3 :: s2, s3 + 1, t4, t5, t6⟩ : State α) i
        (some ⟨size, some s3, some (.heap s3, 0)⟩)) j c →
        (j = i ∧ c = s3) ∨ (j ≠ i ∧ Owns (⟨t1, s2, s3, t4, t5, s6⟩ : State α) j c) := by
      intro j c ⟨o, h1, h2⟩
      simp only [setObj] at h1
      split at h1
      · cases h1; cases h2; exact .inl ⟨by assumption, rfl⟩
      · exact .inr ⟨by assumption, o, h1, h2⟩
    have hf : s3 ∉ s2 := fun h => absurd (hs.fresh s3 h) (by simp)
    have hr : s3 ∉ t4 := fun h => hf (hs.released_live s3 h)
    refine ⟨?_, ?_, ?_, ?_, ?_, ?_, hs.nodup_released, ?_, hs.good⟩
    · intro j c h
      rcases key j c h with ⟨_, rfl⟩ | ⟨_, h⟩
      · exact List.mem_cons_self
      · exact List.mem_cons_of_mem _ (hs.owned_live j c h)
    · intro j k c h h'
      rcases key j c h with ⟨e, e2⟩ | ⟨_, g⟩ <;> rcases key k c h' with ⟨e', e2'⟩ | ⟨_, g'⟩
      · rw [e, e']
      · rw [e2] at g'; exact absurd (hs.owned_live _ _ g') hf
      · rw [e2'] at g; exact absurd (hs.owned_live _ _ g) hf
      · exact hs.unique j k c g g'
    · intro j o c h1 h2
      simp only [setObj] at h1
      split at h1
      · cases h1; cases h2; rfl
      · exact hs.owned_data j o c h1 h2
    · intro j c h
      rcases key j c h with ⟨_, rfl⟩ | ⟨_, h⟩
      · exact hr
      · exact hs.owned_unreleased j c h
    · intro c hc
      exact List.mem_cons_of_mem _ (hs.released_live c hc)
    · exact List.nodup_cons.2 ⟨hf, hs.nodup⟩
    · intro c hc
      rcases List.mem_cons.1 hc with rfl | hc
      · exact Nat.lt_succ_self _
      · exact Nat.lt_succ_of_lt (hs.fresh c hc)

theorem Inv.reset {s : State α} (hs : Inv s) (i : Nat) (b : Buffer) (hb : s.objs i = some b) :
    Inv (reset s i b) := by
  unfold Aligned.reset
  cases hc : b.container with
  | none => exact hs.setObj_none i _ (by simp)
  | some c =>
    have hl : c ∈ s.live := hs.owned_live i c ⟨b, hb, hc⟩
    have key : ∀ j d, Owns (setObj (free s c) i (some ⟨0, none, none⟩)) j d → d ≠ c ∧ Owns s j d := by
      intro j d ⟨o, h1, h2⟩
      simp only [setObj, free, if_pos hl] at h1
      split at h1
      · cases h1; cases h2
      · next hij =>
        refine ⟨?_, o, h1, h2⟩
        rintro rfl
        exact hij (hs.unique j i d ⟨o, h1, h2⟩ ⟨b, hb, hc⟩)
    refine ⟨?_, fun j k d h h' => hs.unique j k d (key j d h).2 (key k d h').2, ?_,
      ?_, ?_, ?_, ?_, ?_, ?_⟩
    · intro j d h
      simp only [setObj, free, if_pos hl]
      exact (List.mem_erase_of_ne (key j d h).1).2 (hs.owned_live j d (key j d h).2)
    · intro j o d h1 h2
      simp only [setObj, free, if_pos hl] at h1
      split at h1
      · cases h1; cases h2
      · exact hs.owned_data j o d h1 h2
    · intro j d h
      simp only [setObj, free, if_pos hl]
      exact hs.owned_unreleased j d (key j d h).2
    · simp only [setObj, free, if_pos hl]
      intro d hd
      refine (List.mem_erase_of_ne ?_).2 (hs.released_live d hd)
      rintro rfl
      exact hs.owned_unreleased i d ⟨b, hb, hc⟩ hd
    · simp only [setObj, free, if_pos hl]
      exact hs.nodup.erase c
    · simp only [setObj, free, if_pos hl]
      exact hs.nodup_released
    · simp only [setObj, free, if_pos hl]
      exact fun d hd => hs.fresh d (List.mem_of_mem_erase hd)
    · simp only [setObj, free, if_pos hl]
      exact hs.good

theorem Inv.step {s t : State α} (hs : Inv s) (op : Op α) (h : step s op = .ok t) : Inv t := by
  cases op with
  | construct i size data ok =>
    simp only [Aligned.step] at h
    split at h
    · cases h
    · cases h; exact hs.setObj_none i _ (by simp)
    · cases h
      exact hs.alloc ok i size ⟨rfl, rfl, rfl, rfl, rfl⟩
  | copyConstruct i other ok =>
    simp only [Aligned.step] at h
    split at h
    · next o _ _ =>
      split at h
      · cases h; exact hs.setObj_none i _ (by simp)
      · cases h
        exact hs.alloc ok i o.size ⟨rfl, rfl, rfl, rfl, rfl⟩
      · cases hc : copyTo (malloc s ok).1 o.data (malloc s ok).2 o.size with
        | error e => simp [hc, bind, Except.bind] at h
        | ok u =>
          simp only [hc, bind, Except.bind] at h
          cases h
          exact hs.alloc ok i o.size (copyTo_same hc)
    · cases h
  | moveConstruct i other =>
    simp only [Aligned.step] at h
    split at h
    · next o hi ho =>
      cases h
      have hne : other ≠ i := by rintro rfl; rw [hi] at ho; cases ho
      unfold Aligned.reset
      exact (hs.setObj_none i _ (by simp)).setObj_none other _ (by simp)
    · cases h
  | copyAssign i other ok =>
    simp only [Aligned.step] at h
    split at h
    · next _ o _ ho =>
      split at h
      · cases h; exact hs
      · split at h
        · cases hc : copyTo (malloc s ok).1 o.data (malloc s ok).2 o.size with
          | error e => simp [hc, bind, Except.bind] at h
          | ok u =>
            simp only [hc, bind, Except.bind] at h
            cases h
            exact hs.alloc ok i o.size (copyTo_same hc)
        · cases h; exact hs.setObj_none i _ (by simp)
    · cases h
  | moveAssign i other =>
    simp only [Aligned.step] at h
    split at h
    · next _ o hi ho =>
      split at h
      · cases h; exact hs
      · next hio =>
        cases h
        have e : Aligned.reset (setObj s i (some o)) other { o with container := none } =
            setObj (setObj s i (some o)) other (some ⟨0, none, none⟩) := rfl
        rw [e]
        have hoi : ¬ other = i := fun h => hio h.symm
        have key : ∀ j c, Owns (setObj (setObj s i (some o)) other (some ⟨0, none, none⟩)) j c →
            j = i ∧ Owns s other c ∨ j ≠ i ∧ j ≠ other ∧ Owns s j c := by
          intro j c ⟨q, h1, h2⟩
          simp only [setObj] at h1
          split at h1
          · cases h1; cases h2
          · split at h1
            · cases h1; exact .inl ⟨by assumption, o, ho, h2⟩
            · exact .inr ⟨by assumption, by assumption, q, h1, h2⟩
        refine ⟨?_, ?_, ?_, ?_, hs.released_live, hs.nodup, hs.nodup_released, hs.fresh, hs.good⟩
        · intro j c h
          rcases key j c h with ⟨_, h⟩ | ⟨_, _, h⟩ <;> exact hs.owned_live _ c h
        · intro j k c h h'
          rcases key j c h with ⟨e, g⟩ | ⟨_, g2, g⟩ <;> rcases key k c h' with ⟨e', g'⟩ | ⟨_, g2', g'⟩
          · rw [e, e']
          · exact absurd (hs.unique _ _ _ g' g) g2'
          · exact absurd (hs.unique _ _ _ g g') g2
          · exact hs.unique _ _ _ g g'
        · intro j q c h1 h2
          simp only [setObj] at h1
          split at h1
          · cases h1; cases h2
          · split at h1
            · cases h1; exact hs.owned_data other o c ho h2
            · exact hs.owned_data j q c h1 h2
        · intro j c h
          rcases key j c h with ⟨_, h⟩ | ⟨_, _, h⟩ <;> exact hs.owned_unreleased _ c h
    · cases h
  | destroy i =>
    simp only [Aligned.step] at h
    split at h
    · next b hb => cases h; exact (hs.reset i b hb).setObj_none i _ (by simp)
    · cases h
  | release i =>
    simp only [Aligned.step] at h
    split at h
    · next b hb =>
      cases h
      have key : ∀ j c, Owns (setObj s i (some { b with container := none })) j c → j ≠ i ∧ Owns s j c := by
        intro j c ⟨q, h1, h2⟩
        simp only [setObj] at h1
        split at h1
        · cases h1; cases h2
        · exact ⟨by assumption, q, h1, h2⟩
      have h0 := hs.setObj_none i (some { b with container := none }) (by simp)
      refine ⟨h0.owned_live, h0.unique, h0.owned_data, ?_, ?_, h0.nodup, ?_, h0.fresh, h0.good⟩
      · intro j c h hm
        obtain ⟨hji, h⟩ := key j c h
        rcases List.mem_append.1 hm with hm | hm
        · rw [Option.mem_toList] at hm
          exact hji (hs.unique j i c h ⟨b, hb, hm⟩)
        · exact hs.owned_unreleased j c h hm
      · intro c hm
        rcases List.mem_append.1 hm with hm | hm
        · rw [Option.mem_toList] at hm
          exact hs.owned_live i c ⟨b, hb, hm⟩
        · exact hs.released_live c hm
      · show (b.container.toList ++ s.released).Nodup
        cases hc : b.container with
        | none => exact hs.nodup_released
        | some c => exact List.nodup_cons.2 ⟨hs.owned_unreleased i c ⟨b, hb, hc⟩, hs.nodup_released⟩
    · cases h
  | reset i =>
    simp only [Aligned.step] at h
    split at h
    · next b hb => cases h; exact hs.reset i b hb
    · cases h
  | userFree b =>
    simp only [Aligned.step] at h
    split at h
    · next hb =>
      cases h
      have hl := hs.released_live b hb
      simp only [free, if_pos hl]
      have hne : ∀ j c, Owns s j c → c ≠ b := by
        rintro j c h rfl
        exact hs.owned_unreleased j c h hb
      refine ⟨?_, hs.unique, hs.owned_data, ?_, ?_, hs.nodup.erase b, hs.nodup_released.erase b, ?_, hs.good⟩
      · intro j c h
        exact (List.mem_erase_of_ne (hne j c h)).2 (hs.owned_live j c h)
      · intro j c h hm
        exact hs.owned_unreleased j c h (List.mem_of_mem_erase hm)
      · intro c hm
        have hcb : c ≠ b := by
          rintro rfl
          exact (hs.nodup_released.not_mem_erase) hm
        exact (List.mem_erase_of_ne hcb).2 (hs.released_live c (List.mem_of_mem_erase hm))
      · exact fun c hc => hs.fresh c (List.mem_of_mem_erase hc)
    · cases h
  | write i k v =>
    simp only [Aligned.step] at h
    split at h
    · split at h
      · cases h; exact hs.congr ⟨rfl, rfl, rfl, rfl, rfl⟩
      · cases h
    · cases h

theorem run_inv {P : State α → Prop} (hstep : ∀ s t op, P s → step s op = .ok t → P t) :
    ∀ (ops : List (Op α)) (s t : State α), P s → run s ops = .ok t → P t := by
  intro ops
  induction ops with
  | nil => intro s t hs h; cases h; exact hs
  | cons op ops ih =>
    intro s t hs h
    cases hc : step s op with
    | error e => simp [run, hc, bind, Except.bind] at h
    | ok u =>
      simp only [run, hc, bind, Except.bind] at h
      exact ih u t (hstep s u op hs hc) h

theorem Inv.run {s t : State α} (hs : Inv s) (ops : List (Op α)) (h : run s ops = .ok t) : Inv t :=
  run_inv (fun _ _ op hs h => hs.step op h) ops s t hs h

theorem run_append (s : State α) (xs ys : List (Op α)) :
    run s (xs ++ ys) = (run s xs).bind fun t => run t ys := by
  induction xs generalizing s with
  | nil => rfl
  | cons x xs ih =>
    simp only [List.cons_append, Aligned.run, bind, Except.bind]
    cases step s x with
    | error e => rfl
    | ok u => exact ih u

/-! ## Blocks which are lost -/

/-- A block which is allocated, but neither owned nor in the hands of the user. -/
def Lost (s : State α) (b : Nat) : Prop := b ∈ s.live ∧ b ∉ s.released ∧ ∀ i, ¬ Owns s i b

theorem owns_setObj (s : State α) (i j c : Nat) (b : Option Buffer) :
    Owns (setObj s i b) j c ↔ if j = i then ∃ o, b = some o ∧ o.container = some c else Owns s j c := by
  unfold Owns setObj
  by_cases h : j = i <;> simp [h]

/-- The step which loses a block. -/
def Loses (s : State α) (op : Op α) (b : Nat) : Prop :=
  (∃ i other, op = .moveConstruct i other ∧ Owns s other b) ∨
  (∃ i other ok, op = .copyAssign i other ok ∧ i ≠ other ∧ Owns s i b) ∨
  (∃ i other, op = .moveAssign i other ∧ i ≠ other ∧ Owns s i b)

theorem alloc_not_lost {s t : State α} (hs : Inv s) (ok : Bool) (i size b : Nat)
    (ht : SameButMem (malloc s ok).1 t) :
    Lost (setObj t i (some ⟨size, (malloc s ok).2, (malloc s ok).2.map fun b => (.heap b, 0)⟩)) b ↔
      b ∈ s.live ∧ b ∉ s.released ∧ ∀ j, j ≠ i → ¬ Owns s j b := by
  have hown : ∀ j c, Owns t j c ↔ Owns s j c := by
    intro j c
    unfold Owns
    rw [ht.1]
    cases ok <;> rfl
  unfold Lost
  simp only [owns_setObj, hown]
  obtain ⟨h1, h2, h3, h4, h5⟩ := ht
  have e2 : (setObj t i (some ⟨size, (malloc s ok).2, (malloc s ok).2.map fun b => (.heap b, 0)⟩)).live = t.live := rfl
  have e4 : (setObj t i (some ⟨size, (malloc s ok).2, (malloc s ok).2.map fun b => (.heap b, 0)⟩)).released =
    t.released := rfl
  rw [e2, e4, h2, h4]
  cases ok with
  | false =>
    simp only [malloc, Bool.false_eq_true, if_false]
    refine and_congr_right fun _ => and_congr_right fun _ => forall_congr' fun j => ?_
    by_cases hj : j = i <;> simp [hj]
  | true =>
    simp only [malloc, if_true]
    constructor
    · rintro ⟨hl, hr, ho⟩
      have hb : b ≠ s.next := by
        rintro rfl
        exact ho i (by simp)
      refine ⟨(List.mem_cons.1 hl).resolve_left hb, hr, fun j hj => ?_⟩
      have := ho j
      rwa [if_neg hj] at this
    · rintro ⟨hl, hr, ho⟩
      have hb : b < s.next := hs.fresh b hl
      refine ⟨List.mem_cons_of_mem _ hl, hr, fun j => ?_⟩
      by_cases hj : j = i
      · rw [if_pos hj]
        rintro ⟨o, h, h'⟩
        cases h
        simp at h'
        omega
      · rw [if_neg hj]
        exact ho j hj

theorem reset_live {s : State α} (hs : Inv s) (i : Nat) (b : Buffer) (hb : s.objs i = some b) (c : Nat) :
    c ∈ (Aligned.reset s i b).live ↔ c ∈ s.live ∧ b.container ≠ some c := by
  unfold Aligned.reset
  cases hc : b.container with
  | none => simp [setObj]
  | some d =>
    have hl : d ∈ s.live := hs.owned_live i d ⟨b, hb, hc⟩
    simp only [setObj, free, if_pos hl, hs.nodup.mem_erase_iff]
    constructor
    · rintro ⟨h1, h2⟩; exact ⟨h2, fun h => h1 (by cases h; rfl)⟩
    · rintro ⟨h1, h2⟩; exact ⟨fun h => h2 (by rw [h]), h1⟩

theorem reset_released (s : State α) (i : Nat) (b : Buffer) : (Aligned.reset s i b).released = s.released := by
  unfold Aligned.reset
  cases b.container with
  | none => rfl
  | some d =>
    simp only [setObj, free]
    split <;> rfl

theorem owns_reset (s : State α) (i : Nat) (b : Buffer) (j c : Nat) :
    Owns (Aligned.reset s i b) j c ↔ j ≠ i ∧ Owns s j c := by
  unfold Aligned.reset
  cases b.container with
  | none =>
    rw [owns_setObj]
    by_cases h : j = i <;> simp [h]
  | some d =>
    rw [owns_setObj]
    have : Owns (free s d) j c ↔ Owns s j c := by
      unfold Owns free
      split <;> rfl
    by_cases h : j = i <;> simp [h, this]

/-- Each step loses exactly the blocks of `Loses`. -/
theorem lost_step_iff {s t : State α} (hs : Inv s) (op : Op α) (h : step s op = .ok t) (b : Nat) :
    Lost t b ↔ Lost s b ∨ Loses s op b := by
  cases op with
  | construct i size data ok =>
    have hL : ¬ Loses s (.construct i size data ok) b := by simp [Loses]
    simp only [hL, or_false]
    simp only [Aligned.step] at h
    split at h
    · cases h
    · next hi =>
      cases h
      refine and_congr_right fun _ => and_congr_right fun _ => forall_congr' fun j => not_congr ?_
      rw [owns_setObj]
      by_cases hj : j = i
      · subst hj; simp [Owns, hi]
      · simp [hj]
    · next hi =>
      cases h
      rw [alloc_not_lost hs ok i size b ⟨rfl, rfl, rfl, rfl, rfl⟩]
      refine and_congr_right fun _ => and_congr_right fun _ => forall_congr' fun j => ?_
      by_cases hj : j = i
      · subst hj; simp [Owns, hi]
      · simp [hj]
  | copyConstruct i other ok =>
    have hL : ¬ Loses s (.copyConstruct i other ok) b := by simp [Loses]
    simp only [hL, or_false]
    simp only [Aligned.step] at h
    split at h
    · next o hi ho =>
      have halloc : ∀ u, SameButMem (malloc s ok).1 u →
          (Lost (setObj u i (some ⟨o.size, (malloc s ok).2, (malloc s ok).2.map fun b => (.heap b, 0)⟩)) b ↔
            Lost s b) := by
        intro u hu
        rw [alloc_not_lost hs ok i o.size b hu]
        refine and_congr_right fun _ => and_congr_right fun _ => forall_congr' fun j => ?_
        by_cases hj : j = i
        · subst hj; simp [Owns, hi]
        · simp [hj]
      split at h
      · cases h
        refine and_congr_right fun _ => and_congr_right fun _ => forall_congr' fun j => not_congr ?_
        rw [owns_setObj]
        by_cases hj : j = i
        · subst hj; simp [Owns, hi]
        · simp [hj]
      · cases h
        exact halloc _ ⟨rfl, rfl, rfl, rfl, rfl⟩
      · cases hc : copyTo (malloc s ok).1 o.data (malloc s ok).2 o.size with
        | error e => simp [hc, bind, Except.bind] at h
        | ok u =>
          simp only [hc, bind, Except.bind] at h
          cases h
          exact halloc u (copyTo_same hc)
    · cases h
  | moveConstruct i other =>
    simp only [Aligned.step] at h
    split at h
    · next o hi ho =>
      cases h
      have hne : i ≠ other := by rintro rfl; rw [hi] at ho; cases ho
      have hL : Loses s (.moveConstruct i other) b ↔ Owns s other b := by simp [Loses]
      rw [hL]
      unfold Lost
      simp only [owns_reset, owns_setObj]
      have e1 : (Aligned.reset (setObj s i (some ⟨o.size, none, o.data⟩)) other
        { o with container := none }).live = s.live := rfl
      have e2 : (Aligned.reset (setObj s i (some ⟨o.size, none, o.data⟩)) other
        { o with container := none }).released = s.released := rfl
      rw [e1, e2]
      constructor
      · rintro ⟨h1, h2, h3⟩
        by_cases hob : Owns s other b
        · exact .inr hob
        · refine .inl ⟨h1, h2, fun j hj => ?_⟩
          have h3 := h3 j
          by_cases hji : j = i
          · subst hji
            obtain ⟨q, hq, _⟩ := hj
            rw [hi] at hq; cases hq
          · rw [if_neg hji] at h3
            refine h3 ⟨?_, hj⟩
            rintro rfl
            exact hob hj
      · rintro (⟨h1, h2, h3⟩ | hob)
        · refine ⟨h1, h2, fun j => ?_⟩
          rintro ⟨_, h⟩
          split at h
          · obtain ⟨q, hq, hq'⟩ := h
            cases hq; cases hq'
          · exact h3 j h
        · refine ⟨hs.owned_live _ _ hob, hs.owned_unreleased _ _ hob, fun j => ?_⟩
          rintro ⟨hj, h⟩
          split at h
          · obtain ⟨q, hq, hq'⟩ := h
            cases hq; cases hq'
          · exact hj (hs.unique _ _ _ h hob)
    · cases h
  | copyAssign i other ok =>
    have hL : Loses s (.copyAssign i other ok) b ↔ i ≠ other ∧ Owns s i b := by
      constructor
      · rintro (⟨_, _, h, _⟩ | ⟨a, c, d, h, h'⟩ | ⟨_, _, h, _⟩)
        · cases h
        · cases h; exact h'
        · cases h
      · exact fun h => .inr (.inl ⟨i, other, ok, rfl, h⟩)
    rw [hL]
    simp only [Aligned.step] at h
    split at h
    · next _ o hi ho =>
      split at h
      · next hio => cases h; simp [hio]
      · next hio =>
        have hkey : (b ∈ s.live ∧ b ∉ s.released ∧ ∀ j, j ≠ i → ¬ Owns s j b) ↔
            Lost s b ∨ (i ≠ other ∧ Owns s i b) := by
          constructor
          · rintro ⟨h1, h2, h3⟩
            by_cases hib : Owns s i b
            · exact .inr ⟨hio, hib⟩
            · refine .inl ⟨h1, h2, fun j hj => ?_⟩
              by_cases hji : j = i
              · subst hji; exact hib hj
              · exact h3 j hji hj
          · rintro (⟨h1, h2, h3⟩ | ⟨_, hib⟩)
            · exact ⟨h1, h2, fun j _ => h3 j⟩
            · exact ⟨hs.owned_live _ _ hib, hs.owned_unreleased _ _ hib,
                fun j hj h => hj (hs.unique _ _ _ h hib)⟩
        split at h
        · cases hc : copyTo (malloc s ok).1 o.data (malloc s ok).2 o.size with
          | error e => simp [hc, bind, Except.bind] at h
          | ok u =>
            simp only [hc, bind, Except.bind] at h
            cases h
            rw [alloc_not_lost hs ok i o.size b (copyTo_same hc), hkey]
        · cases h
          rw [← hkey]
          refine and_congr_right fun _ => and_congr_right fun _ => forall_congr' fun j => ?_
          rw [owns_setObj]
          by_cases hj : j = i <;> simp [hj]
    · cases h
  | moveAssign i other =>
    have hL : Loses s (.moveAssign i other) b ↔ i ≠ other ∧ Owns s i b := by
      constructor
      · rintro (⟨_, _, h, _⟩ | ⟨_, _, _, h, _⟩ | ⟨a, c, h, h'⟩)
        · cases h
        · cases h
        · cases h; exact h'
      · exact fun h => .inr (.inr ⟨i, other, rfl, h⟩)
    rw [hL]
    simp only [Aligned.step] at h
    split at h
    · next _ o hi ho =>
      split at h
      · next hio => cases h; simp [hio]
      · next hio =>
        cases h
        unfold Lost
        simp only [owns_reset, owns_setObj]
        have e1 : (Aligned.reset (setObj s i (some o)) other { o with container := none }).live = s.live := rfl
        have e2 : (Aligned.reset (setObj s i (some o)) other { o with container := none }).released =
          s.released := rfl
        rw [e1, e2]
        have hoown : ∀ c, (∃ q, some o = some q ∧ q.container = some c) ↔ Owns s other c := by
          intro c
          simp [Owns, ho]
        simp only [hoown]
        constructor
        · rintro ⟨h1, h2, h3⟩
          by_cases hib : Owns s i b
          · exact .inr ⟨hio, hib⟩
          · refine .inl ⟨h1, h2, fun j hj => ?_⟩
            have h3i := h3 i
            rw [if_pos rfl] at h3i
            have h3j := h3 j
            by_cases hji : j = i
            · subst hji; exact hib hj
            · rw [if_neg hji] at h3j
              by_cases hjo : j = other
              · subst hjo; exact h3i ⟨hio, hj⟩
              · exact h3j ⟨hjo, hj⟩
        · rintro (⟨h1, h2, h3⟩ | ⟨_, hib⟩)
          · refine ⟨h1, h2, fun j => ?_⟩
            rintro ⟨_, h⟩
            split at h
            · exact h3 _ h
            · exact h3 _ h
          · refine ⟨hs.owned_live _ _ hib, hs.owned_unreleased _ _ hib, fun j => ?_⟩
            rintro ⟨hj, h⟩
            split at h
            · exact hio (hs.unique _ _ _ hib h)
            · next hji => exact hji (hs.unique _ _ _ h hib)
    · cases h
  | destroy i =>
    have hL : ¬ Loses s (.destroy i) b := by simp [Loses]
    simp only [hL, or_false]
    simp only [Aligned.step] at h
    split at h
    · next o ho =>
      cases h
      unfold Lost
      simp only [owns_setObj, owns_reset]
      have e1 : (setObj (Aligned.reset s i o) i none).live = (Aligned.reset s i o).live := rfl
      have e2 : (setObj (Aligned.reset s i o) i none).released = (Aligned.reset s i o).released := rfl
      rw [e1, e2, reset_live hs i o ho, reset_released]
      constructor
      · rintro ⟨⟨h1, h1'⟩, h2, h3⟩
        refine ⟨h1, h2, fun j hj => ?_⟩
        have h3 := h3 j
        by_cases hji : j = i
        · subst hji
          obtain ⟨q, hq, hq'⟩ := hj
          rw [ho] at hq; cases hq
          exact h1' hq'
        · rw [if_neg hji] at h3
          exact h3 ⟨hji, hj⟩
      · rintro ⟨h1, h2, h3⟩
        refine ⟨⟨h1, fun h => h3 i ⟨o, ho, h⟩⟩, h2, fun j h => ?_⟩
        split at h
        · obtain ⟨q, hq, _⟩ := h; cases hq
        · exact h3 j h.2
    · cases h
  | release i =>
    have hL : ¬ Loses s (.release i) b := by simp [Loses]
    simp only [hL, or_false]
    simp only [Aligned.step] at h
    split at h
    · next o ho =>
      cases h
      have hown : ∀ j, Owns { setObj s i (some { o with container := none }) with
          released := o.container.toList ++ s.released } j b ↔ j ≠ i ∧ Owns s j b := by
        intro j
        have := owns_setObj s i j b (some { o with container := none })
        refine Iff.trans (show _ ↔ Owns (setObj s i (some { o with container := none })) j b from Iff.rfl) ?_
        rw [this]
        by_cases hj : j = i <;> simp [hj]
      unfold Lost
      simp only [hown]
      show (b ∈ s.live ∧ b ∉ o.container.toList ++ s.released ∧ _) ↔ _
      rw [List.mem_append, Option.mem_toList]
      constructor
      · rintro ⟨h1, h2, h3⟩
        refine ⟨h1, fun h => h2 (.inr h), fun j hj => ?_⟩
        by_cases hji : j = i
        · subst hji
          obtain ⟨q, hq, hq'⟩ := hj
          rw [ho] at hq; cases hq
          exact h2 (.inl hq')
        · exact h3 j ⟨hji, hj⟩
      · rintro ⟨h1, h2, h3⟩
        refine ⟨h1, ?_, fun j hj => h3 j hj.2⟩
        rintro (h | h)
        · exact h3 i ⟨o, ho, h⟩
        · exact h2 h
    · cases h
  | reset i =>
    have hL : ¬ Loses s (.reset i) b := by simp [Loses]
    simp only [hL, or_false]
    simp only [Aligned.step] at h
    split at h
    · next o ho =>
      cases h
      unfold Lost
      simp only [owns_reset]
      rw [reset_live hs i o ho, reset_released]
      constructor
      · rintro ⟨⟨h1, h1'⟩, h2, h3⟩
        refine ⟨h1, h2, fun j hj => ?_⟩
        by_cases hji : j = i
        · subst hji
          obtain ⟨q, hq, hq'⟩ := hj
          rw [ho] at hq; cases hq
          exact h1' hq'
        · exact h3 j ⟨hji, hj⟩
      · rintro ⟨h1, h2, h3⟩
        exact ⟨⟨h1, fun h => h3 i ⟨o, ho, h⟩⟩, h2, fun j h => h3 j h.2⟩
    · cases h
  | userFree c =>
    have hL : ¬ Loses s (.userFree c) b := by simp [Loses]
    simp only [hL, or_false]
    simp only [Aligned.step] at h
    split at h
    · next hc =>
      cases h
      have hl := hs.released_live c hc
      simp only [free, if_pos hl]
      unfold Lost
      show (b ∈ s.live.erase c ∧ b ∉ s.released.erase c ∧ ∀ i, ¬ Owns s i b) ↔ _
      rw [hs.nodup.mem_erase_iff, hs.nodup_released.mem_erase_iff]
      constructor
      · rintro ⟨⟨h1, h1'⟩, h2, h3⟩
        exact ⟨h1', fun h => h2 ⟨h1, h⟩, h3⟩
      · rintro ⟨h1, h2, h3⟩
        refine ⟨⟨?_, h1⟩, fun h => h2 h.2, h3⟩
        rintro rfl
        exact h2 hc
    · cases h
  | write i k v =>
    have hL : ¬ Loses s (.write i k v) b := by simp [Loses]
    simp only [hL, or_false]
    simp only [Aligned.step] at h
    split at h
    · split at h
      · cases h; rfl
      · cases h
    · cases h

/-! ## Contents -/

theorem copyN_mem (s : State α) (src dst : Ptr) (hne : src.1 ≠ dst.1) (n : Nat) (r : Region) (k : Nat) :
    (copyN s src dst n).mem r k =
      if r = dst.1 ∧ dst.2 ≤ k ∧ k < dst.2 + n then s.mem src.1 (src.2 + (k - dst.2)) else s.mem r k := by
  induction n generalizing r k with
  | zero =>
    rw [if_neg (by omega)]
    rfl
  | succ n ih =>
    simp only [copyN, poke, Prod.mk.injEq]
    by_cases h : r = dst.1 ∧ k = dst.2 + n
    · obtain ⟨rfl, rfl⟩ := h
      rw [if_pos ⟨rfl, rfl⟩, if_pos ⟨rfl, by omega, by omega⟩, ih, if_neg (fun h => hne h.1)]
      congr 1
      omega
    · rw [if_neg h, ih]
      by_cases hr : r = dst.1
      · have : k ≠ dst.2 + n := fun hk => h ⟨hr, hk⟩
        by_cases hk : dst.2 ≤ k ∧ k < dst.2 + n
        · rw [if_pos ⟨hr, hk⟩, if_pos ⟨hr, by omega, by omega⟩]
        · rw [if_neg (fun h => hk h.2), if_neg (fun h => hk ⟨by omega, by omega⟩)]
      · rw [if_neg (fun h => hr h.1), if_neg (fun h => hr h.1)]

/-- Two objects do not point to the same region. -/
def Apart (s : State α) (i j : Nat) : Prop :=
  ∀ o q p p', s.objs i = some o → s.objs j = some q → o.data = some p → q.data = some p' → p.1 ≠ p'.1

theorem Apart.symm {s : State α} {i j : Nat} (h : Apart s i j) : Apart s j i :=
  fun o q p p' h1 h2 h3 h4 => (h q o p' p h2 h1 h4 h3).symm

theorem step_write_objs {s t : State α} {j k : Nat} {v : α} (h : step s (.write j k v) = .ok t) :
    t.objs = s.objs := by
  simp only [Aligned.step] at h
  split at h
  · split at h
    · cases h; rfl
    · cases h
  · cases h

theorem read_write_self {s t : State α} {j k : Nat} {v : α} (h : step s (.write j k v) = .ok t) (l : Nat) :
    read t j l = if k = l then some v else read s j l := by
  have ho := step_write_objs h
  simp only [Aligned.step] at h
  split at h
  · next size c p hj =>
    split at h
    · next hk =>
      cases h
      unfold read
      rw [ho, hj]
      simp only [poke]
      by_cases hl : k = l
      · subst hl; simp [hk]
      · have : ¬ (p.1, p.2 + l) = (p.1, p.2 + k) := by
          rw [Prod.mk.injEq]; omega
        simp [hl, this]
    · cases h
  · cases h

theorem read_write_apart {s t : State α} {i j k : Nat} {v : α} (h : step s (.write j k v) = .ok t)
    (ha : Apart s j i) (l : Nat) : read t i l = read s i l := by
  have ho := step_write_objs h
  simp only [Aligned.step] at h
  split at h
  · next size c p hj =>
    split at h
    · next hk =>
      cases h
      unfold read
      rw [ho]
      split
      · next size' c' p' hi =>
        have hne : p.1 ≠ p'.1 := ha _ _ p p' hj hi rfl rfl
        have : ¬ (p'.1, p'.2 + l) = (p.1, p.2 + k) := by
          rw [Prod.mk.injEq]
          exact fun h => hne h.1.symm
        simp only [poke, if_neg this]
      · rfl
    · cases h
  · cases h

/-- Two owners are apart. -/
theorem Inv.apart {s : State α} (hs : Inv s) {i j b c : Nat} (hi : Owns s i b) (hj : Owns s j c) (hij : i ≠ j) :
    Apart s i j := by
  intro o q p p' ho hq hp hp'
  obtain ⟨o', ho', hb⟩ := hi
  obtain ⟨q', hq', hc⟩ := hj
  rw [ho] at ho'; cases ho'
  rw [hq] at hq'; cases hq'
  have h1 := hs.owned_data i o b ho hb
  have h2 := hs.owned_data j q c hq hc
  rw [hp] at h1; cases h1
  rw [hp'] at h2; cases h2
  intro h
  cases h
  exact hij (hs.unique i j b ⟨o, ho, hb⟩ ⟨q, hq, hc⟩)

/-- The effect of a successful deep copy to object `j`. -/
theorem deepCopy {s u : State α} (hs : Inv s) {i j b : Nat} {o : Buffer} (ok : Bool) (hij : i ≠ j)
    (ho : s.objs i = some o) (hb : o.container = some b)
    (hc : copyTo (malloc s ok).1 o.data (malloc s ok).2 o.size = .ok u) :
    let t := setObj u j (some ⟨o.size, (malloc s ok).2, (malloc s ok).2.map fun b => (.heap b, 0)⟩)
    t.objs i = some o ∧ Apart t i j ∧ ∀ k, read t i k = read s i k ∧ read t j k = read s i k := by
  have hd := hs.owned_data i o b ho hb
  have hlive := hs.owned_live i b ⟨o, ho, hb⟩
  have hlt := hs.fresh b hlive
  have hobj : u.objs = s.objs := by
    rw [(copyTo_same hc).1]
    cases ok <;> rfl
  intro t
  have hti : t.objs i = some o := by
    simp only [t, setObj, if_neg hij, hobj, ho]
  have htj : t.objs j = some ⟨o.size, (malloc s ok).2, (malloc s ok).2.map fun b => (.heap b, 0)⟩ := by
    simp [t, setObj]
  obtain ⟨n, c, d⟩ := o
  simp only at hb hd hc ho htj hti
  subst hb hd
  refine ⟨hti, ?_, ?_⟩
  · intro o' q p p' h1 h2 h3 h4
    rw [hti] at h1; cases h1
    rw [htj] at h2; cases h2
    cases h3
    cases ok with
    | false => simp [malloc] at h4
    | true =>
      simp only [malloc, if_true, Option.map_some, Option.some.injEq] at h4
      subst h4
      simp
      omega
  · intro k
    have hmem : t.mem = u.mem := rfl
    cases n with
    | zero =>
      unfold read
      rw [hti, htj, ho]
      simp
      cases ok <;> simp [malloc]
    | succ n =>
      cases ok with
      | false => simp [copyTo, malloc] at hc
      | true =>
        simp only [malloc, if_true, copyTo] at hc
        cases hc
        simp only [malloc, if_true, Option.map_some] at htj
        unfold read
        rw [hti, htj, ho]
        simp only [hmem]
        rw [copyN_mem _ _ _ (by simp; omega), copyN_mem _ _ _ (by simp; omega)]
        have hbn : ¬ (Region.heap b = Region.heap s.next) := by simp; omega
        constructor
        · simp [hbn]
        · by_cases hk : k < n + 1
          · simp [hk]
          · simp [hk]

end Litl.Aligned
