import Verif.Model.SeqUtils
import Verif.Lemmas.Arithmetic

/-!
# Lemmas on sequence utilities
-/

namespace Litl

variable {α β σ τ : Type _}

/-- `readAt` in terms of `getElem?`. -/
theorem readAt_nat (l : List α) (k : Nat) :
    readAt l (k : Int) = match l[k]? with | some x => .ok x | none => .error .ub := by
  unfold readAt
  rw [if_neg (by omega), Int.toNat_natCast]
  cases l[k]? <;> rfl

/-- `writeAt` in terms of the length. -/
theorem writeAt_nat (l : List α) (k : Nat) (x : α) :
    writeAt l (k : Int) x = if k < l.length then .ok (l.set k x) else .error .ub := by
  unfold writeAt
  rw [if_neg (by omega), Int.toNat_natCast]

/-- A monadic fold is a fold of the monadic value. -/
theorem foldlM_eq_foldl_bind (step : τ → Nat → Res τ) (l : List Nat) (r : Res τ) :
    (r >>= fun t => l.foldlM step t) = l.foldl (fun r i => r >>= fun t => step t i) r := by
  induction l generalizing r with
  | nil => cases r <;> rfl
  | cons i l ih =>
    rw [List.foldl_cons, ← ih]
    cases r <;> rfl

/-- The order of steps which commute does not matter. -/
theorem foldlM_perm {step : τ → Nat → Res τ} {l l' : List Nat} (hp : l.Perm l') (t : τ)
    (comm : ∀ i ∈ l, ∀ j ∈ l, i ≠ j → ∀ t, (step t i >>= fun t => step t j) = (step t j >>= fun t => step t i)) :
    l.foldlM step t = l'.foldlM step t := by
  have e : ∀ l : List Nat, l.foldlM step t = l.foldl (fun r i => r >>= fun t => step t i) (.ok t) := by
    intro l
    rw [← foldlM_eq_foldl_bind]
    rfl
  rw [e, e]
  apply hp.foldl_eq'
  intro i hi j hj r
  by_cases hij : i = j
  · rw [hij]
  · cases r with
    | error e => rfl
    | ok t => exact comm i hi j hj hij t

namespace Seq

/-! ## Arguments -/

theorem argumentStep_eq (mem : List α) (its : List Nat) (args : List (Option α)) (k : Nat) :
    argumentStep mem (its, args) k =
      match its[k]? with
      | none => .error .ub
      | some p =>
        match mem[p]? with
        | none => .error .ub
        | some x => if k < args.length then .ok (its.set k (p + 1), args.set k (some x)) else .error .ub := by
  unfold argumentStep
  rw [readAt_nat]
  cases hk : its[k]? with
  | none => rfl
  | some p =>
    have hk' : k < its.length := (List.getElem?_eq_some_iff.1 hk).1
    change (readAt mem (p : Int) >>= _) = _
    rw [readAt_nat]
    dsimp only
    cases hp : mem[p]? with
    | none => rfl
    | some x =>
      change ((writeAt its (k : Int) (p + 1)) >>= _) = _
      rw [writeAt_nat, if_pos hk']
      change ((writeAt args (k : Int) (some x)) >>= _) = _
      rw [writeAt_nat]
      dsimp only
      split <;> rfl

theorem argumentStep_comm (mem : List α) (st : List Nat × List (Option α)) (i j : Nat) (hij : i ≠ j) :
    (argumentStep mem st i >>= fun t => argumentStep mem t j) =
      (argumentStep mem st j >>= fun t => argumentStep mem t i) := by
  obtain ⟨its, args⟩ := st
  rw [argumentStep_eq, argumentStep_eq]
  cases hi : its[i]? with
  | none =>
    cases hj : its[j]? with
    | none => rfl
    | some q =>
      dsimp only
      cases hq : mem[q]? with
      | none => rfl
      | some y =>
        dsimp only
        split
        · change _ = argumentStep mem _ i
          rw [argumentStep_eq, List.getElem?_set_ne hij.symm, hi]
          rfl
        · rfl
  | some p =>
    dsimp only
    cases hp : mem[p]? with
    | none =>
      cases hj : its[j]? with
      | none => rfl
      | some q =>
        dsimp only
        cases hq : mem[q]? with
        | none => rfl
        | some y =>
          dsimp only
          split
          · change _ = argumentStep mem _ i
            rw [argumentStep_eq, List.getElem?_set_ne hij.symm, hi]
            dsimp only
            rw [hp]
            rfl
          · rfl
    | some x =>
      dsimp only
      by_cases h1 : i < args.length
      · rw [if_pos h1]
        change argumentStep mem _ j = _
        rw [argumentStep_eq, List.getElem?_set_ne hij]
        cases hj : its[j]? with
        | none => rfl
        | some q =>
          dsimp only
          cases hq : mem[q]? with
          | none => rfl
          | some y =>
            dsimp only
            rw [List.length_set]
            by_cases h2 : j < args.length
            · rw [if_pos h2, if_pos h2]
              change _ = argumentStep mem _ i
              rw [argumentStep_eq, List.getElem?_set_ne hij.symm, hi]
              dsimp only
              rw [hp]
              dsimp only
              rw [List.length_set, if_pos h1, List.set_comm _ _ hij, List.set_comm _ _ hij]
            · rw [if_neg h2, if_neg h2]
              rfl
      · rw [if_neg h1]
        cases hj : its[j]? with
        | none => rfl
        | some q =>
          dsimp only
          cases hq : mem[q]? with
          | none => rfl
          | some y =>
            dsimp only
            by_cases h2 : j < args.length
            · rw [if_pos h2]
              change _ = argumentStep mem _ i
              rw [argumentStep_eq, List.getElem?_set_ne hij.symm, hi]
              dsimp only
              rw [hp]
              dsimp only
              rw [List.length_set, if_neg h1]
              rfl
            · rw [if_neg h2]
              rfl

/-- From left to right. -/
theorem arguments_left_to_right (mem : List α) (its pre : List Nat) (args : List (Option α))
    (h : args.length = pre.length) :
    (List.range' pre.length its.length).foldlM (argumentStep mem)
        (pre ++ its, args ++ List.replicate its.length none) =
      (its.mapM fun p : Nat => readAt mem (p : Int)).map
        fun xs => (pre ++ its.map (· + 1), args ++ xs.map some) := by
  induction its generalizing pre args with
  | nil => simp [pure, Except.pure, Except.map]
  | cons p its ih =>
    rw [List.length_cons, List.range'_succ, List.foldlM_cons, argumentStep_eq, List.mapM_cons, readAt_nat,
      List.getElem?_append_right (le_refl _), Nat.sub_self]
    dsimp only [List.getElem?_cons_zero]
    cases hp : mem[p]? with
    | none => rfl
    | some x =>
      dsimp only
      rw [if_pos (by simp; omega)]
      change List.foldlM _ _ _ = _
      have e1 : (pre ++ p :: its).set pre.length (p + 1) = (pre ++ [p + 1]) ++ its := by
        rw [List.set_append_right _ _ (le_refl _), Nat.sub_self]
        simp
      have e2 : (args ++ List.replicate (its.length + 1) none).set pre.length (some x) =
          (args ++ [some x]) ++ List.replicate its.length none := by
        rw [← h, List.set_append_right _ _ (le_refl _), Nat.sub_self, List.replicate_succ]
        simp
      have := ih (pre ++ [p + 1]) (args ++ [some x]) (by simp [h])
      rw [e1, e2]
      rw [List.length_append, List.length_singleton] at this
      rw [this]
      change _ = ((Except.ok x >>= _) : Res _).map _
      cases (its.mapM fun p : Nat => readAt mem (p : Int)) with
      | error e => rfl
      | ok xs => simp [Except.map, bind, Except.bind, pure, Except.pure]

/-- Whatever the order. -/
theorem ArgumentsEvaluate_iff (mem : List α) (its : List Nat) (r : Res (List Nat × List (Option α))) :
    ArgumentsEvaluate mem its r ↔
      r = (its.mapM fun p : Nat => readAt mem (p : Int)).map fun xs => (its.map (· + 1), xs.map some) := by
  have hr := arguments_left_to_right mem its [] [] rfl
  simp only [List.nil_append, List.length_nil, ← List.range_eq_range'] at hr
  constructor
  · rintro ⟨order, hp, rfl⟩
    rw [foldlM_perm hp _
      (fun i _ j _ hij t => argumentStep_comm mem t i j hij), hr]
  · rintro rfl
    exact ⟨_, List.Perm.refl _, hr.symm⟩

/-! ## Generation -/

/-- One iteration has one outcome. -/
theorem GenerateSteps_iff (f : List α → σ → α × σ) (a i : Nat) (mem : List α) (s : σ) (bs : List Nat)
    (r : Res (List α × σ × List Nat)) :
    GenerateSteps f (a + i) (mem, s, bs.map (· + i)) r ↔
      r = (Container.generateStep f a bs (mem, s) i).map fun ms => (ms.1, ms.2, bs.map (· + (i + 1))) := by
  unfold GenerateSteps
  dsimp only
  simp only [ArgumentsEvaluate_iff, exists_eq_left, List.mapM_map, List.map_map]
  have e : (fun p : Nat => readAt mem ((p + i : Nat) : Int)) = fun b : Nat => readAt mem ((b + i : Nat) : Int) := rfl
  have e' : ((fun x => x + 1) ∘ fun x => x + i) = fun x : Nat => x + (i + 1) := by
    funext x
    simp only [Function.comp]
    omega
  unfold Container.generateStep Container.readArgs
  rw [e']
  have : ∀ a b : Res (List α × σ × List Nat), a = b → (r = a ↔ r = b) := by
    intro a b h
    rw [h]
  apply this
  change ((List.mapM (fun b : Nat => readAt mem ((b + i : Nat) : Int)) bs).map _ >>= _) = _
  cases (List.mapM (fun b : Nat => readAt mem ((b + i : Nat) : Int)) bs) with
  | error e => rfl
  | ok xs =>
    change (writeAt mem _ (f ((xs.map some).filterMap id) s).1 >>= _) = (writeAt mem _ (f xs s).1 >>= _ : Res _).map _
    rw [show (xs.map some).filterMap id = xs by simp]
    cases writeAt mem ((a + i : Nat) : Int) (f xs s).1 <;> rfl

/-- The loop has one outcome. -/
theorem GenerateLoops_iff (f : List α → σ → α × σ) (a n i : Nat) (mem : List α) (s : σ) (bs : List Nat)
    (r : Res (List α × σ × List Nat)) :
    GenerateLoops f (a + i) n (mem, s, bs.map (· + i)) r ↔
      r = ((List.range' i n).foldlM (Container.generateStep f a bs) (mem, s)).map
        fun ms => (ms.1, ms.2, bs.map (· + (i + n))) := by
  induction n generalizing i mem s r with
  | zero =>
    constructor
    · intro h
      cases h
      rfl
    · rintro rfl
      exact .done
  | succ n ih =>
    rw [List.range'_succ, List.foldlM_cons]
    constructor
    · intro h
      cases h with
      | fail h =>
        rw [GenerateSteps_iff] at h
        cases hg : Container.generateStep f a bs (mem, s) i with
        | error e =>
          rw [hg] at h
          exact h
        | ok ms =>
          rw [hg] at h
          cases h
      | next h hn =>
        rw [GenerateSteps_iff] at h
        cases hg : Container.generateStep f a bs (mem, s) i with
        | error e =>
          rw [hg] at h
          cases h
        | ok ms =>
          rw [hg] at h
          cases h
          change GenerateLoops f (a + (i + 1)) n (ms.1, ms.2, bs.map (· + (i + 1))) r at hn
          rw [ih (i + 1) ms.1 ms.2] at hn
          rw [hn, show i + 1 + n = i + (n + 1) by omega]
          rfl
    · intro h
      cases hg : Container.generateStep f a bs (mem, s) i with
      | error e =>
        rw [hg] at h
        subst h
        refine .fail ?_
        rw [GenerateSteps_iff, hg]
        rfl
      | ok ms =>
        rw [hg] at h
        refine .next (st' := (ms.1, ms.2, bs.map (· + (i + 1)))) ?_ ?_
        · rw [GenerateSteps_iff, hg]
          rfl
        · rw [Nat.add_assoc, ih (i + 1) ms.1 ms.2, h, show i + 1 + n = i + (n + 1) by omega]
          rfl

/-! ## Element-wise operators -/

theorem vectorStep_eq (op : α → α → α) (a b : Nat) (mem : List α) (i : Nat) :
    Container.vectorStep op a b mem i =
      match mem[a + i]?, mem[b + i]? with
      | some x, some y => .ok (mem.set (a + i) (op x y))
      | _, _ => .error .ub := by
  unfold Container.vectorStep
  rw [readAt_nat, readAt_nat]
  cases ha : mem[a + i]? with
  | none => rfl
  | some x =>
    cases hb : mem[b + i]? with
    | none => rfl
    | some y =>
      change writeAt mem ((a + i : Nat) : Int) (op x y) = _
      rw [writeAt_nat, if_pos (List.getElem?_eq_some_iff.1 ha).1]

theorem vectorStep_comm (op : α → α → α) (a b : Nat) (mem : List α) (i j : Nat) (hij : i ≠ j)
    (h1 : a + i ≠ b + j) (h2 : a + j ≠ b + i) :
    (Container.vectorStep op a b mem i >>= fun t => Container.vectorStep op a b t j) =
      (Container.vectorStep op a b mem j >>= fun t => Container.vectorStep op a b t i) := by
  have key : ∀ i j : Nat, i ≠ j → a + i ≠ b + j → a + j ≠ b + i →
      (Container.vectorStep op a b mem i >>= fun t => Container.vectorStep op a b t j) =
      match mem[a + i]?, mem[b + i]?, mem[a + j]?, mem[b + j]? with
      | some x, some y, some x', some y' => .ok ((mem.set (a + i) (op x y)).set (a + j) (op x' y'))
      | _, _, _, _ => .error .ub := by
    intro i j hij h1 h2
    rw [vectorStep_eq]
    cases ha : mem[a + i]? with
    | none => rfl
    | some x =>
      cases hb : mem[b + i]? with
      | none => rfl
      | some y =>
        change Container.vectorStep op a b _ j = _
        rw [vectorStep_eq, List.getElem?_set_ne (by omega), List.getElem?_set_ne (by omega)]
        cases mem[a + j]? with
        | none => rfl
        | some x' =>
          cases mem[b + j]? <;> rfl
  rw [key i j hij h1 h2, key j i hij.symm h2 h1]
  cases mem[a + i]? <;> cases mem[b + i]? <;> cases mem[a + j]? <;> cases mem[b + j]? <;> try rfl
  dsimp only
  rw [List.set_comm _ _ (by omega)]

theorem scalarStep_eq (op : α → α → α) (a k : Nat) (mem : List α) (i : Nat) :
    Container.scalarStep op a k mem i =
      match mem[a + i]?, mem[k]? with
      | some x, some y => .ok (mem.set (a + i) (op x y))
      | _, _ => .error .ub := by
  unfold Container.scalarStep
  rw [readAt_nat, readAt_nat]
  cases ha : mem[a + i]? with
  | none => rfl
  | some x =>
    cases hb : mem[k]? with
    | none => rfl
    | some y =>
      change writeAt mem ((a + i : Nat) : Int) (op x y) = _
      rw [writeAt_nat, if_pos (List.getElem?_eq_some_iff.1 ha).1]

theorem scalarStep_comm (op : α → α → α) (a k : Nat) (mem : List α) (i j : Nat) (hij : i ≠ j)
    (h1 : a + i ≠ k) (h2 : a + j ≠ k) :
    (Container.scalarStep op a k mem i >>= fun t => Container.scalarStep op a k t j) =
      (Container.scalarStep op a k mem j >>= fun t => Container.scalarStep op a k t i) := by
  have key : ∀ i j : Nat, i ≠ j → a + i ≠ k → a + j ≠ k →
      (Container.scalarStep op a k mem i >>= fun t => Container.scalarStep op a k t j) =
      match mem[a + i]?, mem[a + j]?, mem[k]? with
      | some x, some x', some y => .ok ((mem.set (a + i) (op x y)).set (a + j) (op x' y))
      | _, _, _ => .error .ub := by
    intro i j hij h1 h2
    rw [scalarStep_eq]
    cases ha : mem[a + i]? with
    | none => rfl
    | some x =>
      cases hb : mem[k]? with
      | none => cases mem[a + j]? <;> rfl
      | some y =>
        change Container.scalarStep op a k _ j = _
        rw [scalarStep_eq, List.getElem?_set_ne (by omega), List.getElem?_set_ne (by omega), hb]
        cases mem[a + j]? <;> rfl
  rw [key i j hij h1 h2, key j i hij.symm h2 h1]
  cases mem[a + i]? <;> cases mem[a + j]? <;> cases mem[k]? <;> try rfl
  dsimp only
  rw [List.set_comm _ _ (by omega)]

end Seq

end Litl
