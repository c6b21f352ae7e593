import Verif.Model.ProgramOptions

/-!
# C77: command lines
-/

namespace Litl

namespace Spec

namespace ProgramOptions

open Litl.ProgramOptions (Decl)

variable {V : Type}

/-- The last token given to option `name` in a command line (`some none` for an option given without token). -/
def given (items : List (String × Option String)) (name : String) : Option (Option String) :=
  ((items.reverse).find? (fun i => i.1 == name)).map (·.2)

/-- The value of an option in a command line, when given. -/
def valueOf (d : Decl V) : Option String → Option V
  | none => d.implicit
  | some token => d.convert token

/-- The value of option `d` for a command line: the given one, or the default one, if any. -/
def lineValue (d : Decl V) (items : List (String × Option String)) : Option V :=
  match given items d.name with
  | some token => valueOf d token
  | none => d.default

/-- The blank characters of the "C" locale: space, tabulation, end of line, vertical tabulation, form feed, carriage return. -/
def Blank (c : Char) : Prop := c = ' ' ∨ 9 ≤ c.toNat ∧ c.toNat ≤ 13

/-- `ws` are the words of `s`: the maximal sequences of characters which are not spaces. -/
inductive Splits : List Char → List (List Char) → Prop where
  | nil {s : List Char} : (∀ c ∈ s, Blank c) → Splits s []
  | cons {lead w rest : List Char} {ws : List (List Char)} : (∀ c ∈ lead, Blank c) → w ≠ [] →
      (∀ c ∈ w, ¬ Blank c) → (∀ c, rest.head? = some c → Blank c) → Splits rest ws →
      Splits (lead ++ w ++ rest) (w :: ws)

end ProgramOptions

end Spec

namespace ProgramOptions

open Spec.ProgramOptions

variable {V : Type}

/-- The successive command lines are stored without exception. -/
inductive Stores (decls : List (Decl V)) : List (List (String × Option String)) → Vars V → Prop where
  | init : Stores decls [] (Vars.init V)
  | line {lines : List (List (String × Option String))} {vars vars' : Vars V} {items : List (String × Option String)} :
      Stores decls lines vars → store decls items vars = (vars', false) → Stores decls (lines ++ [items]) vars'

/-- `Res` of an optional value. -/
def ofOption : Option V → Res V
  | some v => .ok v
  | none => .error .stdError

/-- **C77**, full statement: after `parse()`, the value of an option is that given in the command line, or else the default
one. -/
def C77_Statement : Prop :=
  ∀ (V : Type) (decls : List (Decl V)) lines items vars, Stores decls (lines ++ [items]) vars →
    ∀ name d, find decls name = some d → as vars name = ofOption (lineValue d items)

theorem find_name {decls : List (Decl V)} {name : String} {d : Decl V} (h : find decls name = some d) : d.name = name := by
  have := List.find?_some h
  simpa using this

theorem given_append (a b : List (String × Option String)) (n : String) :
    given (a ++ b) n = (given b n).or (given a n) := by
  simp [given, List.find?_append, Option.map_or]

theorem given_cons (i : String × Option String) (b : List (String × Option String)) (n : String) :
    given (i :: b) n = (given b n).or (if i.1 = n then some i.2 else none) := by
  have := given_append [i] b n
  simp only [List.singleton_append] at this
  rw [this]
  congr 1
  by_cases h : i.1 = n <;> simp [given, h]

/-- What the first loop of `store` does when it throws no exception. -/
theorem storeGiven_ok {decls : List (Decl V)} {items : List (String × Option String)} {vars vars' : Vars V}
    {new new' : List String} (h : storeGiven decls items vars new = (vars', new', false)) :
    vars'.final = vars.final ∧
    (∀ n, vars.final n = true → vars'.cells n = vars.cells n) ∧
    (∀ n, vars.final n = false → given items n = none → vars'.cells n = vars.cells n) ∧
    (∀ n t, vars.final n = false → given items n = some t →
      ∃ d v, find decls n = some d ∧ valueOf d t = some v ∧ vars'.cells n = some ⟨some v, false⟩) ∧
    (∀ n, new'.contains n = true ↔ new.contains n = true ∨ vars.final n = false ∧ (given items n).isSome) := by
  induction items generalizing vars new with
  | nil =>
    simp [storeGiven] at h
    obtain ⟨rfl, rfl⟩ := h
    simp [given]
  | cons i items ih =>
    obtain ⟨name, token⟩ := i
    unfold storeGiven at h
    split at h
    · next hf =>
      obtain ⟨h1, h2, h3, h4, h5⟩ := ih h
      refine ⟨h1, h2, ?_, ?_, ?_⟩
      · intro n hn hg
        refine h3 n hn ?_
        rw [given_cons] at hg
        simpa using (by simpa using hg : _ ∧ _).1
      · intro n t hn hg
        refine h4 n t hn ?_
        have : name ≠ n := by rintro rfl; rw [hn] at hf; cases hf
        simpa [given_cons, this] using hg
      · intro n
        rw [h5]
        by_cases hn : vars.final n = true
        · simp [hn]
        · have : name ≠ n := by rintro rfl; exact hn hf
          simp [given_cons, this]
    · next hf =>
      split at h
      · cases h
      · next d hd =>
        split at h
        · cases h
        · next v hv =>
          obtain ⟨h1, h2, h3, h4, h5⟩ := ih h
          have hval : valueOf d token = some v := by
            cases token with
            | none => exact hv
            | some tok =>
              simp only [parseValue] at hv
              exact (Option.ite_none_left_eq_some.1 hv).2
          refine ⟨h1, ?_, ?_, ?_, ?_⟩
          · intro n hn
            have : n ≠ name := by rintro rfl; exact hf hn
            rw [h2 n hn]; simp [Vars.set, this]
          · intro n hn hg
            rw [given_cons] at hg
            have hg' : given items n = none ∧ name ≠ n := by
              cases hgi : given items n <;> simp [hgi] at hg
              exact ⟨rfl, hg⟩
            rw [h3 n hn hg'.1]; simp [Vars.set, hg'.2.symm]
          · intro n t hn hg
            rw [given_cons] at hg
            cases hgi : given items n with
            | some t' =>
              simp [hgi] at hg; subst hg
              exact h4 n t' hn hgi
            | none =>
              simp [hgi] at hg
              obtain ⟨rfl, rfl⟩ := hg
              exact ⟨d, v, hd, hval, by rw [h3 name hn hgi]; simp [Vars.set]⟩
          · intro n
            rw [h5]
            have hfn : (vars.set name ⟨some v, false⟩).final n = vars.final n := rfl
            rw [hfn, given_cons]
            by_cases hnn : n = name
            · subst hnn
              have : vars.final n = false := by simpa using hf
              simp [this]
            · have : name ≠ n := fun e => hnn e.symm
              simp [hnn, this]

/-- The state after successful command lines: an option has the value of the first command line which gives it. -/
theorem stores_spec {decls : List (Decl V)} {lines : List (List (String × Option String))} {vars : Vars V}
    (h : Stores decls lines vars) (n : String) :
    match lines.findSome? (fun items => given items n) with
    | some t => vars.final n = true ∧ ∃ d v, find decls n = some d ∧ valueOf d t = some v ∧
        vars.cells n = some ⟨some v, false⟩
    | none => vars.final n = false ∧
        ((lines = [] ∧ vars.cells n = none) ∨
        (lines ≠ [] ∧ vars.cells n = (find decls n).bind fun d => d.default.map fun v => ⟨some v, true⟩)) := by
  induction h with
  | init => simp [Vars.init]
  | @line lines vars vars' items _ hs ih =>
    unfold store at hs
    split at hs
    · cases hs
    · next vars1 new hg =>
      cases hs
      obtain ⟨h1, h2, h3, h4, h5⟩ := storeGiven_ok hg
      rw [List.findSome?_append]
      cases hl : lines.findSome? (fun items => given items n) with
      | some t =>
        simp only [hl, Option.some_or] at ih ⊢
        obtain ⟨hf, d, v, hd, hv, hc⟩ := ih
        refine ⟨by simp [storeDefaults, h1, hf], d, v, hd, hv, ?_⟩
        simp [storeDefaults, h2 n hf, hc]
      | none =>
        simp only [hl, Option.none_or] at ih ⊢
        obtain ⟨hf, hc⟩ := ih
        cases hgn : given items n with
        | some t =>
          obtain ⟨d, v, hd, hv, hc'⟩ := h4 n t hf hgn
          simp only [List.findSome?_singleton, hgn]
          refine ⟨?_, d, v, hd, hv, by simp [storeDefaults, hc']⟩
          simp only [storeDefaults, Bool.or_eq_true]
          exact .inr ((h5 n).2 (.inr ⟨hf, by simp [hgn]⟩))
        | none =>
          simp only [List.findSome?_singleton, hgn]
          refine ⟨?_, .inr ⟨by simp, ?_⟩⟩
          · simp only [storeDefaults, h1, hf, Bool.false_or]
            cases hc' : new.contains n with
            | false => rfl
            | true =>
              have := (h5 n).1 hc'
              simp [hgn] at this
          · simp only [storeDefaults, h3 n hf hgn]
            rcases hc with ⟨_, hc⟩ | ⟨_, hc⟩
            · rw [hc]
            · rw [hc]
              cases hfd : find decls n with
              | none => rfl
              | some d => cases hdd : d.default <;> simp [hdd]

/-- **C77**: after any number of command lines, the value of an option is that of the first one which gives it, or else the
default one. -/
theorem C77_first {decls : List (Decl V)} {lines : List (List (String × Option String))} {vars : Vars V}
    (h : Stores decls lines vars) (hl : lines ≠ []) {name : String} {d : Decl V} (hd : find decls name = some d) :
    as vars name = ofOption
      (match lines.findSome? (fun items => given items name) with
      | some t => valueOf d t
      | none => d.default) := by
  have := stores_spec h name
  cases hf : lines.findSome? (fun items => given items name) with
  | some t =>
    simp only [hf] at this
    obtain ⟨_, d', v, hd', hv, hc⟩ := this
    rw [hd] at hd'; cases hd'
    simp [as, hc, hv, ofOption]
  | none =>
    simp only [hf] at this
    obtain ⟨_, ⟨h1, _⟩ | ⟨_, hc⟩⟩ := this
    · exact absurd h1 hl
    · cases hdd : d.default <;> simp [as, hc, hd, hdd, ofOption]

/-- **C77**, partial: the value of an option which is not given in the earlier command lines is that of the command line,
or else the default one; in particular after the first `parse()`.
Missing: options which are given in an earlier command line, which keep their value; see `C77_first`. -/
theorem C77_partial {decls : List (Decl V)} {lines : List (List (String × Option String))}
    {items : List (String × Option String)} {vars : Vars V} (h : Stores decls (lines ++ [items]) vars) {name : String}
    {d : Decl V} (hd : find decls name = some d) (hn : ∀ l ∈ lines, given l name = none) :
    as vars name = ofOption (lineValue d items) := by
  rw [C77_first h (by simp) hd, List.findSome?_append, List.findSome?_eq_none_iff.2 hn]
  have hdn := find_name hd
  simp only [lineValue, Option.none_or, List.findSome?_singleton, hdn]

/-- An option whose values are strings. -/
def textOption : Decl String := { name := "text", convert := some }

theorem storesTwice : ∃ vars, Stores [textOption] ([[("text", some "a")]] ++ [[("text", some "b")]]) vars :=
  ⟨_, .line (lines := [[("text", some "a")]]) (.line (lines := []) .init rfl) rfl⟩

/-- **C77** is violated by a second command line. -/
theorem C77_violated : ¬ C77_Statement := by
  intro h
  obtain ⟨vars, hs⟩ := storesTwice
  have h1 := h String _ _ _ vars hs "text" textOption rfl
  rw [C77_first hs (by simp) (d := textOption) rfl] at h1
  have h2 : (Except.ok "a" : Res String) = Except.ok "b" := h1
  simp at h2

/-- Non-vacuity of `C77_partial`: the second command line is that which gives the value. -/
example : ∃ vars, Stores [textOption] ([[]] ++ [[("text", some "b")]]) vars ∧ as vars "text" = .ok "b" := by
  have : ∃ vars, Stores [textOption] ([[]] ++ [[("text", some "b")]]) vars :=
    ⟨_, .line (lines := [[]]) (.line (lines := []) .init rfl) rfl⟩
  obtain ⟨vars, hs⟩ := this
  exact ⟨vars, hs, C77_partial (name := "text") hs (d := textOption) rfl (by simp [given])⟩

/-! ## Exceptions -/

/-- An option which has a value, but not a final one, cannot be given again. -/
theorem storeGiven_again {decls : List (Decl V)} {items : List (String × Option String)} {vars : Vars V}
    {new : List String} {n : String} {v : V} {t : String} (hf : vars.final n = false)
    (hc : vars.cells n = some ⟨some v, false⟩) (hi : (n, some t) ∈ items) :
    ((storeGiven decls items vars new).2).2 = true := by
  induction items generalizing vars new v with
  | nil => cases hi
  | cons i items ih =>
    obtain ⟨name, token⟩ := i
    unfold storeGiven
    split
    · next hfn =>
      refine ih hf hc ?_
      rcases List.mem_cons.1 hi with e | e
      · cases e; rw [hf] at hfn; cases hfn
      · exact e
    · split
      · rfl
      · next d hd =>
        split
        · rfl
        · next v' hv =>
          rcases List.mem_cons.1 hi with e | e
          · cases e
            simp [Vars.explicit, hc, parseValue] at hv
          · by_cases hn : n = name
            · exact ih (v := v') hf (by simp [Vars.set, hn]) e
            · exact ih (v := v) hf (by simp [Vars.set, hn, hc]) e

theorem storeGiven_append {decls : List (Decl V)} {a b : List (String × Option String)} {vars : Vars V}
    {new : List String} : storeGiven decls (a ++ b) vars new =
      if ((storeGiven decls a vars new).2).2 then storeGiven decls a vars new
      else storeGiven decls b (storeGiven decls a vars new).1 ((storeGiven decls a vars new).2).1 := by
  induction a generalizing vars new with
  | nil => simp [storeGiven]
  | cons i a ih =>
    obtain ⟨name, token⟩ := i
    rw [List.cons_append, storeGiven, storeGiven]
    by_cases hf : vars.final name = true
    · simp only [hf, if_true]; exact ih
    · simp only [hf, Bool.false_eq_true, if_false]
      cases hd : find decls name with
      | none => simp
      | some d =>
        dsimp only
        rcases Option.eq_none_or_eq_some (parseValue d (vars.explicit name) token) with hv | ⟨v, hv⟩
        · simp only [hv, if_true]
        · simp only [hv]; exact ih

/-- **C77**: a command line which throws is not forgotten.  If an option of value not yet given precedes the faulty
one, then any later command line which gives that option throws, even if it is faultless. -/
theorem C77_after_failure {decls : List (Decl V)} {pre post items : List (String × Option String)} {vars vars' : Vars V}
    {n bad : String} {t : String} {token : Option String} {d : Decl V} (hn : vars.final n = false)
    (hpre : store decls pre vars = (vars', false)) (hg : (given pre n).isSome)
    (hb : vars.final bad = false) (hbn : bad ≠ n) (hd : find decls bad = some d) (hv : valueOf d token = none)
    (hi : (n, some t) ∈ items) :
    (store decls (pre ++ (bad, token) :: post) vars).2 = true ∧
    (store decls items (store decls (pre ++ (bad, token) :: post) vars).1).2 = true := by
  obtain ⟨vars1, new, h1⟩ : ∃ vars1 new, storeGiven decls pre vars [] = (vars1, new, false) := by
    unfold store at hpre
    split at hpre
    · cases hpre
    · next a b h => exact ⟨a, b, h⟩
  obtain ⟨g1, _, _, g4, _⟩ := storeGiven_ok h1
  obtain ⟨tn, htn⟩ := Option.isSome_iff_exists.1 hg
  obtain ⟨dn, vn, _, _, hcn⟩ := g4 n tn hn htn
  have hfail : ∃ old, storeGiven decls (pre ++ (bad, token) :: post) vars [] = (vars1.set bad ⟨old, false⟩, new, true) := by
    rw [storeGiven_append, h1]
    simp only [Bool.false_eq_true, if_false]
    unfold storeGiven
    have hfb : vars1.final bad = false := by rw [g1]; exact hb
    simp only [hfb, Bool.false_eq_true, if_false, hd]
    split
    · exact ⟨_, rfl⟩
    · next v hpv =>
      exfalso
      cases token with
      | none => simp only [parseValue] at hpv; simp only [valueOf] at hv; rw [hv] at hpv; cases hpv
      | some tok =>
        simp only [parseValue] at hpv
        have := (Option.ite_none_left_eq_some.1 hpv).2
        simp only [valueOf] at hv
        rw [hv] at this; cases this
  obtain ⟨old, hfail⟩ := hfail
  have hs : store decls (pre ++ (bad, token) :: post) vars = (vars1.set bad ⟨old, false⟩, true) := by
    simp [store, hfail]
  rw [hs]
  refine ⟨rfl, ?_⟩
  have := storeGiven_again (decls := decls) (new := []) (vars := vars1.set bad ⟨old, false⟩) (n := n) (v := vn)
    (show vars1.final n = false by rw [g1]; exact hn) (by simp [Vars.set, hbn.symm, hcn]) hi
  simp only [store]
  generalize storeGiven decls items (vars1.set bad ⟨old, false⟩) [] = res at this
  obtain ⟨a, b, c⟩ := res
  simp at this
  subst this
  rfl

/-- Non-vacuity: `--text a --number x` throws because `x` is not a number; then `--text b` throws. -/
example : let decls : List (Decl String) := [textOption, { name := "number", convert := fun _ => none }]
    (store decls [("text", some "a"), ("number", some "x")] (Vars.init String)).2 = true ∧
    (store decls [("text", some "b")]
      (store decls [("text", some "a"), ("number", some "x")] (Vars.init String)).1).2 = true ∧
    (store decls [("text", some "b")] (Vars.init String)).2 = false := by
  intro decls
  have := C77_after_failure (decls := decls) (pre := [("text", some "a")]) (post := []) (items := [("text", some "b")])
    (vars := Vars.init String) (n := "text") (bad := "number") (t := "b") (token := some "x")
    (d := { name := "number", convert := fun _ => none }) rfl rfl rfl rfl (by decide) rfl rfl (by simp)
  exact ⟨this.1, this.2, rfl⟩

/-- When the first loop of `store` throws no exception: each option which is not final is declared and its token is
convertible, and an option with a token has no value yet. -/
theorem storeGiven_accepts {decls : List (Decl V)} {items : List (String × Option String)} {vars : Vars V}
    {new : List String} : ((storeGiven decls items vars new).2).2 = false ↔
      ∀ pre i post, items = pre ++ i :: post → vars.final i.1 = false →
        ∃ d, find decls i.1 = some d ∧ (valueOf d i.2).isSome ∧
          (i.2.isSome → given pre i.1 = none ∧ vars.explicit i.1 = none) := by
  induction items generalizing vars new with
  | nil => simp [storeGiven]
  | cons i items ih =>
    obtain ⟨name, token⟩ := i
    unfold storeGiven
    by_cases hf : vars.final name = true
    · rw [if_pos hf, ih]
      constructor
      · intro h pre i post he hi
        cases pre with
        | nil => cases he; rw [hf] at hi; cases hi
        | cons p pre =>
          cases he
          obtain ⟨d, h1, h2, h3⟩ := h pre i post rfl hi
          have hne : name ≠ i.1 := by rintro rfl; rw [hf] at hi; cases hi
          exact ⟨d, h1, h2, fun hs => ⟨by rw [given_cons, (h3 hs).1]; simp [hne], (h3 hs).2⟩⟩
      · intro h pre i post he hi
        obtain ⟨d, h1, h2, h3⟩ := h ((name, token) :: pre) i post (by rw [he]; rfl) hi
        refine ⟨d, h1, h2, fun hs => ⟨?_, (h3 hs).2⟩⟩
        have := (h3 hs).1
        rw [given_cons] at this
        exact (by simpa using this : _ ∧ _).1
    · rw [if_neg hf]
      have hf' : vars.final name = false := by simpa using hf
      cases hd : find decls name with
      | none =>
        refine ⟨fun h => by simp at h, fun h => ?_⟩
        obtain ⟨d, h1, _⟩ := h [] (name, token) items rfl hf'
        rw [hd] at h1; cases h1
      | some d =>
        dsimp only
        rcases Option.eq_none_or_eq_some (parseValue d (vars.explicit name) token) with hv | ⟨v, hv⟩
        · simp only [hv]
          refine ⟨fun h => by simp at h, fun h => ?_⟩
          obtain ⟨d', h1, h2, h3⟩ := h [] (name, token) items rfl hf'
          rw [hd] at h1; cases h1
          cases token with
          | none => simp only [parseValue] at hv; simp [valueOf, hv] at h2
          | some t =>
            have := (h3 rfl).2
            simp only at this
            simp only [parseValue, this, Option.isSome_none, Bool.false_eq_true, if_false] at hv
            simp [valueOf, hv] at h2
        · simp only [hv]
          have hval : (valueOf d token).isSome ∧ (token.isSome → vars.explicit name = none) := by
            cases token with
            | none => simp only [parseValue] at hv; simp [valueOf, hv]
            | some t =>
              simp only [parseValue] at hv
              have := Option.ite_none_left_eq_some.1 hv
              exact ⟨by simp [valueOf, this.2], fun _ => by simpa using this.1⟩
          have hexp : ∀ n, (vars.set name ⟨some v, false⟩).explicit n = if n = name then some v else vars.explicit n := by
            intro n
            by_cases hn : n = name <;> simp [Vars.explicit, Vars.set, hn]
          rw [ih]
          constructor
          · intro h pre i post he hi
            cases pre with
            | nil => cases he; exact ⟨d, hd, hval.1, fun hs => ⟨rfl, hval.2 hs⟩⟩
            | cons p pre =>
              cases he
              obtain ⟨d', h1, h2, h3⟩ := h pre i post rfl hi
              refine ⟨d', h1, h2, fun hs => ?_⟩
              obtain ⟨h4, h5⟩ := h3 hs
              rw [hexp] at h5
              split at h5
              · cases h5
              · next hne => exact ⟨by rw [given_cons, h4]; simpa using fun e => hne (Eq.symm e), h5⟩
          · intro h pre i post he hi
            obtain ⟨d', h1, h2, h3⟩ := h ((name, token) :: pre) i post (by rw [he]; rfl) hi
            refine ⟨d', h1, h2, fun hs => ?_⟩
            obtain ⟨h4, h5⟩ := h3 hs
            rw [given_cons] at h4
            have h4' : given pre i.1 = none ∧ name ≠ i.1 := by
              cases hg : given pre i.1 <;> simp [hg] at h4
              exact ⟨rfl, h4⟩
            refine ⟨h4'.1, ?_⟩
            rw [hexp, if_neg (fun e => h4'.2 e.symm)]
            exact h5

/-- **C77**: after successful command lines, a further one is accepted if and only if each option which is not given in
the earlier ones is declared, has a convertible token (or an implicit value), and does not have a token for the second
time.  Default values do not matter, nor do tokens of options which are given in the earlier command lines. -/
theorem C77_accepts {decls : List (Decl V)} {lines : List (List (String × Option String))} {vars : Vars V}
    (h : Stores decls lines vars) (items : List (String × Option String)) :
    (store decls items vars).2 = false ↔
      ∀ pre i post, items = pre ++ i :: post → (∀ l ∈ lines, given l i.1 = none) →
        ∃ d, find decls i.1 = some d ∧ (valueOf d i.2).isSome ∧ (i.2.isSome → given pre i.1 = none) := by
  have hs : (store decls items vars).2 = ((storeGiven decls items vars []).2).2 := by
    unfold store
    split <;> rename_i h <;> rw [h]
  rw [hs, storeGiven_accepts]
  have key : ∀ n, (vars.final n = false ↔ ∀ l ∈ lines, given l n = none) ∧ (vars.final n = false → vars.explicit n = none) := by
    intro n
    have := stores_spec h n
    cases hf : lines.findSome? (fun items => given items n) with
    | some t =>
      simp only [hf] at this
      obtain ⟨l, hl1, hl2⟩ := List.exists_of_findSome?_eq_some hf
      have hne : vars.final n ≠ false := by simp [this.1]
      refine ⟨⟨fun e => absurd e hne, fun e => ?_⟩, fun e => absurd e hne⟩
      rw [e l hl1] at hl2; cases hl2
    | none =>
      simp only [hf] at this
      obtain ⟨h1, h2⟩ := this
      refine ⟨⟨fun _ => List.findSome?_eq_none_iff.1 hf, fun _ => h1⟩, fun _ => ?_⟩
      rcases h2 with ⟨_, h2⟩ | ⟨_, h2⟩
      · simp [Vars.explicit, h2]
      · cases hd : find decls n with
        | none => simp [Vars.explicit, h2, hd]
        | some d => cases hdd : d.default <;> simp [Vars.explicit, h2, hd, hdd]
  constructor
  · intro h pre i post he hi
    obtain ⟨d, h1, h2, h3⟩ := h pre i post he ((key i.1).1.2 hi)
    exact ⟨d, h1, h2, fun hs => (h3 hs).1⟩
  · intro h pre i post he hi
    obtain ⟨d, h1, h2, h3⟩ := h pre i post he ((key i.1).1.1 hi)
    exact ⟨d, h1, h2, fun hs => ⟨h3 hs, (key i.1).2 hi⟩⟩

/-- Non-vacuity: an option is given after a command line in which it has its default value. -/
example : let decls : List (Decl String) := [{ name := "text", default := some "z", convert := some }]
    ∃ vars, Stores decls [[]] vars ∧ as vars "text" = .ok "z" ∧ (store decls [("text", some "a")] vars).2 = false ∧
    (store decls [("text", some "a"), ("text", some "b")] vars).2 = true := by
  intro decls
  have : ∃ vars, Stores decls ([] ++ [[]]) vars := ⟨_, .line (lines := []) .init rfl⟩
  obtain ⟨vars, hs⟩ := this
  refine ⟨vars, hs, C77_partial (lines := []) (items := []) (name := "text") hs (d := { name := "text", default := some "z", convert := some }) rfl
    (by simp), ?_, ?_⟩
  · rw [C77_accepts hs]
    intro pre i post he _
    cases pre with
    | nil => cases he; exact ⟨_, rfl, rfl, fun _ => rfl⟩
    | cons p pre => simp at he
  · apply Classical.byContradiction
    intro hb
    have hb' := (C77_accepts hs _).1 (by simpa using hb) [("text", some "a")] ("text", some "b") [] rfl (by simp [given])
    obtain ⟨d, _, _, h3⟩ := hb'
    simp [given] at h3

/-! ## Flags and unset options -/

/-- **C77**: `has()` is true of options which are not in the command line, if they have a default value; it is false
and `as()` throws only for options which have none. -/
theorem C77_has {decls : List (Decl V)} {lines : List (List (String × Option String))} {vars : Vars V}
    (h : Stores decls lines vars) (hl : lines ≠ []) {name : String} {d : Decl V} (hd : find decls name = some d) :
    (has vars name = true ↔ d.default.isSome ∨ ∃ l ∈ lines, (given l name).isSome) ∧
    (has vars name = false ↔ as vars name = .error .stdError) := by
  have := stores_spec h name
  cases hf : lines.findSome? (fun items => given items name) with
  | some t =>
    simp only [hf] at this
    obtain ⟨_, d', v, hd', hv, hc⟩ := this
    obtain ⟨l, hl1, hl2⟩ := List.exists_of_findSome?_eq_some hf
    refine ⟨by simp [has, hc]; exact .inr ⟨l, hl1, by simp [hl2]⟩, by simp [has, hc, as]⟩
  | none =>
    simp only [hf] at this
    obtain ⟨_, ⟨h1, _⟩ | ⟨_, hc⟩⟩ := this
    · exact absurd h1 hl
    · have hno := List.findSome?_eq_none_iff.1 hf
      constructor
      · simp only [has, hc, hd]
        cases hdd : d.default with
        | none =>
          simp only [Option.bind_some, hdd, Option.map_none, Option.isSome_none, Bool.false_eq_true, false_or, false_iff]
          rintro ⟨l, h1, h2⟩
          rw [hno l h1] at h2; cases h2
        | some v => simp [hdd]
      · cases hdd : d.default <;> simp [has, as, hc, hd, hdd]

/-- **C77**: a flag is true if given without value, and false if not given, in the first command line. -/
theorem C77_flag {decls : List (Decl Bool)} {items : List (String × Option String)} {vars : Vars Bool}
    (h : Stores decls [items] vars) {name : String} {convert : String → Option Bool}
    (hd : find decls name = some (flag name convert)) :
    (given items name = some none → as vars name = .ok true) ∧ (given items name = none → as vars name = .ok false) := by
  have := C77_partial (lines := []) h hd (by simp)
  constructor <;> intro hg <;> simp [this, lineValue, hg, valueOf, flag, ofOption]

/-- Non-vacuity: a command line with a flag, and another one which is not given. -/
example : ∃ vars, Stores [flag "a" (fun _ => none), flag "b" (fun _ => none)] [[("a", none)]] vars ∧
    as vars "a" = .ok true ∧ as vars "b" = .ok false ∧ has vars "b" = true := by
  have : ∃ vars, Stores [flag "a" (fun _ => none), flag "b" (fun _ => none)] [[("a", none)]] vars :=
    ⟨_, .line (lines := []) .init rfl⟩
  obtain ⟨vars, hs⟩ := this
  exact ⟨vars, hs, (C77_flag (name := "a") hs rfl).1 rfl, (C77_flag (name := "b") hs rfl).2 rfl,
    ((C77_has (name := "b") hs (by simp) rfl).1).2 (.inl rfl)⟩

/-! ## Strings -/

theorem isSpace_iff (c : Char) : isSpace c = true ↔ Blank c := by
  simp only [isSpace, Blank, Bool.or_eq_true, beq_iff_eq, ← Char.toNat_inj]
  rw [show ('\t' : Char).toNat = 9 from rfl, show ('\n' : Char).toNat = 10 from rfl, show ('\r' : Char).toNat = 13 from rfl]
  omega

theorem isSpace_eq_false_iff (c : Char) : isSpace c = false ↔ ¬ Blank c := by
  rw [← isSpace_iff, Bool.not_eq_true]

theorem words_append_word {w : List Char} (h : ∀ c ∈ w, isSpace c = false) (rest word : List Char) :
    words (w ++ rest) word = words rest (word ++ w) := by
  induction w generalizing word with
  | nil => simp
  | cons c w ih =>
    simp only [List.cons_append]
    rw [words, if_neg (by simp [h c (by simp)]), ih (fun c hc => h c (by simp [hc]))]
    simp

theorem words_append_space {lead : List Char} (h : ∀ c ∈ lead, isSpace c = true) (rest : List Char) :
    words (lead ++ rest) [] = words rest [] := by
  induction lead with
  | nil => rfl
  | cons c lead ih =>
    simp only [List.cons_append]
    rw [words, if_pos (h c (by simp))]
    simp [ih (fun c hc => h c (by simp [hc]))]

theorem words_flush {rest word : List Char} (hw : word ≠ []) (h : ∀ c, rest.head? = some c → isSpace c = true) :
    words rest word = word :: words rest [] := by
  cases rest with
  | nil => simp [words, hw]
  | cons c rest =>
    rw [words, if_pos (h c rfl), words, if_pos (h c rfl)]
    simp [hw]

theorem words_of_splits {s : List Char} {ws : List (List Char)} (h : Splits s ws) : words s [] = ws := by
  induction h with
  | nil hs =>
    have := words_append_space (fun c hc => (isSpace_iff c).2 (hs c hc)) []
    simpa [words] using this
  | cons h1 h2 h3 h4 _ ih =>
    rw [List.append_assoc, words_append_space fun c hc => (isSpace_iff c).2 (h1 c hc),
      words_append_word fun c hc => (isSpace_eq_false_iff c).2 (h3 c hc), List.nil_append,
      words_flush h2 fun c hc => (isSpace_iff c).2 (h4 c hc), ih]

theorem exists_splits (s : List Char) : ∃ ws, Splits s ws := by
  induction s with
  | nil => exact ⟨[], .nil (by simp)⟩
  | cons c s ih =>
    obtain ⟨ws, h⟩ := ih
    by_cases hc : Blank c
    · cases h with
      | nil hs => exact ⟨[], .nil (by simpa [hc] using hs)⟩
      | @cons lead w rest ws h1 h2 h3 h4 h5 =>
        exact ⟨w :: ws, .cons (lead := c :: lead) (by simpa [hc] using h1) h2 h3 h4 h5⟩
    · cases h with
      | nil hs =>
        refine ⟨[[c]], .cons (lead := []) (w := [c]) (by simp) (by simp) (by simp [hc]) ?_ (.nil hs)⟩
        intro c' hc'
        exact hs c' (List.mem_of_mem_head? hc')
      | @cons lead w rest ws h1 h2 h3 h4 h5 =>
        cases lead with
        | nil => exact ⟨(c :: w) :: ws, .cons (lead := []) (w := c :: w) (by simp) (by simp) (by simpa [hc] using h3) h4 h5⟩
        | cons l lead =>
          refine ⟨[c] :: w :: ws, .cons (lead := []) (w := [c]) (by simp) (by simp) (by simp [hc]) ?_
            (.cons h1 h2 h3 h4 h5)⟩
          intro c' hc'
          simp at hc'
          subst hc'
          exact h1 _ (by simp)

/-- **C77**: the arguments of `parse(string)` are the words of the string. -/
theorem C77_words (s : List Char) (ws : List (List Char)) : Splits s ws ↔ words s [] = ws := by
  constructor
  · exact words_of_splits
  · rintro rfl
    obtain ⟨ws, h⟩ := exists_splits s
    rw [words_of_splits h]; exact h

/-- **C77**: if the command line cannot be parsed, then `parse()` throws and all the options are unchanged. -/
theorem C77_invalid (run : List String → Option (List (String × Option String))) (decls : List (Decl V)) (args : List String)
    (vars : Vars V) (h : run args.tail = none) : parse run decls args vars = (vars, true) := by
  rw [parse, List.drop_one, h]

/-- Non-vacuity: a parser which rejects everything. -/
example : parse (fun _ => none) [textOption] ["exe", "--unknown"] (Vars.init String) = (Vars.init String, true) :=
  C77_invalid _ _ _ _ rfl

/-- **C77**: the first argument of `parse()`, in any form, is the name of the program: it is not parsed, whatever it is. -/
theorem C77_program_name (run : List String → Option (List (String × Option String))) (decls : List (Decl V))
    (a b : String) (args : List String) (vars : Vars V) :
    parse run decls (a :: args) vars = parse run decls (b :: args) vars := rfl

/-- Non-vacuity: two words after the name of the program. -/
example : words " exe  --text\ta".toList [] = ["exe".toList, "--text".toList, "a".toList] := by decide

end ProgramOptions

end Litl
