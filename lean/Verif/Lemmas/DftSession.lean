import Verif.Lemmas.DftLayout

/-!
# Invariants of Fourier transform plans
-/

namespace Litl

open Spec

/-- What happens to plans and memory when one plan is constructed, inverse plans are made of it (and of them),
input buffers are filled, transforms are executed and outputs are normalized, in any order. -/
inductive Session (t : Transform) (shape : Position) : List DftPlan → Memory → Prop where
  | construct {m m' : Memory} {d : DftPlan} : DftPlan.Constructs t shape none none m d m' → Session t shape [d] m'
  | invert {m m' : Memory} {ps : List DftPlan} {d i : DftPlan} : Session t shape ps m → d ∈ ps → d.Inverts m i m' →
      Session t shape (i :: ps) m'
  | fill {m m' : Memory} {ps : List DftPlan} {d : DftPlan} {x : Values} : Session t shape ps m → d ∈ ps →
      d.Fills x m m' → Session t shape ps m'
  | transform {m m' : Memory} {ps : List DftPlan} {d : DftPlan} : Session t shape ps m → d ∈ ps →
      d.Transforms m (.ok m') → Session t shape ps m'
  | normalize {m m' : Memory} {ps : List DftPlan} {d : DftPlan} : Session t shape ps m → d ∈ ps →
      d.normalize m = .ok m' → Session t shape ps m'

/-- A buffer holds values of some type, as many as given. -/
def Holds (m : Memory) (a : Nat) (real : Bool) (size : Int) : Prop :=
  ∃ v, m a = some v ∧ v.isReal = real ∧ (v.length : Int) = size

theorem Memory.set_same (m : Memory) (a : Nat) (v : Values) : (m.set a v) a = some v := by simp [Memory.set]

theorem Memory.set_ne (m : Memory) {a b : Nat} (h : b ≠ a) (v : Values) : (m.set a v) b = m b := by
  simp [Memory.set, h]

theorem Holds.set_same {m : Memory} {a : Nat} {v : Values} {real : Bool} {size : Int} (h1 : v.isReal = real)
    (h2 : (v.length : Int) = size) : Holds (m.set a v) a real size := ⟨v, Memory.set_same _ _ _, h1, h2⟩

theorem Holds.set_ne {m : Memory} {a b : Nat} {v : Values} {real : Bool} {size : Int} (h : Holds m b real size)
    (hab : b ≠ a) : Holds (m.set a v) b real size := by
  obtain ⟨w, h1, h2, h3⟩ := h
  exact ⟨w, by rw [Memory.set_ne _ hab, h1], h2, h3⟩

theorem Holds.garbage {m : Memory} {a : Nat} {v w : Values} {real : Bool} {size : Int} (h : Holds m a real size)
    (hv : m a = some v) (hg : Fftw.Garbage v w) (b : Nat) :
    Holds (m.set a w) a real size ∧ ∀ {real' : Bool} {size' : Int}, Holds m b real' size' →
      Holds (m.set a w) b real' size' := by
  have key : ∀ {c : Nat} {real' : Bool} {size' : Int}, Holds m c real' size' → Holds (m.set a w) c real' size' := by
    intro c real' size' hc
    by_cases hca : c = a
    · subst hca
      obtain ⟨u, h1, h2, h3⟩ := hc
      rw [hv] at h1
      cases h1
      exact Holds.set_same (by rw [hg.1, h2]) (by rw [hg.2, h3])
    · exact hc.set_ne hca
  exact ⟨key h, fun hb => key hb⟩

/-- The plan has given logical shape and uses buffer `a` for signals and buffer `b` for spectra. -/
structure PlanOn (real : Bool) (shape : Position) (a b : Nat) (d : DftPlan) : Prop where
  kind : d.transform.real = real
  logical : d.shape = shape
  inShape : d.input.shape = d.transform.inShape shape
  outShape : d.output.shape = d.transform.outShape shape
  input : d.input.address = if d.transform.inverted then b else a
  output : d.output.address = if d.transform.inverted then a else b
  plan : d.plan = allocateFftwPlan d.transform d.input d.output

/-- The buffers of signals and of spectra are distinct and of the right sizes. -/
structure BuffersOn (real : Bool) (shape : Position) (a b : Nat) (m : Memory) : Prop where
  ne : a ≠ b
  signal : Holds m a real (shapeSize shape)
  spectrum : Holds m b false (shapeSize ((⟨real, false⟩ : Transform).outShape shape))

theorem BuffersOn.garbage_signal {real : Bool} {shape : Position} {a b : Nat} {m : Memory}
    (h : BuffersOn real shape a b m) {v w : Values} (hv : m a = some v) (hg : Fftw.Garbage v w) :
    BuffersOn real shape a b (m.set a w) :=
  ⟨h.ne, (h.signal.garbage hv hg b).1, (h.signal.garbage hv hg b).2 h.spectrum⟩

theorem BuffersOn.garbage_spectrum {real : Bool} {shape : Position} {a b : Nat} {m : Memory}
    (h : BuffersOn real shape a b m) {v w : Values} (hv : m b = some v) (hg : Fftw.Garbage v w) :
    BuffersOn real shape a b (m.set b w) :=
  ⟨h.ne, (h.spectrum.garbage hv hg a).2 h.signal, (h.spectrum.garbage hv hg b).1⟩

theorem BuffersOn.garbage {real : Bool} {shape : Position} {a b c : Nat} {m : Memory}
    (h : BuffersOn real shape a b m) (hc : c = a ∨ c = b) {v w : Values} (hv : m c = some v)
    (hg : Fftw.Garbage v w) : BuffersOn real shape a b (m.set c w) := by
  rcases hc with rfl | rfl
  · exact h.garbage_signal hv hg
  · exact h.garbage_spectrum hv hg

theorem BuffersOn.measures {real : Bool} {shape : Position} {a b : Nat} {m m' : Memory} {p : Fftw.Plan}
    (h : BuffersOn real shape a b m) (hi : p.input = a ∨ p.input = b) (ho : p.output = a ∨ p.output = b)
    (hio : p.input ≠ p.output) (hm : Fftw.Measures p m m') : BuffersOn real shape a b m' := by
  cases hm with
  | mk hv hw hg hg' =>
    refine (h.garbage hi hv hg).garbage ho ?_ hg'
    rw [Memory.set_ne _ hio.symm]; exact hw

theorem BuffersOn.executes {real : Bool} {shape : Position} {a b : Nat} {m m' : Memory} {p : Fftw.Plan}
    (h : BuffersOn real shape a b m) (hi : p.input = a ∨ p.input = b) (ho : p.output = a ∨ p.output = b)
    (hio : p.input ≠ p.output) (hm : Fftw.Executes p m (.ok m')) : BuffersOn real shape a b m' := by
  cases hm with
  | c2c e1 e2 e3 e4 e5 e6 e7 e8 =>
    exact (h.garbage hi e2 e8).garbage ho ((Memory.set_ne _ hio.symm _).trans e3) ⟨rfl, e6⟩
  | r2c e1 e1' e2 e3 e4 e5 e6 e7 e8 =>
    exact (h.garbage hi e2 e8).garbage ho ((Memory.set_ne _ hio.symm _).trans e3) ⟨rfl, e6⟩
  | c2r e1 e1' e2 e3 e4 e5 e6 e7 e8 =>
    exact (h.garbage hi e2 e8).garbage ho ((Memory.set_ne _ hio.symm _).trans e3) ⟨rfl, e6⟩

theorem garbage_scale (f : ℝ) (size : Nat) (v : Values) : Fftw.Garbage v (DftPlan.scale f size v) := by
  cases v <;> refine ⟨rfl, ?_⟩ <;> simp [DftPlan.scale, Values.length] <;> omega

theorem PlanOn.ports {real : Bool} {shape : Position} {a b : Nat} {d : DftPlan} (h : PlanOn real shape a b d) :
    (d.plan.input = d.input.address ∧ d.plan.output = d.output.address) ∧
    (d.input.address = a ∨ d.input.address = b) ∧ (d.output.address = a ∨ d.output.address = b) := by
  refine ⟨by rw [h.plan]; exact ⟨rfl, rfl⟩, ?_, ?_⟩
  · rw [h.input]; cases d.transform.inverted <;> simp
  · rw [h.output]; cases d.transform.inverted <;> simp

theorem PlanOn.ne {real : Bool} {shape : Position} {a b : Nat} {d : DftPlan} (h : PlanOn real shape a b d)
    (hab : a ≠ b) : d.input.address ≠ d.output.address := by
  rw [h.input, h.output]; cases d.transform.inverted <;> simp [hab, hab.symm]

/-- The constructor allocates two buffers of the right sizes. -/
theorem constructs_none {t : Transform} {shape : Position} {m m' : Memory} {d : DftPlan}
    (h : DftPlan.Constructs t shape none none m d m') :
    d.transform = t ∧ ∃ a b, PlanOn t.real shape a b d ∧ BuffersOn t.real shape a b m' ∧
      (m a = none ∧ m b = none) ∧ d.input.owns = true ∧ d.output.owns = true := by
  cases h with
  | mk h1 h2 h3 =>
    refine ⟨rfl, ?_⟩
    generalize hn : (none : Option Nat) = o at h1 h2
    cases h1 with
    | share => cases hn
    | own i1 i2 i3 =>
      rename_i a v
      cases h2 with
      | own j1 j2 j3 =>
        rename_i b w
        have hab : b ≠ a := by
          rintro rfl; rw [Memory.set_same] at j1; cases j1
        rw [Memory.set_ne _ hab] at j1
        obtain ⟨r, inv⟩ := t
        cases inv with
        | false =>
          refine ⟨a, b, ⟨rfl, rfl, rfl, rfl, rfl, rfl, rfl⟩, ?_, ⟨i1, j1⟩, rfl, rfl⟩
          refine BuffersOn.measures ⟨hab.symm, ?_, ?_⟩ (Or.inl rfl) (Or.inr rfl) hab.symm h3
          · exact (Holds.set_same (by simpa [Transform.inReal] using i2) (by simpa [Transform.inShape] using i3)).set_ne hab.symm
          · exact Holds.set_same (by simpa [Transform.outReal] using j2) j3
        | true =>
          refine ⟨b, a, ⟨rfl, rfl, rfl, rfl, rfl, rfl, rfl⟩, ?_, ⟨j1, i1⟩, rfl, rfl⟩
          refine BuffersOn.measures ⟨hab, ?_, ?_⟩ (Or.inr rfl) (Or.inl rfl) hab.symm h3
          · exact Holds.set_same (by simpa [Transform.outReal] using j2) (by simpa [Transform.outShape] using j3)
          · exact (Holds.set_same (by simpa [Transform.inReal] using i2) (by
              simpa [Transform.inShape, Transform.outShape, Transform.directOutShape] using i3)).set_ne hab.symm

/-- The inverse plan uses the buffers of the plan. -/
theorem inverts_spec {real : Bool} {shape : Position} {a b : Nat} {m m' : Memory} {d i : DftPlan}
    (hd : PlanOn real shape a b d) (hm : BuffersOn real shape a b m) (h : d.Inverts m i m') :
    PlanOn real shape a b i ∧ BuffersOn real shape a b m' ∧ i.transform = d.transform.inverse ∧
      i.input.owns = false ∧ i.output.owns = false := by
  unfold DftPlan.Inverts at h
  cases h with
  | mk h1 h2 h3 =>
    cases h1 with
    | share =>
      cases h2 with
      | share =>
        have hne := hd.ne hm.ne
        obtain ⟨-, p1, p2⟩ := hd.ports
        refine ⟨⟨?_, hd.logical, ?_, ?_, ?_, ?_, rfl⟩, hm.measures p2 p1 hne.symm h3, rfl, rfl, rfl⟩
        · exact hd.kind
        · simp only [hd.logical]
        · simp only [hd.logical]
        · simp only [hd.output, Transform.inverse]; by_cases hi : d.transform.inverted = true <;> simp [hi]
        · simp only [hd.input, Transform.inverse]; by_cases hi : d.transform.inverted = true <;> simp [hi]

/-- All plans of a session share two buffers of the right sizes. -/
theorem session_inv {t : Transform} {shape : Position} {ps : List DftPlan} {m : Memory} (h : Session t shape ps m) :
    ∃ a b, BuffersOn t.real shape a b m ∧ ∀ d ∈ ps, PlanOn t.real shape a b d := by
  induction h with
  | construct h =>
    obtain ⟨_, a, b, h1, h2, _⟩ := constructs_none h
    exact ⟨a, b, h2, by simpa using h1⟩
  | invert _ hd hi ih =>
    obtain ⟨a, b, h1, h2⟩ := ih
    obtain ⟨h3, h4, _⟩ := inverts_spec (h2 _ hd) h1 hi
    refine ⟨a, b, h4, ?_⟩
    intro d hd
    rcases List.mem_cons.1 hd with rfl | hd
    · exact h3
    · exact h2 d hd
  | fill _ hd hf ih =>
    obtain ⟨a, b, h1, h2⟩ := ih
    obtain ⟨v, hv, hg, rfl⟩ := hf
    exact ⟨a, b, h1.garbage (h2 _ hd).ports.2.1 hv hg, h2⟩
  | transform _ hd hf ih =>
    obtain ⟨a, b, h1, h2⟩ := ih
    have hp := (h2 _ hd).ports
    refine ⟨a, b, h1.executes (by rw [hp.1.1]; exact hp.2.1) (by rw [hp.1.2]; exact hp.2.2) ?_ hf, h2⟩
    rw [hp.1.1, hp.1.2]; exact (h2 _ hd).ne h1.ne
  | normalize _ hd hf ih =>
    obtain ⟨a, b, h1, h2⟩ := ih
    unfold DftPlan.normalize at hf
    split at hf
    · cases hf
    · rename_i v hv
      split at hf
      · cases hf
      · cases hf
        exact ⟨a, b, h1.garbage (h2 _ hd).ports.2.2 hv (garbage_scale _ _ _), h2⟩

end Litl
