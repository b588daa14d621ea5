import Verif.Props.Qasm

/-!
# Property C105: exported programs of circuits that begin with resets
-/

open Matrix
open scoped ENNReal

namespace Plaquette
variable {F : Type} {n : Nat} {prob : F → ℝ≥0∞}

/-! ### Lemmas -/

/-- The instrument records nothing and keeps the state with all qubits zero. -/
def KeepsZero (I : Instrument n) : Prop := I.Len 0 0 ∧ ∀ W : Vec n → ℝ≥0∞, W 0 = 0 → I.amp W [] [] (zeroVec n) = W (zeroVec n)

theorem KeepsZero.nothing : KeepsZero (Instrument.nothing : Instrument n) := ⟨Instrument.len_nothing, fun W _ => by simp [Instrument.amp, Instrument.nothing]⟩

theorem KeepsZero.andThen {I J : Instrument n} (hI : KeepsZero I) (hJ : KeepsZero J) : KeepsZero (I.andThen J) := by
  refine ⟨Instrument.len_andThen hI.1 hJ.1, fun W hW => ?_⟩
  have := Instrument.amp_andThen (J := J) (m1 := []) (e1 := []) hI.1 W [] [] (zeroVec n)
  rw [List.append_nil] at this
  rw [this, hI.2 _ (J.amp_zero hW _ _), hJ.2 W hW]

theorem projZ_zeroVec (q : Fin n) : projZ q false *ᵥ zeroVec n = zeroVec n ∧ projZ q true *ᵥ zeroVec n = 0 := by
  constructor
  · funext a
    rw [Matrix.mulVec, dotProduct, Finset.sum_eq_single a]
    · by_cases h : a = fun _ => false
      · subst h; simp [projZ, zeroVec]
      · simp [zeroVec, h]
    · intro b _ hb; simp [projZ, Ne.symm hb]
    · simp
  · funext a
    rw [Matrix.mulVec, dotProduct]
    refine Finset.sum_eq_zero fun b _ => ?_
    by_cases h : b = fun _ => false
    · subst h
      by_cases hab : a = fun _ => false
      · subst hab; simp [projZ]
      · simp [projZ, hab]
    · simp [zeroVec, h]

theorem KeepsZero.reset (q : Fin n) : KeepsZero (Instrument.reset q) := by
  refine ⟨?_, fun W hW => ?_⟩
  · intro b hb
    simp only [Instrument.reset, List.mem_cons, List.not_mem_nil, or_false] at hb
    rcases hb with rfl | rfl <;> exact ⟨rfl, rfl⟩
  · simp [Instrument.amp, Instrument.reset, ← mulVec_mulVec, projZ_zeroVec, hW]

theorem KeepsZero.resets (qs : List (Fin n)) : KeepsZero (Instrument.inOrder (qs.map .reset)) := by
  induction qs with
  | nil => exact .nothing
  | cons q qs ih => exact (KeepsZero.reset q).andThen ih

theorem KeepsZero.born {I J : Instrument n} (hI : KeepsZero I) (m e : List Bool) : (I.andThen J).born (zeroDensity n) m e = J.born (zeroDensity n) m e := by
  rw [born_amp, born_amp]
  have := Instrument.amp_andThen (J := J) (m1 := []) (e1 := []) hI.1 normW m e (zeroVec n)
  rw [List.nil_append, List.nil_append] at this
  rw [this, hI.2 _ (J.amp_zero normW_zero _ _)]

/-- Resets at the beginning do not change the distribution. -/
theorem initial_resets {api : FloatApi F} (args : List (List (Val F))) {bs : List (Block F)} {I : Instrument n} (h : DenotesRun api prob (args.map (.gate .R) ++ bs) I) :
    ∃ J : Instrument n, DenotesRun api prob bs J ∧ ∀ m e, I.born (zeroDensity n) m e = J.born (zeroDensity n) m e := by
  induction args generalizing I with
  | nil => exact ⟨I, h, fun _ _ => rfl⟩
  | cons a args ih =>
    cases h with
    | @gate _ _ _ I1 I2 h1 h2 =>
      obtain ⟨J, h3, h4⟩ := ih h2
      refine ⟨J, h3, fun m e => ?_⟩
      rw [← h4 m e]
      cases h1 with
      | r qs => exact (KeepsZero.resets qs).born m e

theorem flatten_resets (args : List (List (Val F))) (bs : List (Block F)) : flatten (args.map (.gate .R) ++ bs) = args.map (Gate.mk .R) ++ flatten bs := by
  induction args with
  | nil => rfl
  | cons a args ih =>
    rw [List.map_cons, List.cons_append, List.map_cons, List.cons_append, ← ih]
    rfl

theorem loop_resets (args : List (List (Val F))) (c : List (Gate F)) (ign : Bool) (k : Nat) : qasmLoop ign k (args.map (Gate.mk .R) ++ c) = qasmLoop ign k c := by
  induction args with
  | nil => rfl
  | cons a args ih => rw [← ih]; rfl

theorem measured_resets (args : List (List (Val F))) (c : List (Gate F)) : numberMeasured (args.map (Gate.mk .R) ++ c) = numberMeasured c := by
  induction args with
  | nil => rfl
  | cons a args ih => rw [List.map_cons, List.cons_append, numberMeasured_head, ih]; simp

/-! ### The property -/

/-- **C105 (partial)** a circuit with resets at the beginning only that is exported gives a program, as text, with the same distribution of the results. Missing: later resets. -/
theorem C105_initial_partial (api : FloatApi F) (args : List (List (Val F))) (bs : List (Block F)) (I : Instrument n) (h : DenotesRun api prob (args.map (.gate .R) ++ bs) I)
    (hn : numberOfQubits (flatten (args.map (.gate .R) ++ bs)) = n) (hR : ∀ g ∈ flatten bs, g.name ≠ .R) {text : List Char}
    (ht : openqasm (flatten (args.map (.gate .R) ++ bs)) false = .ok text) :
    ∃ P, OpenQasm.program n text = some P ∧ P.bits = numberMeasured (flatten bs) ∧ ∀ m, P.born (zeroDensity n) m = I.born (zeroDensity n) m [] := by
  obtain ⟨J, h1, h2⟩ := initial_resets args h
  unfold openqasm convertToQasm at ht
  rw [hn, flatten_resets, loop_resets, measured_resets] at ht
  cases hq : qasmLoop false 0 (flatten bs) with
  | error e => rw [hq] at ht; cases ht
  | ok ls =>
    rw [hq] at ht
    cases ht
    obtain ⟨P, k1, k2, k3⟩ := text_born h1 hR hq
    exact ⟨P, k1, k2, fun m => by rw [k3, h2]⟩

/-- **C105 (partial)** the classical bits of the exported program have the distribution of the results of the simulator of the project, for resets at the beginning only. -/
theorem C105_initial_agree_partial {Ω : Type} [MeasurableSpace Ω] (μ : MeasureTheory.Measure Ω) [MeasureTheory.IsProbabilityMeasure μ] (past : Nat → MeasurableSpace Ω) (rng : Ω → Rng F)
    (api : FloatApi F) (circs : Nat → List (Gate F)) (id : Nat) (args : List (List (Val F))) (bs : List (Block F)) (hc : circs id = flatten (args.map (.gate .R) ++ bs))
    (I : Instrument (numberOfQubits (circs id))) (h : DenotesRun api prob (args.map (.gate .R) ++ bs) I) (hR : ∀ g ∈ flatten bs, g.name ≠ .R) {text : List Char}
    (ht : openqasm (circs id) false = .ok text) (pos : Nat) (hX : ExactFrom pos μ prob past rng) :
    ∃ P, OpenQasm.program (numberOfQubits (circs id)) text = some P ∧ ∀ m, P.born (zeroDensity _) m =
      μ {ω | ∃ d, CliffordDevice.run (circs := circs) api (rng ω) ⟨none, pos⟩ (.circuit id) true = .ok d ∧ d.getSample = .ok (m, none)} := by
  obtain ⟨P, h1, -, h3⟩ := C105_initial_partial api args bs I h (by rw [hc]) hR (by rw [← hc]; exact ht)
  refine ⟨P, h1, fun m => ?_⟩
  rw [h3 m, ← C95_device μ prob past rng api circs id _ hc I h pos hX m []]
  rfl

/-- Non-vacuity: two qubits are reset and one is measured. -/
example : ∃ I : Instrument 2, DenotesRun realApi ENNReal.ofReal ([qArgs [(0 : Fin 2), 1]].map (.gate .R) ++ [.gate .H (qArgs [(0 : Fin 2)]), .gate .M (qArgs [(0 : Fin 2)])]) I ∧
    numberOfQubits (F := ℝ) (flatten ([qArgs [(0 : Fin 2), 1]].map (.gate .R) ++ [.gate .H (qArgs [(0 : Fin 2)]), .gate .M (qArgs [(0 : Fin 2)])])) = 2 :=
  ⟨_, .gate (.r [0, 1]) (.gate (.h [0]) (.gate (.m [0]) .nil)), rfl⟩

end Plaquette
