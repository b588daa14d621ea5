import Verif.Lemmas.StimRunCorr
import Verif.Props.Distribution
import Verif.Props.Stim

/-!
# Property C96: the translation to Stim keeps the distribution of the results
-/

open MeasureTheory Matrix
open scoped ENNReal

namespace Plaquette
variable {n N : Nat}

theorem zeroVec_lift (n : Nat) : zeroVec (n + 1) = lift false (zeroVec n) := by
  funext a
  simp only [zeroVec, lift, basis_ext (a := a) (a' := fun _ => false)]
  by_cases h : a (Fin.last n) = false <;> simp [h]

theorem born_amp (I : Instrument n) (m e : List Bool) : I.born (zeroDensity n) m e = I.amp normW m e (zeroVec n) := by
  unfold Instrument.born Instrument.amp
  simp only [trace_zeroDensity]
  rfl

theorem sborn_amp (J : SInstrument N) (r : List Bool) : J.born (zeroDensity N) r = J.amp (fun φ _ => normW φ) r false (zeroVec N) := by
  unfold SInstrument.born SInstrument.amp
  simp only [trace_zeroDensity]
  rfl

/-- The circuits of C96: unconditional instructions and chains with an instrument on `n` qubits, where `n` is the number of qubits of the circuit; erasures have probabilities of at most one. -/
structure Sampled (api : FloatApi ℝ) (bs : List (Block ℝ)) (I : Instrument n) (is : List (SInstr ℝ)) (fl : List Bool) : Prop where
  denotes : DenotesRun api ENNReal.ofReal bs I
  size : numberOfQubits (flatten bs) = n
  sane : ∀ g ∈ flatten bs, ErasureSane api g
  translated : circuitToStim api (flatten bs) = .ok (is, fl)

theorem Sampled.corr {api : FloatApi ℝ} {bs : List (Block ℝ)} {I : Instrument n} {is : List (SInstr ℝ)} {fl : List Bool} (h : Sampled api bs I is fl) {J : SInstrument (n + 1)}
    (hJ : stimMeaning (n + 1) is = some J) : Corr I J fl := by
  have ht := h.translated
  rw [circuitToStim, h.size] at ht
  exact corr_run h.denotes h.sane ht hJ

/-- **C96** Stim's record of the translated circuit, with the measurement results and the erasure flags told apart by the list of flags, has the distribution of the circuit: Born's rule gives
the same probability for the record of the Stim circuit on one more qubit as for the two parts of the record and the circuit itself. -/
theorem C96_distribution_partial (api : FloatApi ℝ) (bs : List (Block ℝ)) (I : Instrument n) (is : List (SInstr ℝ)) (fl : List Bool) (h : Sampled api bs I is fl) (J : SInstrument (n + 1))
    (hJ : stimMeaning (n + 1) is = some J) (r : List Bool) (hr : r.length = fl.length) :
    J.born (zeroDensity (n + 1)) r = I.born (zeroDensity n) (maskSel r (fl.map (!·))) (maskSel r fl) := by
  rw [sborn_amp, born_amp, zeroVec_lift]
  exact (h.corr hJ).amp normW (fun φ _ => normW φ) normW_zero (fun b _ φ => normW_lift b φ) r hr false false (zeroVec n)

/-- **C96** records of another length do not occur. -/
theorem C96_length (api : FloatApi ℝ) (bs : List (Block ℝ)) (I : Instrument n) (is : List (SInstr ℝ)) (fl : List Bool) (h : Sampled api bs I is fl) (J : SInstrument (n + 1))
    (hJ : stimMeaning (n + 1) is = some J) (r : List Bool) (hr : r.length ≠ fl.length) : J.born (zeroDensity (n + 1)) r = 0 := by
  unfold SInstrument.born
  refine List.sum_eq_zero fun x hx => ?_
  obtain ⟨b, hb, rfl⟩ := List.mem_map.1 hx
  refine if_neg fun hbr => hr ?_
  rw [← hbr]
  exact (h.corr hJ).slen false b hb

theorem maskSel_inj {r r' fl : List Bool} (h : r.length = fl.length) (h' : r'.length = fl.length) (h1 : maskSel r fl = maskSel r' fl)
    (h2 : maskSel r (fl.map (!·)) = maskSel r' (fl.map (!·))) : r = r' := by
  induction fl generalizing r r' with
  | nil => rw [List.length_eq_zero_iff.1 h, List.length_eq_zero_iff.1 h']
  | cons f fl ih =>
    cases r with
    | nil => simp at h
    | cons a r => cases r' with
      | nil => simp at h'
      | cons a' r' =>
        cases f
        · simp only [maskSel, List.map_cons, Bool.not_false, if_true, Bool.false_eq_true, if_false, List.cons.injEq] at h1 h2
          rw [h2.1, ih (by simpa using h) (by simpa using h') h1 h2.2]
        · simp only [maskSel, List.map_cons, Bool.not_true, if_true, Bool.false_eq_true, if_false, List.cons.injEq] at h1 h2
          rw [h1.1, ih (by simpa using h) (by simpa using h') h1.2 h2]

theorem maskSel_exists (fl m e : List Bool) (hm : m.length = fl.count false) (he : e.length = fl.count true) :
    ∃ r : List Bool, r.length = fl.length ∧ maskSel r (fl.map (!·)) = m ∧ maskSel r fl = e := by
  induction fl generalizing m e with
  | nil => exact ⟨[], rfl, (List.length_eq_zero_iff.1 (by simpa using hm)).symm, (List.length_eq_zero_iff.1 (by simpa using he)).symm⟩
  | cons f fl ih =>
    cases f
    · cases m with
      | nil => simp at hm
      | cons a m =>
        obtain ⟨r, h1, h2, h3⟩ := ih m e (by simpa using hm) (by simpa using he)
        exact ⟨a :: r, by simp [h1], by simp [maskSel, h2], by simp [maskSel, h3]⟩
    · cases e with
      | nil => simp at he
      | cons a e =>
        obtain ⟨r, h1, h2, h3⟩ := ih m e (by simpa using hm) (by simpa using he)
        exact ⟨a :: r, by simp [h1], by simp [maskSel, h2], by simp [maskSel, h3]⟩

/-- **C96** the results of the simulator. If the rows that Stim samples have the distribution that Born's rule gives for the Stim circuit, then the results that `process_results` makes of them
have the distribution of the circuit. (The record may not be empty: see C26.) -/
theorem C96_results_partial {Ω : Type} [MeasurableSpace Ω] (μ : Measure Ω) (row : Ω → List Bool) (api : FloatApi ℝ) (bs : List (Block ℝ)) (I : Instrument n) (is : List (SInstr ℝ))
    (fl : List Bool) (h : Sampled api bs I is fl) (J : SInstrument (n + 1)) (hJ : stimMeaning (n + 1) is = some J)
    (hrow : ∀ r, μ {ω | row ω = r} = J.born (zeroDensity (n + 1)) r) (hfl : fl ≠ []) (m e : List Bool) :
    μ {ω | stimResults fl (row ω) = .ok (m, if e.length > 0 then some e else none)} = I.born (zeroDensity n) m e := by
  have he : ∀ e' : List Bool, ((if e'.length = 0 then none else some e') = if e.length > 0 then some e else none) ↔ e' = e := by
    intro e'
    rcases e' with _ | ⟨a, e'⟩ <;> rcases e with _ | ⟨b, e⟩ <;> simp
  have hset : ∀ ω, stimResults fl (row ω) = .ok (m, if e.length > 0 then some e else none) ↔
      (row ω).length = fl.length ∧ maskSel (row ω) (fl.map (!·)) = m ∧ maskSel (row ω) fl = e := by
    intro ω
    unfold stimResults
    rw [if_neg hfl]
    by_cases hl : (row ω).length = fl.length
    · rw [if_neg (not_not.2 hl)]
      simp only [Except.ok.injEq, Prod.mk.injEq, he, hl, true_and]
    · rw [if_pos hl]
      simp [hl]
  simp only [hset]
  have hc := h.corr hJ
  by_cases hlen : m.length = fl.count false ∧ e.length = fl.count true
  · obtain ⟨r, h1, h2, h3⟩ := maskSel_exists fl m e hlen.1 hlen.2
    have : {ω | (row ω).length = fl.length ∧ maskSel (row ω) (fl.map (!·)) = m ∧ maskSel (row ω) fl = e} = {ω | row ω = r} := by
      ext ω
      constructor
      · rintro ⟨h4, h5, h6⟩
        exact maskSel_inj h4 h1 (h6.trans h3.symm) (h5.trans h2.symm)
      · rintro h4
        have h4 : row ω = r := h4
        rw [Set.mem_ofPred_eq, h4]
        exact ⟨h1, h2, h3⟩
    rw [this, hrow, C96_distribution_partial api bs I is fl h J hJ r h1, h2, h3]
  · have h1 : {ω | (row ω).length = fl.length ∧ maskSel (row ω) (fl.map (!·)) = m ∧ maskSel (row ω) fl = e} = ∅ := by
      ext ω
      simp only [Set.mem_ofPred_eq, Set.mem_empty_iff_false, iff_false]
      rintro ⟨h4, h5, h6⟩
      exact hlen ⟨by rw [← h5, maskSel_not_length h4], by rw [← h6, maskSel_length h4]⟩
    rw [h1, measure_empty]
    symm
    unfold Instrument.born
    refine List.sum_eq_zero fun x hx => ?_
    obtain ⟨b, hb, rfl⟩ := List.mem_map.1 hx
    refine if_neg fun hbr => hlen ?_
    rw [← hbr.1, ← hbr.2]
    exact hc.len b hb

/-- **C96** the two simulators agree: the results of a Stim simulator with faithful rows and the samples of a new Clifford device with an exact random generator have the same distribution. -/
theorem C96_agree_partial {Ω Ω' : Type} [MeasurableSpace Ω] [MeasurableSpace Ω'] (μ : Measure Ω) (row : Ω → List Bool) (μ' : Measure Ω') [IsProbabilityMeasure μ']
    (past : Nat → MeasurableSpace Ω') (rng : Ω' → Rng ℝ) (api : FloatApi ℝ) (circs : Nat → List (Gate ℝ)) (id : Nat) (bs : List (Block ℝ)) (hc : circs id = flatten bs)
    (I : Instrument (numberOfQubits (circs id))) (is : List (SInstr ℝ)) (fl : List Bool) (h : Sampled api bs I is fl) (J : SInstrument (numberOfQubits (circs id) + 1))
    (hJ : stimMeaning _ is = some J) (hrow : ∀ r, μ {ω | row ω = r} = J.born (zeroDensity _) r) (hfl : fl ≠ []) (pos : Nat)
    (hX : ExactFrom pos μ' ENNReal.ofReal past rng) (m e : List Bool) :
    μ {ω | stimResults fl (row ω) = .ok (m, if e.length > 0 then some e else none)} =
      μ' {ω | ∃ d, CliffordDevice.run (circs := circs) api (rng ω) ⟨none, pos⟩ (.circuit id) true = .ok d ∧ d.getSample = .ok (m, if e.length > 0 then some e else none)} := by
  rw [C96_results_partial μ row api bs I is fl h J hJ hrow hfl m e, C95_device μ' ENNReal.ofReal past rng api circs id bs hc I h.denotes pos hX m e]

/-- **C96** which translations are Stim circuits: all, if the circuit has no DEPOLARIZE, its probabilities are probabilities, and two-qubit channels act on two different qubits. -/
theorem C96_meaning_partial (api : FloatApi ℝ) (bs : List (Block ℝ)) (I : Instrument n) (is : List (SInstr ℝ)) (fl : List Bool) (h : Sampled api bs I is fl)
    (hs : ∀ g ∈ flatten bs, StimSane api g) : ∃ J : SInstrument (n + 1), stimMeaning (n + 1) is = some J := by
  have ht := h.translated
  rw [circuitToStim, h.size] at ht
  exact meaning_run h.denotes hs ht

/-- The full statement of C96: every circuit that has an instrument and is translated gives a Stim circuit with the same distribution. -/
def C96_statement : Prop := ∀ (n : Nat) (api : FloatApi ℝ) (bs : List (Block ℝ)) (I : Instrument n) (is : List (SInstr ℝ)) (fl : List Bool), Sampled api bs I is fl →
  ∃ J : SInstrument (n + 1), stimMeaning (n + 1) is = some J ∧ ∀ r : List Bool, r.length = fl.length →
    J.born (zeroDensity (n + 1)) r = I.born (zeroDensity n) (maskSel r (fl.map (!·))) (maskSel r fl)

/-- **C96 fails** for DEPOLARIZE: it is translated to an instruction of that name, which Stim does not have. -/
theorem C96_depolarize_counterexample : ¬ C96_statement := by
  intro h
  obtain ⟨J, hJ, -⟩ := h 1 realApi [.gate .DEPOLARIZE (qArgs [(0 : Fin 1)])] _ [⟨"DEPOLARIZE".toList, [.qubit 0], [1]⟩] [] ⟨.gate (.depolarize [0]) .nil, rfl, (by
    intro g hg v w p hn
    rw [List.mem_singleton.1 hg] at hn
    cases hn), rfl⟩
  have hn : SInstr.meaning 2 ⟨"DEPOLARIZE".toList, [.qubit 0], [1]⟩ = none := rfl
  simp only [stimMeaning, hn] at hJ
  cases hJ

/-- Non-vacuity of C96: a Bell pair with an erasure, a Pauli channel, a conditional error and measurements. -/
example : ∃ (bs : List (Block ℝ)) (I : Instrument 2) (is : List (SInstr ℝ)) (fl : List Bool) (J : SInstrument 3), Sampled realApi bs I is fl ∧ stimMeaning 3 is = some J ∧
    fl = [true, false, false] ∧ is.length = 11 := by
  have hs : Sampled (n := 2) realApi [.gate .H (qArgs [(0 : Fin 2)]), .gate .CX (pairArgs [((0 : Fin 2), (1 : Fin 2))]), .gate .E_ERASE [.flt (1 / 2), .int ((1 : Fin 2).val : Int)],
      .gate .E_PAULI ([Val.flt (1 / 4), Val.flt 0, Val.flt (1 / 4)] ++ [.int ((0 : Fin 2).val : Int)]), .chain ⟨1 / 8, (.X, qArgs [(0 : Fin 2)]), []⟩ [],
      .gate .M (qArgs [(0 : Fin 2), (1 : Fin 2)])] _ _ _ :=
    ⟨.gate (.h [0]) (.gate (.cx [(0, 1)] (by simp)) (.gate (.erase (.inl rfl) 1) (.gate (.pauli (ps := [1 / 4, 0, 1 / 4]) (.cons (.inl rfl) (.cons (.inl rfl) (.cons (.inl rfl) .nil))) rfl
      (by
        rw [List.map_cons, List.map_cons, List.map_cons, List.map_nil, List.sum_cons, List.sum_cons, List.sum_cons, List.sum_nil, add_zero, ENNReal.ofReal_zero, zero_add,
          ← ENNReal.ofReal_add (by norm_num) (by norm_num), ← ENNReal.ofReal_one]
        exact ENNReal.ofReal_le_ofReal (by norm_num)) 0 []) (.chain (.cons (.cons (.x [0]) .nil) .nil) (.gate (.m [0, 1]) .nil))))), rfl, (by
      intro g hg v w p hn ha hv
      simp only [flatten, Block.instrs, chainInstrs, Alt.instrs, List.flatMap_cons, List.flatMap_nil, List.map_nil, List.cons_append, List.nil_append, List.append_nil, List.mem_cons,
        List.not_mem_nil, or_false] at hg
      rcases hg with rfl | rfl | rfl | rfl | rfl | rfl <;> cases hn
      cases ha
      rcases hv with hv | ⟨i, hv, -⟩
      · cases hv; norm_num
      · cases hv), rfl⟩
  obtain ⟨J, hJ⟩ := C96_meaning_partial _ _ _ _ _ hs (by
    intro g hg
    simp only [flatten, Block.instrs, chainInstrs, Alt.instrs, List.flatMap_cons, List.flatMap_nil, List.map_nil, List.cons_append, List.nil_append, List.append_nil, List.mem_cons,
      List.not_mem_nil, or_false] at hg
    have hflt : ∀ x p : ℝ, ValIs realApi (.flt x) p → x = p := by
      rintro x p (h | ⟨i, h, -⟩)
      · exact Val.flt.inj h
      · cases h
    rcases hg with rfl | rfl | rfl | rfl | rfl | rfl
    case inr.inr.inl =>
      refine ⟨?_, nofun, nofun, nofun, nofun, nofun⟩
      intro v w p _ ha hv
      cases ha
      rw [← hflt _ _ hv]
      norm_num
    case inr.inr.inr.inl =>
      refine ⟨nofun, ?_, nofun, nofun, nofun, nofun⟩
      intro _ v hv p hp
      simp only [List.take_succ_cons, List.take_zero, List.mem_cons, List.not_mem_nil, or_false] at hv
      rcases hv with rfl | rfl | rfl <;> rw [← hflt _ _ hp] <;> norm_num
    case inr.inr.inr.inr.inl =>
      refine ⟨nofun, nofun, nofun, nofun, ?_, nofun⟩
      intro p rest _ ha
      simp only [List.cons.injEq, Val.flt.injEq] at ha
      rw [← ha.1]
      norm_num
    all_goals exact ⟨nofun, nofun, nofun, nofun, nofun, nofun⟩)
  exact ⟨_, _, _, _, J, hs, hJ, rfl, rfl⟩

end Plaquette
