import Verif.Lemmas.RandomTrace
import Verif.Model.Experiment
import Mathlib.Probability.ConditionalProbability

/-!
# The probability that all shots of a set fail
-/

open MeasureTheory
open scoped ENNReal

namespace Plaquette
variable {F : Type} {n : Nat} {Ω : Type} [m0 : MeasurableSpace Ω] {μ : Measure Ω} {prob : F → ℝ≥0∞} {past : Nat → MeasurableSpace Ω} {rng : Ω → Rng F} {k₀ : Nat}

theorem known_runGates (hF : FairFrom k₀ μ prob past rng) (api : FloatApi F) (gs : List (Gate F)) : ∀ S : Sim n, Known past rng S.pos fun r => S.runGates api r gs := by
  induction gs with
  | nil => exact fun S => known_const (.ok S) (fun _ => rfl) fun S' h => by cases h; exact le_rfl
  | cons g gs ih =>
    intro S
    refine known_bind hF le_rfl (known_runGate hF api S g) (fun S' _ => ih S') fun ω S'' => ?_
    rw [Sim.runGates]
    cases h : S.runGate api (rng ω) g with
    | error e => simp
    | ok S' => simp

theorem known_run (hF : FairFrom k₀ μ prob past rng) (api : FloatApi F) (gs : List (Gate F)) (S : Sim n) : Known past rng S.pos fun r => S.run api r gs true :=
  known_runGates hF api gs S.reset

/-- A generator is fair from the call `k` on also given an event that happened before. -/
theorem fair_cond [IsFiniteMeasure μ] (hF : FairFrom k₀ μ prob past rng) {k : Nat} (hk : k₀ ≤ k) {A : Set Ω} (hA : MeasurableSet[past k] A) :
    FairFrom k (ProbabilityTheory.cond μ A) prob past rng := by
  have hA' : MeasurableSet A := hF.le k _ hA
  have key : ∀ (k' : Nat) (B : Set Ω) (p : ℝ≥0∞), k ≤ k' → (∀ E, MeasurableSet[past k'] E → μ (E ∩ B) ≤ p * μ E) → ∀ E, MeasurableSet[past k'] E →
      ProbabilityTheory.cond μ A (E ∩ B) ≤ p * ProbabilityTheory.cond μ A E := by
    intro k' B p hk' h E hE
    rw [ProbabilityTheory.cond_apply hA', ProbabilityTheory.cond_apply hA', ← Set.inter_assoc, mul_left_comm]
    gcongr
    exact h _ (@MeasurableSet.inter _ (past k') _ _ (hF.mono hk' _ hA) hE)
  exact { mono := hF.mono, le := hF.le, below := hF.below, bit := hF.bit, int3 := hF.int3, int4 := hF.int4, choice4 := hF.choice4, choice16 := hF.choice16
          below_prob := fun k' x E h hE => key k' _ _ h (fun E' hE' => hF.below_prob k' x E' (hk.trans h) hE') E hE
          choice4_prob := fun k' ps v i p E h hv hp hE => key k' _ _ h (fun E' hE' => hF.choice4_prob k' ps v i p E' (hk.trans h) hv hp hE') E hE
          choice16_prob := fun k' ps v i p E h hv hp hE => key k' _ _ h (fun E' hE' => hF.choice16_prob k' ps v i p E' (hk.trans h) hv hp hE') E hE }

/-- A bound for all fair generators holds also given the past. -/
theorem bound_cond [IsFiniteMeasure μ] (hF : FairFrom k₀ μ prob past rng) {k : Nat} (hk : k₀ ≤ k) {B : ℝ≥0∞} {bad : Set Ω}
    (hB : ∀ μ' : Measure Ω, IsProbabilityMeasure μ' → FairFrom k μ' prob past rng → μ' bad ≤ B) {E : Set Ω} (hE : MeasurableSet[past k] E) : μ (E ∩ bad) ≤ B * μ E := by
  by_cases h0 : μ E = 0
  · rw [measure_mono_null Set.inter_subset_left h0]
    exact zero_le
  · have h := hB _ (ProbabilityTheory.cond_isProbabilityMeasure h0) (fair_cond hF hk hE)
    rw [ProbabilityTheory.cond_apply (hF.le k _ hE), ← ENNReal.div_eq_inv_mul] at h
    exact (ENNReal.div_le_iff h0 (measure_ne_top μ E)).1 h

/-- The shots with the marked numbers, of `k` shots, fail; a shot is a run after a reset. -/
def MarkedFail (api : FloatApi F) (rng : Rng F) (circ : List (Gate F)) (fail : Sim n → Prop) : Nat → (Nat → Bool) → Sim n → Prop
  | 0, _, _ => True
  | k + 1, m, S => ∃ S', S.run api rng circ true = .ok S' ∧ (m 0 = true → fail S') ∧ MarkedFail api rng circ fail k (fun i => m (i + 1)) S'

theorem marked_bound (hF : FairFrom k₀ μ prob past rng) (api : FloatApi F) (circ : List (Gate F)) (fail : Sim n → Prop) {B : ℝ≥0∞}
    (hB : ∀ (S0 : Sim n) (E : Set Ω), k₀ ≤ S0.pos → MeasurableSet[past S0.pos] E → μ (E ∩ {ω | ∃ S, S0.run api (rng ω) circ true = .ok S ∧ fail S}) ≤ B * μ E) :
    ∀ (k : Nat) (m : Nat → Bool) (S : Sim n) (E : Set Ω), k₀ ≤ S.pos → MeasurableSet[past S.pos] E →
      μ (E ∩ {ω | MarkedFail api (rng ω) circ fail k m S}) ≤ (∏ i ∈ Finset.range k, if m i = true then B else 1) * μ E
  | 0, m, S, E, _, _ => by simp [MarkedFail]
  | k + 1, m, S, E, hp, hE => by
    have hR : ∀ S', MeasurableSet[past S'.pos] {ω | S.run api (rng ω) circ true = .ok S'} := fun S' => (known_run hF api circ S S').1
    have hR0 : ∀ S', MeasurableSet {ω | S.run api (rng ω) circ true = .ok S'} := fun S' => hF.le _ _ (hR S')
    have hpos : ∀ S' ω, S.run api (rng ω) circ true = .ok S' → S.pos ≤ S'.pos := fun S' => (known_run hF api circ S S').2
    have hE0 : MeasurableSet E := hF.le _ _ hE
    -- the events that the first shot ends in a state, and fails if it is marked
    let A : Sim n → Set Ω := fun S' => E ∩ ({ω | S.run api (rng ω) circ true = .ok S'} ∩ {_ω | m 0 = true → fail S'})
    have hA0 : ∀ S', MeasurableSet (A S') := fun S' => hE0.inter ((hR0 S').inter (MeasurableSet.const _))
    have hsub : E ∩ {ω | MarkedFail api (rng ω) circ fail (k + 1) m S} ⊆ ⋃ S' : Sim n, A S' ∩ {ω | MarkedFail api (rng ω) circ fail k (fun i => m (i + 1)) S'} := by
      rintro ω ⟨h1, S', h2, h3, h4⟩
      exact Set.mem_iUnion.2 ⟨S', ⟨h1, h2, h3⟩, h4⟩
    have hstep : ∀ S', μ (A S' ∩ {ω | MarkedFail api (rng ω) circ fail k (fun i => m (i + 1)) S'}) ≤ (∏ i ∈ Finset.range k, if m (i + 1) = true then B else 1) * μ (A S') := by
      intro S'
      by_cases hne : ∃ ω, S.run api (rng ω) circ true = .ok S'
      · obtain ⟨ω, hω⟩ := hne
        refine marked_bound hF api circ fail hB k _ S' (A S') (hp.trans (hpos S' ω hω)) ?_
        exact @MeasurableSet.inter _ (past S'.pos) _ _ (hF.mono (hpos S' ω hω) _ hE)
          (@MeasurableSet.inter _ (past S'.pos) _ _ (hR S') (@MeasurableSet.const _ (past S'.pos) _))
      · have : A S' ∩ {ω | MarkedFail api (rng ω) circ fail k (fun i => m (i + 1)) S'} = ∅ := Set.eq_empty_iff_forall_notMem.2 fun ω hω => hne ⟨ω, hω.1.2.1⟩
        rw [this, measure_empty]
        exact zero_le
    have hdis : Pairwise (Function.onFun Disjoint A) := by
      intro S1 S2 hne
      refine Set.disjoint_left.2 fun ω h1 h2 => hne ?_
      have e1 : S.run api (rng ω) circ true = .ok S1 := h1.2.1
      have e2 : S.run api (rng ω) circ true = .ok S2 := h2.2.1
      exact Except.ok.inj (e1.symm.trans e2)
    have hfirst : μ (⋃ S', A S') ≤ (if m 0 = true then B else 1) * μ E := by
      by_cases h0 : m 0 = true
      · rw [if_pos h0]
        refine (measure_mono ?_).trans (hB S E hp hE)
        rintro ω hω
        obtain ⟨S', h1, h2, h3⟩ := Set.mem_iUnion.1 hω
        exact ⟨h1, S', h2, h3 h0⟩
      · rw [if_neg h0, one_mul]
        exact measure_mono (Set.iUnion_subset fun S' => Set.inter_subset_left)
    calc μ (E ∩ {ω | MarkedFail api (rng ω) circ fail (k + 1) m S}) ≤ ∑' S', μ (A S' ∩ {ω | MarkedFail api (rng ω) circ fail k (fun i => m (i + 1)) S'}) :=
          (measure_mono hsub).trans (measure_iUnion_le _)
      _ ≤ ∑' S', (∏ i ∈ Finset.range k, if m (i + 1) = true then B else 1) * μ (A S') := ENNReal.tsum_le_tsum hstep
      _ = (∏ i ∈ Finset.range k, if m (i + 1) = true then B else 1) * μ (⋃ S', A S') := by rw [ENNReal.tsum_mul_left, measure_iUnion hdis hA0]
      _ ≤ (∏ i ∈ Finset.range k, if m (i + 1) = true then B else 1) * ((if m 0 = true then B else 1) * μ E) := by gcongr
      _ = _ := by rw [Finset.prod_range_succ']; ring

theorem markedFail_bound [IsFiniteMeasure μ] (hF : FairFrom k₀ μ prob past rng) (api : FloatApi F) (circ : List (Gate F)) (fail : Sim n → Prop) {B : ℝ≥0∞}
    (hB : ∀ (S0 : Sim n) (μ' : Measure Ω), IsProbabilityMeasure μ' → FairFrom S0.pos μ' prob past rng → μ' {ω | ∃ S, S0.run api (rng ω) circ true = .ok S ∧ fail S} ≤ B) :
    ∀ (k : Nat) (m : Nat → Bool) (S : Sim n) (E : Set Ω), k₀ ≤ S.pos → MeasurableSet[past S.pos] E →
      μ (E ∩ {ω | MarkedFail api (rng ω) circ fail k m S}) ≤ (∏ i ∈ Finset.range k, if m i = true then B else 1) * μ E :=
  marked_bound hF api circ fail fun S0 _ hp hE => bound_cond hF hp (hB S0) hE

end Plaquette
