import Verif.Lemmas.Shots
import Verif.Props.RandomExperiment
import Mathlib.MeasureTheory.Integral.Lebesgue.Add

/-!
# The logical error rate of a random experiment (C94)
-/

open MeasureTheory
open scoped ENNReal NNReal

namespace Plaquette
variable {F : Type}

/-- The shot that ended in this state is decoded to a wrong result. -/
def ShotFails {σ : Type} {n : Nat} (b : Backend FW σ) (c : LatCode) (r : Nat) (sel : LogicalSel) (anc : Bool) (S : Sim n) : Prop :=
  ∃ s, Sample.fromRaw c S.results.1 S.results.2 anc = .ok s ∧ ¬ Succeeds b c r sel s

theorem oneShot_fails {c : LatCode} {r : Nat} (hn : c.nRounds = r) {api : FloatApi F} {rng : Rng F} {sel : LogicalSel} {circ : List (Gate F)} {shots : Nat} {σ : Type}
    {b : Backend FW σ} {negLog : ℚ → Option FW} {tiny : ℚ} {errs : Option ErrData} {g : SynGraph FW} {states : List σ}
    (hf : fromCode FW.isInf negLog tiny b c errs (some false) none = .ok (g, states)) {S0 S : Sim (numberOfQubits circ)} {ok : Bool}
    (h : (anyExperiment c circ b g states shots sel).oneShot api rng S0 = .ok (S, ok)) :
    S0.run api rng circ true = .ok S ∧ (ok = false → ShotFails b c r sel false S) := by
  unfold Experiment.oneShot at h
  split at h
  · cases h
  next S' h1 =>
  split at h
  · cases h
  next s h2 =>
  split at h
  · cases h
  next p h3 =>
  split at h
  · cases h
  next ok' h4 =>
  cases h
  refine ⟨h1, fun hok => ⟨s, h2, fun hs => ?_⟩⟩
  obtain ⟨g', st', p', k1, k2, k3, k4⟩ := hs
  obtain ⟨m1, _⟩ := C57_unweighted_partial hf
  rw [hn] at m1
  obtain rfl : g = g' := Except.ok.inj (m1.symm.trans k1)
  have m2 : setupAll b g = .ok states := by
    unfold fromCode at hf
    simp only [bind_ok] at hf
    obtain ⟨g2, _, st2, m3, m4⟩ := hf
    cases m4
    exact m3
  obtain rfl : states = st' := Except.ok.inj (m2.symm.trans k2)
  obtain rfl : p = p' := Except.ok.inj (h3.symm.trans k3)
  have := Except.ok.inj (h4.symm.trans k4)
  rw [hok] at this
  cases this

theorem loop_inv {api : FloatApi F} {rng : Rng F} {E : Experiment F} {k : Nat} {S0 : Sim (numberOfQubits E.circ)} {l : List Bool} (h : E.loop api rng (k + 1) S0 = .ok l) :
    ∃ S ok bs, E.oneShot api rng S0 = .ok (S, ok) ∧ E.loop api rng k S = .ok bs ∧ l = ok :: bs := by
  unfold Experiment.loop at h
  split at h
  · cases h
  next S ok h1 =>
  split at h
  · cases h
  next bs h2 =>
  cases h
  exact ⟨S, ok, bs, h1, h2, rfl⟩

theorem loop_fails {c : LatCode} {r : Nat} (hn : c.nRounds = r) {api : FloatApi F} {rng : Rng F} {sel : LogicalSel} {circ : List (Gate F)} {shots : Nat} {σ : Type}
    {b : Backend FW σ} {negLog : ℚ → Option FW} {tiny : ℚ} {errs : Option ErrData} {g : SynGraph FW} {states : List σ}
    (hf : fromCode FW.isInf negLog tiny b c errs (some false) none = .ok (g, states)) : ∀ (k : Nat) (m : Nat → Bool) (S0 : Sim (numberOfQubits circ)) (l : List Bool),
      (anyExperiment c circ b g states shots sel).loop api rng k S0 = .ok l → (∀ i, m i = true → l[i]? = some false) →
      MarkedFail api rng circ (ShotFails b c r sel false) k m S0
  | 0, _, _, _, _, _ => trivial
  | k + 1, m, S0, l, h, hm => by
    obtain ⟨S, ok, bs, h1, h2, rfl⟩ := loop_inv h
    obtain ⟨k1, k2⟩ := oneShot_fails hn hf h1
    refine ⟨S, k1, fun h0 => k2 (by simpa using hm 0 h0), loop_fails hn hf k _ S bs h2 fun i hi => by simpa using hm (i + 1) hi⟩

theorem falses_card : ∀ l : List Bool, ((Finset.range l.length).filter fun i => l[i]? = some false).card = l.count false
  | [] => rfl
  | x :: l => by
    rw [Finset.card_filter, List.length_cons, Finset.sum_range_succ']
    simp only [List.getElem?_cons_succ, List.getElem?_cons_zero, Option.some.injEq]
    rw [← Finset.card_filter, falses_card l, List.count_cons]
    cases x <;> simp

/-- The rate, or 0 if an exception is raised. -/
noncomputable def rateValue : Except Err ℚ → ℝ≥0∞
  | .ok p => ENNReal.ofReal (p : ℝ)
  | .error _ => 0

/-- What it means that the shots of an experiment fail independently with probability at most `B`: sets of shots fail with at most the power of `B`; the expectation of the logical
error rate is at most `B`; the probability that `m` or more shots fail is at most that of the binomial bound. -/
def FailIndependently {Ω : Type} [MeasurableSpace Ω] (μ : Measure Ω) (api : FloatApi F) (rng : Ω → Rng F) (pos : Nat) (E : Experiment F) (B : ℝ≥0∞) : Prop :=
  (∀ I : Finset Nat, μ {ω | ∃ l, E.loop api (rng ω) E.shots (Sim.fresh _ pos) = .ok l ∧ ∀ i ∈ I, l[i]? = some false} ≤ B ^ I.card) ∧
    ∫⁻ ω, rateValue (E.rate api (rng ω) pos) ∂μ ≤ B ∧
    ∀ m : Nat, μ {ω | ∃ p, E.rate api (rng ω) pos = .ok p ∧ (m : ℚ) ≤ p * E.shots} ≤ (E.shots.choose m : ℝ≥0∞) * B ^ m

theorem fails_of {Ω : Type} [MeasurableSpace Ω] {μ : Measure Ω} {shots : Nat} (hs : 1 ≤ shots) {loop : Ω → Except Err (List Bool)} {rate : Ω → Except Err ℚ}
    (hrate : ∀ ω p, rate ω = .ok p → ∃ l, loop ω = .ok l ∧ l.length = shots ∧ p * shots = l.count false) {B : ℝ≥0∞}
    (h : ∀ I : Finset Nat, μ {ω | ∃ l, loop ω = .ok l ∧ ∀ i ∈ I, l[i]? = some false} ≤ B ^ I.card) :
    (∀ I : Finset Nat, μ {ω | ∃ l, loop ω = .ok l ∧ ∀ i ∈ I, l[i]? = some false} ≤ B ^ I.card) ∧ ∫⁻ ω, rateValue (rate ω) ∂μ ≤ B ∧
      ∀ m : Nat, μ {ω | ∃ p, rate ω = .ok p ∧ (m : ℚ) ≤ p * shots} ≤ (shots.choose m : ℝ≥0∞) * B ^ m := by
  have hs0 : (0 : ℚ) < shots := by exact_mod_cast hs
  refine ⟨h, ?_, fun m => ?_⟩
  · let A : Nat → Set Ω := fun i => toMeasurable μ {ω | ∃ l, loop ω = .ok l ∧ ∀ j ∈ ({i} : Finset Nat), l[j]? = some false}
    have hA : ∀ i, MeasurableSet (A i) := fun i => measurableSet_toMeasurable _ _
    have hle : ∀ ω, rateValue (rate ω) ≤ ∑ i ∈ Finset.range shots, (A i).indicator (fun _ => ((shots : ℝ≥0∞))⁻¹) ω := by
      intro ω
      cases hp : rate ω with
      | error e => exact zero_le
      | ok p =>
        obtain ⟨l, h1, h2, h3⟩ := hrate ω p hp
        have hp' : p = (l.count false : ℚ) / shots := by rw [eq_div_iff hs0.ne']; exact h3
        have hv : rateValue (.ok p) = (l.count false : ℝ≥0∞) * (shots : ℝ≥0∞)⁻¹ := by
          unfold rateValue
          dsimp only
          rw [hp']
          push_cast
          rw [ENNReal.ofReal_div_of_pos (by exact_mod_cast hs), ENNReal.ofReal_natCast, ENNReal.ofReal_natCast, div_eq_mul_inv]
        rw [hv, ← falses_card l, h2, Finset.card_filter, Nat.cast_sum, Finset.sum_mul]
        refine Finset.sum_le_sum fun i _ => ?_
        split
        · next hi =>
          have : ω ∈ A i := subset_toMeasurable _ _ ⟨l, h1, fun j hj => by rw [Finset.mem_singleton.1 hj]; exact hi⟩
          rw [Set.indicator_of_mem this]
          simp
        · simp
    calc ∫⁻ ω, rateValue (rate ω) ∂μ ≤ ∫⁻ ω, ∑ i ∈ Finset.range shots, (A i).indicator (fun _ => ((shots : ℝ≥0∞))⁻¹) ω ∂μ := lintegral_mono hle
      _ = ∑ i ∈ Finset.range shots, (shots : ℝ≥0∞)⁻¹ * μ (A i) := by
        rw [lintegral_finsetSum _ fun i _ => measurable_const.indicator (hA i)]
        exact Finset.sum_congr rfl fun i _ => lintegral_indicator_const (hA i) _
      _ ≤ ∑ i ∈ Finset.range shots, (shots : ℝ≥0∞)⁻¹ * B := by
        refine Finset.sum_le_sum fun i _ => ?_
        have := h {i}
        rw [Finset.card_singleton, pow_one] at this
        gcongr
        exact (measure_toMeasurable _).le.trans this
      _ = B := by
        rw [Finset.sum_const, Finset.card_range, nsmul_eq_mul, ← mul_assoc, ENNReal.mul_inv_cancel (by exact_mod_cast (by omega : shots ≠ 0)) (ENNReal.natCast_ne_top _), one_mul]
  · have hsub : {ω | ∃ p, rate ω = .ok p ∧ (m : ℚ) ≤ p * shots} ⊆ ⋃ I ∈ (Finset.range shots).powersetCard m,
        {ω | ∃ l, loop ω = .ok l ∧ ∀ i ∈ I, l[i]? = some false} := by
      rintro ω ⟨p, hp, hm⟩
      obtain ⟨l, h1, h2, h3⟩ := hrate ω p hp
      rw [h3] at hm
      have hm : m ≤ l.count false := by exact_mod_cast hm
      rw [← falses_card l] at hm
      obtain ⟨I, hI, hc⟩ := Finset.exists_subset_card_eq hm
      refine Set.mem_biUnion (x := I) (Finset.mem_coe.2 (Finset.mem_powersetCard.2 ⟨fun i hi => ?_, hc⟩)) ⟨l, h1, fun i hi => ?_⟩
      · rw [← h2]; exact (Finset.mem_filter.1 (hI hi)).1
      · exact (Finset.mem_filter.1 (hI hi)).2
    refine (measure_mono hsub).trans ((measure_biUnion_finset_le _ _).trans ((Finset.sum_le_sum (g := fun _ => B ^ m) fun I hI => ?_).trans ?_))
    · rw [← (Finset.mem_powersetCard.1 hI).2]; exact h I
    · rw [Finset.sum_const, Finset.card_powersetCard, Finset.card_range, nsmul_eq_mul]

theorem fail_independently {Ω : Type} [MeasurableSpace Ω] {μ : Measure Ω} (api : FloatApi F) (rng : Ω → Rng F) (pos : Nat) (E : Experiment F) (hs : 1 ≤ E.shots) {B : ℝ≥0∞}
    (h : ∀ I : Finset Nat, μ {ω | ∃ l, E.loop api (rng ω) E.shots (Sim.fresh _ pos) = .ok l ∧ ∀ i ∈ I, l[i]? = some false} ≤ B ^ I.card) :
    FailIndependently μ api rng pos E B := by
  refine fails_of hs (loop := fun ω => E.loop api (rng ω) E.shots (Sim.fresh _ pos)) (rate := fun ω => E.rate api (rng ω) pos) (fun ω p hp => ?_) h
  unfold Experiment.rate at hp
  split at hp
  · cases hp
  next l hl =>
  obtain ⟨q, h1, h2, _⟩ := C68_rate_partial api (rng ω) E pos l hl hs
  unfold Experiment.rate at h1
  rw [hl] at h1
  cases hp
  cases h1
  exact ⟨l, hl, E.loop_length api (rng ω) _ _ _ hl, h2⟩

theorem shots_independent {c : LatCode} {r : Nat} (hn : c.nRounds = r) {Ω : Type} [MeasurableSpace Ω] {μ : Measure Ω} [IsProbabilityMeasure μ] {prob : F → ℝ≥0∞}
    {past : Nat → MeasurableSpace Ω} {rng : Ω → Rng F} {pos : Nat} (hF : FairFrom pos μ prob past rng) (api : FloatApi F) {sel : LogicalSel} {circ : List (Gate F)} {shots : Nat}
    (hs : 1 ≤ shots) {σ : Type} {b : Backend FW σ} {negLog : ℚ → Option FW} {tiny : ℚ} {errs : Option ErrData} {g : SynGraph FW} {states : List σ}
    (hf : fromCode FW.isInf negLog tiny b c errs (some false) none = .ok (g, states)) {B : ℝ≥0∞}
    (hB : ∀ (S0 : Sim (numberOfQubits circ)) (μ' : Measure Ω), IsProbabilityMeasure μ' → FairFrom S0.pos μ' prob past rng → μ' (failedShots b api rng c r sel false circ S0) ≤ B) :
    FailIndependently μ api rng pos (anyExperiment c circ b g states shots sel) B := by
  classical
  refine fail_independently api rng pos _ hs fun I => ?_
  have hB' : ∀ (S0 : Sim (numberOfQubits circ)) (μ' : Measure Ω), IsProbabilityMeasure μ' → FairFrom S0.pos μ' prob past rng →
      μ' {ω | ∃ S, S0.run api (rng ω) circ true = .ok S ∧ ShotFails b c r sel false S} ≤ B := by
    intro S0 μ' hμ hF'
    refine (measure_mono ?_).trans (hB S0 μ' hμ hF')
    rintro ω ⟨S, h1, s, h2, h3⟩
    exact ⟨S, s, h1, h2, h3⟩
  by_cases hI : I ⊆ Finset.range shots
  · have h := markedFail_bound hF api circ (ShotFails b c r sel false) hB' shots (fun i => decide (i ∈ I)) (Sim.fresh _ pos) Set.univ (le_refl _) (@MeasurableSet.univ _ (past pos))
    rw [Set.univ_inter, measure_univ, mul_one] at h
    refine (measure_mono ?_).trans (h.trans (le_of_eq ?_))
    · rintro ω ⟨l, h1, h2⟩
      exact loop_fails hn hf shots _ _ l h1 fun i hi => h2 i (by simpa using hi)
    · simp only [decide_eq_true_eq]
      rw [← Finset.prod_filter, Finset.prod_const, Finset.filter_mem_eq_inter, Finset.inter_eq_right.2 hI]
  · have : {ω | ∃ l, (anyExperiment c circ b g states shots sel).loop api (rng ω) shots (Sim.fresh _ pos) = .ok l ∧ ∀ i ∈ I, l[i]? = some false} = ∅ := by
      refine Set.eq_empty_iff_forall_notMem.2 ?_
      rintro ω ⟨l, h1, h2⟩
      refine hI fun i hi => ?_
      have := (List.getElem?_eq_some_iff.1 (h2 i hi)).1
      rw [Experiment.loop_length api (rng ω) _ _ _ _ h1] at this
      exact Finset.mem_range.2 this
    refine (measure_mono (le_of_eq this)).trans ?_
    rw [measure_empty]
    exact zero_le

/-- The shots of experiments on the code, with a fair generator and error instructions of rates at most `xᴰ` with `K x ≤ q²`, fail independently with probability at most
`32 r d² qᵈ / (1 - q)`. The decoder has no weights; the logical operators are measured without ancillas, as `ExperimentConfig.run` does. -/
def RatesSmall {σ : Type} (b : Backend FW σ) (c : LatCode) (r d K D : Nat) (erasures gates : Bool) : Prop :=
  ∀ (F : Type) (api : FloatApi F) (qe ge : List (List Char × ErrDict F)) (sel : LogicalSel) (circ : List (Gate F)) (Ω : Type) [MeasurableSpace Ω] (μ : Measure Ω)
    [IsProbabilityMeasure μ] (prob : F → ℝ≥0∞) (past : Nat → MeasurableSpace Ω) (rng : Ω → Rng F) (pos shots : Nat) (x q : ℝ≥0∞) (negLog : ℚ → Option FW) (tiny : ℚ)
    (errs : Option ErrData) (g : SynGraph FW) (states : List σ),
    FairFrom pos μ prob past rng → (erasures = false → ∀ q < c.n, (flagsOf qe).erasure q = false) → (gates = false → ∀ e ∈ ge, e.2 = []) → OnlyZ c sel →
    generateCircuit api c qe ge sel false = .ok circ → (∀ g ∈ circ, g.name.noisy = true → g.rate api prob ≤ x ^ D) → q ≤ 1 → K * x ≤ q ^ 2 → 1 ≤ shots →
    fromCode FW.isInf negLog tiny b c errs (some false) none = .ok (g, states) →
    FailIndependently μ api rng pos (anyExperiment c circ b g states shots sel) (32 * r * d ^ 2 * q ^ d * (1 - q)⁻¹)

theorem rates_small {σ : Type} {b : Backend FW σ} {c : LatCode} {r d K D : Nat} {erasures gates : Bool} (hn : c.nRounds = r)
    (h : ShotsFailRarely b c r d K D erasures gates (fun sel anc => anc = true ∨ OnlyZ c sel)) : RatesSmall b c r d K D erasures gates := by
  intro F api qe ge sel circ Ω _ μ _ prob past rng pos shots x q negLog tiny errs g states hF he hg hsel hcirc hrate hq hxq hs hf
  exact shots_independent hn hF api hs hf fun S0 μ' _ hF' => h F api qe ge sel false circ S0 Ω μ' prob past rng x q hF' he hg (.inr hsel) hcirc hrate hq hxq

/-- PyMatching (without erasures) and Fusion Blossom. -/
def BothRatesSmall (c : LatCode) (r d K D : Nat) (erasures gates : Bool) : Prop :=
  (∀ solve, IsPyMatching solve → RatesSmall (pmBackend solve) c r d K D false gates) ∧ ∀ solve, IsFusionBlossom solve → RatesSmall (fbBackend solve) c r d K D erasures gates

theorem both_rates {c : LatCode} {r d K D : Nat} {erasures gates : Bool} (hn : c.nRounds = r)
    (h : BothShotsFailRarely c r d K D erasures gates (fun sel anc => anc = true ∨ OnlyZ c sel)) : BothRatesSmall c r d K D erasures gates :=
  ⟨fun solve hS => rates_small hn (h.1 solve hS), fun solve hS => rates_small hn (h.2 solve hS)⟩

/-- **C94** On the planar code of size at least 3, the shots of an experiment (errors of qubits and measurements of rates at most `q² / 200`; or also errors of gates, rates at most
`x²⁰` with `14400 x ≤ q²`) fail independently with probability at most `32 rounds size² q^size / (1 - q)`, and so this is a bound for the expected logical error rate that is returned. -/
theorem C94_planar (r size : Nat) (hr : 1 ≤ r) (h3 : 3 ≤ size) : ∃ c, makePlanar r size = .ok c ∧ BothRatesSmall c r size 200 1 true false ∧ BothRatesSmall c r size 14400 20 true true := by
  obtain ⟨c, h1, h2, h3'⟩ := planar_rare hr h3
  have hn : c.nRounds = r := by obtain ⟨L, rfl, _⟩ := (Made.planar (by omega) h1).lattice; rfl
  exact ⟨c, h1, both_rates hn h2, both_rates hn h3'⟩

/-- **C94** The same for the toric code. -/
theorem C94_toric (r size : Nat) (hr : 1 ≤ r) (h3 : 3 ≤ size) : ∃ c, makeToric r size = .ok c ∧ BothRatesSmall c r size 200 1 true false ∧ BothRatesSmall c r size 14400 20 true true := by
  obtain ⟨c, h1, h2, h3'⟩ := toric_rare hr h3
  have hn : c.nRounds = r := by obtain ⟨L, rfl, _⟩ := (Made.toric (by omega) h1).lattice; rfl
  exact ⟨c, h1, both_rates hn h2, both_rates hn h3'⟩

/-- **C94** The same for the rotated code and the XZZX code, without erased qubits. -/
theorem C94_rotated (r size : Nat) (xzzx : Bool) (hr : 1 ≤ r) (h2 : 2 ≤ size) :
    ∃ c, makeRotated r size xzzx = .ok c ∧ BothRatesSmall c r size 200 1 false false ∧ BothRatesSmall c r size 14400 20 false true := by
  obtain ⟨c, h1, h2', h3'⟩ := rotated_rare xzzx hr h2
  have hn : c.nRounds = r := by obtain ⟨L, rfl, _⟩ := (Made.rotated (by omega) h1).lattice; rfl
  exact ⟨c, h1, both_rates hn h2', both_rates hn h3'⟩

/-! ### Thresholds -/

/-- Below a threshold the shots of experiments on large codes fail independently with probabilities as small as one likes. -/
def RatesBelowThreshold {σ : Type} (b : Backend FW σ) (make : Nat → Nat → Except Err LatCode) (size_ok : Nat → Prop) (K D : Nat) (erasures gates : Bool) : Prop :=
  ∀ (x : ℝ≥0∞), K * x < 1 → ∀ (j : Nat) (ε : ℝ≥0∞), 0 < ε → ∃ N, ∀ size, N ≤ size → size_ok size → ∀ r, 1 ≤ r → r ≤ size ^ j → ∃ c, make r size = .ok c ∧
    ∀ (F : Type) (api : FloatApi F) (qe ge : List (List Char × ErrDict F)) (sel : LogicalSel) (circ : List (Gate F)) (Ω : Type) [MeasurableSpace Ω] (μ : Measure Ω)
      [IsProbabilityMeasure μ] (prob : F → ℝ≥0∞) (past : Nat → MeasurableSpace Ω) (rng : Ω → Rng F) (pos shots : Nat) (negLog : ℚ → Option FW) (tiny : ℚ)
      (errs : Option ErrData) (g : SynGraph FW) (states : List σ),
      FairFrom pos μ prob past rng → (erasures = false → ∀ q < c.n, (flagsOf qe).erasure q = false) → (gates = false → ∀ e ∈ ge, e.2 = []) → OnlyZ c sel →
      generateCircuit api c qe ge sel false = .ok circ → (∀ g ∈ circ, g.name.noisy = true → g.rate api prob ≤ x ^ D) → 1 ≤ shots →
      fromCode FW.isInf negLog tiny b c errs (some false) none = .ok (g, states) →
      FailIndependently μ api rng pos (anyExperiment c circ b g states shots sel) ε

theorem rates_threshold {σ : Type} {b : Backend FW σ} {make : Nat → Nat → Except Err LatCode} {size_ok : Nat → Prop} {K D : Nat} {erasures gates : Bool}
    (hn : ∀ r size c, size_ok size → make r size = .ok c → c.nRounds = r)
    (h : ShotsBelowThreshold b make size_ok K D erasures gates (fun c sel anc => anc = true ∨ OnlyZ c sel)) : RatesBelowThreshold b make size_ok K D erasures gates := by
  intro x hx j ε hε
  obtain ⟨N, hN⟩ := h x hx j ε hε
  refine ⟨N, fun size hs hok r hr hrs => ?_⟩
  obtain ⟨c, hc, hb⟩ := hN size hs hok r hr hrs
  refine ⟨c, hc, fun F api qe ge sel circ Ω _ μ _ prob past rng pos shots negLog tiny errs g states hF he hg hsel hcirc hrate hsh hf => ?_⟩
  exact shots_independent (hn r size c hok hc) hF api hsh hf fun S0 μ' _ hF' => hb F api qe ge sel false circ S0 Ω μ' prob past rng hF' he hg (.inr hsel) hcirc hrate

theorem rounds_planar (r size : Nat) (c : LatCode) (h : 3 ≤ size) (hc : makePlanar r size = .ok c) : c.nRounds = r := by
  obtain ⟨L, rfl, _⟩ := (Made.planar (by omega) hc).lattice; rfl

theorem rounds_toric (r size : Nat) (c : LatCode) (h : 3 ≤ size) (hc : makeToric r size = .ok c) : c.nRounds = r := by
  obtain ⟨L, rfl, _⟩ := (Made.toric (by omega) hc).lattice; rfl

theorem rounds_rotated (xzzx : Bool) (r size : Nat) (c : LatCode) (h : 2 ≤ size) (hc : makeRotated r size xzzx = .ok c) : c.nRounds = r := by
  obtain ⟨L, rfl, _⟩ := (Made.rotated (by omega) hc).lattice; rfl

/-- **C94**, thresholds with PyMatching: below the rate 1/200 of errors of qubits and measurements (and below a smaller rate of errors of gates) the expected logical error rate goes to
zero with the size of the code. -/
theorem C94_pymatching {solve : PmGraph → List Bool → Except Err (List Bool)} (hS : IsPyMatching solve) :
    (RatesBelowThreshold (pmBackend solve) makePlanar (3 ≤ ·) 200 1 false false ∧ RatesBelowThreshold (pmBackend solve) makePlanar (3 ≤ ·) 14400 20 false true) ∧
      (RatesBelowThreshold (pmBackend solve) makeToric (3 ≤ ·) 200 1 false false ∧ RatesBelowThreshold (pmBackend solve) makeToric (3 ≤ ·) 14400 20 false true) ∧
      ∀ xzzx, RatesBelowThreshold (pmBackend solve) (fun r s => makeRotated r s xzzx) (2 ≤ ·) 200 1 false false ∧
        RatesBelowThreshold (pmBackend solve) (fun r s => makeRotated r s xzzx) (2 ≤ ·) 14400 20 false true := by
  obtain ⟨h1, h2, h3, _⟩ := C92_pymatching hS
  obtain ⟨k1, k2, k3, _⟩ := C93_pymatching hS
  exact ⟨⟨rates_threshold rounds_planar h1, rates_threshold rounds_planar k1⟩, ⟨rates_threshold rounds_toric h2, rates_threshold rounds_toric k2⟩,
    fun xzzx => ⟨rates_threshold (rounds_rotated xzzx) (h3 xzzx), rates_threshold (rounds_rotated xzzx) (k3 xzzx)⟩⟩

/-- **C94**, thresholds with Fusion Blossom, with erased qubits on the codes where erasures are not lost. -/
theorem C94_fusionblossom {solve : FbGraph → List Nat → List Nat → Except Err (List Nat)} (hS : IsFusionBlossom solve) :
    (RatesBelowThreshold (fbBackend solve) makePlanar (3 ≤ ·) 200 1 true false ∧ RatesBelowThreshold (fbBackend solve) makePlanar (3 ≤ ·) 14400 20 true true) ∧
      (RatesBelowThreshold (fbBackend solve) makeToric (3 ≤ ·) 200 1 true false ∧ RatesBelowThreshold (fbBackend solve) makeToric (3 ≤ ·) 14400 20 true true) ∧
      ∀ xzzx, RatesBelowThreshold (fbBackend solve) (fun r s => makeRotated r s xzzx) (2 ≤ ·) 200 1 false false ∧
        RatesBelowThreshold (fbBackend solve) (fun r s => makeRotated r s xzzx) (2 ≤ ·) 14400 20 false true := by
  obtain ⟨h1, h2, h3, _⟩ := C92_fusionblossom hS
  obtain ⟨k1, k2, k3, _⟩ := C93_fusionblossom hS
  exact ⟨⟨rates_threshold rounds_planar h1, rates_threshold rounds_planar k1⟩, ⟨rates_threshold rounds_toric h2, rates_threshold rounds_toric k2⟩,
    fun xzzx => ⟨rates_threshold (rounds_rotated xzzx) (h3 xzzx), rates_threshold (rounds_rotated xzzx) (k3 xzzx)⟩⟩

/-! ### An example -/

theorem fromCode_setup {σ : Type} {b b' : Backend FW σ} (h : b.setup = b'.setup) (negLog : ℚ → Option FW) (tiny : ℚ) (c : LatCode) (errs : Option ErrData) (weighted : Option Bool)
    (weights : Option (Weights FW)) : fromCode FW.isInf negLog tiny b c errs weighted weights = fromCode FW.isInf negLog tiny b' c errs weighted weights := by
  unfold fromCode setupAll
  rw [h]

set_option maxRecDepth 100000 in
/-- C94 for the rotated code of size 3, one round, ten shots, and errors of one qubit with probability one millionth. -/
example : ∃ circ, generateCircuit natApi ((Rotated.lat 3 false diagOrder).latCode 1) onePauli [] (.str "Z".toList) false = .ok circ ∧ ∀ solve, IsFusionBlossom solve →
    ∃ g states, FailIndependently draws natApi (fairRng (units (1000000⁻¹))) 0 (anyExperiment ((Rotated.lat 3 false diagOrder).latCode 1) circ (fbBackend solve) g states 10 (.str "Z".toList))
      (32 * (1 : Nat) * (3 : Nat) ^ 2 * (50⁻¹) ^ 3 * (1 - 50⁻¹)⁻¹) := by
  obtain ⟨circ, h1, h2⟩ := onceAll_inv (c := (Rotated.lat 3 false diagOrder).latCode 1) (qe := onePauli) (ge := []) (sel := .str "Z".toList) (anc := false) (by decide +kernel)
  refine ⟨circ, h1, fun solve hS => ?_⟩
  have hg : (fromCode FW.isInf (fun _ => none) 0 (fbBackend fun _ _ _ => .error .valueError) ((Rotated.lat 3 false diagOrder).latCode 1) none (some false) none).toOption.isSome = true := by
    decide +kernel
  have hg' := fromCode_setup (b := fbBackend solve) (b' := fbBackend fun _ _ _ => .error .valueError) rfl (fun _ => none) 0 ((Rotated.lat 3 false diagOrder).latCode 1) none (some false) none
  cases hx : fromCode FW.isInf (fun _ => none) 0 (fbBackend fun _ _ _ => .error .valueError) ((Rotated.lat 3 false diagOrder).latCode 1) none (some false) none with
  | error e => rw [hx] at hg; cases hg
  | ok p =>
    obtain ⟨g, states⟩ := p
    rw [hx] at hg'
    obtain ⟨c, hc, hb, _⟩ := C94_rotated 1 3 false (by omega) (by omega)
    have hc' : makeRotated 1 3 false = .ok ((Rotated.lat 3 false diagOrder).latCode 1) := by
      rw [makeRotated, Rotated.make (by omega) diagOrder (by decide)]; exact mkLatCode_ok (Rotated.wf _ (by omega)) (Rotated.full _ (by omega)) 1
    obtain rfl := Except.ok.inj (hc.symm.trans hc')
    refine ⟨g, states, hb.2 solve hS Nat natApi onePauli [] _ circ _ draws _ _ _ 0 10 (1000000⁻¹) (50⁻¹) _ _ _ g states (fairRng_fair _) (fun _ => ?_) (by simp) ?_ h1 ?_ ?_ ?_ (by omega) hg'⟩
    · decide +kernel
    · intro is his i hi a ha q
      have e : logicalOpsToIndices ((Rotated.lat 3 false diagOrder).latCode 1).code.logicalOps.length (.str "Z".toList) = .ok [1] := by decide +kernel
      rw [e] at his
      cases his
      obtain rfl := List.mem_singleton.1 hi
      cases ha
      revert q
      decide +kernel
    · intro g hg hn
      rw [pow_one]
      exact h2 _ g hg hn
    · rw [ENNReal.inv_le_one]; norm_num
    · rw [← ENNReal.inv_pow]
      exact_mod_cast inv_small (K := 200) (a := 1000000) (b := 50 ^ 2) (by omega) (by omega)

end Plaquette
