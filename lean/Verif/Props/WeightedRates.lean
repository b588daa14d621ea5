import Verif.Props.RandomRates
import Verif.Props.WeightedExperiment
import Verif.Props.Rates
import Verif.Lemmas.OnlyZ

/-!
# The logical error rate of experiments with decoders made from error data (C114)
-/

open MeasureTheory
open scoped ENNReal NNReal

namespace Plaquette
variable {F : Type}

/-! ## Shots and their results -/

/-- The shot that ended in this state is decoded to a wrong result by this decoder. -/
def ShotFailsOn {σ : Type} {n : Nat} (b : Backend FW σ) (g : SynGraph FW) (states : List σ) (c : LatCode) (sel : LogicalSel) (anc : Bool) (S : Sim n) : Prop :=
  ∃ s, Sample.fromRaw c S.results.1 S.results.2 anc = .ok s ∧ ¬ SucceedsOn b g states c sel s

theorem oneShot_fails_on {c : LatCode} {api : FloatApi F} {rng : Rng F} {sel : LogicalSel} {circ : List (Gate F)} {shots : Nat} {σ : Type} {b : Backend FW σ} {g : SynGraph FW}
    {states : List σ} {S0 S : Sim (numberOfQubits circ)} {ok : Bool} (h : (anyExperiment c circ b g states shots sel).oneShot api rng S0 = .ok (S, ok)) :
    S0.run api rng circ true = .ok S ∧ (ok = false → ShotFailsOn b g states c sel false S) := by
  unfold Experiment.oneShot at h
  split at h
  · cases h
  next S' h1 =>
  split at h
  · cases h
  next s h2 =>
  split at h
  · cases h
  next p h3 =>
  split at h
  · cases h
  next ok' h4 =>
  cases h
  refine ⟨h1, fun hok => ⟨s, h2, fun hs => ?_⟩⟩
  obtain ⟨p', k3, k4⟩ := hs
  obtain rfl : p = p' := Except.ok.inj (h3.symm.trans k3)
  have := Except.ok.inj (h4.symm.trans k4)
  rw [hok] at this
  cases this

theorem loop_fails_on {c : LatCode} {api : FloatApi F} {rng : Rng F} {sel : LogicalSel} {circ : List (Gate F)} {shots : Nat} {σ : Type} {b : Backend FW σ} {g : SynGraph FW}
    {states : List σ} : ∀ (k : Nat) (m : Nat → Bool) (S0 : Sim (numberOfQubits circ)) (l : List Bool),
      (anyExperiment c circ b g states shots sel).loop api rng k S0 = .ok l → (∀ i, m i = true → l[i]? = some false) →
      MarkedFail api rng circ (ShotFailsOn b g states c sel false) k m S0
  | 0, _, _, _, _, _ => trivial
  | k + 1, m, S0, l, h, hm => by
    obtain ⟨S, ok, bs, h1, h2, rfl⟩ := loop_inv h
    obtain ⟨k1, k2⟩ := oneShot_fails_on h1
    refine ⟨S, k1, fun h0 => k2 (by simpa using hm 0 h0), loop_fails_on k _ S bs h2 fun i hi => by simpa using hm (i + 1) hi⟩

theorem shots_independent_on {c : LatCode} {Ω : Type} [MeasurableSpace Ω] {μ : Measure Ω} [IsProbabilityMeasure μ] {prob : F → ℝ≥0∞} {past : Nat → MeasurableSpace Ω}
    {rng : Ω → Rng F} {pos : Nat} (hF : FairFrom pos μ prob past rng) (api : FloatApi F) {sel : LogicalSel} {circ : List (Gate F)} {shots : Nat} (hs : 1 ≤ shots) {σ : Type}
    {b : Backend FW σ} {g : SynGraph FW} {states : List σ} {B : ℝ≥0∞}
    (hB : ∀ (S0 : Sim (numberOfQubits circ)) (μ' : Measure Ω), IsProbabilityMeasure μ' → FairFrom S0.pos μ' prob past rng →
      μ' (failedShotsOn b g states api rng c sel false circ S0) ≤ B) :
    FailIndependently μ api rng pos (anyExperiment c circ b g states shots sel) B := by
  classical
  refine fail_independently api rng pos _ hs fun I => ?_
  have hB' : ∀ (S0 : Sim (numberOfQubits circ)) (μ' : Measure Ω), IsProbabilityMeasure μ' → FairFrom S0.pos μ' prob past rng →
      μ' {ω | ∃ S, S0.run api (rng ω) circ true = .ok S ∧ ShotFailsOn b g states c sel false S} ≤ B := by
    intro S0 μ' hμ hF'
    refine (measure_mono ?_).trans (hB S0 μ' hμ hF')
    rintro ω ⟨S, h1, s, h2, h3⟩
    exact ⟨S, s, h1, h2, h3⟩
  by_cases hI : I ⊆ Finset.range shots
  · have h := markedFail_bound hF api circ (ShotFailsOn b g states c sel false) hB' shots (fun i => decide (i ∈ I)) (Sim.fresh _ pos) Set.univ (le_refl _) (@MeasurableSet.univ _ (past pos))
    rw [Set.univ_inter, measure_univ, mul_one] at h
    refine (measure_mono ?_).trans (h.trans (le_of_eq ?_))
    · rintro ω ⟨l, h1, h2⟩
      exact loop_fails_on shots _ _ l h1 fun i hi => h2 i (by simpa using hi)
    · simp only [decide_eq_true_eq]
      rw [← Finset.prod_filter, Finset.prod_const, Finset.filter_mem_eq_inter, Finset.inter_eq_right.2 hI]
  · have : {ω | ∃ l, (anyExperiment c circ b g states shots sel).loop api (rng ω) shots (Sim.fresh _ pos) = .ok l ∧ ∀ i ∈ I, l[i]? = some false} = ∅ := by
      refine Set.eq_empty_iff_forall_notMem.2 ?_
      rintro ω ⟨l, h1, h2⟩
      refine hI fun i hi => ?_
      have := (List.getElem?_eq_some_iff.1 (h2 i hi)).1
      rw [Experiment.loop_length api (rng ω) _ _ _ _ h1] at this
      exact Finset.mem_range.2 this
    refine (measure_mono (le_of_eq this)).trans ?_
    rw [measure_empty]
    exact zero_le

/-! ## Error rates -/

/-- The decoder that `from_code` makes from error data whose weights differ by at most a factor `ρ` is used in an experiment on the code, whose circuit is made from error data with
probabilities at most `xᴰ`, `Aᵏ B x ≤ qᵏ`. Its shots fail independently with probability at most `32 rounds d² qᵈ / (1 - q)`. The logical operators are measured without ancillas, as
`ExperimentConfig.run` does. -/
def DataRatesSmall {σ : Type} (b : Backend FW σ) (c : LatCode) (ρ d A B D k : Nat) (erasures gates : Bool) : Prop :=
  ∀ (negLog : ℚ → Option FW) (tiny lo hi a : ℚ) (errs : ErrData) (weighted : Option Bool), weighted ≠ some false → LogBetween negLog lo hi ρ a →
    DataBetween tiny c errs lo hi →
    ∃ g states, fromCode FW.isInf negLog tiny b c (some errs) weighted none = .ok (g, states) ∧
      ∀ (F : Type) (api : FloatApi F) (qe ge : List (List Char × ErrDict F)) (sel : LogicalSel) (circ : List (Gate F)) (Ω : Type) [MeasurableSpace Ω] (μ : Measure Ω)
        [IsProbabilityMeasure μ] (prob : F → ℝ≥0∞) (past : Nat → MeasurableSpace Ω) (rng : Ω → Rng F) (pos shots : Nat) (x q : ℝ≥0∞),
        FairFrom pos μ prob past rng → (erasures = false → ∀ q < c.n, (flagsOf qe).erasure q = false) → (gates = false → ∀ e ∈ ge, e.2 = []) → OnlyZ c sel →
        generateCircuit api c qe ge sel false = .ok circ → DataBelow api prob (qe ++ ge) (x ^ D) → q ≤ 1 → A ^ k * (B * x) ≤ q ^ k → 1 ≤ shots →
        FailIndependently μ api rng pos (anyExperiment c circ b g states shots sel) (32 * c.nRounds * d ^ 2 * q ^ d * (1 - q)⁻¹)

theorem data_rates {σ : Type} {b : Backend FW σ} {c : LatCode} {ρ d A B D k : Nat} {erasures gates : Bool}
    (h : DataShotsFailRarely b c ρ d A B D k erasures gates (fun sel anc => anc = true ∨ OnlyZ c sel)) : DataRatesSmall b c ρ d A B D k erasures gates := by
  intro negLog tiny lo hi a errs weighted hwt hlog hD
  obtain ⟨g, states, hf, hP⟩ := h negLog tiny lo hi a errs weighted hwt hlog hD
  refine ⟨g, states, hf, fun F api qe ge sel circ Ω _ μ _ prob past rng pos shots x q hF he hg hsel hcirc hdata hq hxq hs => ?_⟩
  exact shots_independent_on hF api hs fun S0 μ' _ hF' =>
    hP F api qe ge sel false circ S0 Ω μ' prob past rng x q hF' he hg (.inr hsel) hcirc (C113_below api prob c qe ge sel false circ hcirc _ hdata) hq hxq

/-- PyMatching (without erasures) and Fusion Blossom. -/
def BothDataRatesSmall (c : LatCode) (d A B D : Nat) (erasures gates : Bool) : Prop :=
  (∀ solve, IsPyMatching solve → ∀ ρ, DataRatesSmall (pmBackend solve) c ρ d A B D (ρ + 1) false gates) ∧
    ∀ solve, IsFusionBlossom solve → ∀ ρ κ, 100 ≤ κ * (100 / ρ) → DataRatesSmall (fbBackend solve) c ρ d A B D (κ + 1) erasures gates

theorem both_data_rates {c : LatCode} {d A B D : Nat} {erasures gates : Bool}
    (h : BothDataShotsFailRarely c d A B D erasures gates (fun sel anc => anc = true ∨ OnlyZ c sel)) : BothDataRatesSmall c d A B D erasures gates :=
  ⟨fun solve hS ρ => data_rates (h.1 solve hS ρ), fun solve hS ρ κ hκ => data_rates (h.2 solve hS ρ κ hκ)⟩

/-- **C114** On the planar code of size at least 3, the shots of an experiment with a decoder made from error data whose weights differ by at most a factor `ρ` fail independently with
probability at most `32 rounds size² q^size / (1 - q)`, which also bounds the expected logical error rate. If only qubits and measurements have errors, it is enough that their probabilities
in the error data are at most `x` with `10 ^ (ρ + 1) 2 x ≤ q ^ (ρ + 1)`; if gates also fail, at most `x²⁰` with `10 ^ (ρ + 1) 144 x ≤ q ^ (ρ + 1)`. -/
theorem C114_planar (r size : Nat) (hr : 1 ≤ r) (h3 : 3 ≤ size) :
    ∃ c, makePlanar r size = .ok c ∧ c.nRounds = r ∧ BothDataRatesSmall c size 10 2 1 true false ∧ BothDataRatesSmall c size 10 144 20 true true := by
  obtain ⟨c, h1, h2, h3, h4⟩ := C112_planar r size hr h3
  exact ⟨c, h1, h2, both_data_rates h3, both_data_rates h4⟩

/-- **C114** The same for the toric code. -/
theorem C114_toric (r size : Nat) (hr : 1 ≤ r) (h3 : 3 ≤ size) :
    ∃ c, makeToric r size = .ok c ∧ c.nRounds = r ∧ BothDataRatesSmall c size 10 2 1 true false ∧ BothDataRatesSmall c size 10 144 20 true true := by
  obtain ⟨c, h1, h2, h3, h4⟩ := C112_toric r size hr h3
  exact ⟨c, h1, h2, both_data_rates h3, both_data_rates h4⟩

/-- **C114** The same for the rotated code and the XZZX code, without erased qubits. -/
theorem C114_rotated (r size : Nat) (xzzx : Bool) (hr : 1 ≤ r) (h2 : 2 ≤ size) :
    ∃ c, makeRotated r size xzzx = .ok c ∧ c.nRounds = r ∧ BothDataRatesSmall c size 10 2 1 false false ∧ BothDataRatesSmall c size 10 144 20 false true := by
  obtain ⟨c, h1, h2, h3, h4⟩ := C112_rotated r size xzzx hr h2
  exact ⟨c, h1, h2, both_data_rates h3, both_data_rates h4⟩

/-! ## Thresholds -/

/-- Below a threshold the shots of experiments on large codes, with decoders made from error data, fail independently with probabilities as small as one likes. -/
def DataRatesBelowThreshold {σ : Type} (b : Backend FW σ) (make : Nat → Nat → Except Err LatCode) (size_ok : Nat → Prop) (ρ A B D k : Nat) (erasures gates : Bool) : Prop :=
  ∀ (x : ℝ≥0∞), A ^ k * (B * x) < 1 → ∀ (j : Nat) (ε : ℝ≥0∞), 0 < ε → ∃ N, ∀ size, N ≤ size → size_ok size → ∀ r, 1 ≤ r → r ≤ size ^ j → ∃ c, make r size = .ok c ∧
    ∀ (negLog : ℚ → Option FW) (tiny lo hi a : ℚ) (errs : ErrData) (weighted : Option Bool), weighted ≠ some false → LogBetween negLog lo hi ρ a →
      DataBetween tiny c errs lo hi →
      ∃ g states, fromCode FW.isInf negLog tiny b c (some errs) weighted none = .ok (g, states) ∧
        ∀ (F : Type) (api : FloatApi F) (qe ge : List (List Char × ErrDict F)) (sel : LogicalSel) (circ : List (Gate F)) (Ω : Type) [MeasurableSpace Ω] (μ : Measure Ω)
          [IsProbabilityMeasure μ] (prob : F → ℝ≥0∞) (past : Nat → MeasurableSpace Ω) (rng : Ω → Rng F) (pos shots : Nat),
          FairFrom pos μ prob past rng → (erasures = false → ∀ q < c.n, (flagsOf qe).erasure q = false) → (gates = false → ∀ e ∈ ge, e.2 = []) → OnlyZ c sel →
          generateCircuit api c qe ge sel false = .ok circ → DataBelow api prob (qe ++ ge) (x ^ D) → 1 ≤ shots →
          FailIndependently μ api rng pos (anyExperiment c circ b g states shots sel) ε

theorem FailIndependently.mono {Ω : Type} [MeasurableSpace Ω] {μ : Measure Ω} {api : FloatApi F} {rng : Ω → Rng F} {pos : Nat} {E : Experiment F} {B C : ℝ≥0∞}
    (h : FailIndependently μ api rng pos E B) (hBC : B ≤ C) : FailIndependently μ api rng pos E C := by
  obtain ⟨h1, h2, h3⟩ := h
  refine ⟨fun I => (h1 I).trans ?_, h2.trans hBC, fun m => (h3 m).trans ?_⟩ <;> gcongr

theorem data_rates_threshold {σ : Type} {b : Backend FW σ} {make : Nat → Nat → Except Err LatCode} {size_ok : Nat → Prop} {ρ A B D k : Nat} (hk : 0 < k) {erasures gates : Bool}
    (h : ∀ r size, 1 ≤ r → size_ok size → ∃ c, make r size = .ok c ∧ c.nRounds = r ∧ DataRatesSmall b c ρ size A B D k erasures gates) :
    DataRatesBelowThreshold b make size_ok ρ A B D k erasures gates := by
  intro x hx j ε hε
  obtain ⟨z, hz⟩ := WithTop.ne_top_iff_exists.1 (ne_top_of_lt hx)
  have hz : (z : ℝ≥0∞) = A ^ k * (B * x) := hz
  have hz1 : z < 1 := by rw [← hz] at hx; exact_mod_cast hx
  have hk' : (k : ℝ) ≠ 0 := by exact_mod_cast hk.ne'
  obtain ⟨y, hy1, hy⟩ : ∃ y : ℝ≥0, y < 1 ∧ y ^ k = z :=
    ⟨z ^ ((k : ℝ)⁻¹), NNReal.rpow_lt_one hz1 (by positivity), NNReal.rpow_inv_natCast_pow z hk.ne'⟩
  obtain ⟨N, hN⟩ := eventually_small (q := y) hy1 j hε
  refine ⟨N, fun size hs hok r hr hrs => ?_⟩
  obtain ⟨c, hc, hn, hb⟩ := h r size hr hok
  refine ⟨c, hc, fun negLog tiny lo hi a errs weighted hwt hlog hD => ?_⟩
  obtain ⟨g, states, hf, hP⟩ := hb negLog tiny lo hi a errs weighted hwt hlog hD
  refine ⟨g, states, hf, fun F api qe ge sel circ Ω _ μ _ prob past rng pos shots hF he hg hsel hcirc hdata hs' => ?_⟩
  refine (hP F api qe ge sel circ Ω μ prob past rng pos shots x y hF he hg hsel hcirc hdata ?_ ?_ hs').mono (le_trans ?_ (hN size hs))
  · exact_mod_cast hy1.le
  · rw [← hz, ← ENNReal.coe_pow, hy]
  · rw [hn]
    gcongr

/-- **C114**, thresholds with PyMatching: if the weights differ by at most a factor `ρ` and the probabilities in the error data are below `10 ^ -(ρ + 1) / 2` (for errors of qubits and
measurements), or below a smaller number (for errors of gates), the expected logical error rate goes to zero with the size of the code. -/
theorem C114_pymatching (ρ : Nat) {solve : PmGraph → List Bool → Except Err (List Bool)} (hS : IsPyMatching solve) :
    (DataRatesBelowThreshold (pmBackend solve) makePlanar (3 ≤ ·) ρ 10 2 1 (ρ + 1) false false ∧
        DataRatesBelowThreshold (pmBackend solve) makePlanar (3 ≤ ·) ρ 10 144 20 (ρ + 1) false true) ∧
      (DataRatesBelowThreshold (pmBackend solve) makeToric (3 ≤ ·) ρ 10 2 1 (ρ + 1) false false ∧
        DataRatesBelowThreshold (pmBackend solve) makeToric (3 ≤ ·) ρ 10 144 20 (ρ + 1) false true) ∧
      ∀ xzzx, DataRatesBelowThreshold (pmBackend solve) (fun r s => makeRotated r s xzzx) (2 ≤ ·) ρ 10 2 1 (ρ + 1) false false ∧
        DataRatesBelowThreshold (pmBackend solve) (fun r s => makeRotated r s xzzx) (2 ≤ ·) ρ 10 144 20 (ρ + 1) false true := by
  refine ⟨⟨?_, ?_⟩, ⟨?_, ?_⟩, fun xzzx => ⟨?_, ?_⟩⟩ <;> refine data_rates_threshold (by omega) fun r s hr h => ?_
  · obtain ⟨c, hc, hn, hb, -⟩ := C114_planar r s hr h; exact ⟨c, hc, hn, hb.1 solve hS ρ⟩
  · obtain ⟨c, hc, hn, -, hb⟩ := C114_planar r s hr h; exact ⟨c, hc, hn, hb.1 solve hS ρ⟩
  · obtain ⟨c, hc, hn, hb, -⟩ := C114_toric r s hr h; exact ⟨c, hc, hn, hb.1 solve hS ρ⟩
  · obtain ⟨c, hc, hn, -, hb⟩ := C114_toric r s hr h; exact ⟨c, hc, hn, hb.1 solve hS ρ⟩
  · obtain ⟨c, hc, hn, hb, -⟩ := C114_rotated r s xzzx hr h; exact ⟨c, hc, hn, hb.1 solve hS ρ⟩
  · obtain ⟨c, hc, hn, -, hb⟩ := C114_rotated r s xzzx hr h; exact ⟨c, hc, hn, hb.1 solve hS ρ⟩

/-- **C114**, thresholds with Fusion Blossom, which rounds the weights to hundredths of the largest: with `κ = ρ` if `ρ` divides 100. -/
theorem C114_fusionblossom {ρ κ : Nat} (hκ : 100 ≤ κ * (100 / ρ)) {solve : FbGraph → List Nat → List Nat → Except Err (List Nat)} (hS : IsFusionBlossom solve) :
    (DataRatesBelowThreshold (fbBackend solve) makePlanar (3 ≤ ·) ρ 10 2 1 (κ + 1) true false ∧
        DataRatesBelowThreshold (fbBackend solve) makePlanar (3 ≤ ·) ρ 10 144 20 (κ + 1) true true) ∧
      (DataRatesBelowThreshold (fbBackend solve) makeToric (3 ≤ ·) ρ 10 2 1 (κ + 1) true false ∧
        DataRatesBelowThreshold (fbBackend solve) makeToric (3 ≤ ·) ρ 10 144 20 (κ + 1) true true) ∧
      ∀ xzzx, DataRatesBelowThreshold (fbBackend solve) (fun r s => makeRotated r s xzzx) (2 ≤ ·) ρ 10 2 1 (κ + 1) false false ∧
        DataRatesBelowThreshold (fbBackend solve) (fun r s => makeRotated r s xzzx) (2 ≤ ·) ρ 10 144 20 (κ + 1) false true := by
  refine ⟨⟨?_, ?_⟩, ⟨?_, ?_⟩, fun xzzx => ⟨?_, ?_⟩⟩ <;> refine data_rates_threshold (by omega) fun r s hr h => ?_
  · obtain ⟨c, hc, hn, hb, -⟩ := C114_planar r s hr h; exact ⟨c, hc, hn, hb.2 solve hS ρ κ hκ⟩
  · obtain ⟨c, hc, hn, -, hb⟩ := C114_planar r s hr h; exact ⟨c, hc, hn, hb.2 solve hS ρ κ hκ⟩
  · obtain ⟨c, hc, hn, hb, -⟩ := C114_toric r s hr h; exact ⟨c, hc, hn, hb.2 solve hS ρ κ hκ⟩
  · obtain ⟨c, hc, hn, -, hb⟩ := C114_toric r s hr h; exact ⟨c, hc, hn, hb.2 solve hS ρ κ hκ⟩
  · obtain ⟨c, hc, hn, hb, -⟩ := C114_rotated r s xzzx hr h; exact ⟨c, hc, hn, hb.2 solve hS ρ κ hκ⟩
  · obtain ⟨c, hc, hn, -, hb⟩ := C114_rotated r s xzzx hr h; exact ⟨c, hc, hn, hb.2 solve hS ρ κ hκ⟩

/-! ## An example -/

theorem uniform_below {n m : Nat} {x : ℚ} (hx : 0 ≤ x) : DataBelow fracApi fracProb (uniformErrs n m x) (ENNReal.ofReal ((3 * x : ℚ) : ℝ)) := by
  have hadd : ∀ a b : ℚ, 0 ≤ a → 0 ≤ b → ENNReal.ofReal ((a : ℚ) : ℝ) + ENNReal.ofReal ((b : ℚ) : ℝ) = ENNReal.ofReal ((a + b : ℚ) : ℝ) := by
    intro a b ha hb
    rw [Rat.cast_add, ENNReal.ofReal_add (by exact_mod_cast ha) (by exact_mod_cast hb)]
  intro k hk d hd key ps hps
  have hm := dictGet_some_mem hps
  simp only [errorKinds, List.mem_cons, List.not_mem_nil, or_false] at hk
  rcases uniformErrs_cases hd with ⟨h1, rfl⟩ | ⟨h1, rfl⟩
  · obtain ⟨q, _, he⟩ := List.mem_map.1 hm
    cases he
    rcases hk with rfl | rfl | rfl | rfl | rfl | rfl | rfl | rfl <;> first | (exfalso; revert h1; decide) | skip
    show ENNReal.ofReal (x : ℝ) + (ENNReal.ofReal (x : ℝ) + (ENNReal.ofReal (x : ℝ) + 0)) ≤ _
    rw [add_zero, hadd x x hx hx, hadd x _ hx (by linarith)]
    exact ENNReal.ofReal_le_ofReal (by push_cast; linarith)
  · obtain ⟨q, _, he⟩ := List.mem_map.1 hm
    cases he
    rcases hk with rfl | rfl | rfl | rfl | rfl | rfl | rfl | rfl <;> first | (exfalso; revert h1; decide) | skip
    show ENNReal.ofReal ((2 * x : ℚ) : ℝ) + 0 ≤ _
    rw [add_zero]
    exact ENNReal.ofReal_le_ofReal (by have : (0 : ℝ) ≤ x := by exact_mod_cast hx
                                       push_cast; linarith)

set_option maxRecDepth 100000 in
/-- Two rounds of the planar code of size 3 with depolarizing errors of all data qubits with probability three in a million, and wrong outcomes with probability two in a
million, as often as one likes. -/
example (shots : Nat) (hs : 1 ≤ shots) : ∃ c circ errs, makePlanar 2 3 = .ok c ∧ errs = uniformErrs c.n c.code.stabilisers.length (1 / 1000000) ∧
    generateCircuit fracApi c errs [] (.str "Z".toList) false = .ok circ ∧ ∀ solve, IsPyMatching solve →
    ∃ g states, fromCode FW.isInf toyLog (1 / 1000000000000000) (pmBackend solve) c (some errs) none none = .ok (g, states) ∧
      FailIndependently draws fracApi (fairRng fracProb) 0 (anyExperiment c circ (pmBackend solve) g states shots (.str "Z".toList))
        (32 * (2 : Nat) * (3 : Nat) ^ 2 * (40⁻¹) ^ 3 * (1 - 40⁻¹)⁻¹) := by
  have hc : makePlanar 2 3 = .ok ((Planar.lat 3 crossOrder).latCode 2) := by
    rw [makePlanar, Planar.make 3 (by omega) crossOrder (by decide)]; exact mkLatCode_ok (Planar.wf 3 _ (by omega)) (Planar.full _ _ (by omega)) 2
  obtain ⟨c, hc', hr, hb, -⟩ := C114_planar 2 3 (by omega) (by omega)
  obtain rfl := Except.ok.inj (hc'.symm.trans hc)
  have hm : Made 2 ((Planar.lat 3 crossOrder).latCode 2) := .planar (by omega) hc
  obtain ⟨circ, h1⟩ : ∃ circ, generateCircuit fracApi ((Planar.lat 3 crossOrder).latCode 2) (uniformErrs ((Planar.lat 3 crossOrder).latCode 2).n
      ((Planar.lat 3 crossOrder).latCode 2).code.stabilisers.length (1 / 1000000)) [] (.str "Z".toList) false = .ok circ := by
    obtain ⟨circ, h1, -⟩ := belowAll_inv (y := 3 / 1000000) (c := (Planar.lat 3 crossOrder).latCode 2) (qe := uniformErrs 13 12 (1 / 1000000)) (ge := []) (sel := .str "Z".toList)
      (anc := false) (by decide +kernel)
    have e1 : ((Planar.lat 3 crossOrder).latCode 2).n = 13 := by decide +kernel
    have e2 : ((Planar.lat 3 crossOrder).latCode 2).code.stabilisers.length = 12 := by decide +kernel
    exact ⟨circ, (congrArg₂ (fun a b => generateCircuit fracApi ((Planar.lat 3 crossOrder).latCode 2) (uniformErrs a b (1 / 1000000)) [] (.str "Z".toList) false) e1 e2).trans h1⟩
  refine ⟨_, circ, _, hc, rfl, h1, fun solve hS => ?_⟩
  have hD := uniform_between (Made.codeOk hm) (x := 1 / 1000000) (by norm_num) (1 / 1000000000000000)
  obtain ⟨v, hv, hlog⟩ := toyLog_like.2 (2 * (1 / 1000000)) (by norm_num) (by norm_num)
  obtain ⟨g, states, hf, hP⟩ := hb.1 solve hS 1 toyLog (1 / 1000000000000000) _ _ v _ none (by simp) (logBetween_single hv hlog) hD
  refine ⟨g, states, hf, ?_⟩
  have := hP ℚ fracApi _ [] (.str "Z".toList) circ _ draws fracProb drawsPast (fairRng fracProb) 0 shots
    (ENNReal.ofReal ((3 * (1 / 1000000) : ℚ) : ℝ)) (40⁻¹) (fairRng_fair _) (fun _ q _ => rfl) (by simp) ((Planar.oddZ (by omega) crossOrder).onlyZ 2 (by decide)) h1
    (by rw [List.append_nil, pow_one]; exact uniform_below (by norm_num)) (by rw [ENNReal.inv_le_one]; norm_num) ?_ hs
  · rw [hr] at this
    exact this
  · have e1 : ENNReal.ofReal ((3 * (1 / 1000000) : ℚ) : ℝ) = ((3 / 1000000 : ℝ≥0) : ℝ≥0∞) := by
      rw [ENNReal.ofReal, ENNReal.coe_inj, ← NNReal.coe_inj]
      push_cast
      rw [Real.coe_toNNReal _ (by norm_num)]
      norm_num
    have e2 : (40⁻¹ : ℝ≥0∞) = ((1 / 40 : ℝ≥0) : ℝ≥0∞) := by
      rw [one_div, ENNReal.coe_inv (by norm_num)]; norm_num
    rw [e1, e2]
    exact_mod_cast (by rw [← NNReal.coe_le_coe]; push_cast; norm_num : (10 : ℝ≥0) ^ 2 * (2 * (3 / 1000000)) ≤ (1 / 40) ^ 2)

end Plaquette
