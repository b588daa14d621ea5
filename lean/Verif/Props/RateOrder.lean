import Verif.Lemmas.RateOrder
import Verif.Props.StimExperiment

/-!
# C119: the order of the logical error rate
-/

open MeasureTheory
open scoped ENNReal

namespace Plaquette
variable {F : Type}

/-- A shot of any experiment on the code, with a fair generator and `M` error instructions of rates at most `x`, is decoded to a wrong result with probability at most `(M choose k) xᵏ`. -/
def ShotsOfOrder {σ : Type} (b : Backend FW σ) (c : LatCode) (r k : Nat) (erasures gates : Bool) (ok : LogicalSel → Bool → Prop) : Prop :=
  ∀ (F : Type) (api : FloatApi F) (qe ge : List (List Char × ErrDict F)) (sel : LogicalSel) (anc : Bool) (circ : List (Gate F)) (S0 : Sim (numberOfQubits circ))
    (Ω : Type) [MeasurableSpace Ω] (μ : Measure Ω) [IsProbabilityMeasure μ] (prob : F → ℝ≥0∞) (past : Nat → MeasurableSpace Ω) (rng : Ω → Rng F) (x : ℝ≥0∞),
    FairFrom S0.pos μ prob past rng → (erasures = false → ∀ q < c.n, (flagsOf qe).erasure q = false) → (gates = false → ∀ e ∈ ge, e.2 = []) → ok sel anc →
    generateCircuit api c qe ge sel anc = .ok circ → (∀ g ∈ circ, g.name.noisy = true → g.rate api prob ≤ x) →
    μ (failedShots b api rng c r sel anc circ S0) ≤ ((noisyCount circ).choose k : ℝ≥0∞) * x ^ k

/-- The shots of an experiment fail independently with at most this probability, with the Clifford simulator. -/
def RatesOfOrder {σ : Type} (b : Backend FW σ) (c : LatCode) (k : Nat) (erasures gates : Bool) (ok : LogicalSel → Prop) : Prop :=
  ∀ (F : Type) (api : FloatApi F) (qe ge : List (List Char × ErrDict F)) (sel : LogicalSel) (circ : List (Gate F)) (Ω : Type) [MeasurableSpace Ω] (μ : Measure Ω)
    [IsProbabilityMeasure μ] (prob : F → ℝ≥0∞) (past : Nat → MeasurableSpace Ω) (rng : Ω → Rng F) (pos shots : Nat) (x : ℝ≥0∞) (negLog : ℚ → Option FW) (tiny : ℚ)
    (errs : Option ErrData) (g : SynGraph FW) (states : List σ),
    FairFrom pos μ prob past rng → (erasures = false → ∀ q < c.n, (flagsOf qe).erasure q = false) → (gates = false → ∀ e ∈ ge, e.2 = []) → ok sel →
    generateCircuit api c qe ge sel false = .ok circ → (∀ g ∈ circ, g.name.noisy = true → g.rate api prob ≤ x) → 1 ≤ shots →
    fromCode FW.isInf negLog tiny b c errs (some false) none = .ok (g, states) →
    FailIndependently μ api rng pos (anyExperiment c circ b g states shots sel) (((noisyCount circ).choose k : ℝ≥0∞) * x ^ k)

/-- The same with Stim. -/
def StimRatesOfOrder {σ : Type} (b : Backend FW σ) (c : LatCode) (k : Nat) (erasures gates : Bool) (ok : LogicalSel → Prop) : Prop :=
  ∀ (api : FloatApi ℝ) (qe ge : List (List Char × ErrDict ℝ)) (sel : LogicalSel) (circ : List (Gate ℝ)) (shots batch : Nat) (x : ℝ≥0∞) (negLog : ℚ → Option FW) (tiny : ℚ)
    (errs : Option ErrData) (g : SynGraph FW) (states : List σ) (Ω : Type) [MeasurableSpace Ω] (μ : Measure Ω) (smp : Ω → Sampler (List Bool)),
    (erasures = false → ∀ q < c.n, (flagsOf qe).erasure q = false) → (gates = false → ∀ e ∈ ge, e.2 = []) → ok sel →
    generateCircuit api c qe ge sel false = .ok circ → DataNonneg api (qe ++ ge) → DataBelow api ENNReal.ofReal (qe ++ ge) x → x ≤ 1 → 1 ≤ shots → 0 < batch →
    fromCode FW.isInf negLog tiny b c errs (some false) none = .ok (g, states) →
    (∀ is fl, circuitToStim api circ = .ok (is, fl) → Faithful μ smp (numberOfQubits circ + 1) is) →
    StimFailIndependently μ api smp batch (anyExperiment c circ b g states shots sel) (((noisyCount circ).choose k : ℝ≥0∞) * x ^ k)

theorem ceil_le {d K m : Nat} (hK : 1 ≤ K) (h : d ≤ K * m) : (d + K - 1) / K ≤ m := by
  rw [← Nat.lt_succ_iff, Nat.div_lt_iff_lt_mul hK, Nat.succ_mul, Nat.mul_comm]
  omega

/-- Decoders that succeed with few faults: with `A` times the faults less than `d`. -/
theorem order_shots {c : LatCode} {r d A K : Nat} (hm : OnLattice r c) (hA : 1 ≤ A) (hK : 1 ≤ K) {σ : Type} {b : Backend FW σ} {erasures : Bool} {ok : LogicalSel → Bool → Prop}
    (h : ∀ (F : Type) (api : FloatApi F) (rng : Rng F) (qe ge : List (List Char × ErrDict F)) (sel : LogicalSel) (anc : Bool) (circ : List (Gate F)) (S0 S : Sim (numberOfQubits circ)) (s : Sample),
      (erasures = false → ∀ q < c.n, (flagsOf qe).erasure q = false) → ok sel anc → generateCircuit api c qe ge sel anc = .ok circ → S0.run api rng circ true = .ok S →
      Sample.fromRaw c S.results.1 S.results.2 anc = .ok s → A * faultWeight c.n K (S0.reset.trace api rng circ) + lossCount (S0.reset.trace api rng circ) < d → Succeeds b c r sel s) :
    ShotsOfOrder b c r ((d + A - 1) / A) erasures false ok ∧ ShotsOfOrder b c r ((d + A * K - 1) / (A * K)) erasures true ok := by
  have run : ∀ {F : Type} {api : FloatApi F} {rng : Rng F} {circ : List (Gate F)} {S0 S : Sim (numberOfQubits circ)}, S0.run api rng circ true = .ok S →
      S0.reset.runGates api rng circ = .ok S := by
    intro F api rng circ S0 S hrun
    unfold Sim.run at hrun
    rwa [if_pos rfl] at hrun
  constructor
  · intro F api qe ge sel anc circ S0 Ω _ μ _ prob past rng x hF he hg hsel hcirc hrate
    refine (measure_mono fun ω hω => ?_).trans (many_struck hF api circ hrate S0.reset le_rfl _)
    obtain ⟨S, s, h1, h2, h3⟩ := hω
    refine ⟨⟨S, run h1⟩, ceil_le hA ?_⟩
    by_contra hlt
    refine h3 (h F api (rng ω) qe ge sel anc circ S0 S s he hsel hcirc h1 h2 (lt_of_le_of_lt (weight_le_quiet c.n A K hA fun y hy => ?_) (not_le.1 hlt)))
    obtain ⟨L, rfl, hw, _, _, hs⟩ := hm
    obtain ⟨pg, eg, err, is, hE, _, _, _, _, hc⟩ := noisy_circuit hw hs (hg rfl) hcirc
    have hE' : AllErrs L (flagsOf qe) (fun _ _ => []) (fun _ _ _ => []) pg eg err := ⟨hE, fun _ _ => .inl rfl, fun _ _ _ => .inl rfl⟩
    rw [noisyGates_eq] at hc
    refine no_gateFault (c := circ) (by rw [hc]; exact noGateErrors hE anc r _) (run_trace ?_ (run h1)).1 hy
    rw [hc]
    exact gateGates_all hw hs hE'
  · intro F api qe ge sel anc circ S0 Ω _ μ _ prob past rng x hF he hg hsel hcirc hrate
    refine (measure_mono fun ω hω => ?_).trans (many_struck hF api circ hrate S0.reset le_rfl _)
    obtain ⟨S, s, h1, h2, h3⟩ := hω
    refine ⟨⟨S, run h1⟩, ceil_le (Nat.mul_pos hA hK) ?_⟩
    by_contra hlt
    exact h3 (h F api (rng ω) qe ge sel anc circ S0 S s he hsel hcirc h1 h2 (lt_of_le_of_lt (weight_le c.n A K hA hK _) (not_le.1 hlt)))

/-- Shots with and without errors of gates, and rates with both simulators (where no logical ancillas are used). -/
def OfOrder {σ : Type} (b : Backend FW σ) (c : LatCode) (r d A K : Nat) (erasures : Bool) (ok : LogicalSel → Bool → Prop) : Prop :=
  (ShotsOfOrder b c r ((d + A - 1) / A) erasures false ok ∧ ShotsOfOrder b c r ((d + A * K - 1) / (A * K)) erasures true ok) ∧
    (RatesOfOrder b c ((d + A - 1) / A) erasures false (ok · false) ∧ RatesOfOrder b c ((d + A * K - 1) / (A * K)) erasures true (ok · false)) ∧
      StimRatesOfOrder b c ((d + A - 1) / A) erasures false (ok · false) ∧ StimRatesOfOrder b c ((d + A * K - 1) / (A * K)) erasures true (ok · false)

theorem order_rates {σ : Type} {b : Backend FW σ} {c : LatCode} {r k : Nat} {erasures gates : Bool} {ok : LogicalSel → Bool → Prop} (hm : OnLattice r c)
    (h : ShotsOfOrder b c r k erasures gates ok) : RatesOfOrder b c k erasures gates (ok · false) := by
  intro F api qe ge sel circ Ω _ μ _ prob past rng pos shots x negLog tiny errs g states hF he hg hsel hcirc hrate hs hf
  have hn : c.nRounds = r := by obtain ⟨L, rfl, _⟩ := hm; rfl
  exact shots_independent hn hF api hs hf fun S0 μ' _ hF' => h F api qe ge sel false circ S0 Ω μ' prob past rng x hF' he hg hsel hcirc hrate

theorem order_stim {σ : Type} {b : Backend FW σ} {c : LatCode} {r k : Nat} {erasures gates : Bool} {ok : LogicalSel → Prop} (hm : OnLattice r c) (h : RatesOfOrder b c k erasures gates ok) :
    StimRatesOfOrder b c k erasures gates ok := by
  intro api qe ge sel circ shots batch x negLog tiny errs g states Ω _ μ smp he hg hsel hcirc h0 hd hx hs hb hfc hf
  have hrate := C113_below api ENNReal.ofReal c qe ge sel false circ hcirc _ hd
  exact lattice_transfer api r (anyExperiment c circ b g states shots sel) hm qe ge sel false hcirc (lattice_nonneg hm hcirc h0) (fun g' h' hn => (hrate g' h' hn).trans hx) hs _
    (fun Ω _ μ _ past rng hF => h ℝ api qe ge sel circ Ω μ ENNReal.ofReal past rng 0 shots x negLog tiny errs g states hF he hg hsel hcirc hrate hs hfc) μ smp batch hb hf

theorem ofOrder {c : LatCode} {r d A K : Nat} (hm : OnLattice r c) (hA : 1 ≤ A) (hK : 1 ≤ K) {σ : Type} {b : Backend FW σ} {erasures : Bool} {ok : LogicalSel → Bool → Prop}
    (h : ∀ (F : Type) (api : FloatApi F) (rng : Rng F) (qe ge : List (List Char × ErrDict F)) (sel : LogicalSel) (anc : Bool) (circ : List (Gate F)) (S0 S : Sim (numberOfQubits circ)) (s : Sample),
      (erasures = false → ∀ q < c.n, (flagsOf qe).erasure q = false) → ok sel anc → generateCircuit api c qe ge sel anc = .ok circ → S0.run api rng circ true = .ok S →
      Sample.fromRaw c S.results.1 S.results.2 anc = .ok s → A * faultWeight c.n K (S0.reset.trace api rng circ) + lossCount (S0.reset.trace api rng circ) < d → Succeeds b c r sel s) :
    OfOrder b c r d A K erasures ok := by
  obtain ⟨h1, h2⟩ := order_shots hm hA hK h
  exact ⟨⟨h1, h2⟩, ⟨order_rates hm h1, order_rates hm h2⟩, order_stim hm (order_rates hm h1), order_stim hm (order_rates hm h2)⟩

/-- Union find, PyMatching (without erasures) and Fusion Blossom, all without weights. -/
def AllOfOrder (c : LatCode) (r d K : Nat) (erasures : Bool) (ok : LogicalSel → Bool → Prop) : Prop :=
  (∀ support, OfOrder (ufBackend support) c r d 3 K erasures ok) ∧ (∀ solve, IsPyMatching solve → OfOrder (pmBackend solve) c r d 2 K false ok) ∧
    ∀ solve, IsFusionBlossom solve → OfOrder (fbBackend solve) c r d 2 K erasures ok

theorem allOfOrder {c : LatCode} {r d K : Nat} (hm : Made r c) (hK : 1 ≤ K) {erasures : Bool} {ok : LogicalSel → Bool → Prop}
    (h : ∀ (F : Type) (api : FloatApi F) (rng : Rng F) (qe ge : List (List Char × ErrDict F)) (sel : LogicalSel) (anc : Bool) (circ : List (Gate F)) (S0 S : Sim (numberOfQubits circ)) (s : Sample),
      (erasures = false → ∀ q < c.n, (flagsOf qe).erasure q = false) → ok sel anc → generateCircuit api c qe ge sel anc = .ok circ → S0.run api rng circ true = .ok S →
      Sample.fromRaw c S.results.1 S.results.2 anc = .ok s → GateShots c r d K (flagsOf qe) sel (S0.reset.trace api rng circ) s) : AllOfOrder c r d K erasures ok := by
  refine ⟨fun support => ofOrder hm.lattice (by omega) hK ?_, fun solve hS => ofOrder hm.lattice (by omega) hK ?_, fun solve hS => ofOrder hm.lattice (by omega) hK ?_⟩
  · intro F api rng qe ge sel anc circ S0 S s he hsel hcirc hrun hsam hlt
    exact (h F api rng qe ge sel anc circ S0 S s he hsel hcirc hrun hsam).uf hlt support
  · intro F api rng qe ge sel anc circ S0 S s he hsel hcirc hrun hsam hlt
    exact (h F api rng qe ge sel anc circ S0 S s (fun _ => he rfl) hsel hcirc hrun hsam).pm (he rfl) (lt_of_le_of_lt (Nat.le_add_right _ _) hlt) solve hS
  · intro F api rng qe ge sel anc circ S0 S s he hsel hcirc hrun hsam hlt
    exact (h F api rng qe ge sel anc circ S0 S s he hsel hcirc hrun hsam).fb hlt solve hS

/-- **C119** On the planar code of size at least 3, with `M` error instructions of rates at most `x`, shots fail independently with probability at most `(M choose k) xᵏ`, where `k` is the
size divided by 3 for union find and by 2 for matching, rounded up; if gates fail, divided by 60 and 40. -/
theorem C119_planar (r size : Nat) (hr : 1 ≤ r) (h3 : 3 ≤ size) : ∃ c, makePlanar r size = .ok c ∧ AllOfOrder c r size 20 true (fun sel anc => anc = true ∨ OnlyZ c sel) := by
  obtain ⟨c, hc, -⟩ := C94_planar r size hr h3
  exact ⟨c, hc, allOfOrder (.planar (by omega) hc) (by omega) fun F api rng qe ge sel anc circ S0 S s _ hsel hcirc hrun hsam =>
    C84_planar api rng r size hr h3 c hc qe ge sel anc hsel circ S0 S s hcirc hrun hsam⟩

/-- **C119** The same for the toric code. -/
theorem C119_toric (r size : Nat) (hr : 1 ≤ r) (h3 : 3 ≤ size) : ∃ c, makeToric r size = .ok c ∧ AllOfOrder c r size 20 true (fun sel anc => anc = true ∨ OnlyZ c sel) := by
  obtain ⟨c, hc, -⟩ := C94_toric r size hr h3
  exact ⟨c, hc, allOfOrder (.toric (by omega) hc) (by omega) fun F api rng qe ge sel anc circ S0 S s _ hsel hcirc hrun hsam =>
    C84_toric api rng r size hr h3 c hc qe ge sel anc hsel circ S0 S s hcirc hrun hsam⟩

/-- **C119** The same for the rotated code and the XZZX code, without erased qubits. -/
theorem C119_rotated (r size : Nat) (xzzx : Bool) (hr : 1 ≤ r) (h2 : 2 ≤ size) :
    ∃ c, makeRotated r size xzzx = .ok c ∧ AllOfOrder c r size 20 false (fun sel anc => anc = true ∨ OnlyZ c sel) := by
  obtain ⟨c, hc, -⟩ := C94_rotated r size xzzx hr h2
  exact ⟨c, hc, allOfOrder (.rotated (by omega) hc) (by omega) fun F api rng qe ge sel anc circ S0 S s he hsel hcirc hrun hsam =>
    C84_rotated api rng r size xzzx hr h2 c hc qe ge (he rfl) sel anc hsel circ S0 S s hcirc hrun hsam⟩

/-- **C119** For the repetition code, shots with ancillas for the logical operator. -/
theorem C119_repetition (r size : Nat) (hr : 1 ≤ r) (hodd : size % 2 = 1) (h3 : 3 ≤ size) :
    ∃ c, makeRepetition r size = .ok c ∧ AllOfOrder c r size 6 true (fun sel anc => anc = true ∧ OnlyZ c sel) := by
  have hc : makeRepetition r size = .ok ((Rep.lat size).latCode r) := by
    rw [makeRepetition, Rep.make size hodd h3]; exact mkLatCode_ok (Rep.wf size h3) (Rep.full size h3) r
  refine ⟨_, hc, allOfOrder (.repetition (by omega) hc) (by omega) fun F api rng qe ge sel anc circ S0 S s _ hsel hcirc hrun hsam => ?_⟩
  obtain ⟨rfl, hZ⟩ := hsel
  exact C84_repetition api rng r size hr hodd h3 _ hc qe ge sel hZ circ S0 S s hcirc hrun hsam

/-! ### Example -/

/-- The planar code of size 3 with Stim, data qubits with errors of rate 10⁻⁶: shots decoded by matching fail with probability at most `M (M - 1) / 2 · 10⁻¹²`. -/
example (shots : Nat) (hs : 1 ≤ shots) : ∃ c circ is fl, makePlanar 2 3 = .ok c ∧ generateCircuit realApi c stimData [] (.str "Z".toList) false = .ok circ ∧
    circuitToStim realApi circ = .ok (is, fl) ∧ ∃ (Ω : Type) (_ : MeasurableSpace Ω) (μ : Measure Ω) (smp : Ω → Sampler (List Bool)), IsProbabilityMeasure μ ∧
      Faithful μ smp (numberOfQubits circ + 1) is ∧ ∀ solve, IsFusionBlossom solve → ∀ (negLog : ℚ → Option FW) (tiny : ℚ) (g : SynGraph FW) (states : List _),
        fromCode FW.isInf negLog tiny (fbBackend solve) c none (some false) none = .ok (g, states) →
        StimFailIndependently μ realApi smp 7 (anyExperiment c circ (fbBackend solve) g states shots (.str "Z".toList))
          (((noisyCount circ).choose 2 : ℝ≥0∞) * ENNReal.ofReal (1 / 1000000) ^ 2) := by
  obtain ⟨hc, hm, ⟨circ, hcirc⟩, h0, hd⟩ := stimData_circuit
  have h1' : ENNReal.ofReal (1 / 1000000) ≤ 1 := by rw [← ENNReal.ofReal_one]; exact ENNReal.ofReal_le_ofReal (by norm_num)
  obtain ⟨c, hc', -, -, hb⟩ := C119_planar 2 3 (by omega) (by omega)
  obtain rfl := Except.ok.inj (hc'.symm.trans hc)
  obtain ⟨is, fl, h1, Ω, _, μ, smp, h2, h3⟩ := C118_samplers realApi 2 _ hm stimData [] _ false circ hcirc h0 fun k hk d h key ps h' => (hd k hk d h key ps h').trans h1'
  refine ⟨_, circ, is, fl, hc, hcirc, h1, Ω, _, μ, smp, h2, h3, fun solve hS negLog tiny g states hf => ?_⟩
  refine (hb solve hS).2.2.1 realApi stimData [] (.str "Z".toList) circ shots 7 _ negLog tiny none g states Ω μ smp (by simp) (by simp)
    (.inr ((Planar.oddZ (by omega) crossOrder).onlyZ 2 (by decide))) hcirc h0 hd h1' hs (by omega) hf fun is' fl' h' => ?_
  obtain ⟨rfl, rfl⟩ := Prod.mk.inj (Except.ok.inj (h'.symm.trans h1))
  exact h3

end Plaquette
