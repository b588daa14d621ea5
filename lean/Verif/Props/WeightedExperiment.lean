import Verif.Props.RandomExperiment
import Verif.Props.DataThreshold

/-!
# Experiments with random errors and decoders made from error data (C112)
-/

open MeasureTheory
open scoped ENNReal NNReal

namespace Plaquette
variable {F : Type}

/-! ## Shots and their faults -/

/-- The decoder finds a correction with which the shot is counted as a success. -/
def SucceedsOn {σ : Type} (b : Backend FW σ) (g : SynGraph FW) (states : List σ) (c : LatCode) (sel : LogicalSel) (s : Sample) : Prop :=
  ∃ p, decode b g c.n states s.erased (some s.syndrome) = .ok p ∧ checkSuccess c.code p s.toggle (some sel) = .ok true

/-- The shots that a decoder decodes to a wrong result. -/
def failedShotsOn {Ω σ : Type} (b : Backend FW σ) (g : SynGraph FW) (states : List σ) (api : FloatApi F) (rng : Ω → Rng F) (c : LatCode) (sel : LogicalSel) (anc : Bool)
    (circ : List (Gate F)) (S0 : Sim (numberOfQubits circ)) : Set Ω :=
  {ω | ∃ S s, S0.run api (rng ω) circ true = .ok S ∧ Sample.fromRaw c S.results.1 S.results.2 anc = .ok s ∧ ¬ SucceedsOn b g states c sel s}

/-- The shots show random faults of a rate `p`. -/
def ShotTrials {Ω : Type} [MeasurableSpace Ω] (μ : Measure Ω) (p : ℝ≥0∞) (api : FloatApi F) (rng : Ω → Rng F) (L : Lattice) (r : Nat) (qe : List (List Char × ErrDict F))
    (sel : LogicalSel) (anc : Bool) (circ : List (Gate F)) (S0 : Sim (numberOfQubits circ)) : Prop :=
  ∃ (f : Ω → Faults L.dataqubits.length) (erased syn : Ω → Option (List (List Bool))), Trials μ p L.code.stabilisers r f erased syn ∧
    (∀ ω t q, SynBit (erased ω) t q → q < L.dataqubits.length ∧ (flagsOf qe).erasure q = true) ∧
    ∀ ω S s, S0.run api (rng ω) circ true = .ok S → Sample.fromRaw (L.latCode r) S.results.1 S.results.2 anc = .ok s →
      Faults.Gives (c := L.latCode r) (f ω) r sel s ∧ erased ω = s.erased ∧ syn ω = some s.syndrome

variable {L : Lattice}

theorem qubit_shots (hw : L.Wf) (hc : L.Comm) (hf : L.Full) (hs : L.Sched) {r w deg : Nat} (hr : 1 ≤ r) (hS : L.Sparse w deg) {api : FloatApi F}
    {qe ge : List (List Char × ErrDict F)} (hge : ∀ e ∈ ge, e.2 = []) {sel : LogicalSel} {anc : Bool} (hZ : anc = true ∨ OnlyZ (L.latCode r) sel ∧ SameWeight (L.latCode r) sel)
    {circ : List (Gate F)} (h : generateCircuit api (L.latCode r) qe ge sel anc = .ok circ) (S0 : Sim (numberOfQubits circ))
    {Ω : Type} [MeasurableSpace Ω] {μ : Measure Ω} [IsProbabilityMeasure μ] {prob : F → ℝ≥0∞} {past : Nat → MeasurableSpace Ω} {rng : Ω → Rng F}
    (hF : FairFrom S0.pos μ prob past rng) {x : ℝ≥0∞} (hx : x ≤ 1) (hrate : ∀ g ∈ circ, g.name.noisy = true → g.rate api prob ≤ x ^ 1) :
    (∃ is, logicalOpsToIndices L.logicals.length sel = .ok is) ∧ ShotTrials μ ((2 : Nat) * x) api rng L r qe sel anc circ S0 := by
  obtain ⟨pg, eg, err, is, hE, his, i2, i3, i4, hcirc⟩ := noisy_circuit hw hs hge h
  rw [noisyGates_eq] at hcirc
  have hE' : AllErrs L (flagsOf qe) (fun _ _ => []) (fun _ _ _ => []) pg eg err := ⟨hE, fun _ _ => .inl rfl, fun _ _ _ => .inl rfl⟩
  exact ⟨⟨is, his⟩, shot_trials hw hc hf hs api hr his (hZ.imp id fun hz => ⟨letters_z hw hs his hz.1, weights_eq hw his hz.2⟩) hS hE' i3 i4 hcirc S0 hF
    (qubitCauses L.dataqubits.length (L.noisyStart F anc (is.map L.selPos)) (L.roundBlock (fun _ _ => []) (fun _ _ _ => []) pg eg err)) (B := 2) (D := 1) hx
    (fun a ha => qubitCauses_card hw hc hs hE' hS _ r ha) (fun A i => qubitCauses_places A i)
    (fun tr p e Q W ht hB a ha hwr => qubit_caused ht (by rw [hcirc]; exact noGateErrors hE anc r _) hB ha hwr) hrate⟩

theorem gate_shots (hw : L.Wf) (hc : L.Comm) (hf : L.Full) (hs : L.Sched) {r w deg : Nat} (hr : 1 ≤ r) (hS : L.Sparse w deg) (hw2 : 2 ≤ w) (hd1 : 1 ≤ deg) {api : FloatApi F}
    {qe ge : List (List Char × ErrDict F)} {sel : LogicalSel} {anc : Bool} (hZ : anc = true ∨ OnlyZ (L.latCode r) sel ∧ SameWeight (L.latCode r) sel)
    {circ : List (Gate F)} (h : generateCircuit api (L.latCode r) qe ge sel anc = .ok circ) (S0 : Sim (numberOfQubits circ))
    {Ω : Type} [MeasurableSpace Ω] {μ : Measure Ω} [IsProbabilityMeasure μ] {prob : F → ℝ≥0∞} {past : Nat → MeasurableSpace Ω} {rng : Ω → Rng F}
    (hF : FairFrom S0.pos μ prob past rng) {x : ℝ≥0∞} (hx : x ≤ 1) (hrate : ∀ g ∈ circ, g.name.noisy = true → g.rate api prob ≤ x ^ (w * (deg + 1))) :
    (∃ is, logicalOpsToIndices L.logicals.length sel = .ok is) ∧ ShotTrials μ ((w * deg * (w + 5) : Nat) * x) api rng L r qe sel anc circ S0 := by
  obtain ⟨ge1, ge2, pg, eg, err, is, hE, his, i2, i3, i4, hcirc⟩ := gate_circuit hw hs h
  exact ⟨⟨is, his⟩, shot_trials hw hc hf hs api hr his (hZ.imp id fun hz => ⟨letters_z hw hs his hz.1, weights_eq hw his hz.2⟩) hS hE i3 i4 hcirc S0 hF
    (gateCauses L (L.noisyStart F anc (is.map L.selPos)) (L.roundBlock ge1 ge2 pg eg err)) (B := w * deg * (w + 5)) (D := w * (deg + 1)) hx
    (fun a ha => gateCauses_card hw hc hs hE hS hw2 hd1 _ r ha) (fun A i => gateCauses_places hw hS (by omega) A i)
    (fun tr p e Q W ht hB a ha hwr => gate_caused hw hf ht hB ha hwr) hrate⟩

theorem ShotTrials.rare (hw : L.Wf) (hf : L.Full) {r d w deg ρ κ : Nat} (hd : 2 ≤ d) (hS : L.Sparse w deg) {σ : Type} {b : Backend FW σ} {lossy : Bool} (hb : LightWith lossy ρ κ b)
    {px pz pm : List ℚ} {a : ℚ} (hW : Alike L.dataqubits.length L.code.stabilisers.length ρ px pz pm a) {g : SynGraph FW}
    (hg : mkSynGraph FW.isInf r L.code.stabilisers (some (numberWeights px pz pm)) = .ok g) {states : List σ} (hst : setupAll b g = .ok states)
    {qe : List (List Char × ErrDict F)} {sel : LogicalSel} {is : List Int} (his : logicalOpsToIndices L.logicals.length sel = .ok is) {e : Bool}
    (he : e = false → ∀ q < L.dataqubits.length, (flagsOf qe).erasure q = false) (hle : lossy = false → e = false) (hA : e = false ∨ L.Apart)
    (hlines : ∀ i ∈ is, L.HasLines d (L.selPos i)) (hsz : L.logicals.length * (L.dataqubits.length + L.code.stabilisers.length) ≤ 16 * d ^ 2)
    {Ω : Type} [MeasurableSpace Ω] {μ : Measure Ω} {p q : ℝ≥0∞} (hq : q ≤ 1) (hpq : (2 * ((w + 1 : Nat) : ℝ≥0∞)) ^ (κ + 1) * p ≤ q ^ (κ + 1))
    {api : FloatApi F} {rng : Ω → Rng F} {anc : Bool} {circ : List (Gate F)} {S0 : Sim (numberOfQubits circ)} (hT : ShotTrials μ p api rng L r qe sel anc circ S0) :
    μ (failedShotsOn b g states api rng (L.latCode r) sel anc circ S0) ≤ 32 * r * d ^ 2 * q ^ d * (1 - q)⁻¹ := by
  obtain ⟨f, erased, syn, hT, her, hsh⟩ := hT
  have hno : e = false → ∀ ω t q, ¬ SynBit (erased ω) t q := by
    intro h ω t q hb
    obtain ⟨h1, h2⟩ := her ω t q hb
    rw [he h q h1] at h2
    cases h2
  have h := rare_weighted_logs hw hd ((sparse_iff hw).2 hS) hb hW hg hst hq hpq hT (fun h => hno (hle h)) (hA.imp_left hno) (is.map L.selPos) fun v hv => by
    obtain ⟨i, hi, rfl⟩ := List.mem_map.1 hv
    exact .inl (hlines i hi)
  refine (measure_mono fun ω hω => ?_).trans (h.trans (bound_le ?_))
  · obtain ⟨S, s, h1, h2, h3⟩ := hω
    obtain ⟨k1, k2, k3⟩ := hsh ω S s h1 h2
    rintro ⟨p, hp, hc⟩
    rw [k2, k3] at hp
    exact h3 ⟨p, hp, checks_corrected hf his k1 hc⟩
  · rw [List.length_map, (indices_inv his).1]
    exact (Nat.mul_le_mul_right _ (Nat.div_le_self _ _)).trans hsz

/-! ## Experiments that fail rarely -/

/-- The decoder that `from_code` makes from error data whose weights differ by at most a factor `ρ` decodes a shot of any experiment on the code, with a fair generator and
error instructions of rates at most `xᴰ` with `Aᵏ B x ≤ qᵏ`, to a wrong result with probability at most `32 rounds d² qᵈ / (1 - q)`. -/
def DataShotsFailRarely {σ : Type} (b : Backend FW σ) (c : LatCode) (ρ d A B D k : Nat) (erasures gates : Bool) (ok : LogicalSel → Bool → Prop) : Prop :=
  ∀ (negLog : ℚ → Option FW) (tiny lo hi a : ℚ) (errs : ErrData) (weighted : Option Bool), weighted ≠ some false → LogBetween negLog lo hi ρ a →
    DataBetween tiny c errs lo hi →
    ∃ g states, fromCode FW.isInf negLog tiny b c (some errs) weighted none = .ok (g, states) ∧
      ∀ (F : Type) (api : FloatApi F) (qe ge : List (List Char × ErrDict F)) (sel : LogicalSel) (anc : Bool) (circ : List (Gate F)) (S0 : Sim (numberOfQubits circ))
        (Ω : Type) [MeasurableSpace Ω] (μ : Measure Ω) [IsProbabilityMeasure μ] (prob : F → ℝ≥0∞) (past : Nat → MeasurableSpace Ω) (rng : Ω → Rng F) (x q : ℝ≥0∞),
        FairFrom S0.pos μ prob past rng → (erasures = false → ∀ q < c.n, (flagsOf qe).erasure q = false) → (gates = false → ∀ e ∈ ge, e.2 = []) → ok sel anc →
        generateCircuit api c qe ge sel anc = .ok circ → (∀ g ∈ circ, g.name.noisy = true → g.rate api prob ≤ x ^ D) → q ≤ 1 → A ^ k * (B * x) ≤ q ^ k →
        μ (failedShotsOn b g states api rng c sel anc circ S0) ≤ 32 * c.nRounds * d ^ 2 * q ^ d * (1 - q)⁻¹

theorem le_one_of_rates {A B k : Nat} {x q : ℝ≥0∞} (hA : 1 ≤ A) (hB : 1 ≤ B) (hq : q ≤ 1) (h : A ^ k * (B * x) ≤ q ^ k) : x ≤ 1 := by
  have h1 : 1 * x ≤ (A ^ k * B : Nat) * x := mul_le_mul_left (by exact_mod_cast Nat.mul_pos (Nat.pow_pos hA) hB) x
  rw [one_mul] at h1
  refine h1.trans (le_trans (le_of_eq ?_) (h.trans (pow_le_one₀ zero_le hq)))
  push_cast
  rw [mul_assoc]

/-- PyMatching (without erasures) and Fusion Blossom, made from error data, fail rarely. -/
def BothDataShotsFailRarely (c : LatCode) (d A B D : Nat) (erasures gates : Bool) (ok : LogicalSel → Bool → Prop) : Prop :=
  (∀ solve, IsPyMatching solve → ∀ ρ, DataShotsFailRarely (pmBackend solve) c ρ d A B D (ρ + 1) false gates ok) ∧
    ∀ solve, IsFusionBlossom solve → ∀ ρ κ, 100 ≤ κ * (100 / ρ) → DataShotsFailRarely (fbBackend solve) c ρ d A B D (κ + 1) erasures gates ok

theorem both_data_shots (hw : L.Wf) (hc : L.Comm) (hf : L.Full) (hs : L.Sched) {r d w deg : Nat} (hr : 1 ≤ r) (hd : 2 ≤ d) (hm : Made r (L.latCode r)) (hS : L.Sparse w deg)
    (hw2 : 2 ≤ w) (hd1 : 1 ≤ deg) (hsz : L.logicals.length * (L.dataqubits.length + L.code.stabilisers.length) ≤ 16 * d ^ 2) {erasures : Bool}
    (hA : erasures = false ∨ L.Apart) {ok : LogicalSel → Bool → Prop}
    (hok : ∀ sel anc, ok sel anc → (anc = true ∨ OnlyZ (L.latCode r) sel ∧ SameWeight (L.latCode r) sel) ∧
      ∀ is, logicalOpsToIndices L.logicals.length sel = .ok is → ∀ i ∈ is, L.HasLines d (L.selPos i)) {A B : Nat} (hA' : A = 2 * (w + 1)) (hB : B = w * deg * (w + 5)) :
    BothDataShotsFailRarely (L.latCode r) d A 2 1 erasures false ok ∧ BothDataShotsFailRarely (L.latCode r) d A B (w * (deg + 1)) erasures true ok := by
  have hA1 : 1 ≤ A := by omega
  have hB1 : 1 ≤ B := by rw [hB]; exact Nat.mul_pos (Nat.mul_pos (by omega) (by omega)) (by omega)
  have key : ∀ {σ : Type} {b : Backend FW σ} {lossy : Bool} {ρ κ : Nat} (e : Bool), LightWith lossy ρ κ b → (lossy = false → e = false) → (e = false ∨ L.Apart) →
      DataShotsFailRarely b (L.latCode r) ρ d A 2 1 (κ + 1) e false ok ∧ DataShotsFailRarely b (L.latCode r) ρ d A B (w * (deg + 1)) (κ + 1) e true ok := by
    intro σ b lossy ρ κ e hb hle hA
    refine ⟨?_, ?_⟩ <;> intro negLog tiny lo hi a errs weighted hwt hlog hD
    all_goals
      obtain ⟨px, pz, pm, hAl, hmw⟩ := hD.weights hm.codeOk hlog hwt
      obtain ⟨g, hg⟩ := hAl.graph (C59_graph hm FW.isInf 1) r
      obtain ⟨states, hst, -⟩ := hb _ _ _ _ _ _ _ g hAl hg
      refine ⟨g, states, ?_, ?_⟩
      · unfold fromCode manager
        rw [hmw]
        show (mkSynGraph FW.isInf r L.code.stabilisers (some (numberWeights px pz pm))).bind _ = _
        rw [hg]
        show (setupAll b g).bind _ = _
        rw [hst]
        rfl
    · intro F api qe ge sel anc circ S0 Ω _ μ _ prob past rng x q hF he hge hsel h hrate hq hxq
      obtain ⟨hZ, hl⟩ := hok sel anc hsel
      obtain ⟨⟨is, his⟩, hT⟩ := qubit_shots hw hc hf hs hr hS (hge rfl) hZ h S0 hF (le_one_of_rates hA1 (by decide) hq hxq) hrate
      exact hT.rare hw hf hd hS hb hAl hg hst his he hle hA (hl is his) hsz hq (by rw [hA'] at hxq; push_cast at hxq ⊢; exact hxq)
    · intro F api qe ge sel anc circ S0 Ω _ μ _ prob past rng x q hF he hge hsel h hrate hq hxq
      obtain ⟨hZ, hl⟩ := hok sel anc hsel
      obtain ⟨⟨is, his⟩, hT⟩ := gate_shots hw hc hf hs hr hS hw2 hd1 hZ h S0 hF (le_one_of_rates hA1 hB1 hq hxq) hrate
      exact hT.rare hw hf hd hS hb hAl hg hst his he hle hA (hl is his) hsz hq (by rw [hA', hB] at hxq; push_cast at hxq ⊢; exact hxq)
  exact ⟨⟨fun solve hS ρ => (key false (pm_lightWith hS ρ) (fun _ => rfl) (.inl rfl)).1, fun solve hS ρ κ hκ => (key erasures (fb_lightWith hS hκ) (by simp) hA).1⟩,
    ⟨fun solve hS ρ => (key false (pm_lightWith hS ρ) (fun _ => rfl) (.inl rfl)).2, fun solve hS ρ κ hκ => (key erasures (fb_lightWith hS hκ) (by simp) hA).2⟩⟩

/-! ## The families -/

/-- **C112** On the planar code of size at least 3, decoders made from error data with weights that differ by at most a factor `ρ` decode a shot of an experiment to a wrong
result with probability at most `32 rounds size² q^size / (1 - q)`: if only qubits and measurements have errors, for rates at most `x` with `10 ^ (ρ + 1) 2 x ≤ q ^ (ρ + 1)`;
if gates also fail, for rates at most `x²⁰` with `10 ^ (ρ + 1) 144 x ≤ q ^ (ρ + 1)`. -/
theorem C112_planar (r size : Nat) (hr : 1 ≤ r) (h3 : 3 ≤ size) : ∃ c, makePlanar r size = .ok c ∧ c.nRounds = r ∧
    BothDataShotsFailRarely c size 10 2 1 true false (fun sel anc => anc = true ∨ OnlyZ c sel) ∧
    BothDataShotsFailRarely c size 10 144 20 true true (fun sel anc => anc = true ∨ OnlyZ c sel) := by
  have hc : makePlanar r size = .ok ((Planar.lat size crossOrder).latCode r) := by
    rw [makePlanar, Planar.make size (by omega) crossOrder (by decide)]; exact mkLatCode_ok (Planar.wf _ _ (by omega)) (Planar.full _ _ (by omega)) r
  exact ⟨_, hc, rfl, both_data_shots (Planar.wf _ _ (by omega)) (Planar.comm _ _ (by omega)) (Planar.full _ _ (by omega)) (Planar.sched _ (by omega)) hr (by omega) (.planar (by omega) hc)
    (Planar.sparse (by omega)) (by omega) (by omega) (Planar.places (by omega)) (.inr (Planar.apart h3)) (fun sel anc hZ =>
    ⟨hZ.imp id fun hz => ⟨hz, Planar.same (by omega) sel⟩, fun is his i hi => lines_sel (Planar.has_lines (by omega)) is his i hi⟩) rfl rfl⟩

/-- **C112** The same for the toric code. -/
theorem C112_toric (r size : Nat) (hr : 1 ≤ r) (h3 : 3 ≤ size) : ∃ c, makeToric r size = .ok c ∧ c.nRounds = r ∧
    BothDataShotsFailRarely c size 10 2 1 true false (fun sel anc => anc = true ∨ OnlyZ c sel) ∧
    BothDataShotsFailRarely c size 10 144 20 true true (fun sel anc => anc = true ∨ OnlyZ c sel) := by
  have h2 : 2 ≤ size := by omega
  have hc : makeToric r size = .ok ((Toric.lat size crossOrder).latCode r) := by
    rw [makeToric, Toric.make h2 crossOrder (by decide)]; exact mkLatCode_ok (Toric.wf _ h2) (Toric.full _ h2) r
  exact ⟨_, hc, rfl, both_data_shots (Toric.wf _ h2) (Toric.comm _ h2) (Toric.full _ h2) (Toric.sched _ h2) hr h2 (.toric h2 hc) (Toric.sparse h2) (by omega)
    (by omega) (Toric.places h2) (.inr (Toric.apart h3)) (fun sel anc hZ =>
    ⟨hZ.imp id fun hz => ⟨hz, Toric.same h2 sel⟩, fun is his i hi => lines_sel (Toric.has_lines h2) is his i hi⟩) rfl rfl⟩

/-- **C112** The same for the rotated code and the XZZX code, without erased qubits. -/
theorem C112_rotated (r size : Nat) (xzzx : Bool) (hr : 1 ≤ r) (h2 : 2 ≤ size) : ∃ c, makeRotated r size xzzx = .ok c ∧ c.nRounds = r ∧
    BothDataShotsFailRarely c size 10 2 1 false false (fun sel anc => anc = true ∨ OnlyZ c sel) ∧
    BothDataShotsFailRarely c size 10 144 20 false true (fun sel anc => anc = true ∨ OnlyZ c sel) := by
  have hc : makeRotated r size xzzx = .ok ((Rotated.lat size xzzx diagOrder).latCode r) := by
    rw [makeRotated, Rotated.make h2 diagOrder (by decide)]; exact mkLatCode_ok (Rotated.wf _ h2) (Rotated.full _ h2) r
  exact ⟨_, hc, rfl, both_data_shots (Rotated.wf _ h2) (Rotated.comm _ h2) (Rotated.full _ h2) (Rotated.sched _ _ h2) hr h2 (.rotated h2 hc) (Rotated.sparse h2) (by omega)
    (by omega) (Rotated.places h2) (.inl rfl) (fun sel anc hZ =>
    ⟨hZ.imp id fun hz => ⟨hz, Rotated.same h2 sel⟩, fun is his i hi => lines_sel (Rotated.has_lines h2) is his i hi⟩) rfl rfl⟩

/-- **C112** The same for the repetition code and its operator `Z`, measured with the ancilla. -/
theorem C112_repetition (r size : Nat) (hr : 1 ≤ r) (hodd : size % 2 = 1) (h3 : 3 ≤ size) : ∃ c, makeRepetition r size = .ok c ∧ c.nRounds = r ∧
    BothDataShotsFailRarely c size 6 2 1 true false (fun sel anc => anc = true ∧ OnlyZ c sel) ∧
    BothDataShotsFailRarely c size 6 28 6 true true (fun sel anc => anc = true ∧ OnlyZ c sel) := by
  have hc : makeRepetition r size = .ok ((Rep.lat size).latCode r) := by
    rw [makeRepetition, Rep.make size hodd h3]; exact mkLatCode_ok (Rep.wf size h3) (Rep.full size h3) r
  exact ⟨_, hc, rfl, both_data_shots (Rep.wf _ h3) (Rep.comm _ h3) (Rep.full _ h3) (Rep.sched _) hr (by omega) (.repetition (by omega) hc) (Rep.sparse h3) (by omega)
    (by omega) (Rep.places hodd h3) (.inr (Rep.apart h3)) (fun sel anc hZ =>
    ⟨.inl hZ.1, fun is his i hi => Rep.has_lines h3 hZ.2 his i hi⟩) rfl rfl⟩

/-! ## An example: the decoder is made from the data of the experiment -/

/-- Rational numbers instead of floats. -/
def fracApi : FloatApi ℚ where
  repr _ := []
  parse _ := none
  ofInt i := i
  trunc f := .ok (Int.tdiv f.num f.den)
  inUnit f := decide (0 ≤ f ∧ f ≤ 1)

/-- The probability that a rational number stands for. -/
noncomputable def fracProb (f : ℚ) : ℝ≥0∞ := ENNReal.ofReal f

/-- The arguments are readable numbers that are not negative, with a sum of at most `y`. -/
def sumBelow (y : ℚ) (vs : List (Val ℚ)) : Bool :=
  vs.all (fun v => match numOf fracApi v with | .ok p => decide (0 ≤ p) | .error _ => false) &&
    decide ((vs.map fun v => match numOf fracApi v with | .ok p => p | .error _ => 0).sum ≤ y)

theorem sumBelow_nonneg {vs : List (Val ℚ)} (h : vs.all (fun v => match numOf fracApi v with | .ok p => decide (0 ≤ p) | .error _ => false) = true) :
    0 ≤ (vs.map fun v => match numOf fracApi v with | .ok p => p | .error _ => 0).sum ∧
      (vs.map (argProb fracApi fracProb)).sum = ENNReal.ofReal ((vs.map fun v => match numOf fracApi v with | .ok p => p | .error _ => 0).sum : ℚ) := by
  induction vs with
  | nil => simp
  | cons v vs ih =>
    rw [List.all_cons, Bool.and_eq_true] at h
    obtain ⟨h1, h2⟩ := ih h.2
    have h0 := h.1
    rw [List.map_cons, List.sum_cons, List.map_cons, List.sum_cons, h2]
    unfold argProb
    cases hv : numOf fracApi v with
    | ok p =>
      rw [hv] at h0
      have h0 : 0 ≤ p := by simpa using h0
      refine ⟨add_nonneg h0 h1, ?_⟩
      dsimp only
      unfold fracProb
      rw [Rat.cast_add, ENNReal.ofReal_add (by exact_mod_cast h0) (by exact_mod_cast h1)]
    | error e => rw [hv] at h0; cases h0

/-- The error instruction has readable arguments with a sum of at most `y`. -/
def Gate.below (y : ℚ) (g : Gate ℚ) : Bool :=
  match g.name with
  | .ERROR | .ERROR_ELSE | .E_ERASE => sumBelow y (g.args.take 1)
  | .E_PAULI => sumBelow y (g.args.take 3)
  | .E_PAULI2 => sumBelow y (g.args.take 15)
  | _ => false

theorem below_rate {y : ℚ} {g : Gate ℚ} (h : g.below y = true) : g.rate fracApi fracProb ≤ ENNReal.ofReal y := by
  have key : ∀ vs, sumBelow y vs = true → (vs.map (argProb fracApi fracProb)).sum ≤ ENNReal.ofReal y := by
    intro vs h
    unfold sumBelow at h
    rw [Bool.and_eq_true, decide_eq_true_eq] at h
    rw [(sumBelow_nonneg h.1).2]
    exact ENNReal.ofReal_le_ofReal (by exact_mod_cast h.2)
  unfold Gate.below at h
  unfold Gate.rate
  split at h <;> first | exact key _ h | cases h | skip
  all_goals (rename_i hn; simp only [hn]; exact key _ h)

/-- All error instructions of the experiment are so. -/
def belowAll (y : ℚ) (c : LatCode) (qe ge : List (List Char × ErrDict ℚ)) (sel : LogicalSel) (anc : Bool) : Bool :=
  match generateCircuit fracApi c qe ge sel anc with
  | .ok circ => circ.all fun g => !g.name.noisy || g.below y
  | .error _ => false

theorem belowAll_inv {y : ℚ} {c : LatCode} {qe ge : List (List Char × ErrDict ℚ)} {sel : LogicalSel} {anc : Bool} (h : belowAll y c qe ge sel anc = true) : ∃ circ,
    generateCircuit fracApi c qe ge sel anc = .ok circ ∧ ∀ g ∈ circ, g.name.noisy = true → g.rate fracApi fracProb ≤ ENNReal.ofReal y := by
  unfold belowAll at h
  split at h
  · next circ hc =>
    refine ⟨circ, hc, fun g hg hn => below_rate ?_⟩
    have := List.all_eq_true.1 h g hg
    rw [hn] at this
    simpa using this
  · cases h

set_option maxRecDepth 100000 in
/-- Two rounds of the repetition code of size 5 with depolarizing errors of all data qubits with probability three in a million, and wrong outcomes with probability two in a
million. The decoders made from the same error data fail with probability at most 6 in a million. -/
example : ∃ c circ errs, makeRepetition 2 5 = .ok c ∧ errs = uniformErrs c.n c.code.stabilisers.length (1 / 1000000) ∧
    generateCircuit fracApi c errs [] (.str "Z".toList) true = .ok circ ∧ ∀ solve, IsFusionBlossom solve →
    ∃ g states, fromCode FW.isInf toyLog (1 / 1000000000000000) (fbBackend solve) c (some errs) none none = .ok (g, states) ∧
      draws (failedShotsOn (fbBackend solve) g states fracApi (fairRng fracProb) c (.str "Z".toList) true circ (Sim.fresh _ 0)) ≤
        32 * (2 : Nat) * (5 : Nat) ^ 2 * (50⁻¹) ^ 5 * (1 - 50⁻¹)⁻¹ := by
  obtain ⟨circ, h1, h2⟩ := belowAll_inv (y := 3 / 1000000) (c := (Rep.lat 5).latCode 2) (qe := uniformErrs 5 4 (1 / 1000000)) (ge := []) (sel := .str "Z".toList) (anc := true)
    (by decide +kernel)
  obtain ⟨c, hc, hr, hb, -⟩ := C112_repetition 2 5 (by omega) (by decide) (by omega)
  have hc' : makeRepetition 2 5 = .ok ((Rep.lat 5).latCode 2) := by
    rw [makeRepetition, Rep.make 5 (by decide) (by omega)]; exact mkLatCode_ok (Rep.wf 5 (by omega)) (Rep.full 5 (by omega)) 2
  obtain rfl := Except.ok.inj (hc.symm.trans hc')
  have hn : uniformErrs ((Rep.lat 5).latCode 2).n ((Rep.lat 5).latCode 2).code.stabilisers.length (1 / 1000000) = uniformErrs 5 4 (1 / 1000000) := by
    have e1 : ((Rep.lat 5).latCode 2).n = 5 := by decide +kernel
    have e2 : ((Rep.lat 5).latCode 2).code.stabilisers.length = 4 := by decide +kernel
    exact congrArg₂ (fun a b => uniformErrs a b (1 / 1000000)) e1 e2
  refine ⟨_, circ, _, hc, rfl, by rw [hn]; exact h1, fun solve hS => ?_⟩
  have hD := uniform_between (Made.codeOk (.repetition (by decide) hc)) (x := 1 / 1000000) (by norm_num) (1 / 1000000000000000)
  obtain ⟨v, hv, hlog⟩ := toyLog_like.2 (2 * (1 / 1000000)) (by norm_num) (by norm_num)
  obtain ⟨g, states, hf, hP⟩ := hb.2 solve hS 1 1 (by decide) toyLog (1 / 1000000000000000) _ _ v _ none (by simp) (logBetween_single hv hlog) hD
  refine ⟨g, states, hf, ?_⟩
  have := hP ℚ fracApi (uniformErrs 5 4 (1 / 1000000)) [] (.str "Z".toList) true circ (Sim.fresh _ 0) _ draws fracProb drawsPast (fairRng fracProb)
    (ENNReal.ofReal ((3 / 1000000 : ℚ) : ℝ)) (50⁻¹) (fairRng_fair _) (by simp) (by simp) ⟨rfl, rep5_onlyZ⟩ h1 (by simpa using h2) (by rw [ENNReal.inv_le_one]; norm_num) ?_
  · rw [hr] at this
    exact this
  · have e1 : ENNReal.ofReal ((3 / 1000000 : ℚ) : ℝ) = ((3 / 1000000 : ℝ≥0) : ℝ≥0∞) := by
      rw [ENNReal.ofReal, ENNReal.coe_inj, ← NNReal.coe_inj]
      push_cast
      rw [Real.coe_toNNReal _ (by norm_num)]
    have e2 : (50⁻¹ : ℝ≥0∞) = ((1 / 50 : ℝ≥0) : ℝ≥0∞) := by
      rw [one_div, ENNReal.coe_inv (by norm_num)]; norm_num
    rw [e1, e2]
    exact_mod_cast (by rw [← NNReal.coe_le_coe]; push_cast; norm_num : (6 : ℝ≥0) ^ 2 * (2 * (3 / 1000000)) ≤ (1 / 50) ^ 2)

end Plaquette
