import Verif.Lemmas.RandomLocal
import Verif.Lemmas.FairRng
import Verif.Props.Threshold

/-!
# Experiments with random errors: independence of the errors (C91), threshold with errors of qubits (C92) and with errors of gates (C93)
-/

open MeasureTheory
open scoped ENNReal NNReal

namespace Plaquette
variable {F : Type}

/-- **C91** For every circuit, every start state and every fair generator: that all instructions of a set do something (an error that is not the identity, or an
erasure) and the run ends has at most the probability that the product of their rates is, also given anything that happened before the run. -/
theorem C91_independent {n : Nat} {Ω : Type} [MeasurableSpace Ω] {μ : Measure Ω} {prob : F → ℝ≥0∞} {past : Nat → MeasurableSpace Ω} {rng : Ω → Rng F} {k₀ : Nat}
    (hF : FairFrom k₀ μ prob past rng) (api : FloatApi F) (circ : List (Gate F)) (S : Sim n) (hp : k₀ ≤ S.pos) (I : Finset Nat) (E : Set Ω) (hE : MeasurableSet[past S.pos] E) :
    μ (E ∩ {ω | (∃ S', S.runGates api (rng ω) circ = .ok S') ∧ ∀ i ∈ I, StruckAt (S.trace api (rng ω) circ) i}) ≤ (∏ i ∈ I, rateAt api prob circ i) * μ E :=
  struck_prod hF api circ S I E hp hE

/-! ### The faults of an experiment are random -/

variable {L : Lattice} {ge1 : Name → Nat → List (Gate F)} {ge2 : Name → Nat → Nat → List (Gate F)} {pg eg err : Nat → List (Gate F)}

theorem shot_trials (hw : L.Wf) (hc : L.Comm) (hf : L.Full) (hs : L.Sched) (api : FloatApi F) {r : Nat} (hr : 1 ≤ r)
    {qe : List (List Char × ErrDict F)} {sel : LogicalSel} {anc : Bool} {is : List Int} (his : logicalOpsToIndices L.logicals.length sel = .ok is)
    (hZ : anc = true ∨ ((∀ i ∈ is, ∀ e ∈ L.opEdges (L.selPos i), e.factor = .Z) ∧
      ∀ l, L.logicals[0]? = some l → ∀ i ∈ is, (L.opEdges (L.selPos i)).length = (L.opEdges l.1).length))
    {w deg : Nat} (hS : L.Sparse w deg)
    (hE : AllErrs L (flagsOf qe) ge1 ge2 pg eg err) (i3 : ∀ i ∈ is, 0 ≤ i ∧ i < L.logicals.length)
    (i4 : ∀ i ∈ is, ∀ j ∈ is, antiE (L.opEdges (L.selPos i)) (L.opEdges (L.selPos j)) = false)
    {circ : List (Gate F)} (hcirc : circ = L.gateGates ge1 ge2 pg eg err anc r (is.map L.selPos)) (S0 : Sim (numberOfQubits circ))
    {Ω : Type} [MeasurableSpace Ω] {μ : Measure Ω} [IsProbabilityMeasure μ] {prob : F → ℝ≥0∞} {past : Nat → MeasurableSpace Ω} {rng : Ω → Rng F}
    (hF : FairFrom S0.pos μ prob past rng) (C : Place L.dataqubits.length → Finset Nat) {B D : Nat} {x : ℝ≥0∞} (hx : x ≤ 1)
    (hB : ∀ a, Place.Within r L.stabgens.length a → (C a).card ≤ B) (hD : ∀ (A : Finset (Place L.dataqubits.length)) i, (A.filter fun a => i ∈ C a).card ≤ D)
    (hC : ∀ tr p e Q W, Trace circ tr → RoundBlame L ge1 ge2 pg eg err anc r (is.map L.selPos) tr p e Q W → ∀ a, Place.Within r L.stabgens.length a →
      Wrong L.dataqubits.length p e Q W a → Caused tr (C a))
    (hrate : ∀ g ∈ circ, g.name.noisy = true → g.rate api prob ≤ x ^ D) :
    ∃ (f : Ω → Faults L.dataqubits.length) (erased syn : Ω → Option (List (List Bool))), Trials μ (B * x) L.code.stabilisers r f erased syn ∧
      (∀ ω t q, SynBit (erased ω) t q → q < L.dataqubits.length ∧ (flagsOf qe).erasure q = true) ∧
      ∀ ω S s, S0.run api (rng ω) circ true = .ok S → Sample.fromRaw (L.latCode r) S.results.1 S.results.2 anc = .ok s →
        Faults.Gives (c := L.latCode r) (f ω) r sel s ∧ erased ω = s.erased ∧ syn ω = some s.syndrome := by
  classical
  have hm : L.code.stabilisers.length = L.stabgens.length := by simp [Lattice.code]
  have key : ∀ ω, ∃ (f : Faults L.dataqubits.length) (erased syn : Option (List (List Bool))),
      (ShapeOk r L.dataqubits.length erased ∧ ShapeOk r L.code.stabilisers.length syn ∧ f.Shows r L.code.stabilisers syn ∧
        (∀ t q, SynBit erased t q → q < L.dataqubits.length ∧ (flagsOf qe).erasure q = true)) ∧
      (∀ S s, S0.run api (rng ω) circ true = .ok S → Sample.fromRaw (L.latCode r) S.results.1 S.results.2 anc = .ok s →
        Faults.Gives (c := L.latCode r) f r sel s ∧ erased = s.erased ∧ syn = some s.syndrome) ∧
      ∀ a, Place.Within r L.stabgens.length a → f.At erased a →
        (∃ S', S0.reset.runGates api (rng ω) circ = .ok S') ∧ Caused (S0.reset.trace api (rng ω) circ) (C a) := by
    intro ω
    by_cases hex : ∃ S s, S0.run api (rng ω) circ true = .ok S ∧ Sample.fromRaw (L.latCode r) S.results.1 S.results.2 anc = .ok s
    · obtain ⟨S, s, hrun, hsam⟩ := hex
      subst hcirc
      obtain ⟨N, h1, _, h2⟩ := gate_blame hw hc hf hs api (rng ω) hr his hZ hS hE i3 i4 hrun
      obtain ⟨⟨k1, k2, k3, k4, k5⟩, _, _, p, e, Q, W, k6, k7, k8⟩ := h2 s hsam
      have hrun' := hrun
      unfold Sim.run at hrun'
      rw [if_pos rfl] at hrun'
      refine ⟨N.faults _, s.erased, some s.syndrome, ⟨k4, by rw [hm]; exact k2, k1, fun t q hb => ?_⟩, fun S' s' e1 e2 => ?_, fun a ha hat => ⟨⟨S, hrun'⟩, ?_⟩⟩
      · obtain ⟨a, row, ha, hrow, hq⟩ := hb
        obtain ⟨s1, s2⟩ := k4 a ha
        have ht : t < r := by rw [← s1]; exact (List.getElem?_eq_some_iff.1 hrow).1
        have hqn : q < L.dataqubits.length := by
          have h' := s2 row (List.mem_of_getElem? hrow)
          have h'' := (List.getElem?_eq_some_iff.1 hq).1
          rw [h'] at h''
          exact h''
        refine ⟨hqn, ?_⟩
        have := (k5 t ht q hqn).1 ⟨a, row, ha, hrow, hq⟩
        by_contra hf'
        rw [h1 t q (.inl (by simpa using hf'))] at this
        cases this
      · rw [hrun] at e1
        cases e1
        rw [hsam] at e2
        cases e2
        exact ⟨faults_give his k1 k2 k3 k4, rfl, rfl⟩
      · refine hC _ p e Q W (run_trace (gateGates_all hw hs hE) hrun').1 k6 a ha ?_
        rcases a with ⟨t, q⟩ | ⟨t, i⟩
        · exact k7 t ha q hat
        · exact k8 t ha.1 i hat
    · obtain ⟨syn, h1, h2⟩ := exists_shows (n := L.dataqubits.length) (r := r) (stabs := L.code.stabilisers)
        (f := ⟨fun _ => ⟨fun _ => false, fun _ => false, false⟩, fun _ _ => False⟩) fun _ _ _ h => h
      refine ⟨_, none, some syn, ⟨fun a h => (by cases h), h1, h2, fun t q ⟨_, _, h, _⟩ => (by cases h)⟩, fun S s e1 e2 => absurd ⟨S, s, e1, e2⟩ hex, fun a _ hat => ?_⟩
      rcases a with ⟨t, q⟩ | ⟨t, i⟩
      · rcases hat with h | ⟨_, _, h, _⟩
        · cases h
        · cases h
      · exact hat.elim
  choose f erased syn h1 h2 h3 using key
  refine ⟨f, erased, syn, ⟨fun ω => (h1 ω).1, fun ω => (h1 ω).2.1, fun ω => (h1 ω).2.2.1, fun A hA => ?_⟩, fun ω => (h1 ω).2.2.2, h2⟩
  rw [hm] at hA
  rcases A.eq_empty_or_nonempty with rfl | ⟨a0, ha0⟩
  · simp
  · refine (measure_mono fun ω hω => ?_).trans (local_of_blame hx C A (fun a ha => hB a (hA a ha)) (hD A) (μ := μ)
      (ok := fun ω => ∃ S', S0.reset.runGates api (rng ω) circ = .ok S') (st := fun ω => StruckAt (S0.reset.trace api (rng ω) circ))
      fun I => struck_pow hF api circ hrate S0.reset (le_refl _) I)
    exact ⟨(h3 ω a0 (hA a0 ha0) (hω a0 ha0)).1, fun a ha => (h3 ω a (hA a ha) (hω a ha)).2⟩

/-! ### Experiments that fail rarely -/

/-- The shots that are decoded to a wrong result. -/
def failedShots {Ω σ : Type} (b : Backend FW σ) (api : FloatApi F) (rng : Ω → Rng F) (c : LatCode) (r : Nat) (sel : LogicalSel) (anc : Bool) (circ : List (Gate F))
    (S0 : Sim (numberOfQubits circ)) : Set Ω :=
  {ω | ∃ S s, S0.run api (rng ω) circ true = .ok S ∧ Sample.fromRaw c S.results.1 S.results.2 anc = .ok s ∧ ¬ Succeeds b c r sel s}

/-- A shot of any experiment on the code, with a fair generator and error instructions of rates at most `xᴰ` with `K x ≤ q²`, is decoded to a wrong result with
probability at most `32 r d² qᵈ / (1 - q)`. If `gates` is false, gates do not fail; if `erasures` is false, qubits are not erased. -/
def ShotsFailRarely {σ : Type} (b : Backend FW σ) (c : LatCode) (r d K D : Nat) (erasures gates : Bool) (ok : LogicalSel → Bool → Prop) : Prop :=
  ∀ (F : Type) (api : FloatApi F) (qe ge : List (List Char × ErrDict F)) (sel : LogicalSel) (anc : Bool) (circ : List (Gate F)) (S0 : Sim (numberOfQubits circ))
    (Ω : Type) [MeasurableSpace Ω] (μ : Measure Ω) [IsProbabilityMeasure μ] (prob : F → ℝ≥0∞) (past : Nat → MeasurableSpace Ω) (rng : Ω → Rng F) (x q : ℝ≥0∞),
    FairFrom S0.pos μ prob past rng → (erasures = false → ∀ q < c.n, (flagsOf qe).erasure q = false) → (gates = false → ∀ e ∈ ge, e.2 = []) → ok sel anc →
    generateCircuit api c qe ge sel anc = .ok circ → (∀ g ∈ circ, g.name.noisy = true → g.rate api prob ≤ x ^ D) → q ≤ 1 → K * x ≤ q ^ 2 →
    μ (failedShots b api rng c r sel anc circ S0) ≤ 32 * r * d ^ 2 * q ^ d * (1 - q)⁻¹

theorem le_one_of_rate {K : Nat} {x q : ℝ≥0∞} (hK : 1 ≤ K) (hq : q ≤ 1) (h : K * x ≤ q ^ 2) : x ≤ 1 := by
  have h1 : 1 * x ≤ K * x := mul_le_mul_left (by exact_mod_cast hK) x
  rw [one_mul] at h1
  exact h1.trans (h.trans (pow_le_one₀ zero_le hq))

theorem shots_of_trials (hw : L.Wf) (hf : L.Full) {r d w deg : Nat} (hd : 2 ≤ d) (hm : Made r (L.latCode r)) (hS : L.Sparse w deg)
    {σ : Type} {b : Backend FW σ} {lossy : Bool} (hb : Fewest lossy b) {qe : List (List Char × ErrDict F)} {sel : LogicalSel} {is : List Int}
    (his : logicalOpsToIndices L.logicals.length sel = .ok is) {e : Bool} (he : e = false → ∀ q < L.dataqubits.length, (flagsOf qe).erasure q = false)
    (hle : lossy = false → e = false) (hA : e = false ∨ L.Apart) (hlines : ∀ i ∈ is, L.HasLines d (L.selPos i))
    (hsz : L.logicals.length * (L.dataqubits.length + L.code.stabilisers.length) ≤ 16 * d ^ 2)
    {Ω : Type} [MeasurableSpace Ω] {μ : Measure Ω} {p q : ℝ≥0∞} (hq : q ≤ 1) (hpq : 4 * ((w + 1 : Nat) : ℝ≥0∞) ^ 2 * p ≤ q ^ 2)
    {f : Ω → Faults L.dataqubits.length} {erased syn : Ω → Option (List (List Bool))} (hT : Trials μ p L.code.stabilisers r f erased syn)
    (her : ∀ ω t q, SynBit (erased ω) t q → q < L.dataqubits.length ∧ (flagsOf qe).erasure q = true)
    {bad : Set Ω} (hbad : ∀ ω ∈ bad, ∃ s : Sample, Faults.Gives (c := L.latCode r) (f ω) r sel s ∧ erased ω = s.erased ∧ syn ω = some s.syndrome ∧ ¬ Succeeds b (L.latCode r) r sel s) :
    μ bad ≤ 32 * r * d ^ 2 * q ^ d * (1 - q)⁻¹ := by
  have hno : e = false → ∀ ω t q, ¬ SynBit (erased ω) t q := by
    intro h ω t q hb
    obtain ⟨h1, h2⟩ := her ω t q hb
    rw [he h q h1] at h2
    cases h2
  have h := rare_logs hw hd hm ((sparse_iff hw).2 hS) hb hq hpq hT (fun h => hno (hle h)) (hA.imp_left hno) (is.map L.selPos) fun v hv => by
    obtain ⟨i, hi, rfl⟩ := List.mem_map.1 hv
    exact .inl (hlines i hi)
  refine (measure_mono fun ω hω => ?_).trans (h.trans (bound_le ?_))
  · obtain ⟨s, h1, h2, h3, h4⟩ := hbad ω hω
    rintro ⟨g, states, p, k1, k2, k3, k4⟩
    rw [h2, h3] at k3
    exact h4 (succeeds_corrected hf his h1 k1 k2 k3 k4)
  · rw [List.length_map, (indices_inv his).1]
    exact (Nat.mul_le_mul_right _ (Nat.div_le_self _ _)).trans hsz

/-- PyMatching (without erasures) and Fusion Blossom fail rarely. -/
def BothShotsFailRarely (c : LatCode) (r d K D : Nat) (erasures gates : Bool) (ok : LogicalSel → Bool → Prop) : Prop :=
  (∀ solve, IsPyMatching solve → ShotsFailRarely (pmBackend solve) c r d K D false gates ok) ∧
    ∀ solve, IsFusionBlossom solve → ShotsFailRarely (fbBackend solve) c r d K D erasures gates ok

theorem both_shots (hw : L.Wf) (hc : L.Comm) (hf : L.Full) (hs : L.Sched) {r d w deg : Nat} (hr : 1 ≤ r) (hd : 2 ≤ d) (hm : Made r (L.latCode r)) (hS : L.Sparse w deg)
    (hw2 : 2 ≤ w) (hd1 : 1 ≤ deg) (hsz : L.logicals.length * (L.dataqubits.length + L.code.stabilisers.length) ≤ 16 * d ^ 2) {erasures : Bool}
    (hA : erasures = false ∨ L.Apart) {ok : LogicalSel → Bool → Prop}
    (hok : ∀ sel anc, ok sel anc → (anc = true ∨ OnlyZ (L.latCode r) sel ∧ SameWeight (L.latCode r) sel) ∧
      ∀ is, logicalOpsToIndices L.logicals.length sel = .ok is → ∀ i ∈ is, L.HasLines d (L.selPos i)) :
    BothShotsFailRarely (L.latCode r) r d (4 * (w + 1) ^ 2 * 2) 1 erasures false ok ∧
      BothShotsFailRarely (L.latCode r) r d (4 * (w + 1) ^ 2 * (w * deg * (w + 5))) (w * (deg + 1)) erasures true ok := by
  have key1 : ∀ {σ : Type} {b : Backend FW σ} {lossy : Bool} (e : Bool), Fewest lossy b → (lossy = false → e = false) → (e = false ∨ L.Apart) →
      ShotsFailRarely b (L.latCode r) r d (4 * (w + 1) ^ 2 * 2) 1 e false ok := by
    intro σ b lossy e hb hle hA F api qe ge sel anc circ S0 Ω _ μ _ prob past rng x q hF he hg hsel h hrate hq hxq
    obtain ⟨hZ, hl⟩ := hok sel anc hsel
    obtain ⟨pg, eg, err, is, hE, his, i2, i3, i4, hcirc⟩ := noisy_circuit hw hs (hg rfl) h
    rw [noisyGates_eq] at hcirc
    have hE' : AllErrs L (flagsOf qe) (fun _ _ => []) (fun _ _ _ => []) pg eg err := ⟨hE, fun _ _ => .inl rfl, fun _ _ _ => .inl rfl⟩
    obtain ⟨f, erased, syn, hT, her, hsh⟩ := shot_trials hw hc hf hs api hr his (hZ.imp id fun hz => ⟨letters_z hw hs his hz.1, weights_eq hw his hz.2⟩) hS hE' i3 i4 hcirc S0 hF
      (qubitCauses L.dataqubits.length (L.noisyStart F anc (is.map L.selPos)) (L.roundBlock (fun _ _ => []) (fun _ _ _ => []) pg eg err)) (B := 2) (D := 1)
      (le_one_of_rate (Nat.mul_pos (Nat.mul_pos (by omega) (Nat.pow_pos (by omega))) (by omega)) hq hxq)
      (fun a ha => qubitCauses_card hw hc hs hE' hS _ r ha) (fun A i => qubitCauses_places A i)
      (fun tr p e Q W ht hB a ha hwr => qubit_caused ht (by rw [hcirc]; exact noGateErrors hE anc r _) hB ha hwr) hrate
    refine shots_of_trials hw hf hd hm hS hb his he hle hA (hl is his) hsz hq (by push_cast at hxq ⊢; rw [← mul_assoc]; exact hxq) hT her (bad := failedShots b api rng (L.latCode r) r sel anc circ S0) ?_
    rintro ω ⟨S, s, h1, h2, h3⟩
    obtain ⟨k1, k2, k3⟩ := hsh ω S s h1 h2
    exact ⟨s, k1, k2, k3, h3⟩
  have key2 : ∀ {σ : Type} {b : Backend FW σ} {lossy : Bool} (e : Bool), Fewest lossy b → (lossy = false → e = false) → (e = false ∨ L.Apart) →
      ShotsFailRarely b (L.latCode r) r d (4 * (w + 1) ^ 2 * (w * deg * (w + 5))) (w * (deg + 1)) e true ok := by
    intro σ b lossy e hb hle hA F api qe ge sel anc circ S0 Ω _ μ _ prob past rng x q hF he _ hsel h hrate hq hxq
    obtain ⟨hZ, hl⟩ := hok sel anc hsel
    obtain ⟨ge1, ge2, pg, eg, err, is, hE, his, i2, i3, i4, hcirc⟩ := gate_circuit hw hs h
    obtain ⟨f, erased, syn, hT, her, hsh⟩ := shot_trials hw hc hf hs api hr his (hZ.imp id fun hz => ⟨letters_z hw hs his hz.1, weights_eq hw his hz.2⟩) hS hE i3 i4 hcirc S0 hF
      (gateCauses L (L.noisyStart F anc (is.map L.selPos)) (L.roundBlock ge1 ge2 pg eg err)) (B := w * deg * (w + 5)) (D := w * (deg + 1))
      (le_one_of_rate (Nat.mul_pos (Nat.mul_pos (by omega) (Nat.pow_pos (by omega))) (Nat.mul_pos (Nat.mul_pos (by omega) (by omega)) (by omega))) hq hxq)
      (fun a ha => gateCauses_card hw hc hs hE hS hw2 hd1 _ r ha) (fun A i => gateCauses_places hw hS (by omega) A i)
      (fun tr p e Q W ht hB a ha hwr => gate_caused hw hf ht hB ha hwr) hrate
    refine shots_of_trials hw hf hd hm hS hb his he hle hA (hl is his) hsz hq (by push_cast at hxq ⊢; rw [← mul_assoc]; exact hxq) hT her (bad := failedShots b api rng (L.latCode r) r sel anc circ S0) ?_
    rintro ω ⟨S, s, h1, h2, h3⟩
    obtain ⟨k1, k2, k3⟩ := hsh ω S s h1 h2
    exact ⟨s, k1, k2, k3, h3⟩
  exact ⟨⟨fun solve hS => key1 false (pm_fewest hS) (fun _ => rfl) (.inl rfl), fun solve hS => key1 erasures (fb_fewest hS) (by simp) hA⟩,
    ⟨fun solve hS => key2 false (pm_fewest hS) (fun _ => rfl) (.inl rfl), fun solve hS => key2 erasures (fb_fewest hS) (by simp) hA⟩⟩

/-! ### The families -/

theorem planar_rare {r size : Nat} (hr : 1 ≤ r) (h3 : 3 ≤ size) : ∃ c, makePlanar r size = .ok c ∧
    BothShotsFailRarely c r size 200 1 true false (fun sel anc => anc = true ∨ OnlyZ c sel) ∧
    BothShotsFailRarely c r size 14400 20 true true (fun sel anc => anc = true ∨ OnlyZ c sel) := by
  have hc : makePlanar r size = .ok ((Planar.lat size crossOrder).latCode r) := by
    rw [makePlanar, Planar.make size (by omega) crossOrder (by decide)]; exact mkLatCode_ok (Planar.wf _ _ (by omega)) (Planar.full _ _ (by omega)) r
  exact ⟨_, hc, both_shots (Planar.wf _ _ (by omega)) (Planar.comm _ _ (by omega)) (Planar.full _ _ (by omega)) (Planar.sched _ (by omega)) hr (by omega) (.planar (by omega) hc) (Planar.sparse (by omega)) (by omega)
    (by omega) (Planar.places (by omega)) (.inr (Planar.apart h3)) fun sel anc hZ =>
    ⟨hZ.imp id fun hz => ⟨hz, Planar.same (by omega) sel⟩, fun is his i hi => lines_sel (Planar.has_lines (by omega)) is his i hi⟩⟩

theorem toric_rare {r size : Nat} (hr : 1 ≤ r) (h3 : 3 ≤ size) : ∃ c, makeToric r size = .ok c ∧
    BothShotsFailRarely c r size 200 1 true false (fun sel anc => anc = true ∨ OnlyZ c sel) ∧
    BothShotsFailRarely c r size 14400 20 true true (fun sel anc => anc = true ∨ OnlyZ c sel) := by
  have h2 : 2 ≤ size := by omega
  have hc : makeToric r size = .ok ((Toric.lat size crossOrder).latCode r) := by
    rw [makeToric, Toric.make h2 crossOrder (by decide)]; exact mkLatCode_ok (Toric.wf _ h2) (Toric.full _ h2) r
  exact ⟨_, hc, both_shots (Toric.wf _ h2) (Toric.comm _ h2) (Toric.full _ h2) (Toric.sched _ h2) hr h2 (.toric h2 hc) (Toric.sparse h2) (by omega)
    (by omega) (Toric.places h2) (.inr (Toric.apart h3)) fun sel anc hZ =>
    ⟨hZ.imp id fun hz => ⟨hz, Toric.same h2 sel⟩, fun is his i hi => lines_sel (Toric.has_lines h2) is his i hi⟩⟩

theorem rotated_rare {r size : Nat} (xzzx : Bool) (hr : 1 ≤ r) (h2 : 2 ≤ size) : ∃ c, makeRotated r size xzzx = .ok c ∧
    BothShotsFailRarely c r size 200 1 false false (fun sel anc => anc = true ∨ OnlyZ c sel) ∧
    BothShotsFailRarely c r size 14400 20 false true (fun sel anc => anc = true ∨ OnlyZ c sel) := by
  have hc : makeRotated r size xzzx = .ok ((Rotated.lat size xzzx diagOrder).latCode r) := by
    rw [makeRotated, Rotated.make h2 diagOrder (by decide)]; exact mkLatCode_ok (Rotated.wf _ h2) (Rotated.full _ h2) r
  exact ⟨_, hc, both_shots (Rotated.wf _ h2) (Rotated.comm _ h2) (Rotated.full _ h2) (Rotated.sched _ _ h2) hr h2 (.rotated h2 hc) (Rotated.sparse h2) (by omega)
    (by omega) (Rotated.places h2) (.inl rfl) fun sel anc hZ =>
    ⟨hZ.imp id fun hz => ⟨hz, Rotated.same h2 sel⟩, fun is his i hi => lines_sel (Rotated.has_lines h2) is his i hi⟩⟩

theorem repetition_rare {r size : Nat} (hr : 1 ≤ r) (hodd : size % 2 = 1) (h3 : 3 ≤ size) : ∃ c, makeRepetition r size = .ok c ∧
    BothShotsFailRarely c r size 72 1 true false (fun sel anc => anc = true ∧ OnlyZ c sel) ∧
    BothShotsFailRarely c r size 1008 6 true true (fun sel anc => anc = true ∧ OnlyZ c sel) := by
  have hc : makeRepetition r size = .ok ((Rep.lat size).latCode r) := by
    rw [makeRepetition, Rep.make size hodd h3]; exact mkLatCode_ok (Rep.wf size h3) (Rep.full size h3) r
  exact ⟨_, hc, both_shots (Rep.wf _ h3) (Rep.comm _ h3) (Rep.full _ h3) (Rep.sched _) hr (by omega) (.repetition (by omega) hc) (Rep.sparse h3) (by omega)
    (by omega) (Rep.places hodd h3) (.inr (Rep.apart h3)) fun sel anc hZ =>
    ⟨.inl hZ.1, fun is his i hi => Rep.has_lines h3 hZ.2 his i hi⟩⟩

/-- **C92** On the planar code of size at least 3, a shot of an experiment with errors of qubits and measurements of rates at most `q² / 200` is decoded to a wrong
result by PyMatching (if qubits are not erased) and Fusion Blossom with probability at most `32 rounds size² q^size / (1 - q)`. -/
theorem C92_planar (r size : Nat) (hr : 1 ≤ r) (h3 : 3 ≤ size) : ∃ c, makePlanar r size = .ok c ∧
    BothShotsFailRarely c r size 200 1 true false (fun sel anc => anc = true ∨ OnlyZ c sel) := by
  obtain ⟨c, h1, h2, _⟩ := planar_rare hr h3; exact ⟨c, h1, h2⟩

/-- **C92** The same for the toric code. -/
theorem C92_toric (r size : Nat) (hr : 1 ≤ r) (h3 : 3 ≤ size) : ∃ c, makeToric r size = .ok c ∧
    BothShotsFailRarely c r size 200 1 true false (fun sel anc => anc = true ∨ OnlyZ c sel) := by
  obtain ⟨c, h1, h2, _⟩ := toric_rare hr h3; exact ⟨c, h1, h2⟩

/-- **C92** The same for the rotated code and the XZZX code, without erased qubits. -/
theorem C92_rotated (r size : Nat) (xzzx : Bool) (hr : 1 ≤ r) (h2 : 2 ≤ size) : ∃ c, makeRotated r size xzzx = .ok c ∧
    BothShotsFailRarely c r size 200 1 false false (fun sel anc => anc = true ∨ OnlyZ c sel) := by
  obtain ⟨c, h1, h2, _⟩ := rotated_rare xzzx hr h2; exact ⟨c, h1, h2⟩

/-- **C92** The same for the repetition code, with the logical operator Z measured with an ancilla, and rates at most `q² / 72`. -/
theorem C92_repetition (r size : Nat) (hr : 1 ≤ r) (hodd : size % 2 = 1) (h3 : 3 ≤ size) : ∃ c, makeRepetition r size = .ok c ∧
    BothShotsFailRarely c r size 72 1 true false (fun sel anc => anc = true ∧ OnlyZ c sel) := by
  obtain ⟨c, h1, h2, _⟩ := repetition_rare hr hodd h3; exact ⟨c, h1, h2⟩

/-- **C93** On the planar code of size at least 3, a shot of an experiment with errors of qubits, measurements and gates of rates at most `x²⁰` with `14400 x ≤ q²` is
decoded to a wrong result by PyMatching (if qubits are not erased) and Fusion Blossom with probability at most `32 rounds size² q^size / (1 - q)`. -/
theorem C93_planar (r size : Nat) (hr : 1 ≤ r) (h3 : 3 ≤ size) : ∃ c, makePlanar r size = .ok c ∧
    BothShotsFailRarely c r size 14400 20 true true (fun sel anc => anc = true ∨ OnlyZ c sel) := by
  obtain ⟨c, h1, _, h2⟩ := planar_rare hr h3; exact ⟨c, h1, h2⟩

/-- **C93** The same for the toric code. -/
theorem C93_toric (r size : Nat) (hr : 1 ≤ r) (h3 : 3 ≤ size) : ∃ c, makeToric r size = .ok c ∧
    BothShotsFailRarely c r size 14400 20 true true (fun sel anc => anc = true ∨ OnlyZ c sel) := by
  obtain ⟨c, h1, _, h2⟩ := toric_rare hr h3; exact ⟨c, h1, h2⟩

/-- **C93** The same for the rotated code and the XZZX code, without erased qubits. -/
theorem C93_rotated (r size : Nat) (xzzx : Bool) (hr : 1 ≤ r) (h2 : 2 ≤ size) : ∃ c, makeRotated r size xzzx = .ok c ∧
    BothShotsFailRarely c r size 14400 20 false true (fun sel anc => anc = true ∨ OnlyZ c sel) := by
  obtain ⟨c, h1, _, h2⟩ := rotated_rare xzzx hr h2; exact ⟨c, h1, h2⟩

/-- **C93** The same for the repetition code, with the logical operator Z measured with an ancilla, and rates at most `x⁶` with `1008 x ≤ q²`. -/
theorem C93_repetition (r size : Nat) (hr : 1 ≤ r) (hodd : size % 2 = 1) (h3 : 3 ≤ size) : ∃ c, makeRepetition r size = .ok c ∧
    BothShotsFailRarely c r size 1008 6 true true (fun sel anc => anc = true ∧ OnlyZ c sel) := by
  obtain ⟨c, h1, _, h2⟩ := repetition_rare hr hodd h3; exact ⟨c, h1, h2⟩

/-! ### Thresholds -/

/-- If the error instructions of experiments on a family of codes have rates at most `xᴰ` with `K x < 1`, shots on large codes fail as rarely as one likes, for
numbers of rounds up to any power of the size. -/
def ShotsBelowThreshold {σ : Type} (b : Backend FW σ) (make : Nat → Nat → Except Err LatCode) (size_ok : Nat → Prop) (K D : Nat) (erasures gates : Bool)
    (ok : LatCode → LogicalSel → Bool → Prop) : Prop :=
  ∀ (x : ℝ≥0∞), K * x < 1 → ∀ (j : Nat) (ε : ℝ≥0∞), 0 < ε → ∃ N, ∀ size, N ≤ size → size_ok size → ∀ r, 1 ≤ r → r ≤ size ^ j → ∃ c, make r size = .ok c ∧
    ∀ (F : Type) (api : FloatApi F) (qe ge : List (List Char × ErrDict F)) (sel : LogicalSel) (anc : Bool) (circ : List (Gate F)) (S0 : Sim (numberOfQubits circ))
      (Ω : Type) [MeasurableSpace Ω] (μ : Measure Ω) [IsProbabilityMeasure μ] (prob : F → ℝ≥0∞) (past : Nat → MeasurableSpace Ω) (rng : Ω → Rng F),
      FairFrom S0.pos μ prob past rng → (erasures = false → ∀ q < c.n, (flagsOf qe).erasure q = false) → (gates = false → ∀ e ∈ ge, e.2 = []) → ok c sel anc →
      generateCircuit api c qe ge sel anc = .ok circ → (∀ g ∈ circ, g.name.noisy = true → g.rate api prob ≤ x ^ D) →
      μ (failedShots b api rng c r sel anc circ S0) ≤ ε

theorem shots_threshold {σ : Type} {b : Backend FW σ} {make : Nat → Nat → Except Err LatCode} {size_ok : Nat → Prop} {K D : Nat} {erasures gates : Bool}
    {ok : LatCode → LogicalSel → Bool → Prop} (h : ∀ r size, 1 ≤ r → size_ok size → ∃ c, make r size = .ok c ∧ ShotsFailRarely b c r size K D erasures gates (ok c)) :
    ShotsBelowThreshold b make size_ok K D erasures gates ok := by
  intro x hx j ε hε
  obtain ⟨y, hy⟩ := WithTop.ne_top_iff_exists.1 (ne_top_of_lt hx)
  have hy : (y : ℝ≥0∞) = K * x := hy
  have hy1 : y < 1 := by rw [← hy] at hx; exact_mod_cast hx
  obtain ⟨N, hN⟩ := eventually_small (q := NNReal.sqrt y) (by rw [← NNReal.sqrt_one]; exact NNReal.sqrt_lt_sqrt.2 hy1) j hε
  refine ⟨N, fun size hs hok r hr hrs => ?_⟩
  obtain ⟨c, hc, hb⟩ := h r size hr hok
  refine ⟨c, hc, fun F api qe ge sel anc circ S0 Ω _ μ _ prob past rng hF he hg hsel hcirc hrate => ?_⟩
  refine (hb F api qe ge sel anc circ S0 Ω μ prob past rng x (NNReal.sqrt y) hF he hg hsel hcirc hrate ?_ ?_).trans (le_trans ?_ (hN size hs))
  · have : NNReal.sqrt y ≤ 1 := by rw [← NNReal.sqrt_one]; exact NNReal.sqrt_le_sqrt.2 hy1.le
    exact_mod_cast this
  · rw [← hy, ← ENNReal.coe_pow, NNReal.sq_sqrt]
  · gcongr

/-- **C92**, the threshold of PyMatching for errors of qubits and measurements: rate 1/200 (1/72 for the repetition code). -/
theorem C92_pymatching {solve : PmGraph → List Bool → Except Err (List Bool)} (hS : IsPyMatching solve) :
    ShotsBelowThreshold (pmBackend solve) makePlanar (3 ≤ ·) 200 1 false false (fun c sel anc => anc = true ∨ OnlyZ c sel) ∧
      ShotsBelowThreshold (pmBackend solve) makeToric (3 ≤ ·) 200 1 false false (fun c sel anc => anc = true ∨ OnlyZ c sel) ∧
      (∀ xzzx, ShotsBelowThreshold (pmBackend solve) (fun r s => makeRotated r s xzzx) (2 ≤ ·) 200 1 false false (fun c sel anc => anc = true ∨ OnlyZ c sel)) ∧
      ShotsBelowThreshold (pmBackend solve) makeRepetition (fun s => s % 2 = 1 ∧ 3 ≤ s) 72 1 false false (fun c sel anc => anc = true ∧ OnlyZ c sel) := by
  refine ⟨shots_threshold fun r s hr h => ?_, shots_threshold fun r s hr h => ?_, fun xzzx => shots_threshold fun r s hr h => ?_, shots_threshold fun r s hr h => ?_⟩
  · obtain ⟨c, hc, hb⟩ := C92_planar r s hr h; exact ⟨c, hc, hb.1 solve hS⟩
  · obtain ⟨c, hc, hb⟩ := C92_toric r s hr h; exact ⟨c, hc, hb.1 solve hS⟩
  · obtain ⟨c, hc, hb⟩ := C92_rotated r s xzzx hr h; exact ⟨c, hc, hb.1 solve hS⟩
  · obtain ⟨c, hc, hb⟩ := C92_repetition r s hr h.1 h.2; exact ⟨c, hc, hb.1 solve hS⟩

/-- **C92**, the threshold of Fusion Blossom, with erased qubits on the codes where erasures are not lost. -/
theorem C92_fusionblossom {solve : FbGraph → List Nat → List Nat → Except Err (List Nat)} (hS : IsFusionBlossom solve) :
    ShotsBelowThreshold (fbBackend solve) makePlanar (3 ≤ ·) 200 1 true false (fun c sel anc => anc = true ∨ OnlyZ c sel) ∧
      ShotsBelowThreshold (fbBackend solve) makeToric (3 ≤ ·) 200 1 true false (fun c sel anc => anc = true ∨ OnlyZ c sel) ∧
      (∀ xzzx, ShotsBelowThreshold (fbBackend solve) (fun r s => makeRotated r s xzzx) (2 ≤ ·) 200 1 false false (fun c sel anc => anc = true ∨ OnlyZ c sel)) ∧
      ShotsBelowThreshold (fbBackend solve) makeRepetition (fun s => s % 2 = 1 ∧ 3 ≤ s) 72 1 true false (fun c sel anc => anc = true ∧ OnlyZ c sel) := by
  refine ⟨shots_threshold fun r s hr h => ?_, shots_threshold fun r s hr h => ?_, fun xzzx => shots_threshold fun r s hr h => ?_, shots_threshold fun r s hr h => ?_⟩
  · obtain ⟨c, hc, hb⟩ := C92_planar r s hr h; exact ⟨c, hc, hb.2 solve hS⟩
  · obtain ⟨c, hc, hb⟩ := C92_toric r s hr h; exact ⟨c, hc, hb.2 solve hS⟩
  · obtain ⟨c, hc, hb⟩ := C92_rotated r s xzzx hr h; exact ⟨c, hc, hb.2 solve hS⟩
  · obtain ⟨c, hc, hb⟩ := C92_repetition r s hr h.1 h.2; exact ⟨c, hc, hb.2 solve hS⟩

/-- **C93**, the threshold of PyMatching for errors of qubits, measurements and gates. -/
theorem C93_pymatching {solve : PmGraph → List Bool → Except Err (List Bool)} (hS : IsPyMatching solve) :
    ShotsBelowThreshold (pmBackend solve) makePlanar (3 ≤ ·) 14400 20 false true (fun c sel anc => anc = true ∨ OnlyZ c sel) ∧
      ShotsBelowThreshold (pmBackend solve) makeToric (3 ≤ ·) 14400 20 false true (fun c sel anc => anc = true ∨ OnlyZ c sel) ∧
      (∀ xzzx, ShotsBelowThreshold (pmBackend solve) (fun r s => makeRotated r s xzzx) (2 ≤ ·) 14400 20 false true (fun c sel anc => anc = true ∨ OnlyZ c sel)) ∧
      ShotsBelowThreshold (pmBackend solve) makeRepetition (fun s => s % 2 = 1 ∧ 3 ≤ s) 1008 6 false true (fun c sel anc => anc = true ∧ OnlyZ c sel) := by
  refine ⟨shots_threshold fun r s hr h => ?_, shots_threshold fun r s hr h => ?_, fun xzzx => shots_threshold fun r s hr h => ?_, shots_threshold fun r s hr h => ?_⟩
  · obtain ⟨c, hc, hb⟩ := C93_planar r s hr h; exact ⟨c, hc, hb.1 solve hS⟩
  · obtain ⟨c, hc, hb⟩ := C93_toric r s hr h; exact ⟨c, hc, hb.1 solve hS⟩
  · obtain ⟨c, hc, hb⟩ := C93_rotated r s xzzx hr h; exact ⟨c, hc, hb.1 solve hS⟩
  · obtain ⟨c, hc, hb⟩ := C93_repetition r s hr h.1 h.2; exact ⟨c, hc, hb.1 solve hS⟩

/-- **C93**, the threshold of Fusion Blossom. -/
theorem C93_fusionblossom {solve : FbGraph → List Nat → List Nat → Except Err (List Nat)} (hS : IsFusionBlossom solve) :
    ShotsBelowThreshold (fbBackend solve) makePlanar (3 ≤ ·) 14400 20 true true (fun c sel anc => anc = true ∨ OnlyZ c sel) ∧
      ShotsBelowThreshold (fbBackend solve) makeToric (3 ≤ ·) 14400 20 true true (fun c sel anc => anc = true ∨ OnlyZ c sel) ∧
      (∀ xzzx, ShotsBelowThreshold (fbBackend solve) (fun r s => makeRotated r s xzzx) (2 ≤ ·) 14400 20 false true (fun c sel anc => anc = true ∨ OnlyZ c sel)) ∧
      ShotsBelowThreshold (fbBackend solve) makeRepetition (fun s => s % 2 = 1 ∧ 3 ≤ s) 1008 6 true true (fun c sel anc => anc = true ∧ OnlyZ c sel) := by
  refine ⟨shots_threshold fun r s hr h => ?_, shots_threshold fun r s hr h => ?_, fun xzzx => shots_threshold fun r s hr h => ?_, shots_threshold fun r s hr h => ?_⟩
  · obtain ⟨c, hc, hb⟩ := C93_planar r s hr h; exact ⟨c, hc, hb.2 solve hS⟩
  · obtain ⟨c, hc, hb⟩ := C93_toric r s hr h; exact ⟨c, hc, hb.2 solve hS⟩
  · obtain ⟨c, hc, hb⟩ := C93_rotated r s xzzx hr h; exact ⟨c, hc, hb.2 solve hS⟩
  · obtain ⟨c, hc, hb⟩ := C93_repetition r s hr h.1 h.2; exact ⟨c, hc, hb.2 solve hS⟩

/-! ### Examples -/

/-- C91 is not empty: for all probabilities there is a fair generator. -/
example (prob : F → ℝ≥0∞) : Fair draws prob drawsPast (fairRng prob) := fairRng_fair prob

/-- The arguments are readable, at most one of them is 1 and the others are 0. -/
def onceOf (vs : List (Val Nat)) : Bool :=
  vs.all (fun v => (numOf natApi v).isOk) && decide ((vs.map fun v => match numOf natApi v with | .ok p => p | .error _ => 0).sum ≤ 1)

/-- The error instruction has readable arguments, at most one of them 1 and the others 0. -/
def Gate.once (g : Gate Nat) : Bool :=
  match g.name with
  | .ERROR | .ERROR_ELSE | .E_ERASE => onceOf (g.args.take 1)
  | .E_PAULI => onceOf (g.args.take 3)
  | .E_PAULI2 => onceOf (g.args.take 15)
  | _ => false

/-- Probabilities that count small units. -/
noncomputable def units (ε : ℝ≥0∞) (k : Nat) : ℝ≥0∞ := k * ε

theorem args_units (ε : ℝ≥0∞) : ∀ vs : List (Val Nat), vs.all (fun v => (numOf natApi v).isOk) = true →
    (vs.map (argProb natApi (units ε))).sum = ((vs.map fun v => match numOf natApi v with | .ok p => p | .error _ => 0).sum : Nat) * ε
  | [], _ => by simp
  | v :: vs, h => by
    rw [List.all_cons, Bool.and_eq_true] at h
    rw [List.map_cons, List.sum_cons, List.map_cons, List.sum_cons, args_units ε vs h.2]
    have h1 := h.1
    unfold argProb
    cases hv : numOf natApi v with
    | ok p => simp only [units]; push_cast; ring
    | error e => rw [hv] at h1; cases h1

theorem once_rate {ε : ℝ≥0∞} {g : Gate Nat} (h : g.once = true) : g.rate natApi (units ε) ≤ ε := by
  have key : ∀ vs, onceOf vs = true → (vs.map (argProb natApi (units ε))).sum ≤ ε := by
    intro vs h
    unfold onceOf at h
    rw [Bool.and_eq_true, decide_eq_true_eq] at h
    rw [args_units ε _ h.1]
    calc _ ≤ ((1 : Nat) : ℝ≥0∞) * ε := by gcongr; exact h.2
      _ = ε := by simp
  unfold Gate.once at h
  unfold Gate.rate
  split at h <;> first | exact key _ h | cases h | skip
  all_goals (rename_i hn; simp only [hn]; exact key _ h)

/-- Two Pauli channels. -/
def twoPaulis : List (Gate Nat) := [⟨.E_PAULI, [.flt 1, .flt 0, .flt 0, .int 0]⟩, ⟨.E_PAULI, [.flt 0, .flt 0, .flt 1, .int 1]⟩]

/-- C91 for two Pauli channels: both do something with at most the product of their probabilities. -/
example (ε : ℝ≥0∞) : draws {ω | (∃ S', (Sim.fresh 2 0).runGates natApi (fairRng (units ε) ω) twoPaulis = .ok S') ∧
    StruckAt ((Sim.fresh 2 0).trace natApi (fairRng (units ε) ω) twoPaulis) 0 ∧ StruckAt ((Sim.fresh 2 0).trace natApi (fairRng (units ε) ω) twoPaulis) 1} ≤ ε * ε := by
  have h := C91_independent (fairRng_fair (units ε)) natApi twoPaulis (Sim.fresh 2 0) (by simp) {0, 1} Set.univ (@MeasurableSet.univ _ (drawsPast _))
  rw [measure_univ, mul_one, Finset.prod_pair (by decide), Set.univ_inter] at h
  have h0 : ∀ g ∈ twoPaulis, g.once = true := by decide
  refine (measure_mono ?_).trans (h.trans (mul_le_mul' (once_rate (g := twoPaulis[0]) (h0 _ (by simp [twoPaulis]))) (once_rate (g := twoPaulis[1]) (h0 _ (by simp [twoPaulis])))))
  refine fun ω hω => ⟨hω.1, fun i hi => ?_⟩
  rcases Finset.mem_insert.1 hi with rfl | hi
  · exact hω.2.1
  · rw [Finset.mem_singleton.1 hi]; exact hω.2.2

/-- All error instructions of the experiment are so. -/
def onceAll (c : LatCode) (qe ge : List (List Char × ErrDict Nat)) (sel : LogicalSel) (anc : Bool) : Bool :=
  match generateCircuit natApi c qe ge sel anc with
  | .ok circ => circ.all fun g => !g.name.noisy || g.once
  | .error _ => false

theorem onceAll_inv {c : LatCode} {qe ge : List (List Char × ErrDict Nat)} {sel : LogicalSel} {anc : Bool} (h : onceAll c qe ge sel anc = true) : ∃ circ,
    generateCircuit natApi c qe ge sel anc = .ok circ ∧ ∀ ε, ∀ g ∈ circ, g.name.noisy = true → g.rate natApi (units ε) ≤ ε := by
  unfold onceAll at h
  split at h
  · next circ hc =>
    refine ⟨circ, hc, fun ε g hg hn => once_rate ?_⟩
    have := List.all_eq_true.1 h g hg
    rw [hn] at this
    simpa using this
  · cases h

theorem inv_small {K a b : Nat} (hK : K ≠ 0) (h : K * b ≤ a) : (K : ℝ≥0∞) * (a : ℝ≥0∞)⁻¹ ≤ (b : ℝ≥0∞)⁻¹ :=
  calc (K : ℝ≥0∞) * (a : ℝ≥0∞)⁻¹ ≤ K * (K * b : ℝ≥0∞)⁻¹ := by gcongr; exact_mod_cast h
    _ = K * (K : ℝ≥0∞)⁻¹ * (b : ℝ≥0∞)⁻¹ := by rw [ENNReal.mul_inv (.inl (by exact_mod_cast hK)) (.inl (ENNReal.natCast_ne_top K)), mul_assoc]
    _ = (b : ℝ≥0∞)⁻¹ := by rw [ENNReal.mul_inv_cancel (by exact_mod_cast hK) (ENNReal.natCast_ne_top K), one_mul]

theorem rep5_onlyZ : OnlyZ ((Rep.lat 5).latCode 2) (.str "Z".toList) := by
  intro is his i hi a ha q
  have e : logicalOpsToIndices ((Rep.lat 5).latCode 2).code.logicalOps.length (.str "Z".toList) = .ok [1] := by decide +kernel
  rw [e] at his
  cases his
  obtain rfl := List.mem_singleton.1 hi
  cases ha
  revert q
  decide +kernel

set_option maxRecDepth 100000 in
/-- C92 for the repetition code of size 5, two rounds, and errors of one qubit with probability one millionth. -/
example : ∃ circ, generateCircuit natApi ((Rep.lat 5).latCode 2) onePauli [] (.str "Z".toList) true = .ok circ ∧ ∀ solve, IsFusionBlossom solve →
    draws (failedShots (fbBackend solve) natApi (fairRng (units (1000000⁻¹))) ((Rep.lat 5).latCode 2) 2 (.str "Z".toList) true circ (Sim.fresh _ 0)) ≤
      32 * (2 : Nat) * (5 : Nat) ^ 2 * (100⁻¹) ^ 5 * (1 - 100⁻¹)⁻¹ := by
  obtain ⟨circ, h1, h2⟩ := onceAll_inv (c := (Rep.lat 5).latCode 2) (qe := onePauli) (ge := []) (sel := .str "Z".toList) (anc := true) (by decide +kernel)
  refine ⟨circ, h1, fun solve hS => ?_⟩
  obtain ⟨c, hc, hb⟩ := C92_repetition 2 5 (by omega) (by decide) (by omega)
  have hc' : makeRepetition 2 5 = .ok ((Rep.lat 5).latCode 2) := by
    rw [makeRepetition, Rep.make 5 (by decide) (by omega)]; exact mkLatCode_ok (Rep.wf 5 (by omega)) (Rep.full 5 (by omega)) 2
  obtain rfl := Except.ok.inj (hc.symm.trans hc')
  refine hb.2 solve hS Nat natApi onePauli [] _ true circ _ _ draws _ _ _ (1000000⁻¹) (100⁻¹) (fairRng_fair _) (by simp) (by simp) ⟨rfl, rep5_onlyZ⟩ h1 ?_ ?_ ?_
  · intro g hg hn
    rw [pow_one]
    exact h2 _ g hg hn
  · rw [ENNReal.inv_le_one]; norm_num
  · rw [← ENNReal.inv_pow]
    exact_mod_cast inv_small (K := 72) (a := 1000000) (b := 100 ^ 2) (by omega) (by omega)

set_option maxRecDepth 100000 in
/-- C93 for the same code with a gate that fails. -/
example : ∃ circ, generateCircuit natApi ((Rep.lat 5).latCode 2) onePauli badGate (.str "Z".toList) true = .ok circ ∧ ∀ solve, IsFusionBlossom solve →
    draws (failedShots (fbBackend solve) natApi (fairRng (units ((1000000⁻¹) ^ 6))) ((Rep.lat 5).latCode 2) 2 (.str "Z".toList) true circ (Sim.fresh _ 0)) ≤
      32 * (2 : Nat) * (5 : Nat) ^ 2 * (10⁻¹) ^ 5 * (1 - 10⁻¹)⁻¹ := by
  obtain ⟨circ, h1, h2⟩ := onceAll_inv (c := (Rep.lat 5).latCode 2) (qe := onePauli) (ge := badGate) (sel := .str "Z".toList) (anc := true) (by decide +kernel)
  refine ⟨circ, h1, fun solve hS => ?_⟩
  obtain ⟨c, hc, hb⟩ := C93_repetition 2 5 (by omega) (by decide) (by omega)
  have hc' : makeRepetition 2 5 = .ok ((Rep.lat 5).latCode 2) := by
    rw [makeRepetition, Rep.make 5 (by decide) (by omega)]; exact mkLatCode_ok (Rep.wf 5 (by omega)) (Rep.full 5 (by omega)) 2
  obtain rfl := Except.ok.inj (hc.symm.trans hc')
  refine hb.2 solve hS Nat natApi onePauli badGate _ true circ _ _ draws _ _ _ (1000000⁻¹) (10⁻¹) (fairRng_fair _) (by simp) (by simp) ⟨rfl, rep5_onlyZ⟩ h1 (h2 _) ?_ ?_
  · rw [ENNReal.inv_le_one]; norm_num
  · rw [← ENNReal.inv_pow]
    exact_mod_cast inv_small (K := 1008) (a := 1000000) (b := 10 ^ 2) (by omega) (by omega)

end Plaquette
