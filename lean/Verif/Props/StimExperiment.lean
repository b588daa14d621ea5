import Verif.Lemmas.StimExperiment
import Verif.Lemmas.GenStim
import Verif.Props.RandomRates
import Verif.Props.WeightedRates

/-!
# C118: experiments with the Stim simulator
-/

open MeasureTheory
open scoped ENNReal

namespace Plaquette

theorem Experiment.stimLoop_length (api : FloatApi ℝ) (smp : Sampler (List Bool)) (B : Nat) (E : Experiment ℝ) : ∀ (k : Nat) (d : Option StimSim) (l : List Bool),
    E.stimLoop api smp B k d = .ok l → l.length = k
  | 0, d, l, h => by cases h; rfl
  | k + 1, d, l, h => by
    unfold Experiment.stimLoop at h
    split at h
    · cases h
    next d' b h1 =>
    split at h
    · cases h
    next bs h2 =>
    cases h
    rw [List.length_cons, stimLoop_length api smp B E k _ bs h2]

section
variable {Ω Ω' : Type} [MeasurableSpace Ω] [MeasurableSpace Ω'] {μ : Measure Ω} {μ' : Measure Ω'}

theorem rows_independent {smp : Ω → Sampler (List Bool)} {B : Nat} {w : List Bool → ℝ≥0∞}
    (h : ∀ (places : Finset (Nat × Nat)) (r : Nat × Nat → List Bool), μ {ω | ∀ p ∈ places, smp ω p.1 p.2 = r p} = ∏ p ∈ places, w (r p)) (k : Nat) (r : Nat → List Bool) :
    μ {ω | ∀ j < k, smp ω (j / B) (j % B) = r j} = ∏ j ∈ Finset.range k, w (r j) := by
  classical
  have hinj : Function.Injective fun j : Nat => (j / B, j % B) := by
    intro a b hab
    simp only [Prod.mk.injEq] at hab
    rw [← Nat.div_add_mod a B, hab.1, hab.2, Nat.div_add_mod]
  have hmul : ∀ j, B * (j / B) + j % B = j := fun j => Nat.div_add_mod j B
  have := h ((Finset.range k).image fun j => (j / B, j % B)) fun p => r (B * p.1 + p.2)
  rw [Finset.prod_image fun a _ b _ hab => hinj hab] at this
  simp only [hmul] at this
  rw [← this]
  congr 1
  ext ω
  simp [hmul]

/-- The successes of the shots of an experiment on Stim are given by the rows. -/
theorem stimLoop_new {api : FloatApi ℝ} {E : Experiment ℝ} {is : List (SInstr ℝ)} {fl : List Bool} (h : circuitToStim api E.circ = .ok (is, fl)) {B : Nat} (hB : 0 < B)
    (smp : Sampler (List Bool)) (l : List Bool) : E.stimLoop api smp B l.length none = .ok l ↔ ShotRows E fl (fun j => smp (j / B) (j % B)) 0 l := by
  refine stimLoop_iff hB l 0 .reset none (.inl ⟨rfl, rfl⟩) ?_
  unfold stimSim
  rw [h]

theorem stimLoop_prob {api : FloatApi ℝ} {E : Experiment ℝ} {bs : List (Block ℝ)} (hc : E.circ = flatten bs) {I : Instrument (numberOfQubits E.circ)} {is : List (SInstr ℝ)}
    {fl : List Bool} (hS : Sampled api bs I is fl) (hfl : fl ≠ []) {smp : Ω → Sampler (List Bool)} (hf : Faithful μ smp (numberOfQubits E.circ + 1) is) {B : Nat} (hB : 0 < B)
    (l : List Bool) : μ {ω | E.stimLoop api (smp ω) B l.length none = .ok l} = (l.map (shotWeight E I)).prod := by
  obtain ⟨hm, J, hJ, hp⟩ := hf
  have ht := hS.translated
  rw [← hc] at ht
  simp only [stimLoop_new ht hB]
  have h := shotRows_prob (rows := fun ω j => smp ω (j / B) (j % B)) (fun j r => hm _ _ r) (rows_independent hp) E fl l 0 fun _ => []
  simp only [Nat.not_lt_zero, false_imp_iff, implies_true, Set.setOf_true, Set.univ_inter, Finset.range_zero, Finset.prod_empty, one_mul] at h
  rw [h]
  refine congrArg List.prod (List.map_congr_left fun b _ => weight_eq hS hJ hfl E b)

theorem stimLoop_measurable {api : FloatApi ℝ} {E : Experiment ℝ} {is : List (SInstr ℝ)} {fl : List Bool} (h : circuitToStim api E.circ = .ok (is, fl)) {B : Nat} (hB : 0 < B)
    {smp : Ω → Sampler (List Bool)} (hm : ∀ b j r, MeasurableSet {ω | smp ω b j = r}) (l : List Bool) : MeasurableSet {ω | E.stimLoop api (smp ω) B l.length none = .ok l} := by
  simp only [stimLoop_new h hB]
  exact shotRows_measurable (rows := fun ω j => smp ω (j / B) (j % B)) (fun j r => hm _ _ r) E fl l 0

variable [IsProbabilityMeasure μ'] {past : Nat → MeasurableSpace Ω'} {rng : Ω' → Rng ℝ}

/-- **C118** The shots of an experiment have the same distribution of successes with both simulators: with Stim, if its sampler is faithful to the translated circuit, and with the Clifford
simulator, if its random generator is exact. -/
theorem C118_shots (api : FloatApi ℝ) (E : Experiment ℝ) (bs : List (Block ℝ)) (hc : E.circ = flatten bs) (I : Instrument (numberOfQubits E.circ)) (is : List (SInstr ℝ))
    (fl : List Bool) (hS : Sampled api bs I is fl) (hfl : fl ≠ []) (smp : Ω → Sampler (List Bool)) (hf : Faithful μ smp (numberOfQubits E.circ + 1) is) (B : Nat) (hB : 0 < B)
    (pos : Nat) (hX : ExactFrom pos μ' ENNReal.ofReal past rng) (k : Nat) (l : List Bool) :
    μ {ω | E.stimLoop api (smp ω) B k none = .ok l} = μ' {ω | E.loop api (rng ω) k (Sim.fresh _ pos) = .ok l} := by
  by_cases hk : l.length = k
  · subst hk
    have h := loop_exact hX api E hc hS.denotes l (Sim.fresh _ pos) Set.univ le_rfl (@MeasurableSet.univ _ (past pos))
    rw [Set.univ_inter, measure_univ, mul_one] at h
    rw [stimLoop_prob hc hS hfl hf hB, h]
  · have h1 : {ω | E.stimLoop api (smp ω) B k none = .ok l} = ∅ := Set.eq_empty_iff_forall_notMem.2 fun ω h => hk (E.stimLoop_length api _ B k none l h)
    have h2 : {ω | E.loop api (rng ω) k (Sim.fresh _ pos) = .ok l} = ∅ := Set.eq_empty_iff_forall_notMem.2 fun ω h => hk (E.loop_length api _ k _ l h)
    rw [h1, h2, measure_empty, measure_empty]

/-- Events of the successes have the same probability. -/
theorem same_events (api : FloatApi ℝ) (E : Experiment ℝ) (bs : List (Block ℝ)) (hc : E.circ = flatten bs) (I : Instrument (numberOfQubits E.circ)) (is : List (SInstr ℝ))
    (fl : List Bool) (hS : Sampled api bs I is fl) (hfl : fl ≠ []) (smp : Ω → Sampler (List Bool)) (hf : Faithful μ smp (numberOfQubits E.circ + 1) is) (B : Nat) (hB : 0 < B)
    (pos : Nat) (hX : ExactFrom pos μ' ENNReal.ofReal past rng) (k : Nat) (P : List Bool → Prop) :
    μ {ω | ∃ l, E.stimLoop api (smp ω) B k none = .ok l ∧ P l} = μ' {ω | ∃ l, E.loop api (rng ω) k (Sim.fresh _ pos) = .ok l ∧ P l} := by
  classical
  have ht := hS.translated
  rw [← hc] at ht
  have hm1 : ∀ l, MeasurableSet {ω | E.stimLoop api (smp ω) B k none = .ok l} := by
    intro l
    by_cases hk : l.length = k
    · subst hk
      exact stimLoop_measurable ht hB hf.1 l
    · rw [show {ω | E.stimLoop api (smp ω) B k none = .ok l} = ∅ from Set.eq_empty_iff_forall_notMem.2 fun ω h => hk (E.stimLoop_length api _ B k none l h)]
      exact MeasurableSet.empty
  have hm2 : ∀ l, MeasurableSet {ω | E.loop api (rng ω) k (Sim.fresh _ pos) = .ok l} := by
    intro l
    by_cases hk : l.length = k
    · subst hk
      exact loop_measurable hX.toFairFrom api E l _
    · rw [show {ω | E.loop api (rng ω) k (Sim.fresh _ pos) = .ok l} = ∅ from Set.eq_empty_iff_forall_notMem.2 fun ω h => hk (E.loop_length api _ k _ l h)]
      exact MeasurableSet.empty
  have e1 : {ω | ∃ l, E.stimLoop api (smp ω) B k none = .ok l ∧ P l} = ⋃ l : {l // P l}, {ω | E.stimLoop api (smp ω) B k none = .ok l.1} := by
    ext ω
    simp [and_comm]
  have e2 : {ω | ∃ l, E.loop api (rng ω) k (Sim.fresh _ pos) = .ok l ∧ P l} = ⋃ l : {l // P l}, {ω | E.loop api (rng ω) k (Sim.fresh _ pos) = .ok l.1} := by
    ext ω
    simp [and_comm]
  rw [e1, e2, measure_iUnion (fun a b hab => Set.disjoint_left.2 fun ω h1 h2 => hab (Subtype.ext (Except.ok.inj (h1.symm.trans h2)))) fun l => hm1 _,
    measure_iUnion (fun a b hab => Set.disjoint_left.2 fun ω h1 h2 => hab (Subtype.ext (Except.ok.inj (h1.symm.trans h2)))) fun l => hm2 _]
  exact tsum_congr fun l => C118_shots api E bs hc I is fl hS hfl smp hf B hB pos hX k l

/-- **C118** `ExperimentConfig.run` returns the same logical error rate with the same probability with both simulators. -/
theorem C118_rate (api : FloatApi ℝ) (E : Experiment ℝ) (bs : List (Block ℝ)) (hc : E.circ = flatten bs) (I : Instrument (numberOfQubits E.circ)) (is : List (SInstr ℝ))
    (fl : List Bool) (hS : Sampled api bs I is fl) (hfl : fl ≠ []) (smp : Ω → Sampler (List Bool)) (hf : Faithful μ smp (numberOfQubits E.circ + 1) is) (B : Nat) (hB : 0 < B)
    (pos : Nat) (hX : ExactFrom pos μ' ENNReal.ofReal past rng) (p : ℚ) :
    μ {ω | E.stimRate api (smp ω) B = .ok p} = μ' {ω | E.rate api (rng ω) pos = .ok p} := by
  have h := same_events api E bs hc I is fl hS hfl smp hf B hB pos hX E.shots fun l => rateOf l = p
  have e1 : ∀ ω, E.stimRate api (smp ω) B = .ok p ↔ ∃ l, E.stimLoop api (smp ω) B E.shots none = .ok l ∧ rateOf l = p := by
    intro ω
    unfold Experiment.stimRate
    cases E.stimLoop api (smp ω) B E.shots none <;> simp
  have e2 : ∀ ω, E.rate api (rng ω) pos = .ok p ↔ ∃ l, E.loop api (rng ω) E.shots (Sim.fresh _ pos) = .ok l ∧ rateOf l = p := by
    intro ω
    unfold Experiment.rate
    cases E.loop api (rng ω) E.shots (Sim.fresh _ pos) <;> simp
  simp only [e1, e2]
  exact h

end

/-! ### Generated circuits -/

/-- The code of a lattice whose circuits can be generated. -/
def OnLattice (r : Nat) (c : LatCode) : Prop := ∃ L : Lattice, c = L.latCode r ∧ L.Wf ∧ L.Comm ∧ L.Full ∧ L.Sched

theorem lattice_shapes {api : FloatApi ℝ} {r : Nat} {c : LatCode} (hm : OnLattice r c) {qe ge : List (List Char × ErrDict ℝ)} {sel : LogicalSel} {anc : Bool} {circ : List (Gate ℝ)}
    (h : generateCircuit api c qe ge sel anc = .ok circ) : ∀ g ∈ circ, GShape g := by
  obtain ⟨L, rfl, hw, _, _, hs⟩ := hm
  unfold generateCircuit at h
  split at h
  · cases h
  next G hG =>
  have hl : G.lat = L := by
    unfold Gen.lat
    rw [(make_inv hG).1]
  exact (shape_pieces api G).circuit (by rw [hl]; exact hw) (by rw [hl]; exact hs) sel _ h

/-- The numbers in the circuit are not negative. -/
def NoNegative (circ : List (Gate ℝ)) : Prop := ∀ g ∈ circ, ∀ p, Val.flt p ∈ g.args → 0 ≤ p

/-- The values of the error data are numbers that are not negative. -/
def DataNonneg (api : FloatApi ℝ) (data : List (List Char × ErrDict ℝ)) : Prop :=
  0 ≤ api.ofInt 0 ∧ ∀ name d, dictGet data name = some d → ∀ key ps, dictGet d key = some ps → ∀ k v, dictGet ps k = some v → ∃ p, toFloat api v = .ok p ∧ 0 ≤ p

theorem generated_shapes {api : FloatApi ℝ} {r : Nat} {c : LatCode} (hm : Made r c) {qe ge : List (List Char × ErrDict ℝ)} {sel : LogicalSel} {anc : Bool} {circ : List (Gate ℝ)}
    (h : generateCircuit api c qe ge sel anc = .ok circ) : ∀ g ∈ circ, GShape g := lattice_shapes hm.lattice h

theorem lattice_nonneg {api : FloatApi ℝ} {r : Nat} {c : LatCode} (hm : OnLattice r c) {qe ge : List (List Char × ErrDict ℝ)} {sel : LogicalSel} {anc : Bool} {circ : List (Gate ℝ)}
    (h : generateCircuit api c qe ge sel anc = .ok circ) (hd : DataNonneg api (qe ++ ge)) : NoNegative circ := by
  classical
  -- with this function the rates count the negative numbers
  let neg : ℝ → ℝ≥0∞ := fun p => if p < 0 then 1 else 0
  have hz : ∀ p : ℝ, neg p = 0 → 0 ≤ p := fun p hp => by
    by_contra hlt
    simp only [neg, if_pos (not_le.1 hlt)] at hp
    exact one_ne_zero hp
  intro g hg p hp
  have hsh := lattice_shapes hm h g hg
  by_cases hn : g.name.noisy = true
  · obtain ⟨k, _, _, d, _, ps, _, h1, h2, _, h3⟩ := C113_rates api neg c qe ge sel anc circ h g hg hn
    have h4 : entryRate api neg k.params ps = 0 := by
      unfold entryRate
      refine List.sum_eq_zero fun x hx => ?_
      obtain ⟨key, _, rfl⟩ := List.mem_map.1 hx
      split
      · next v hv =>
        obtain ⟨p', hp', h0⟩ := hd.2 _ d h1 _ ps h2 _ v hv
        unfold rawProb
        rw [hp']
        exact if_neg (not_lt.2 h0)
      · exact if_neg (not_lt.2 hd.1)
    rw [h4] at h3
    cases hsh with
    | one hn i => simp at hp
    | two hn hij => simp at hp
    | flip p i =>
      simp only [List.mem_cons, Val.flt.injEq, List.not_mem_nil, or_false] at hp
      rcases hp with rfl | hp | hp <;> first | cases hp | skip
      unfold Gate.rate at h3
      simp only [List.take_succ_cons, List.take_zero, List.map_cons, List.map_nil, List.sum_cons, List.sum_nil, add_zero] at h3
      exact hz _ h3
    | erase p i =>
      simp only [List.mem_cons, Val.flt.injEq, List.not_mem_nil, or_false] at hp
      rcases hp with rfl | hp <;> first | cases hp | skip
      unfold Gate.rate at h3
      simp only [List.take_succ_cons, List.take_zero, List.map_cons, List.map_nil, List.sum_cons, List.sum_nil, add_zero] at h3
      exact hz _ h3
    | pauli hl i =>
      unfold Gate.rate at h3
      dsimp only at h3
      rw [List.take_append_of_le_length (by simp [hl]), List.take_of_length_le (by simp [hl])] at h3
      simp only [List.mem_append, List.mem_map, Val.flt.injEq, exists_eq_right, List.mem_cons, List.not_mem_nil, reduceCtorEq, or_false] at hp
      exact hz _ (List.sum_eq_zero_iff.1 h3 _ (List.mem_map_of_mem (List.mem_map_of_mem hp)))
    | pauli2 hl hij =>
      unfold Gate.rate at h3
      dsimp only at h3
      rw [List.take_append_of_le_length (by simp [hl]), List.take_of_length_le (by simp [hl])] at h3
      simp only [List.mem_append, List.mem_map, Val.flt.injEq, exists_eq_right, List.mem_cons, List.not_mem_nil, reduceCtorEq, or_false] at hp
      exact hz _ (List.sum_eq_zero_iff.1 h3 _ (List.mem_map_of_mem (List.mem_map_of_mem hp)))
  · cases hsh with
    | one hn i => simp at hp
    | two hn hij => simp at hp
    | flip p i => exact absurd rfl hn
    | erase p i => exact absurd rfl hn
    | pauli hl i => exact absurd rfl hn
    | pauli2 hl hij => exact absurd rfl hn

theorem generated_nonneg {api : FloatApi ℝ} {r : Nat} {c : LatCode} (hm : Made r c) {qe ge : List (List Char × ErrDict ℝ)} {sel : LogicalSel} {anc : Bool} {circ : List (Gate ℝ)}
    (h : generateCircuit api c qe ge sel anc = .ok circ) (hd : DataNonneg api (qe ++ ge)) : NoNegative circ := lattice_nonneg hm.lattice h hd

/-- **C118** Circuits that are generated for the codes of plaquette, with probabilities, are translated to Stim circuits. -/
theorem C118_generated (api : FloatApi ℝ) (r : Nat) (c : LatCode) (hm : Made r c) (qe ge : List (List Char × ErrDict ℝ)) (sel : LogicalSel) (anc : Bool) (circ : List (Gate ℝ))
    (h : generateCircuit api c qe ge sel anc = .ok circ) (h0 : NoNegative circ) (hd : ∀ g ∈ circ, g.name.noisy = true → g.rate api ENNReal.ofReal ≤ 1) :
    ∃ (is : List (SInstr ℝ)) (fl : List Bool) (J : SInstrument (numberOfQubits circ + 1)), circuitToStim api circ = .ok (is, fl) ∧ stimMeaning (numberOfQubits circ + 1) is = some J := by
  obtain ⟨_, is, fl, J, _, _, h2, h3, _⟩ := shapes_sampled (generated_shapes hm h) hd h0
  exact ⟨is, fl, J, h3, h2⟩

/-- The shots of an experiment with Stim fail independently with probability at most `B`, see `FailIndependently`. -/
def StimFailIndependently {Ω : Type} [MeasurableSpace Ω] (μ : Measure Ω) (api : FloatApi ℝ) (smp : Ω → Sampler (List Bool)) (batch : Nat) (E : Experiment ℝ) (B : ℝ≥0∞) : Prop :=
  (∀ I : Finset Nat, μ {ω | ∃ l, E.stimLoop api (smp ω) batch E.shots none = .ok l ∧ ∀ i ∈ I, l[i]? = some false} ≤ B ^ I.card) ∧
    ∫⁻ ω, rateValue (E.stimRate api (smp ω) batch) ∂μ ≤ B ∧
    ∀ m : Nat, μ {ω | ∃ p, E.stimRate api (smp ω) batch = .ok p ∧ (m : ℚ) ≤ p * E.shots} ≤ (E.shots.choose m : ℝ≥0∞) * B ^ m

theorem lattice_transfer (api : FloatApi ℝ) (r : Nat) (E : Experiment ℝ) (hm : OnLattice r E.code) (qe ge : List (List Char × ErrDict ℝ)) (sel : LogicalSel) (anc : Bool)
    (h : generateCircuit api E.code qe ge sel anc = .ok E.circ) (h0 : NoNegative E.circ) (hd : ∀ g ∈ E.circ, g.name.noisy = true → g.rate api ENNReal.ofReal ≤ 1)
    (hs : 1 ≤ E.shots) (B : ℝ≥0∞)
    (hB : ∀ (Ω : Type) [MeasurableSpace Ω] (μ : Measure Ω) [IsProbabilityMeasure μ] (past : Nat → MeasurableSpace Ω) (rng : Ω → Rng ℝ), FairFrom 0 μ ENNReal.ofReal past rng →
      FailIndependently μ api rng 0 E B)
    {Ω : Type} [MeasurableSpace Ω] (μ : Measure Ω) (smp : Ω → Sampler (List Bool)) (batch : Nat) (hb : 0 < batch)
    (hf : ∀ is fl, circuitToStim api E.circ = .ok (is, fl) → Faithful μ smp (numberOfQubits E.circ + 1) is) : StimFailIndependently μ api smp batch E B := by
  obtain ⟨I, is, fl, J, h1, hS, hJ, ht, _⟩ := shapes_sampled (lattice_shapes hm h) hd h0
  refine fails_of hs (fun ω p hp => ?_) fun A => ?_
  · unfold Experiment.stimRate at hp
    split at hp
    · cases hp
    next l hl =>
    have hlen := E.stimLoop_length api _ _ _ _ _ hl
    have hne : l ≠ [] := by
      rintro rfl
      simp at hlen
      omega
    cases hp
    exact ⟨l, hl, hlen, by rw [← hlen]; exact (C68_rateOf hne).1⟩
  · by_cases hfl : fl = []
    · have : {ω | ∃ l, E.stimLoop api (smp ω) batch E.shots none = .ok l ∧ ∀ i ∈ A, l[i]? = some false} = ∅ := by
        refine Set.eq_empty_iff_forall_notMem.2 ?_
        rintro ω ⟨l, hl, _⟩
        have hlen := E.stimLoop_length api _ _ _ _ _ hl
        rw [← hlen, stimLoop_new ht hb] at hl
        cases l with
        | nil => simp at hlen; omega
        | cons b l => exact (judgeRow_length hl.1).1 hfl
      rw [this, measure_empty]
      exact zero_le
    · rw [same_events api E _ h1.symm I is fl hS hfl smp (hf is fl ht) batch hb 0 (fairRng_exact ENNReal.ofReal) E.shots fun l => ∀ i ∈ A, l[i]? = some false]
      exact (hB _ draws drawsPast (fairRng ENNReal.ofReal) (fairRng_fair ENNReal.ofReal)).1 A

/-- **C118** What is true of the Clifford simulator with fair generators is true of Stim: if the shots of an experiment fail independently with probability at most `B` for every fair
random generator, then also with every faithful sampler of Stim. -/
theorem C118_transfer (api : FloatApi ℝ) (r : Nat) (E : Experiment ℝ) (hm : Made r E.code) (qe ge : List (List Char × ErrDict ℝ)) (sel : LogicalSel) (anc : Bool)
    (h : generateCircuit api E.code qe ge sel anc = .ok E.circ) (h0 : NoNegative E.circ) (hd : ∀ g ∈ E.circ, g.name.noisy = true → g.rate api ENNReal.ofReal ≤ 1)
    (hs : 1 ≤ E.shots) (B : ℝ≥0∞)
    (hB : ∀ (Ω : Type) [MeasurableSpace Ω] (μ : Measure Ω) [IsProbabilityMeasure μ] (past : Nat → MeasurableSpace Ω) (rng : Ω → Rng ℝ), FairFrom 0 μ ENNReal.ofReal past rng →
      FailIndependently μ api rng 0 E B)
    {Ω : Type} [MeasurableSpace Ω] (μ : Measure Ω) (smp : Ω → Sampler (List Bool)) (batch : Nat) (hb : 0 < batch)
    (hf : ∀ is fl, circuitToStim api E.circ = .ok (is, fl) → Faithful μ smp (numberOfQubits E.circ + 1) is) : StimFailIndependently μ api smp batch E B :=
  lattice_transfer api r E hm.lattice qe ge sel anc h h0 hd hs B hB μ smp batch hb hf

/-! ### Logical error rates with Stim -/

/-- As `RatesSmall`, with Stim: the probabilities in the error data are at most `xᴰ` with `K x ≤ q²`. -/
def StimRatesSmall {σ : Type} (b : Backend FW σ) (c : LatCode) (r d K D : Nat) (erasures gates : Bool) : Prop :=
  ∀ (api : FloatApi ℝ) (qe ge : List (List Char × ErrDict ℝ)) (sel : LogicalSel) (circ : List (Gate ℝ)) (shots batch : Nat) (x q : ℝ≥0∞) (negLog : ℚ → Option FW) (tiny : ℚ)
    (errs : Option ErrData) (g : SynGraph FW) (states : List σ) (Ω : Type) [MeasurableSpace Ω] (μ : Measure Ω) (smp : Ω → Sampler (List Bool)),
    (erasures = false → ∀ q < c.n, (flagsOf qe).erasure q = false) → (gates = false → ∀ e ∈ ge, e.2 = []) → OnlyZ c sel →
    generateCircuit api c qe ge sel false = .ok circ → DataNonneg api (qe ++ ge) → DataBelow api ENNReal.ofReal (qe ++ ge) (x ^ D) → q ≤ 1 → K * x ≤ q ^ 2 → 1 ≤ shots → 0 < batch →
    fromCode FW.isInf negLog tiny b c errs (some false) none = .ok (g, states) →
    (∀ is fl, circuitToStim api circ = .ok (is, fl) → Faithful μ smp (numberOfQubits circ + 1) is) →
    StimFailIndependently μ api smp batch (anyExperiment c circ b g states shots sel) (32 * r * d ^ 2 * q ^ d * (1 - q)⁻¹)

theorem stim_rates {σ : Type} {b : Backend FW σ} {c : LatCode} {r d K D : Nat} {erasures gates : Bool} (hm : Made r c) (hK : 1 ≤ K) (h : RatesSmall b c r d K D erasures gates) :
    StimRatesSmall b c r d K D erasures gates := by
  intro api qe ge sel circ shots batch x q negLog tiny errs g states Ω _ μ smp he hg hsel hcirc h0 hd hq hx hs hb hfc hf
  have hrate := C113_below api ENNReal.ofReal c qe ge sel false circ hcirc _ hd
  have hx1 : x ≤ 1 := by
    have h1 : 1 * x ≤ K * x := mul_le_mul_left (by exact_mod_cast hK) x
    rw [one_mul] at h1
    exact h1.trans (hx.trans (pow_le_one₀ zero_le hq))
  exact C118_transfer api r (anyExperiment c circ b g states shots sel) hm qe ge sel false hcirc (generated_nonneg hm hcirc h0) (fun g' h' hn => (hrate g' h' hn).trans (pow_le_one₀ zero_le hx1)) hs _
    (fun Ω _ μ _ past rng hF => h ℝ api qe ge sel circ Ω μ ENNReal.ofReal past rng 0 shots x q negLog tiny errs g states hF he hg hsel hcirc hrate hq hx hs hfc) μ smp batch hb hf

/-- As `DataRatesSmall`, with Stim. -/
def StimDataRatesSmall {σ : Type} (b : Backend FW σ) (c : LatCode) (ρ d A B D k : Nat) (erasures gates : Bool) : Prop :=
  ∀ (negLog : ℚ → Option FW) (tiny lo hi a : ℚ) (errs : ErrData) (weighted : Option Bool), weighted ≠ some false → LogBetween negLog lo hi ρ a →
    DataBetween tiny c errs lo hi →
    ∃ g states, fromCode FW.isInf negLog tiny b c (some errs) weighted none = .ok (g, states) ∧
      ∀ (api : FloatApi ℝ) (qe ge : List (List Char × ErrDict ℝ)) (sel : LogicalSel) (circ : List (Gate ℝ)) (shots batch : Nat) (x q : ℝ≥0∞) (Ω : Type) [MeasurableSpace Ω]
        (μ : Measure Ω) (smp : Ω → Sampler (List Bool)),
        (erasures = false → ∀ q < c.n, (flagsOf qe).erasure q = false) → (gates = false → ∀ e ∈ ge, e.2 = []) → OnlyZ c sel →
        generateCircuit api c qe ge sel false = .ok circ → DataNonneg api (qe ++ ge) → DataBelow api ENNReal.ofReal (qe ++ ge) (x ^ D) → q ≤ 1 → A ^ k * (B * x) ≤ q ^ k → 1 ≤ shots →
        0 < batch → (∀ is fl, circuitToStim api circ = .ok (is, fl) → Faithful μ smp (numberOfQubits circ + 1) is) →
        StimFailIndependently μ api smp batch (anyExperiment c circ b g states shots sel) (32 * c.nRounds * d ^ 2 * q ^ d * (1 - q)⁻¹)

theorem stim_data_rates {σ : Type} {b : Backend FW σ} {c : LatCode} {r ρ d A B D k : Nat} {erasures gates : Bool} (hm : Made r c) (hA : 1 ≤ A) (hB : 1 ≤ B)
    (h : DataRatesSmall b c ρ d A B D k erasures gates) : StimDataRatesSmall b c ρ d A B D k erasures gates := by
  intro negLog tiny lo hi a errs weighted hwt hlog hD
  obtain ⟨g, states, hf, hP⟩ := h negLog tiny lo hi a errs weighted hwt hlog hD
  refine ⟨g, states, hf, fun api qe ge sel circ shots batch x q Ω _ μ smp he hg hsel hcirc h0 hd hq hx hs hb hfa => ?_⟩
  have hrate := C113_below api ENNReal.ofReal c qe ge sel false circ hcirc _ hd
  exact C118_transfer api r (anyExperiment c circ b g states shots sel) hm qe ge sel false hcirc (generated_nonneg hm hcirc h0)
    (fun g' h' hn => (hrate g' h' hn).trans (pow_le_one₀ zero_le (le_one_of_rates hA hB hq hx))) hs _
    (fun Ω _ μ _ past rng hF => hP ℝ api qe ge sel circ Ω μ ENNReal.ofReal past rng 0 shots x q hF he hg hsel hcirc hd hq hx hs) μ smp batch hb hfa

/-- PyMatching (without erasures) and Fusion Blossom, without and with weights. -/
def StimBothSmall (c : LatCode) (r d K D A B : Nat) (erasures gates : Bool) : Prop :=
  ((∀ solve, IsPyMatching solve → StimRatesSmall (pmBackend solve) c r d K D false gates) ∧ ∀ solve, IsFusionBlossom solve → StimRatesSmall (fbBackend solve) c r d K D erasures gates) ∧
    (∀ solve, IsPyMatching solve → ∀ ρ, StimDataRatesSmall (pmBackend solve) c ρ d A B D (ρ + 1) false gates) ∧
    ∀ solve, IsFusionBlossom solve → ∀ ρ κ, 100 ≤ κ * (100 / ρ) → StimDataRatesSmall (fbBackend solve) c ρ d A B D (κ + 1) erasures gates

theorem stim_both {c : LatCode} {r d K D A B : Nat} {erasures gates : Bool} (hm : Made r c) (hK : 1 ≤ K) (hA : 1 ≤ A) (hB : 1 ≤ B) (h1 : BothRatesSmall c r d K D erasures gates)
    (h2 : BothDataRatesSmall c d A B D erasures gates) : StimBothSmall c r d K D A B erasures gates :=
  ⟨⟨fun s hs => stim_rates hm hK (h1.1 s hs), fun s hs => stim_rates hm hK (h1.2 s hs)⟩, fun s hs ρ => stim_data_rates hm hA hB (h2.1 s hs ρ),
    fun s hs ρ κ hκ => stim_data_rates hm hA hB (h2.2 s hs ρ κ hκ)⟩

/-- **C118** The bounds of C94 and C114 for the planar code hold with Stim. -/
theorem C118_planar (r size : Nat) (hr : 1 ≤ r) (h3 : 3 ≤ size) :
    ∃ c, makePlanar r size = .ok c ∧ StimBothSmall c r size 200 1 10 2 true false ∧ StimBothSmall c r size 14400 20 10 144 true true := by
  obtain ⟨c, h1, h2, h3'⟩ := C94_planar r size hr h3
  obtain ⟨c', h1', -, h4, h5⟩ := C114_planar r size hr h3
  obtain rfl := Except.ok.inj (h1'.symm.trans h1)
  have hm : Made r c' := .planar (by omega) h1
  exact ⟨c', h1, stim_both hm (by omega) (by omega) (by omega) h2 h4, stim_both hm (by omega) (by omega) (by omega) h3' h5⟩

/-- **C118** The same for the toric code. -/
theorem C118_toric (r size : Nat) (hr : 1 ≤ r) (h3 : 3 ≤ size) :
    ∃ c, makeToric r size = .ok c ∧ StimBothSmall c r size 200 1 10 2 true false ∧ StimBothSmall c r size 14400 20 10 144 true true := by
  obtain ⟨c, h1, h2, h3'⟩ := C94_toric r size hr h3
  obtain ⟨c', h1', -, h4, h5⟩ := C114_toric r size hr h3
  obtain rfl := Except.ok.inj (h1'.symm.trans h1)
  have hm : Made r c' := .toric (by omega) h1
  exact ⟨c', h1, stim_both hm (by omega) (by omega) (by omega) h2 h4, stim_both hm (by omega) (by omega) (by omega) h3' h5⟩

/-- **C118** The same for the rotated code and the XZZX code, without erased qubits. -/
theorem C118_rotated (r size : Nat) (xzzx : Bool) (hr : 1 ≤ r) (h2 : 2 ≤ size) :
    ∃ c, makeRotated r size xzzx = .ok c ∧ StimBothSmall c r size 200 1 10 2 false false ∧ StimBothSmall c r size 14400 20 10 144 false true := by
  obtain ⟨c, h1, h2', h3'⟩ := C94_rotated r size xzzx hr h2
  obtain ⟨c', h1', -, h4, h5⟩ := C114_rotated r size xzzx hr h2
  obtain rfl := Except.ok.inj (h1'.symm.trans h1)
  have hm : Made r c' := .rotated (by omega) h1
  exact ⟨c', h1, stim_both hm (by omega) (by omega) (by omega) h2' h4, stim_both hm (by omega) (by omega) (by omega) h3' h5⟩

/-! ### There are faithful samplers -/

theorem sampler_exists {N : Nat} {is : List (SInstr ℝ)} {J : SInstrument N} (hJ : stimMeaning N is = some J) (h1 : ∑' r, J.born (zeroDensity N) r = 1) :
    ∃ (Ω : Type) (_ : MeasurableSpace Ω) (μ : Measure Ω) (smp : Ω → Sampler (List Bool)), IsProbabilityMeasure μ ∧ Faithful μ smp N is := by
  classical
  letI : MeasurableSpace (List Bool) := ⊤
  haveI : DiscreteMeasurableSpace (List Bool) := ⟨fun _ => trivial⟩
  let P : Measure (List Bool) := Measure.sum fun r => J.born (zeroDensity N) r • Measure.dirac r
  have hP : ∀ r, P {r} = J.born (zeroDensity N) r := by
    intro r
    rw [Measure.sum_apply _ (MeasurableSet.singleton r), tsum_eq_single r]
    · simp
    · intro r' hr'
      simp [hr']
  haveI : IsProbabilityMeasure P := by
    refine ⟨?_⟩
    rw [Measure.sum_apply _ MeasurableSet.univ]
    simpa using h1
  refine ⟨Nat × Nat → List Bool, inferInstance, Measure.infinitePi fun _ : Nat × Nat => P, fun ω b j => ω (b, j), inferInstance, fun b j r => ?_, J, hJ, fun places r => ?_⟩
  · have := measurable_pi_apply (X := fun _ : Nat × Nat => List Bool) (b, j)
    exact this (MeasurableSet.singleton r)
  · have h := Measure.infinitePi_pi (μ := fun _ : Nat × Nat => P) (s := places) (t := fun p => {r p}) fun p _ => MeasurableSet.singleton _
    simp only [hP] at h
    rw [← h]
    congr 1

/-- **C118** For every generated circuit with probabilities there is a faithful sampler. -/
theorem C118_samplers (api : FloatApi ℝ) (r : Nat) (c : LatCode) (hm : Made r c) (qe ge : List (List Char × ErrDict ℝ)) (sel : LogicalSel) (anc : Bool) (circ : List (Gate ℝ))
    (h : generateCircuit api c qe ge sel anc = .ok circ) (h0 : DataNonneg api (qe ++ ge)) (hd : DataBelow api ENNReal.ofReal (qe ++ ge) 1) :
    ∃ is fl, circuitToStim api circ = .ok (is, fl) ∧ ∃ (Ω : Type) (_ : MeasurableSpace Ω) (μ : Measure Ω) (smp : Ω → Sampler (List Bool)), IsProbabilityMeasure μ ∧
      Faithful μ smp (numberOfQubits circ + 1) is := by
  obtain ⟨I, is, fl, J, _, hS, h2, h3, _⟩ := shapes_sampled (generated_shapes hm h) (C113_below api ENNReal.ofReal c qe ge sel anc circ h 1 hd) (generated_nonneg hm h h0)
  exact ⟨is, fl, h3, sampler_exists h2 (rows_total hS h2)⟩

/-- Flips of one qubit and erasures of another. -/
noncomputable def stimData : List (List Char × ErrDict ℝ) :=
  [("pauli".toList, [(.int 0, [("x".toList, .flt (1 / 1000000))])]), ("erasure".toList, [(.int 1, [("p".toList, .flt (1 / 1000000))])])]

theorem stimData_circuit : makePlanar 2 3 = .ok ((Planar.lat 3 crossOrder).latCode 2) ∧ Made 2 ((Planar.lat 3 crossOrder).latCode 2) ∧
    (∃ circ, generateCircuit realApi ((Planar.lat 3 crossOrder).latCode 2) stimData [] (.str "Z".toList) false = .ok circ) ∧ DataNonneg realApi (stimData ++ []) ∧
    DataBelow realApi ENNReal.ofReal (stimData ++ []) (ENNReal.ofReal (1 / 1000000)) := by
  have hc : makePlanar 2 3 = .ok ((Planar.lat 3 crossOrder).latCode 2) := by
    rw [makePlanar, Planar.make 3 (by omega) crossOrder (by decide)]; exact mkLatCode_ok (Planar.wf 3 _ (by omega)) (Planar.full _ _ (by omega)) 2
  have hm : Made 2 ((Planar.lat 3 crossOrder).latCode 2) := .planar (by omega) hc
  have hnum : ∀ name d, dictGet (stimData ++ []) name = some d → ∀ key ps, dictGet d key = some ps → ∀ k v, dictGet ps k = some v → v = .flt (1 / 1000000) := by
    intro name d hd key ps hk k v hv
    have h1 := dictGet_some_mem hd
    simp only [stimData, List.cons_append, List.nil_append, List.mem_cons, List.not_mem_nil, or_false, Prod.mk.injEq] at h1
    rcases h1 with ⟨rfl, rfl⟩ | ⟨rfl, rfl⟩ <;>
    · have h2 := dictGet_some_mem hk
      obtain ⟨rfl, rfl⟩ : key = _ ∧ ps = _ := by simpa using h2
      have h3 := dictGet_some_mem hv
      obtain ⟨rfl, rfl⟩ : k = _ ∧ v = _ := by simpa using h3
      rw [one_div]
  obtain ⟨circ, hcirc⟩ : ∃ circ, generateCircuit realApi ((Planar.lat 3 crossOrder).latCode 2) stimData [] (.str "Z".toList) false = .ok circ := by
    refine C113_total realApi 2 _ hm stimData [] (.str "Z".toList) false [1] (by simp [stimData]; decide) (by simp) (by simp [stimData]) (by simp) ?_ ?_ (by decide +kernel) (by decide)
    · intro name d hd key ps hk
      simp only [stimData, List.cons_append, List.nil_append, List.mem_cons, List.not_mem_nil, or_false, Prod.mk.injEq] at hd
      rcases hd with ⟨rfl, rfl⟩ | ⟨rfl, rfl⟩ <;>
      · obtain ⟨rfl, rfl⟩ : key = _ ∧ ps = _ := by simpa using hk
        unfold EntryFits
        first
        | (rw [if_pos rfl]; exact ⟨_, rfl, by decide +kernel, by simp [onePauliNames]⟩)
        | (rw [if_neg (by decide), if_pos rfl]; exact ⟨_, rfl, by decide +kernel, by simp⟩)
    · intro name d hd key ps hk k v hv
      simp only [stimData, List.cons_append, List.nil_append, List.mem_cons, List.not_mem_nil, or_false, Prod.mk.injEq] at hd
      rcases hd with ⟨rfl, rfl⟩ | ⟨rfl, rfl⟩ <;>
      · obtain ⟨rfl, rfl⟩ : key = _ ∧ ps = _ := by simpa using hk
        obtain ⟨rfl, rfl⟩ : k = _ ∧ v = _ := by simpa using hv
        exact ⟨_, rfl, fun _ => rfl⟩
  have h0 : DataNonneg realApi (stimData ++ []) := by
    refine ⟨le_of_eq (by simp [realApi]), fun name d hd key ps hk k v hv => ?_⟩
    obtain rfl := hnum name d hd key ps hk k v hv
    exact ⟨_, rfl, by norm_num⟩
  have hd : DataBelow realApi ENNReal.ofReal (stimData ++ []) (ENNReal.ofReal (1 / 1000000)) := by
    intro k hk d hd key ps hp
    have h1 := dictGet_some_mem hd
    simp only [stimData, List.cons_append, List.nil_append, List.mem_cons, List.not_mem_nil, or_false, Prod.mk.injEq] at h1
    rcases h1 with ⟨hn, rfl⟩ | ⟨hn, rfl⟩
    · have h2 := dictGet_some_mem hp
      obtain ⟨rfl, rfl⟩ : key = _ ∧ ps = _ := by simpa using h2
      have : k = ⟨"pauli", .E_PAULI, ["x", "y", "z"]⟩ := by
        simp only [errorKinds, List.mem_cons, List.not_mem_nil, or_false] at hk
        rcases hk with rfl | rfl | rfl | rfl | rfl | rfl | rfl | rfl <;> first | rfl | exact absurd hn (by decide)
      subst this
      simp [entryRate, dictGet, rawProb, toFloat, realApi]
    · have h2 := dictGet_some_mem hp
      obtain ⟨rfl, rfl⟩ : key = _ ∧ ps = _ := by simpa using h2
      have : k = ⟨"erasure", .E_ERASE, ["p"]⟩ := by
        simp only [errorKinds, List.mem_cons, List.not_mem_nil, or_false] at hk
        rcases hk with rfl | rfl | rfl | rfl | rfl | rfl | rfl | rfl <;> first | rfl | exact absurd hn (by decide)
      subst this
      simp [entryRate, dictGet, rawProb, toFloat, realApi]
  exact ⟨hc, hm, ⟨circ, hcirc⟩, h0, hd⟩

/-- Two rounds of the planar code of size 3, with some errors, Stim with batches of 7 shots, decoded with Fusion Blossom. -/
example (shots : Nat) (hs : 1 ≤ shots) : ∃ c circ is fl, makePlanar 2 3 = .ok c ∧ generateCircuit realApi c stimData [] (.str "Z".toList) false = .ok circ ∧
    circuitToStim realApi circ = .ok (is, fl) ∧ ∃ (Ω : Type) (_ : MeasurableSpace Ω) (μ : Measure Ω) (smp : Ω → Sampler (List Bool)), IsProbabilityMeasure μ ∧
      Faithful μ smp (numberOfQubits circ + 1) is ∧ ∀ solve, IsFusionBlossom solve → ∀ (negLog : ℚ → Option FW) (tiny : ℚ) (g : SynGraph FW) (states : List _),
        fromCode FW.isInf negLog tiny (fbBackend solve) c none (some false) none = .ok (g, states) →
        StimFailIndependently μ realApi smp 7 (anyExperiment c circ (fbBackend solve) g states shots (.str "Z".toList)) (32 * (2 : Nat) * (3 : Nat) ^ 2 * (40⁻¹) ^ 3 * (1 - 40⁻¹)⁻¹) := by
  obtain ⟨hc, hm, ⟨circ, hcirc⟩, h0, hd⟩ := stimData_circuit
  obtain ⟨c, hc', hb, -⟩ := C118_planar 2 3 (by omega) (by omega)
  obtain rfl := Except.ok.inj (hc'.symm.trans hc)
  obtain ⟨is, fl, h1, Ω, _, μ, smp, h2, h3⟩ := C118_samplers realApi 2 _ hm stimData [] _ false circ hcirc h0 fun k hk d h key ps h' =>
    (hd k hk d h key ps h').trans (by rw [← ENNReal.ofReal_one]; exact ENNReal.ofReal_le_ofReal (by norm_num))
  refine ⟨_, circ, is, fl, hc, hcirc, h1, Ω, _, μ, smp, h2, h3, fun solve hS negLog tiny g states hf => ?_⟩
  refine hb.1.2 solve hS realApi stimData [] (.str "Z".toList) circ shots 7 (ENNReal.ofReal (1 / 1000000)) 40⁻¹ negLog tiny none g states Ω μ smp (by simp) (by simp)
    ((Planar.oddZ (by omega) crossOrder).onlyZ 2 (by decide)) hcirc h0 (by rw [pow_one]; exact hd) (by rw [ENNReal.inv_le_one]; norm_num) ?_ hs (by omega) hf fun is' fl' h' => ?_
  · have e1 : ENNReal.ofReal (1 / 1000000) = ((1 / 1000000 : NNReal) : ℝ≥0∞) := by
      rw [ENNReal.ofReal, ENNReal.coe_inj, ← NNReal.coe_inj, Real.coe_toNNReal _ (by norm_num)]
      push_cast
      norm_num
    have e2 : (40⁻¹ : ℝ≥0∞) = ((1 / 40 : NNReal) : ℝ≥0∞) := by
      rw [one_div, ENNReal.coe_inv (by norm_num)]; norm_num
    rw [e1, e2]
    exact_mod_cast (by rw [← NNReal.coe_le_coe]; push_cast; norm_num : (200 : NNReal) * (1 / 1000000) ≤ (1 / 40) ^ 2)
  · obtain ⟨rfl, rfl⟩ := Prod.mk.inj (Except.ok.inj (h'.symm.trans h1))
    exact h3

end Plaquette
