import Verif.Lemmas.HalfShot

/-!
# C120: no decoder corrects more than half of the distance
-/

open MeasureTheory
open scoped ENNReal

namespace Plaquette
variable {F : Type}

/-! ## Errors and decoders -/

/-- The number of the Pauli matrix of an operator on a qubit: 1 for X, 2 for Y, 3 for Z. -/
def letterAt {n : Nat} (P : Op n) (q : Nat) : Fin 4 :=
  if h : q < n then
    match P.x ⟨q, h⟩, P.z ⟨q, h⟩ with
    | false, false => 0
    | true, false => 1
    | true, true => 2
    | false, true => 3
  else 0

/-- The Pauli channels of the circuit apply the letters of `P` with probability at least `y`. -/
def Attacked (api : FloatApi F) (prob : F → ℝ≥0∞) (fl : Flags) (circ : List (Gate F)) {n : Nat} (P : Op n) (y : ℝ≥0∞) : Prop :=
  ∀ q, letterAt P q ≠ 0 → fl.pauli q = true ∧ ∀ args : List (Val F), ⟨.E_PAULI, args⟩ ∈ circ → args[3]? = some (.int q) →
    ∀ v, args[(letterAt P q).val - 1]? = some v → y ≤ argProb api prob v

/-- The operator is not seen by the stabilisers, and changes a selected logical operator. -/
def ChangesUnseen (c : LatCode) (sel : LogicalSel) (P : Op c.n) : Prop :=
  (∀ gen ∈ c.code.stabilisers, Commutes (opMat gen) (opMat P)) ∧
    ∀ is, logicalOpsToIndices c.code.logicalOps.length sel = .ok is → ∃ i ∈ is, ∃ l, c.code.logicalOps[i.toNat]? = some l ∧ Anticommutes (opMat l) (opMat P)

/-- A decoder, which is any function of the erased qubits and the syndrome. -/
abbrev AnyDecoder (c : LatCode) := Option (List (List Bool)) → Option (List (List Bool)) → Except Err (Op c.n)

/-- The shot is counted as a success. -/
def AnyDecoder.Succeeds {c : LatCode} (D : AnyDecoder c) (sel : LogicalSel) (s : Sample) : Prop :=
  ∃ p, D s.erased (some s.syndrome) = .ok p ∧ checkSuccess c.code p s.toggle (some sel) = .ok true

/-- The shots that are decoded to a wrong result. -/
def AnyDecoder.failed {c : LatCode} (D : AnyDecoder c) {Ω : Type} (api : FloatApi F) (rng : Ω → Rng F) (sel : LogicalSel) (anc : Bool) (circ : List (Gate F))
    (S0 : Sim (numberOfQubits circ)) : Set Ω :=
  {ω | ∃ S s, S0.run api (rng ω) circ true = .ok S ∧ Sample.fromRaw c S.results.1 S.results.2 anc = .ok s ∧ ¬ D.Succeeds sel s}

/-! ## Halves of an operator -/

theorem letter_x {n : Nat} (P : Op n) (q : Fin n) : numX (letterAt P q) = P.x q := by
  unfold letterAt
  rw [dif_pos q.2]
  show numX (match P.x q, P.z q with | false, false => 0 | true, false => 1 | true, true => 2 | false, true => 3) = P.x q
  cases P.x q <;> cases P.z q <;> rfl

theorem letter_z {n : Nat} (P : Op n) (q : Fin n) : numZ (letterAt P q) = P.z q := by
  unfold letterAt
  rw [dif_pos q.2]
  show numZ (match P.x q, P.z q with | false, false => 0 | true, false => 1 | true, true => 2 | false, true => 3) = P.z q
  cases P.x q <;> cases P.z q <;> rfl

theorem letter_ne {n : Nat} (P : Op n) (q : Fin n) : decide (letterAt P q ≠ 0) = (P.x q || P.z q) := by
  rw [← letter_x, ← letter_z]
  generalize letterAt P q = k
  revert k; decide

theorem weight_range {n : Nat} (P : Op n) : (List.range n).countP (fun q => decide (letterAt P q ≠ 0)) = P.weight := by
  unfold Op.weight
  rw [← List.map_coe_finRange_eq_range, List.countP_map]
  exact List.countP_congr fun q _ => by rw [← letter_ne]; rfl

/-- The letters of the operator at a set of qubits. -/
def part {n : Nat} (P : Op n) (H : Nat → Bool) (q : Nat) : Fin 4 := if H q then letterAt P q else 0

/-- A set of qubits can be split in two parts of almost the same size. -/
theorem split_half (l : List Nat) (hl : l.Nodup) (p : Nat → Bool) :
    ∃ H : Nat → Bool, l.countP (fun q => H q && p q) ≤ (l.countP p + 1) / 2 ∧ l.countP (fun q => !H q && p q) ≤ (l.countP p + 1) / 2 := by
  classical
  let s := l.filter p
  let H : Nat → Bool := fun q => decide (q ∈ s.take (s.length / 2))
  have hs : s.Nodup := hl.filter _
  have hc : l.countP p = s.length := List.countP_eq_length_filter
  have e : ∀ f : Nat → Bool, l.countP (fun q => f q && p q) = s.countP f := fun f => by rw [List.countP_filter]
  have h1 : s.countP H = s.length / 2 := by
    conv_lhs => rw [← List.take_append_drop (s.length / 2) s]
    rw [List.countP_append, List.countP_eq_length.2 fun q hq => decide_eq_true hq, List.countP_eq_zero.2 fun q hq => ?_, List.length_take]
    · omega
    · simp only [H, decide_eq_true_eq]
      intro h
      have := hs
      rw [← List.take_append_drop (s.length / 2) s] at this
      exact (List.nodup_append.1 this).2.2 q h q hq rfl
  have h2 : s.countP H + s.countP (fun q => !H q) = s.length := by
    rw [List.length_eq_countP_add_countP H (l := s)]
    congr 1
    exact List.countP_congr fun q _ => by simp
  refine ⟨H, ?_, ?_⟩
  · rw [e, hc, h1]; omega
  · rw [e, hc]; omega

/-! ## The bound for a shot -/

section
variable {Ω : Type} [m0 : MeasurableSpace Ω] {μ : Measure Ω} [IsProbabilityMeasure μ] {prob : F → ℝ≥0∞} {past : Nat → MeasurableSpace Ω} {rng : Ω → Rng F} {k₀ : Nat}

theorem shapes_of {api : FloatApi F} {r : Nat} {c : LatCode} (hm : Made r c) {qe ge : List (List Char × ErrDict F)} {sel : LogicalSel} {anc : Bool} {circ : List (Gate F)}
    (h : generateCircuit api c qe ge sel anc = .ok circ) : ∀ g ∈ circ, GShape g := by
  obtain ⟨L, rfl, hw, _, _, hs⟩ := hm.lattice
  unfold generateCircuit at h
  split at h
  · cases h
  next G hG =>
  have hl : G.lat = L := by
    unfold Gen.lat
    rw [(make_inv hG).1]
  exact (shape_pieces api G).circuit (by rw [hl]; exact hw) (by rw [hl]; exact hs) sel _ h

/-- The decisions in which exactly the given part of the operator happens before the first round. -/
theorem plan_part (hX : ExactFrom k₀ μ prob past rng) {api : FloatApi F} {r : Nat} (hr : 1 ≤ r) {c : LatCode} (hm : Made r c) {qe ge : List (List Char × ErrDict F)} (hg : ∀ e ∈ ge, e.2 = [])
    {sel : LogicalSel} {anc : Bool} {circ : List (Gate F)} (hcirc : generateCircuit api c qe ge sel anc = .ok circ) {y z : ℝ≥0∞} (hz : z ≤ 1)
    (hrate : ∀ g ∈ circ, g.name.noisy = true → g.rate api prob ≤ z) {P : Op c.n} (hP : Attacked api prob (flagsOf qe) circ P y) (H : Nat → Bool) :
    ∃ evs, (∀ e ∈ evs, e.quiet) ∧ Plan (numberOfQubits circ) k₀ μ past rng api circ
      (((List.range c.n).flatMap fun i => (if (flagsOf qe).pauli i = false then [] else [.pauli i (part P H i)]) ++ (if (flagsOf qe).erasure i = false then [] else [.erasure i false 0])) ++ evs)
      (y ^ (List.range c.n).countP (fun q => H q && decide (letterAt P q ≠ 0)) * (1 - z) ^ noisyCount circ) := by
  have hsh := shapes_of hm hcirc
  obtain ⟨L, rfl, hw, _, _, hs⟩ := hm.lattice
  obtain ⟨pg, eg, err, is, hE, _, _, _, _, hc⟩ := noisy_circuit hw hs hg hcirc
  obtain ⟨B, hB⟩ := noisyGates_first L pg eg err anc hr (is.map L.selPos)
  have hsmall : ∀ g ∈ circ, SmallGate (numberOfQubits circ) api prob z g := by
    intro g hg'
    refine ⟨hsh g hg', qubit_below circ g hg', ?_, hrate g hg'⟩
    have := noGateErrors hE anc r (is.map L.selPos)
    rw [← noisyGates_eq, ← hc] at this
    exact (this g hg').1
  have hin : ∀ {g : Gate F}, (g ∈ L.selGates anc (is.map L.selPos) ++ L.noisyRound (fun _ => []) ∨ g ∈ dataGates pg eg (List.range L.dataqubits.length) ∨ g ∈ B) → g ∈ circ := by
    intro g h
    rw [hc, hB]
    simpa [or_assoc] using h
  have hA0 : noisyCount (L.selGates (F := F) anc (is.map L.selPos) ++ L.noisyRound (fun _ => [])) = 0 := by
    refine List.countP_eq_zero.2 fun g h => ?_
    rw [Bool.not_eq_true]
    exact (List.mem_append.1 h).elim (clean_sel L anc _ g) (clean_noisyRound L g)
  have pA : Plan (numberOfQubits circ) k₀ μ past rng api (L.selGates anc (is.map L.selPos) ++ L.noisyRound (fun _ => [])) [] 1 :=
    plan_plain hX.toFairFrom fun g h => ⟨hsh g (hin (.inl h)), (List.mem_append.1 h).elim (clean_sel L anc _ g) (clean_noisyRound L g), (hsmall g (hin (.inl h))).below⟩
  have pD := plan_data (n := numberOfQubits circ) (api := api) (y := y) hX hz pg eg (part P H) (List.range L.dataqubits.length) (fun i hi => (hE.pauli i (List.mem_range.1 hi)).1)
    (fun i hi => (hE.erase i (List.mem_range.1 hi)).1) (fun g h => hsmall g (hin (.inr (.inl h)))) (by
      intro i hi hk
      have hl : letterAt P i ≠ 0 ∧ part P H i = letterAt P i := by
        unfold part at hk ⊢
        split at hk
        · next h => exact ⟨hk, if_pos h⟩
        · exact absurd rfl hk
      obtain ⟨hf, hy⟩ := hP i hl.1
      obtain ⟨h1, h2⟩ := hE.pauli i (List.mem_range.1 hi)
      rcases h1 with h1 | ⟨a, b, d, h1⟩
      · rw [h2.1 h1] at hf; cases hf
      · refine ⟨_, h1, ?_⟩
        rw [hl.2]
        exact hy _ (hin (.inr (.inl (List.mem_flatMap.2 ⟨i, hi, by rw [h1]; simp⟩)))) rfl)
  obtain ⟨evs, pB, hq⟩ := plan_quiet (n := numberOfQubits circ) (api := api) hX hz (gs := B) fun g h => hsmall g (hin (.inr (.inr h)))
  refine ⟨evs, hq, ?_⟩
  have := pA.append (pD.append pB)
  rw [← hB, ← hc, List.nil_append, one_mul] at this
  have hcnt : noisyCount circ = noisyCount (dataGates pg eg (List.range L.dataqubits.length)) + noisyCount B := by
    conv_lhs => rw [hc, hB, noisyCount_append _ (_ ++ B), hA0, zero_add, noisyCount_append]
  have hev : ((List.range L.dataqubits.length).flatMap fun i => (if pg i = [] then [] else [Event.pauli i (part P H i)]) ++ (if eg i = [] then [] else [.erasure i false 0])) =
      (List.range L.dataqubits.length).flatMap fun i => (if (flagsOf qe).pauli i = false then [] else [Event.pauli i (part P H i)]) ++ (if (flagsOf qe).erasure i = false then [] else [.erasure i false 0]) := by
    refine List.flatMap_congr fun i hi => ?_
    have h1 := (hE.pauli i (List.mem_range.1 hi)).2
    have h2 := (hE.erase i (List.mem_range.1 hi)).2
    simp only [h1, h2]
  rw [hev] at this
  refine this.mono (le_of_eq ?_)
  rw [hcnt, pow_add, mul_assoc]
  congr 2
  refine List.countP_congr fun q _ => ?_
  unfold part
  cases H q <;> simp

/-- A shot in which a part of the operator happens and nothing else. -/
theorem part_shot {api : FloatApi F} {rng : Rng F} {r : Nat} (hr : 1 ≤ r) {c : LatCode} (hm : Made r c) {qe ge : List (List Char × ErrDict F)} (hg : ∀ e ∈ ge, e.2 = []) {sel : LogicalSel} {anc : Bool}
    (hZ : anc = true ∨ OnlyZ c sel ∧ SameWeight c sel)
    {circ : List (Gate F)} (hcirc : generateCircuit api c qe ge sel anc = .ok circ) {P : Op c.n} (hfl : ∀ q, letterAt P q ≠ 0 → (flagsOf qe).pauli q = true) {H : Nat → Bool}
    {S0 S : Sim (numberOfQubits circ)} {s : Sample} {evs : List Event} (hq : ∀ e ∈ evs, e.quiet) (hrun : S0.run api rng circ true = .ok S)
    (hev : S0.reset.events api rng circ = ((List.range c.n).flatMap fun i => (if (flagsOf qe).pauli i = false then [] else [.pauli i (part P H i)]) ++
      (if (flagsOf qe).erasure i = false then [] else [.erasure i false 0])) ++ evs) (hsam : Sample.fromRaw c S.results.1 S.results.2 anc = .ok s) :
    (∃ N : Noise, N.Gives c r (flagsOf qe) sel (S0.reset.events api rng circ) s ∧ N.Starts (part P H) c.n c.code.stabilisers.length r) ∧
      S.erasure = (List.range r).flatMap fun _ => (List.range c.n).flatMap fun i => if (flagsOf qe).erasure i then [false] else [] := by
  have hκ : ∀ q, part P H q ≠ 0 → (flagsOf qe).pauli q = true := by
    intro q hk
    refine hfl q ?_
    unfold part at hk
    split at hk
    · exact hk
    · exact absurd rfl hk
  obtain ⟨N, hN⟩ := C66_sample_partial api rng r c qe ge hg sel anc circ S0 S s hr hm hZ hcirc hrun hsam
  refine ⟨⟨N, hN, starts_of hN.only hr hκ hq (hN.events.symm.trans hev)⟩, ?_⟩
  obtain ⟨L, rfl, hw, hc, hf, hs⟩ := hm.lattice
  obtain ⟨_, _, _, is, _, his, _⟩ := noisy_circuit hw hs hg hcirc
  obtain ⟨N', h1, h2, h3⟩ := noisy_erasure hw hc hf hs api rng hr hg his (hZ.imp id fun hz => letters_z hw hs his hz.1) hcirc hrun
  rw [h3]
  exact (starts_of h1 hr hκ hq (h2.symm.trans hev)).erasure

/-- **C120** For any decoder, a shot fails with probability at least `y ^ ⌈d / 2⌉ (1 - z) ^ M`, where `d` is the weight of an operator that is not seen and changes a selected logical operator,
`y` a bound below the probabilities of its letters, `z` a bound above the rates of all error instructions and `M` their number. This holds given any event of the past. -/
theorem shot_bound (hX : ExactFrom k₀ μ prob past rng) (api : FloatApi F) (r : Nat) (hr : 1 ≤ r) (c : LatCode) (hm : Made r c) (qe ge : List (List Char × ErrDict F)) (hg : ∀ e ∈ ge, e.2 = [])
    (hall : (∀ q < c.n, (flagsOf qe).erasure q = false) ∨ ∀ q < c.n, (flagsOf qe).erasure q = true) (sel : LogicalSel) (anc : Bool) (hZ : anc = true ∨ OnlyZ c sel ∧ SameWeight c sel)
    (circ : List (Gate F)) (hcirc : generateCircuit api c qe ge sel anc = .ok circ) (P : Op c.n) (hP : ChangesUnseen c sel P) (y z : ℝ≥0∞) (hyz : y ≤ z) (hz : z ≤ 1)
    (hrate : ∀ g ∈ circ, g.name.noisy = true → g.rate api prob ≤ z) (ha : Attacked api prob (flagsOf qe) circ P y) (D : AnyDecoder c) (S0 : Sim (numberOfQubits circ)) (hp : k₀ ≤ S0.pos)
    (E : Set Ω) (hE : MeasurableSet[past S0.pos] E) :
    y ^ ((P.weight + 1) / 2) * (1 - z) ^ noisyCount circ * μ E ≤ μ (E ∩ D.failed api rng sel anc circ S0) := by
  obtain ⟨H, h1, h2⟩ := split_half (List.range c.n) List.nodup_range fun q => decide (letterAt P q ≠ 0)
  rw [weight_range] at h1 h2
  have hfl : ∀ q, letterAt P q ≠ 0 → (flagsOf qe).pauli q = true := fun q h => (ha q h).1
  -- shots with a part of the operator
  let evs : (Nat → Bool) → List Event → List Event := fun H e => ((List.range c.n).flatMap fun i => (if (flagsOf qe).pauli i = false then [] else [.pauli i (part P H i)]) ++
      (if (flagsOf qe).erasure i = false then [] else [.erasure i false 0])) ++ e
  have key : ∀ H : Nat → Bool, (List.range c.n).countP (fun q => H q && decide (letterAt P q ≠ 0)) ≤ (P.weight + 1) / 2 →
      ∃ e, (∀ x ∈ e, x.quiet) ∧ y ^ ((P.weight + 1) / 2) * (1 - z) ^ noisyCount circ * μ E ≤
        μ (E ∩ {ω | (∃ S', S0.reset.runGates api (rng ω) circ = .ok S') ∧ S0.reset.events api (rng ω) circ = evs H e}) := by
    intro H hH
    obtain ⟨e, he, hpl⟩ := plan_part hX hr hm hg hcirc hz hrate ha H
    exact ⟨e, he, (hpl.mono (mul_le_mul' (pow_le_pow_right_of_le_one' (hyz.trans hz) hH) le_rfl)).bound hX.toFairFrom S0.reset (zeroState_valid _) hp hE⟩
  have run : ∀ {ω : Ω} {S : Sim (numberOfQubits circ)}, S0.reset.runGates api (rng ω) circ = .ok S → S0.run api (rng ω) circ true = .ok S := by
    intro ω S h
    unfold Sim.run
    rwa [if_pos rfl]
  obtain ⟨e1, q1, b1⟩ := key H h1
  obtain ⟨e2, q2, b2⟩ := key (fun q => !H q) h2
  by_cases hsucc : ∃ ω S s, S0.reset.runGates api (rng ω) circ = .ok S ∧ S0.reset.events api (rng ω) circ = evs H e1 ∧ Sample.fromRaw c S.results.1 S.results.2 anc = .ok s ∧ D.Succeeds sel s
  · refine b2.trans (measure_mono (Set.inter_subset_inter_right _ ?_))
    rintro ω' ⟨⟨S', hrun'⟩, hev'⟩
    obtain ⟨ω, S, s, hrun, hev, hsam, p, hp1, hp2⟩ := hsucc
    obtain ⟨s', hsam'⟩ := C66_unpacks api (rng ω') r c qe ge hg sel anc circ S0 S' hr hm hZ hcirc (run hrun') hall
    refine ⟨S', s', run hrun', hsam', ?_⟩
    rintro ⟨p', k1, k2⟩
    obtain ⟨⟨N, hN, hS⟩, er⟩ := part_shot hr hm hg hZ hcirc hfl q1 (run hrun) hev hsam
    obtain ⟨⟨N', hN', hS'⟩, er'⟩ := part_shot hr hm hg hZ hcirc hfl q2 (run hrun') hev' hsam'
    obtain ⟨is, his⟩ : ∃ is, logicalOpsToIndices c.code.logicalOps.length sel = .ok is := by
      obtain ⟨L, rfl, hw, _, _, hs⟩ := hm.lattice
      obtain ⟨_, _, _, is, _, his, _⟩ := noisy_circuit hw hs hg hcirc
      exact ⟨is, by simpa [Lattice.code] using his⟩
    obtain ⟨i, hi, l, hl, hal⟩ := hP.2 is his
    have hx : ∀ q : Fin c.n, P.x q = (numX (part P H q) ^^ numX (part P (fun q => !H q) q)) := by
      intro q
      rw [← letter_x]
      have : ∀ (b : Bool) (k : Fin 4), numX k = (numX (if b = true then k else 0) ^^ numX (if (!b) = true then k else 0)) := by decide
      exact this (H q) _
    have hz' : ∀ q : Fin c.n, P.z q = (numZ (part P H q) ^^ numZ (part P (fun q => !H q) q)) := by
      intro q
      rw [← letter_z]
      have : ∀ (b : Bool) (k : Fin 4), numZ k = (numZ (if b = true then k else 0) ^^ numZ (if (!b) = true then k else 0)) := by decide
      exact this (H q) _
    obtain ⟨hsyn, hno⟩ := halves_differ hr hN hN' hS hS' hx hz' (fun gen hgen => (commutes_iff _ _).1 (hP.1 gen hgen)) his hi hl ((anticommutes_iff _ _).1 hal)
    have her : s.erased = s'.erased := by
      have e : S.results.2 = S'.results.2 := by
        unfold Sim.results
        dsimp only
        rw [er, er']
      rw [e] at hsam
      exact fromRaw_erased hsam hsam'
    rw [← her, ← hsyn] at k1
    obtain rfl : p = p' := Except.ok.inj (hp1.symm.trans k1)
    exact hno p ⟨hp2, k2⟩
  · refine b1.trans (measure_mono (Set.inter_subset_inter_right _ ?_))
    rintro ω ⟨⟨S, hrun⟩, hev⟩
    obtain ⟨s, hsam⟩ := C66_unpacks api (rng ω) r c qe ge hg sel anc circ S0 S hr hm hZ hcirc (run hrun) hall
    exact ⟨S, s, run hrun, hsam, fun hD => hsucc ⟨ω, S, s, hrun, hev, hsam, hD⟩⟩

/-- **C120** For any decoder, a shot fails with probability at least `y ^ ⌈d / 2⌉ (1 - z) ^ M`. -/
theorem C120_shot (hX : ExactFrom k₀ μ prob past rng) (api : FloatApi F) (r : Nat) (hr : 1 ≤ r) (c : LatCode) (hm : Made r c) (qe ge : List (List Char × ErrDict F)) (hg : ∀ e ∈ ge, e.2 = [])
    (hall : (∀ q < c.n, (flagsOf qe).erasure q = false) ∨ ∀ q < c.n, (flagsOf qe).erasure q = true) (sel : LogicalSel) (anc : Bool) (hZ : anc = true ∨ OnlyZ c sel ∧ SameWeight c sel)
    (circ : List (Gate F)) (hcirc : generateCircuit api c qe ge sel anc = .ok circ) (P : Op c.n) (hP : ChangesUnseen c sel P) (y z : ℝ≥0∞) (hyz : y ≤ z) (hz : z ≤ 1)
    (hrate : ∀ g ∈ circ, g.name.noisy = true → g.rate api prob ≤ z) (ha : Attacked api prob (flagsOf qe) circ P y) (D : AnyDecoder c) (S0 : Sim (numberOfQubits circ)) (hp : k₀ ≤ S0.pos) :
    y ^ ((P.weight + 1) / 2) * (1 - z) ^ noisyCount circ ≤ μ (D.failed api rng sel anc circ S0) := by
  have := shot_bound hX api r hr c hm qe ge hg hall sel anc hZ circ hcirc P hP y z hyz hz hrate ha D S0 hp Set.univ (@MeasurableSet.univ _ (past S0.pos))
  rwa [measure_univ, mul_one, Set.univ_inter] at this

end

/-! ## Error rates -/

/-- The shots of an experiment fail independently with probability at least `B`: sets of shots all succeed with at most the power of `1 - B`; the probability of the logical error rate 0
is at most `(1 - B) ^ shots`; and if no exception is raised, the expectation of the logical error rate is at least `B`. -/
def FailOften {Ω : Type} [MeasurableSpace Ω] (μ : Measure Ω) (shots : Nat) (loop : Ω → Except Err (List Bool)) (rate : Ω → Except Err ℚ) (B : ℝ≥0∞) : Prop :=
  (∀ I ⊆ Finset.range shots, μ {ω | ∃ l, loop ω = .ok l ∧ ∀ i ∈ I, l[i]? = some true} ≤ (1 - B) ^ I.card) ∧
    μ {ω | rate ω = .ok 0} ≤ (1 - B) ^ shots ∧ ((∀ ω, ∃ p, rate ω = .ok p) → B ≤ ∫⁻ ω, rateValue (rate ω) ∂μ)

theorem often_of {Ω : Type} [MeasurableSpace Ω] {μ : Measure Ω} [IsProbabilityMeasure μ] {shots : Nat} (hs : 1 ≤ shots) {loop : Ω → Except Err (List Bool)} {rate : Ω → Except Err ℚ}
    (hrate : ∀ ω p, rate ω = .ok p → ∃ l, loop ω = .ok l ∧ l.length = shots ∧ p * shots = l.count false) {B : ℝ≥0∞} (hB : B ≤ 1)
    (h : ∀ I ⊆ Finset.range shots, μ {ω | ∃ l, loop ω = .ok l ∧ ∀ i ∈ I, l[i]? = some true} ≤ (1 - B) ^ I.card) : FailOften μ shots loop rate B := by
  have hs0 : (0 : ℚ) < shots := by exact_mod_cast hs
  refine ⟨h, ?_, fun htot => ?_⟩
  · have := h (Finset.range shots) (Finset.Subset.refl _)
    rw [Finset.card_range] at this
    refine (measure_mono ?_).trans this
    intro ω hω
    obtain ⟨l, h1, h2, h3⟩ := hrate ω 0 hω
    rw [zero_mul] at h3
    have h3 : l.count false = 0 := by exact_mod_cast h3.symm
    refine ⟨l, h1, fun i hi => ?_⟩
    rw [Finset.mem_range, ← h2] at hi
    rw [List.getElem?_eq_getElem hi]
    have : l[i] ≠ false := fun hc => List.count_eq_zero.1 h3 (hc ▸ List.getElem_mem hi)
    rw [Option.some.injEq]
    exact Bool.eq_true_of_not_eq_false this
  · let A : Nat → Set Ω := fun i => (toMeasurable μ {ω | ∃ l, loop ω = .ok l ∧ ∀ j ∈ ({i} : Finset Nat), l[j]? = some true})ᶜ
    have hA : ∀ i, MeasurableSet (A i) := fun i => (measurableSet_toMeasurable _ _).compl
    have hle : ∀ ω, ∑ i ∈ Finset.range shots, (A i).indicator (fun _ => ((shots : ℝ≥0∞))⁻¹) ω ≤ rateValue (rate ω) := by
      intro ω
      obtain ⟨p, hp⟩ := htot ω
      rw [hp]
      obtain ⟨l, h1, h2, h3⟩ := hrate ω p hp
      have hp' : p = (l.count false : ℚ) / shots := by rw [eq_div_iff hs0.ne']; exact h3
      have hv : rateValue (.ok p) = (l.count false : ℝ≥0∞) * (shots : ℝ≥0∞)⁻¹ := by
        unfold rateValue
        dsimp only
        rw [hp']
        push_cast
        rw [ENNReal.ofReal_div_of_pos (by exact_mod_cast hs), ENNReal.ofReal_natCast, ENNReal.ofReal_natCast, div_eq_mul_inv]
      rw [hv, ← falses_card l, h2, Finset.card_filter, Nat.cast_sum, Finset.sum_mul]
      refine Finset.sum_le_sum fun i hi => ?_
      split
      · rw [Nat.cast_one, one_mul]
        exact Set.indicator_le_self' (fun _ _ => zero_le) ω
      · next hne =>
        rw [Finset.mem_range, ← h2] at hi
        have htrue : l[i]? = some true := by
          rw [List.getElem?_eq_getElem hi] at hne ⊢
          cases hb : l[i] with
          | true => rfl
          | false => rw [hb] at hne; exact absurd rfl hne
        have : ω ∉ A i := fun hc => hc (subset_toMeasurable _ _ ⟨l, h1, fun j hj => by rw [Finset.mem_singleton.1 hj]; exact htrue⟩)
        rw [Set.indicator_of_notMem this]
        exact zero_le
    refine le_trans ?_ (lintegral_mono hle)
    rw [lintegral_finsetSum _ fun i _ => measurable_const.indicator (hA i)]
    calc B = ∑ i ∈ Finset.range shots, (shots : ℝ≥0∞)⁻¹ * B := by
          rw [Finset.sum_const, Finset.card_range, nsmul_eq_mul, ← mul_assoc, ENNReal.mul_inv_cancel (by exact_mod_cast (by omega : shots ≠ 0)) (ENNReal.natCast_ne_top _), one_mul]
      _ ≤ ∑ i ∈ Finset.range shots, (shots : ℝ≥0∞)⁻¹ * μ (A i) := by
        refine Finset.sum_le_sum fun i hi => ?_
        have := h {i} (Finset.singleton_subset_iff.2 hi)
        rw [Finset.card_singleton, pow_one] at this
        gcongr
        rw [prob_compl_eq_one_sub (measurableSet_toMeasurable _ _), measure_toMeasurable]
        calc B = 1 - (1 - B) := (ENNReal.sub_sub_cancel ENNReal.one_ne_top hB).symm
          _ ≤ _ := tsub_le_tsub_left this _
      _ = _ := Finset.sum_congr rfl fun i _ => (lintegral_indicator_const (hA i) _).symm

theorem oneShot_succeeds {c : LatCode} {api : FloatApi F} {rng : Rng F} {sel : LogicalSel} {circ : List (Gate F)} {shots : Nat} {D : AnyDecoder c} {S0 S : Sim (numberOfQubits circ)} {ok : Bool}
    (h : Experiment.oneShot api rng ⟨c, circ, D, shots, sel⟩ S0 = .ok (S, ok)) :
    S0.run api rng circ true = .ok S ∧ (ok = true → ∃ s, Sample.fromRaw c S.results.1 S.results.2 false = .ok s ∧ D.Succeeds sel s) := by
  unfold Experiment.oneShot at h
  split at h
  · cases h
  next S' h1 =>
  split at h
  · cases h
  next s h2 =>
  split at h
  · cases h
  next p h3 =>
  split at h
  · cases h
  next ok' h4 =>
  cases h
  exact ⟨h1, fun hok => ⟨s, h2, p, h3, by rw [← hok]; exact h4⟩⟩

theorem loop_succeeds {c : LatCode} {api : FloatApi F} {rng : Rng F} {sel : LogicalSel} {circ : List (Gate F)} {shots : Nat} {D : AnyDecoder c} :
    ∀ (k : Nat) (m : Nat → Bool) (S0 : Sim (numberOfQubits circ)) (l : List Bool),
      Experiment.loop api rng ⟨c, circ, D, shots, sel⟩ k S0 = .ok l → (∀ i, m i = true → l[i]? = some true) →
      MarkedFail api rng circ (fun S => ∃ s, Sample.fromRaw c S.results.1 S.results.2 false = .ok s ∧ D.Succeeds sel s) k m S0
  | 0, _, _, _, _, _ => trivial
  | k + 1, m, S0, l, h, hm => by
    obtain ⟨S, ok, bs, h1, h2, rfl⟩ := loop_inv h
    obtain ⟨k1, k2⟩ := oneShot_succeeds h1
    refine ⟨S, k1, fun h0 => k2 (by simpa using hm 0 h0), loop_succeeds k _ S bs h2 fun i hi => by simpa using hm (i + 1) hi⟩

section
variable {Ω : Type} [m0 : MeasurableSpace Ω] {μ : Measure Ω} [IsProbabilityMeasure μ] {prob : F → ℝ≥0∞} {past : Nat → MeasurableSpace Ω} {rng : Ω → Rng F}

/-- **C120** The shots of an experiment, with any decoder and an exact generator, fail independently with probability at least `y ^ ⌈d / 2⌉ (1 - z) ^ M`. -/
theorem C120_rates (pos : Nat) (hX : ExactFrom pos μ prob past rng) (api : FloatApi F) (r : Nat) (hr : 1 ≤ r) (c : LatCode) (hm : Made r c) (qe ge : List (List Char × ErrDict F))
    (hg : ∀ e ∈ ge, e.2 = []) (hall : (∀ q < c.n, (flagsOf qe).erasure q = false) ∨ ∀ q < c.n, (flagsOf qe).erasure q = true) (sel : LogicalSel) (hZ : OnlyZ c sel ∧ SameWeight c sel)
    (circ : List (Gate F)) (hcirc : generateCircuit api c qe ge sel false = .ok circ) (P : Op c.n) (hP : ChangesUnseen c sel P) (y z : ℝ≥0∞) (hyz : y ≤ z) (hz : z ≤ 1)
    (hrate : ∀ g ∈ circ, g.name.noisy = true → g.rate api prob ≤ z) (ha : Attacked api prob (flagsOf qe) circ P y) (D : AnyDecoder c) (shots : Nat) (hs : 1 ≤ shots) :
    FailOften μ shots (fun ω => Experiment.loop api (rng ω) ⟨c, circ, D, shots, sel⟩ shots (Sim.fresh _ pos)) (fun ω => Experiment.rate api (rng ω) ⟨c, circ, D, shots, sel⟩ pos)
      (y ^ ((P.weight + 1) / 2) * (1 - z) ^ noisyCount circ) := by
  classical
  have hB1 : y ^ ((P.weight + 1) / 2) * (1 - z) ^ noisyCount circ ≤ 1 :=
    mul_le_one' (pow_le_one₀ zero_le (hyz.trans hz)) (pow_le_one₀ zero_le tsub_le_self)
  refine often_of hs (fun ω p hp => ?_) hB1 fun I hI => ?_
  · unfold Experiment.rate at hp
    split at hp
    · cases hp
    next l hl =>
    obtain ⟨q, h1, h2, _⟩ := C68_rate_partial api (rng ω) ⟨c, circ, D, shots, sel⟩ pos l hl hs
    unfold Experiment.rate at h1
    rw [hl] at h1
    cases hp
    cases h1
    exact ⟨l, hl, Experiment.loop_length api (rng ω) _ _ _ _ hl, h2⟩
  · have hbound : ∀ (S0 : Sim (numberOfQubits circ)) (E : Set Ω), pos ≤ S0.pos → MeasurableSet[past S0.pos] E →
        μ (E ∩ {ω | ∃ S, S0.run api (rng ω) circ true = .ok S ∧ ∃ s, Sample.fromRaw c S.results.1 S.results.2 false = .ok s ∧ D.Succeeds sel s}) ≤
          (1 - y ^ ((P.weight + 1) / 2) * (1 - z) ^ noisyCount circ) * μ E := by
      intro S0 E hp hE
      have hlow := shot_bound hX api r hr c hm qe ge hg hall sel false (.inr hZ) circ hcirc P hP y z hyz hz hrate ha D S0 hp E hE
      have hmeas : MeasurableSet {ω | ∃ S, S0.run api (rng ω) circ true = .ok S ∧ ∃ s, Sample.fromRaw c S.results.1 S.results.2 false = .ok s ∧ D.Succeeds sel s} := by
        have : {ω | ∃ S, S0.run api (rng ω) circ true = .ok S ∧ ∃ s, Sample.fromRaw c S.results.1 S.results.2 false = .ok s ∧ D.Succeeds sel s} =
            ⋃ S : Sim (numberOfQubits circ), {ω | S0.run api (rng ω) circ true = .ok S} ∩ {_ω | ∃ s, Sample.fromRaw c S.results.1 S.results.2 false = .ok s ∧ D.Succeeds sel s} := by
          ext ω
          simp
        rw [this]
        exact MeasurableSet.iUnion fun S => (hX.le _ _ (known_run hX.toFairFrom api circ S0 S).1).inter (MeasurableSet.const _)
      have hsub : E ∩ D.failed api rng sel false circ S0 ⊆ E \ {ω | ∃ S, S0.run api (rng ω) circ true = .ok S ∧ ∃ s, Sample.fromRaw c S.results.1 S.results.2 false = .ok s ∧ D.Succeeds sel s} := by
        rintro ω ⟨h1, S, s, h2, h3, h4⟩
        refine ⟨h1, ?_⟩
        rintro ⟨S', k1, s', k2, k3⟩
        obtain rfl := Except.ok.inj (h2.symm.trans k1)
        obtain rfl := Except.ok.inj (h3.symm.trans k2)
        exact h4 k3
      have hadd := measure_inter_add_sdiff (μ := μ) E hmeas
      rw [ENNReal.sub_mul fun _ _ => measure_ne_top μ E, one_mul]
      refine ENNReal.le_sub_of_add_le_right (ne_top_of_le_ne_top (measure_ne_top μ E) ((hlow.trans (measure_mono Set.inter_subset_left)))) ?_
      calc _ ≤ _ := add_le_add le_rfl (hlow.trans (measure_mono hsub))
        _ = _ := hadd
    have h := marked_bound hX.toFairFrom api circ _ hbound shots (fun i => decide (i ∈ I)) (Sim.fresh _ pos) Set.univ (le_refl _) (@MeasurableSet.univ _ (past pos))
    rw [Set.univ_inter, measure_univ, mul_one] at h
    refine (measure_mono ?_).trans (h.trans (le_of_eq ?_))
    · rintro ω ⟨l, h1, h2⟩
      exact loop_succeeds shots _ _ l h1 fun i hi => h2 i (by simpa using hi)
    · simp only [decide_eq_true_eq]
      rw [← Finset.prod_filter, Finset.prod_const, Finset.filter_mem_eq_inter, Finset.inter_eq_right.2 hI]

end

/-- **C120** With Stim, for every faithful sampler. -/
theorem C120_stim (api : FloatApi ℝ) (r : Nat) (hr : 1 ≤ r) (c : LatCode) (hm : Made r c) (qe ge : List (List Char × ErrDict ℝ)) (hg : ∀ e ∈ ge, e.2 = [])
    (hall : (∀ q < c.n, (flagsOf qe).erasure q = false) ∨ ∀ q < c.n, (flagsOf qe).erasure q = true) (sel : LogicalSel) (hZ : OnlyZ c sel ∧ SameWeight c sel)
    (circ : List (Gate ℝ)) (hcirc : generateCircuit api c qe ge sel false = .ok circ) (P : Op c.n) (hP : ChangesUnseen c sel P) (y z : ℝ≥0∞) (hyz : y ≤ z) (hz : z ≤ 1)
    (hrate : ∀ g ∈ circ, g.name.noisy = true → g.rate api ENNReal.ofReal ≤ z) (h0 : NoNegative circ) (ha : Attacked api ENNReal.ofReal (flagsOf qe) circ P y) (D : AnyDecoder c) (shots : Nat)
    (hs : 1 ≤ shots) {Ω : Type} [MeasurableSpace Ω] (μ : Measure Ω) [IsProbabilityMeasure μ] (smp : Ω → Sampler (List Bool)) (batch : Nat) (hb : 0 < batch)
    (hf : ∀ is fl, circuitToStim api circ = .ok (is, fl) → Faithful μ smp (numberOfQubits circ + 1) is) :
    FailOften μ shots (fun ω => Experiment.stimLoop api (smp ω) batch ⟨c, circ, D, shots, sel⟩ shots none) (fun ω => Experiment.stimRate api (smp ω) batch ⟨c, circ, D, shots, sel⟩)
      (y ^ ((P.weight + 1) / 2) * (1 - z) ^ noisyCount circ) := by
  obtain ⟨I, is, fl, J, h1, hS, hJ, ht, _⟩ := shapes_sampled (generated_shapes hm hcirc) (fun g' h' hn => (hrate g' h' hn).trans hz) h0
  have hB1 : y ^ ((P.weight + 1) / 2) * (1 - z) ^ noisyCount circ ≤ 1 :=
    mul_le_one' (pow_le_one₀ zero_le (hyz.trans hz)) (pow_le_one₀ zero_le tsub_le_self)
  refine often_of hs (fun ω p hp => ?_) hB1 fun A hA => ?_
  · unfold Experiment.stimRate at hp
    split at hp
    · cases hp
    next l hl =>
    have hlen : l.length = shots := Experiment.stimLoop_length api _ _ ⟨c, circ, D, shots, sel⟩ _ _ _ hl
    have hne : l ≠ [] := by
      rintro rfl
      simp at hlen
      omega
    cases hp
    exact ⟨l, hl, hlen, by rw [← hlen]; exact (C68_rateOf hne).1⟩
  · by_cases hfl : fl = []
    · have : {ω | ∃ l, Experiment.stimLoop api (smp ω) batch ⟨c, circ, D, shots, sel⟩ shots none = .ok l ∧ ∀ i ∈ A, l[i]? = some true} = ∅ := by
        refine Set.eq_empty_iff_forall_notMem.2 ?_
        rintro ω ⟨l, hl, _⟩
        have hlen : l.length = shots := Experiment.stimLoop_length api _ _ ⟨c, circ, D, shots, sel⟩ _ _ _ hl
        have hl : Experiment.stimLoop api (smp ω) batch ⟨c, circ, D, shots, sel⟩ l.length none = .ok l := by rw [hlen]; exact hl
        rw [stimLoop_new (E := ⟨c, circ, D, shots, sel⟩) ht hb] at hl
        cases l with
        | nil => simp at hlen; omega
        | cons b l => exact (judgeRow_length hl.1).1 hfl
      rw [this, measure_empty]
      exact zero_le
    · rw [same_events api ⟨c, circ, D, shots, sel⟩ _ h1.symm I is fl hS hfl smp (hf is fl ht) batch hb 0 (fairRng_exact ENNReal.ofReal) shots fun l => ∀ i ∈ A, l[i]? = some true]
      exact (C120_rates 0 (fairRng_exact ENNReal.ofReal) api r hr c hm qe ge hg hall sel hZ circ hcirc P hP y z hyz hz hrate ha D shots hs).1 A hA

/-! ## Error data -/

/-- The name of the parameter of a Pauli matrix. -/
def letterName : Fin 4 → List Char
  | 0 => []
  | 1 => "x".toList
  | 2 => "y".toList
  | 3 => "z".toList

/-- The error data give the letters of `P` at least the probability `y`. -/
def AttackedBy (api : FloatApi F) (prob : F → ℝ≥0∞) (qe : List (List Char × ErrDict F)) {n : Nat} (P : Op n) (y : ℝ≥0∞) : Prop :=
  ∀ q, letterAt P q ≠ 0 → ∃ d ps v, dictGet qe "pauli".toList = some d ∧ dictGet d (.int q) = some ps ∧ dictGet ps (letterName (letterAt P q)) = some v ∧ y ≤ rawProb api prob v

/-- The Pauli channels of the circuit are those of the error data. -/
def PauliFrom (api : FloatApi F) (prob : F → ℝ≥0∞) (qe : List (List Char × ErrDict F)) (g : Gate F) : Prop :=
  g.name = .E_PAULI → ∃ d ps vs, ∃ i : Nat, dictGet qe "pauli".toList = some d ∧ dictGet d (.int i) = some ps ∧ g.args = vs ++ [.int i] ∧
    vs.map (argProb api prob) = ["x", "y", "z"].map fun k : String => rawProb api prob (param api ps k.toList)

theorem paulis_walk (api : FloatApi F) (prob : F → ℝ≥0∞) {code : LatCode} {qe ge : List (List Char × ErrDict F)} (hg : ∀ e ∈ ge, e.2 = []) {anc : Bool} {G : Gen F}
    (h : Gen.make code qe ge anc = .ok G) : G.Walk api (AllE (PauliFrom api prob qe)) := by
  have hplain : ∀ {nm : Name} {args : List (Raw F)}, nm ≠ .E_PAULI → AllE (PauliFrom api prob qe) (emit api nm args) := by
    intro nm args hn x hx g hg
    obtain ⟨vs, _, rfl, _⟩ := emit_inv hx
    obtain rfl := List.mem_singleton.1 hg
    exact fun h => absurd h hn
  have hnone : ∀ name d, dictGet G.gateErrors name = some d → d = [] := by
    intro name d hd
    rw [make_gates h] at hd
    rcases setDefaults_get hd with hd | hd
    · exact hg _ (dictGet_some_mem hd)
    · exact hd
  have herr : ∀ nm i j, G.gateError nm i j = none := by
    intro nm i j
    unfold Gen.gateError
    split
    · rfl
    next d hd =>
    obtain rfl := hnone _ _ hd
    cases j <;> rfl
  refine ⟨AllE.nil, fun _ _ => AllE.cat, fun nm hn i => hplain (by rcases hn with rfl | rfl | rfl <;> decide), fun nm hn i j => hplain (by rcases hn with rfl | rfl <;> decide), ?_, ?_, ?_, ?_,
    .inl fun _ => AllE.error⟩
  · intro nm _ i
    unfold Gen.applyGateError
    rw [herr]
    exact AllE.nil
  · intro nm _ i j
    unfold Gen.applyGateError
    rw [herr]
    exact AllE.nil
  · intro i
    unfold Gen.applyMeasError
    split
    · exact AllE.error
    · exact AllE.nil
    · exact AllE.nil
    split
    · exact AllE.error
    · exact hplain (by decide)
  · intro v _
    unfold Gen.dataErrors
    refine AllE.cat ?_ ?_
    · split
      · exact AllE.error
      · exact AllE.nil
      · exact AllE.nil
      next ps _ hps =>
      obtain ⟨d, hd, hp⟩ := qubitErr_some hps
      rw [(make_inv h).2.2] at hd
      intro x hx g hg' _
      obtain ⟨vs, hv, rfl, _⟩ := emit_inv hx
      obtain rfl := List.mem_singleton.1 hg'
      have hv : appendArgs api .E_PAULI ((["x", "y", "z"].map fun k : String => param api ps k.toList) ++ [(G.lat.idx v : Int)].map Raw.int) = .ok vs := hv
      rw [channel_args (by simp)] at hv
      split at hv
      · cases hv
      next ws hw =>
      cases hv
      refine ⟨d, ps, ws, G.lat.idx v, ?_, hp, rfl, ?_⟩
      · rcases setDefaults_get hd with hd | rfl
        · exact hd
        · cases hp
      · rw [(toFloats_prob (prob := prob) hw).2, List.map_map]
        rfl
    · split
      · exact AllE.error
      · exact AllE.nil
      · exact AllE.nil
      · exact hplain (by decide)

theorem circuit_paulis {api : FloatApi F} (prob : F → ℝ≥0∞) {code : LatCode} {qe ge : List (List Char × ErrDict F)} (hg : ∀ e ∈ ge, e.2 = []) {sel : LogicalSel} {anc : Bool} {circ : List (Gate F)}
    (h : generateCircuit api code qe ge sel anc = .ok circ) : ∀ g ∈ circ, PauliFrom api prob qe g := by
  unfold generateCircuit at h
  split at h
  · cases h
  next G hG =>
  have hW := paulis_walk api prob hg hG
  unfold Gen.getCircuit at h
  split at h
  · cases h
  next idx hidx =>
  split at h
  · cases h
  split at h
  · cases h
  exact hW.parts idx (.inl fun _ => AllE.error) _ _ h

/-- **C120** Error data with these probabilities make a circuit with these probabilities. -/
theorem C120_data (api : FloatApi F) (prob : F → ℝ≥0∞) (code : LatCode) (qe ge : List (List Char × ErrDict F)) (hg : ∀ e ∈ ge, e.2 = []) (sel : LogicalSel) (anc : Bool) (circ : List (Gate F))
    (h : generateCircuit api code qe ge sel anc = .ok circ) {n : Nat} (P : Op n) (y : ℝ≥0∞) (ha : AttackedBy api prob qe P y) : Attacked api prob (flagsOf qe) circ P y := by
  intro q hq
  obtain ⟨d, ps, v, h1, h2, h3, h4⟩ := ha q hq
  constructor
  · show configured qe "pauli".toList q = true
    unfold configured
    rw [h1]
    dsimp only
    rw [h2]
    cases ps with
    | nil => cases h3
    | cons => rfl
  · intro args hin h5 w hw
    obtain ⟨d', ps', vs, i, k1, k2, k3, k4⟩ := circuit_paulis prob hg h _ hin rfl
    obtain rfl := Option.some.inj (h1.symm.trans k1)
    have hlen : vs.length = 3 := by
      have := congrArg List.length k4
      simpa using this
    match vs, hlen, k3, k4 with
    | [a, b, e], _, k3, k4 =>
      dsimp only at k3
      subst k3
      simp only [List.cons_append, List.nil_append, List.getElem?_cons_succ, List.getElem?_cons_zero, Option.some.injEq, Val.int.injEq] at h5
      obtain rfl : i = q := by exact_mod_cast h5
      obtain rfl := Option.some.inj (h2.symm.trans k2)
      simp only [List.map_cons, List.map_nil, List.cons.injEq, and_true] at k4
      obtain ⟨ka, kb, ke⟩ := k4
      generalize letterAt P i = k at hq h3 hw
      have : k = 1 ∨ k = 2 ∨ k = 3 := by clear h3 hw; revert k; decide
      rcases this with rfl | rfl | rfl
      · obtain rfl : a = w := by simpa using hw
        rw [ka, param, show dictGet ps "x".toList = some v from h3]
        exact h4
      · obtain rfl : b = w := by simpa using hw
        rw [kb, param, show dictGet ps "y".toList = some v from h3]
        exact h4
      · obtain rfl : e = w := by simpa using hw
        rw [ke, param, show dictGet ps "z".toList = some v from h3]
        exact h4

/-- Every data qubit has the errors X, Y and Z with probability at least `y`. -/
def EachPauli (api : FloatApi F) (prob : F → ℝ≥0∞) (n : Nat) (qe : List (List Char × ErrDict F)) (y : ℝ≥0∞) : Prop :=
  ∀ q < n, ∃ d ps, dictGet qe "pauli".toList = some d ∧ dictGet d (.int q) = some ps ∧ ∀ k ∈ ["x", "y", "z"], ∃ v, dictGet ps k.toList = some v ∧ y ≤ rawProb api prob v

theorem EachPauli.attacks {api : FloatApi F} {prob : F → ℝ≥0∞} {n : Nat} {qe : List (List Char × ErrDict F)} {y : ℝ≥0∞} (h : EachPauli api prob n qe y) (P : Op n) :
    AttackedBy api prob qe P y := by
  intro q hq
  have hqn : q < n := by
    by_contra hc
    exact hq (by unfold letterAt; rw [dif_neg hc])
  obtain ⟨d, ps, h1, h2, h3⟩ := h q hqn
  generalize letterAt P q = k at hq
  have : k = 1 ∨ k = 2 ∨ k = 3 := by revert k; decide
  rcases this with rfl | rfl | rfl
  · obtain ⟨v, h4, h5⟩ := h3 "x" (by simp)
    exact ⟨d, ps, v, h1, h2, h4, h5⟩
  · obtain ⟨v, h4, h5⟩ := h3 "y" (by simp)
    exact ⟨d, ps, v, h1, h2, h4, h5⟩
  · obtain ⟨v, h4, h5⟩ := h3 "z" (by simp)
    exact ⟨d, ps, v, h1, h2, h4, h5⟩

/-! ## Families of codes -/

/-- Shots of circuits for the code fail with probability at least `yᵏ (1 - z)ᴹ`, whatever the decoder: data qubits with Pauli errors, each of probability at least `y`, perhaps with
erasures; all `M` error instructions have probability at most `z`. -/
def ShotsAtLeast (c : LatCode) (k : Nat) (ok : LogicalSel → Bool → Prop) : Prop :=
  ∀ (F : Type) (api : FloatApi F) (qe ge : List (List Char × ErrDict F)) (sel : LogicalSel) (anc : Bool) (circ : List (Gate F)) (S0 : Sim (numberOfQubits circ)) (Ω : Type)
    [MeasurableSpace Ω] (μ : Measure Ω) [IsProbabilityMeasure μ] (prob : F → ℝ≥0∞) (past : Nat → MeasurableSpace Ω) (rng : Ω → Rng F) (y z : ℝ≥0∞) (D : AnyDecoder c),
    ExactFrom S0.pos μ prob past rng → (∀ e ∈ ge, e.2 = []) → ((∀ q < c.n, (flagsOf qe).erasure q = false) ∨ ∀ q < c.n, (flagsOf qe).erasure q = true) → ok sel anc →
    generateCircuit api c qe ge sel anc = .ok circ → EachPauli api prob c.n qe y → DataBelow api prob (qe ++ ge) z → y ≤ z → z ≤ 1 →
    y ^ k * (1 - z) ^ noisyCount circ ≤ μ (D.failed api rng sel anc circ S0)

/-- So do shots of experiments, independently. -/
def RatesAtLeast (c : LatCode) (k : Nat) : Prop :=
  ∀ (F : Type) (api : FloatApi F) (qe ge : List (List Char × ErrDict F)) (sel : LogicalSel) (circ : List (Gate F)) (Ω : Type)
    [MeasurableSpace Ω] (μ : Measure Ω) [IsProbabilityMeasure μ] (prob : F → ℝ≥0∞) (past : Nat → MeasurableSpace Ω) (rng : Ω → Rng F) (pos shots : Nat) (y z : ℝ≥0∞) (D : AnyDecoder c),
    ExactFrom pos μ prob past rng → (∀ e ∈ ge, e.2 = []) → ((∀ q < c.n, (flagsOf qe).erasure q = false) ∨ ∀ q < c.n, (flagsOf qe).erasure q = true) → OnlyZ c sel →
    generateCircuit api c qe ge sel false = .ok circ → EachPauli api prob c.n qe y → DataBelow api prob (qe ++ ge) z → y ≤ z → z ≤ 1 → 1 ≤ shots →
    FailOften μ shots (fun ω => Experiment.loop api (rng ω) ⟨c, circ, D, shots, sel⟩ shots (Sim.fresh _ pos)) (fun ω => Experiment.rate api (rng ω) ⟨c, circ, D, shots, sel⟩ pos)
      (y ^ k * (1 - z) ^ noisyCount circ)

/-- The same with Stim. -/
def StimRatesAtLeast (c : LatCode) (k : Nat) : Prop :=
  ∀ (api : FloatApi ℝ) (qe ge : List (List Char × ErrDict ℝ)) (sel : LogicalSel) (circ : List (Gate ℝ)) (shots batch : Nat) (y z : ℝ≥0∞) (D : AnyDecoder c) (Ω : Type)
    [MeasurableSpace Ω] (μ : Measure Ω) [IsProbabilityMeasure μ] (smp : Ω → Sampler (List Bool)),
    (∀ e ∈ ge, e.2 = []) → ((∀ q < c.n, (flagsOf qe).erasure q = false) ∨ ∀ q < c.n, (flagsOf qe).erasure q = true) → OnlyZ c sel →
    generateCircuit api c qe ge sel false = .ok circ → EachPauli api ENNReal.ofReal c.n qe y → DataNonneg api (qe ++ ge) → DataBelow api ENNReal.ofReal (qe ++ ge) z → y ≤ z → z ≤ 1 →
    1 ≤ shots → 0 < batch → (∀ is fl, circuitToStim api circ = .ok (is, fl) → Faithful μ smp (numberOfQubits circ + 1) is) →
    FailOften μ shots (fun ω => Experiment.stimLoop api (smp ω) batch ⟨c, circ, D, shots, sel⟩ shots none) (fun ω => Experiment.stimRate api (smp ω) batch ⟨c, circ, D, shots, sel⟩)
      (y ^ k * (1 - z) ^ noisyCount circ)

/-- Shots, and rates with both simulators. -/
def AllAtLeast (c : LatCode) (k : Nat) : Prop := ShotsAtLeast c k (fun sel anc => anc = true ∨ OnlyZ c sel) ∧ RatesAtLeast c k ∧ StimRatesAtLeast c k

theorem shotsAtLeast {r : Nat} (hr : 1 ≤ r) {c : LatCode} (hm : Made r c) {d : Nat} {ok : LogicalSel → Bool → Prop} (hok : ∀ sel anc, ok sel anc → anc = true ∨ OnlyZ c sel ∧ SameWeight c sel)
    (hP : ∀ sel anc, ok sel anc → ∃ P : Op c.n, P.weight = d ∧ ChangesUnseen c sel P) : ShotsAtLeast c ((d + 1) / 2) ok := by
  intro F api qe ge sel anc circ S0 Ω _ μ _ prob past rng y z D hX hg hall hsel hcirc hy hd hyz hz
  obtain ⟨P, rfl, hU⟩ := hP sel anc hsel
  exact C120_shot hX api r hr c hm qe ge hg hall sel anc (hok sel anc hsel) circ hcirc P hU y z hyz hz (C113_below api prob c qe ge sel anc circ hcirc _ hd)
    (C120_data api prob c qe ge hg sel anc circ hcirc P y (hy.attacks P)) D S0 le_rfl

theorem allAtLeast {r : Nat} (hr : 1 ≤ r) {c : LatCode} (hm : Made r c) {d : Nat} (hw : ∀ sel, SameWeight c sel) (hP : ∀ sel, ∃ P : Op c.n, P.weight = d ∧ ChangesUnseen c sel P) :
    AllAtLeast c ((d + 1) / 2) := by
  refine ⟨shotsAtLeast hr hm (fun sel anc h => h.imp_right fun h => ⟨h, hw sel⟩) fun sel _ _ => hP sel, ?_, ?_⟩
  · intro F api qe ge sel circ Ω _ μ _ prob past rng pos shots y z D hX hg hall hsel hcirc hy hd hyz hz hs
    obtain ⟨P, rfl, hU⟩ := hP sel
    exact C120_rates pos hX api r hr c hm qe ge hg hall sel ⟨hsel, hw sel⟩ circ hcirc P hU y z hyz hz (C113_below api prob c qe ge sel false circ hcirc _ hd)
      (C120_data api prob c qe ge hg sel false circ hcirc P y (hy.attacks P)) D shots hs
  · intro api qe ge sel circ shots batch y z D Ω _ μ _ smp hg hall hsel hcirc hy h0 hd hyz hz hs hb hf
    obtain ⟨P, rfl, hU⟩ := hP sel
    exact C120_stim api r hr c hm qe ge hg hall sel ⟨hsel, hw sel⟩ circ hcirc P hU y z hyz hz (C113_below api ENNReal.ofReal c qe ge sel false circ hcirc _ hd)
      (generated_nonneg hm hcirc h0) (C120_data api ENNReal.ofReal c qe ge hg sel false circ hcirc P y (hy.attacks P)) D shots hs μ smp batch hb hf

/-- The other logical operator of the same logical qubit. -/
theorem partner {L : Lattice} (hw : L.Wf) (hc : L.Comm) {size r : Nat} (hlen : ∀ l ∈ L.logicals, (L.opEdges l.1).length = size) (heven : L.logicals.length % 2 = 0) (hne : 2 ≤ L.logicals.length)
    (sel : LogicalSel) : ∃ P : Op (L.latCode r).n, P.weight = size ∧ ChangesUnseen (L.latCode r) sel P := by
  have hv := code_valid hw hc
  have hcount : (L.latCode r).code.logicalOps.length = L.logicals.length := List.length_map _
  have hw' : ∀ o ∈ (L.latCode r).code.logicalOps, o.weight = size := by
    intro o ho
    obtain ⟨l, hl, rfl⟩ := List.mem_map.1 (show o ∈ L.logicals.map fun s => L.vop s.1 from ho)
    exact (hw.weight l.1).trans (hlen l hl)
  cases his : logicalOpsToIndices (L.latCode r).code.logicalOps.length sel with
  | error e =>
    have h0 : 0 < (L.latCode r).code.logicalOps.length := by omega
    refine ⟨(L.latCode r).code.logicalOps[0], hw' _ (List.getElem_mem h0), fun g hg => hv.stab_log g hg _ (List.getElem_mem h0), fun is h => ?_⟩
    rw [his] at h
    cases h
  | ok is =>
    obtain ⟨h1, h2⟩ := indices_inv his
    cases is with
    | nil => rw [List.length_nil] at h1; omega
    | cons i is =>
      obtain ⟨h3, h4⟩ := h2 i List.mem_cons_self
      have hi : i.toNat < (L.latCode r).code.logicalOps.length := by omega
      have hj : i.toNat / 2 * 2 + (1 - i.toNat % 2) < (L.latCode r).code.logicalOps.length := by omega
      have hll := hv.log_log i.toNat (i.toNat / 2 * 2 + (1 - i.toNat % 2)) _ _ (List.getElem?_eq_getElem hi) (List.getElem?_eq_getElem hj)
      rw [if_pos (by omega)] at hll
      refine ⟨_, hw' _ (List.getElem_mem hj), fun g hg => hv.stab_log g hg _ (List.getElem_mem hj), fun is' h => ?_⟩
      obtain rfl := Except.ok.inj (his.symm.trans h)
      exact ⟨i, List.mem_cons_self, _, List.getElem?_eq_getElem hi, hll⟩

/-- **C120** On the planar code, whatever the decoder, the logical error rate is at least of the order `⌈size / 2⌉` in the error rates. -/
theorem C120_planar (r size : Nat) (hr : 1 ≤ r) (h2 : 2 ≤ size) : ∃ c, makePlanar r size = .ok c ∧ AllAtLeast c ((size + 1) / 2) := by
  have hc : makePlanar r size = .ok ((Planar.lat size crossOrder).latCode r) := by
    rw [makePlanar, Planar.make size h2 crossOrder (by decide)]; exact mkLatCode_ok (Planar.wf _ _ (by omega)) (Planar.full _ _ h2) r
  refine ⟨_, hc, allAtLeast hr (.planar h2 hc) (fun sel => Planar.same (by omega) sel) fun sel => partner (Planar.wf _ _ (by omega)) (Planar.comm _ _ (by omega)) (fun l hl => ?_)
    (show (Planar.logs size).length % 2 = 0 by simp [Planar.logs]) (show 2 ≤ (Planar.logs size).length by simp [Planar.logs]) sel⟩
  have hl : l ∈ Planar.logs size := hl
  simp only [Planar.logs, List.mem_cons, List.not_mem_nil, or_false] at hl
  rcases hl with rfl | rfl
  · rw [Planar.op_x _ _ (by omega)]
    simp [Planar.xEdges, length_pyRange]
  · rw [Planar.op_z _ _ (by omega)]
    simp [Planar.zEdges, length_pyRange]

/-- **C120** The same for the toric code. -/
theorem C120_toric (r size : Nat) (hr : 1 ≤ r) (h2 : 2 ≤ size) : ∃ c, makeToric r size = .ok c ∧ AllAtLeast c ((size + 1) / 2) := by
  have hc : makeToric r size = .ok ((Toric.lat size crossOrder).latCode r) := by
    rw [makeToric, Toric.make h2 crossOrder (by decide)]; exact mkLatCode_ok (Toric.wf _ h2) (Toric.full _ h2) r
  refine ⟨_, hc, allAtLeast hr (.toric h2 hc) (fun sel => Toric.same h2 sel) fun sel => partner (Toric.wf _ h2) (Toric.comm _ h2) (fun l hl => ?_)
    (show (Toric.fam size).logs.length % 2 = 0 by simp [Toric.fam]) (show 2 ≤ (Toric.fam size).logs.length by simp [Toric.fam]) sel⟩
  have hok := Toric.ok h2
  obtain ⟨f1, f2, f3, f4⟩ := Toric.filter_logs h2
  have hl : l ∈ (Toric.fam size).logs := hl
  unfold Toric.lat
  rw [hok.op_log _ (Fam.keeps_step _ _) hl]
  simp only [Toric.fam, List.mem_cons, List.not_mem_nil, or_false] at hl
  rcases hl with rfl | rfl | rfl | rfl
  · rw [f1]; simp [Toric.x0, length_lineE]
  · rw [f2]; simp [Toric.z0, length_lineE]
  · rw [f3]; simp [Toric.x1, length_lineE]
  · rw [f4]; simp [Toric.z1, length_lineE]

/-- **C120** The same for the rotated code and the XZZX code. -/
theorem C120_rotated (r size : Nat) (xzzx : Bool) (hr : 1 ≤ r) (h2 : 2 ≤ size) : ∃ c, makeRotated r size xzzx = .ok c ∧ AllAtLeast c ((size + 1) / 2) := by
  have hc : makeRotated r size xzzx = .ok ((Rotated.lat size xzzx diagOrder).latCode r) := by
    rw [makeRotated, Rotated.make h2 diagOrder (by decide)]; exact mkLatCode_ok (Rotated.wf _ h2) (Rotated.full _ h2) r
  refine ⟨_, hc, allAtLeast hr (.rotated h2 hc) (fun sel => Rotated.same h2 sel) fun sel => partner (Rotated.wf _ h2) (Rotated.comm _ h2) (fun l hl => ?_)
    (show (Rotated.fam size xzzx).logs.length % 2 = 0 by simp [Rotated.fam]) (show 2 ≤ (Rotated.fam size xzzx).logs.length by simp [Rotated.fam]) sel⟩
  have hok := Rotated.ok (xzzx := xzzx) h2
  obtain ⟨f1, f2⟩ := Rotated.filter_logs (xzzx := xzzx) h2
  have hl : l ∈ (Rotated.fam size xzzx).logs := hl
  unfold Rotated.lat
  rw [hok.op_log _ (Rotated.keeps _ _ _) hl]
  simp only [Rotated.fam, List.mem_cons, List.not_mem_nil, or_false] at hl
  rcases hl with rfl | rfl
  · rw [f1]; simp [Rotated.xE, length_lineE]
  · rw [f2]; simp [Rotated.zE, length_lineE]

/-- **C120** For the repetition code, shots with ancillas for the logical operator. -/
theorem C120_repetition (r size : Nat) (hr : 1 ≤ r) (hodd : size % 2 = 1) (h3 : 3 ≤ size) :
    ∃ c, makeRepetition r size = .ok c ∧ ShotsAtLeast c ((size + 1) / 2) (fun sel anc => anc = true ∧ OnlyZ c sel) := by
  have hw := Rep.wf size h3
  have hv := code_valid hw (Rep.comm size h3)
  have hc : makeRepetition r size = .ok ((Rep.lat size).latCode r) := by
    rw [makeRepetition, Rep.make size hodd h3]; exact mkLatCode_ok hw (Rep.full size h3) r
  refine ⟨_, hc, shotsAtLeast hr (.repetition (by omega) hc) (fun sel anc h => .inl h.1) fun sel anc hsel => ?_⟩
  have h0 : (Rep.lat size).code.logicalOps[0]? = some ((Rep.lat size).vop ((size : Int) - 1, 1)) := rfl
  have h1 : (Rep.lat size).code.logicalOps[1]? = some ((Rep.lat size).vop (2 * (size : Int) - 1, 0)) := rfl
  have hba := hv.log_log 1 0 _ _ h1 h0
  rw [if_pos (by decide)] at hba
  refine ⟨(Rep.lat size).vop ((size : Int) - 1, 1), ?_, fun g hg => hv.stab_log g hg _ (List.mem_of_getElem? h0), fun is his => ?_⟩
  · rw [show ((Rep.lat size).vop ((size : Int) - 1, 1)).weight = _ from hw.weight _, Rep.op_x]
    simp [Rep.xEdges, Rep.cells, length_pyRange]
    omega
  · obtain ⟨k1, k2⟩ := indices_inv his
    cases is with
    | nil =>
      have k1 : 0 = 2 / 2 := k1
      omega
    | cons i is =>
      have hb := k2 i List.mem_cons_self
      have hb : 0 ≤ i ∧ i < 2 := hb
      have hi : i.toNat = 0 ∨ i.toNat = 1 := by omega
      rcases hi with hi | hi
      · exfalso
        have hz := letters_z hw (Rep.sched _) his hsel.2 i List.mem_cons_self
        have hpos : (Rep.lat size).selPos i = ((size : Int) - 1, 1) := by
          unfold Lattice.selPos
          rw [hi]
          rfl
        rw [hpos, Rep.op_x] at hz
        obtain ⟨e, he⟩ := List.exists_mem_of_ne_nil (Rep.xEdges size) (by
          rw [← Rep.op_x]
          exact (Rep.full size h3).log (((size : Int) - 1, 1), ['X']) (by simp [Rep.lat, Rep.raw, Rep.logs, Lattice.assignIndices]))
        have hx := hz e he
        obtain ⟨i, _, rfl⟩ := List.mem_map.1 he
        cases hx
      · exact ⟨i, List.mem_cons_self, _, by rw [hi]; exact h1, hba⟩

/-- **C120** With matching, C119 and C120 give the order of the probability that a shot fails: it is `⌈size / 2⌉` in the error rates. -/
theorem C120_order (r size : Nat) (hr : 1 ≤ r) (h3 : 3 ≤ size) : ∃ c, makePlanar r size = .ok c ∧ ∀ solve, IsFusionBlossom solve →
    ∀ (F : Type) (api : FloatApi F) (qe : List (List Char × ErrDict F)) (sel : LogicalSel) (circ : List (Gate F)) (Ω : Type) [MeasurableSpace Ω] (μ : Measure Ω) [IsProbabilityMeasure μ]
      (prob : F → ℝ≥0∞) (past : Nat → MeasurableSpace Ω) (rng : Ω → Rng F) (pos shots : Nat) (y z : ℝ≥0∞) (negLog : ℚ → Option FW) (tiny : ℚ) (errs : Option ErrData) (g : SynGraph FW)
      (states : List (FbGraph)), ExactFrom pos μ prob past rng → ((∀ q < c.n, (flagsOf qe).erasure q = false) ∨ ∀ q < c.n, (flagsOf qe).erasure q = true) → OnlyZ c sel →
      generateCircuit api c qe [] sel false = .ok circ → EachPauli api prob c.n qe y → DataBelow api prob qe z → y ≤ z → z ≤ 1 → 1 ≤ shots →
      fromCode FW.isInf negLog tiny (fbBackend solve) c errs (some false) none = .ok (g, states) →
      let E := anyExperiment c circ (fbBackend solve) g states shots sel
      FailOften μ shots (fun ω => E.loop api (rng ω) shots (Sim.fresh _ pos)) (fun ω => E.rate api (rng ω) pos) (y ^ ((size + 1) / 2) * (1 - z) ^ noisyCount circ) ∧
        FailIndependently μ api rng pos E (((noisyCount circ).choose ((size + 1) / 2) : ℝ≥0∞) * z ^ ((size + 1) / 2)) := by
  obtain ⟨c, hc, -, hL, -⟩ := C120_planar r size hr (by omega)
  obtain ⟨c', hc', -, -, hU⟩ := C119_planar r size hr h3
  obtain rfl := Except.ok.inj (hc.symm.trans hc')
  refine ⟨c, hc, fun solve hS F api qe sel circ Ω _ μ _ prob past rng pos shots y z negLog tiny errs g states hX hall hsel hcirc hy hd hyz hz hs hf => ⟨?_, ?_⟩⟩
  · exact hL F api qe [] sel circ Ω μ prob past rng pos shots y z _ hX (by simp) hall hsel hcirc hy (by rw [List.append_nil]; exact hd) hyz hz hs
  · have hrate := C113_below api prob c qe [] sel false circ hcirc z (by rw [List.append_nil]; exact hd)
    exact (hU solve hS).2.1.1 F api qe [] sel circ Ω μ prob past rng pos shots z negLog tiny errs g states hX.toFairFrom (by simp) (by simp) (.inr hsel) hcirc hrate hs hf

/-! ### Example -/

/-- Every data qubit has the errors X, Y and Z with probability 1/1000. -/
noncomputable def depolarised : List (List Char × ErrDict ℝ) :=
  [("pauli".toList, (List.range 13).map fun q : Nat => (.int q, [("x".toList, .flt (1 / 1000)), ("y".toList, .flt (1 / 1000)), ("z".toList, .flt (1 / 1000))]))]

theorem dictGet_range {V : Type} (f : Nat → V) (n q : Nat) (h : q < n) : dictGet ((List.range n).map fun i : Nat => (QKey.int i, f i)) (.int q) = some (f q) := by
  induction n with
  | zero => omega
  | succ n ih =>
    rw [List.range_succ, List.map_append, dictGet_append]
    by_cases hq : q < n
    · rw [ih hq]; rfl
    · obtain rfl : q = n := by omega
      rw [dictGet_none.2 (by
        intro e he hc
        obtain ⟨i, hi, rfl⟩ := List.mem_map.1 he
        have : i = q := by exact_mod_cast QKey.int.inj hc
        have := List.mem_range.1 hi
        omega), Option.none_or]
      simp [dictGet]

/-- Two rounds of the planar code of size 3 with depolarised data qubits: whatever the decoder, the shots fail independently with probability at least `10⁻⁶ (1 - 3/1000)ᴹ`. -/
example (shots : Nat) (hs : 1 ≤ shots) : ∃ c circ, makePlanar 2 3 = .ok c ∧ generateCircuit realApi c depolarised [] (.str "Z".toList) false = .ok circ ∧ ∀ D : AnyDecoder c,
    FailOften draws shots (fun ω => Experiment.loop realApi (fairRng ENNReal.ofReal ω) ⟨c, circ, D, shots, .str "Z".toList⟩ shots (Sim.fresh _ 0))
      (fun ω => Experiment.rate realApi (fairRng ENNReal.ofReal ω) ⟨c, circ, D, shots, .str "Z".toList⟩ 0)
      (ENNReal.ofReal (1 / 1000) ^ 2 * (1 - ENNReal.ofReal (3 / 1000)) ^ noisyCount circ) := by
  obtain ⟨c, hc, -, hb, -⟩ := C120_planar 2 3 (by omega) (by omega)
  have hm : Made 2 c := .planar (by omega) hc
  have hc' : makePlanar 2 3 = .ok ((Planar.lat 3 crossOrder).latCode 2) := by
    rw [makePlanar, Planar.make 3 (by omega) crossOrder (by decide)]; exact mkLatCode_ok (Planar.wf 3 _ (by omega)) (Planar.full _ _ (by omega)) 2
  obtain rfl := Except.ok.inj (hc.symm.trans hc')
  have hdata : ∀ q ∈ List.range 13, (Planar.lat 3 crossOrder).IsDataIdx ((q : Nat) : Int) := by decide +kernel
  have hn : ((Planar.lat 3 crossOrder).latCode 2).n = 13 := by decide +kernel
  have hentry : ∀ name d, (name, d) ∈ depolarised ++ [] → ∀ key ps, (key, ps) ∈ d → name = "pauli".toList ∧ (∃ q ∈ List.range 13, key = .int q) ∧
      ps = [("x".toList, .flt (1 / 1000)), ("y".toList, .flt (1 / 1000)), ("z".toList, .flt (1 / 1000))] := by
    intro name d hd key ps hk
    rw [List.append_nil] at hd
    obtain ⟨rfl, rfl⟩ := Prod.mk.inj (List.mem_singleton.1 hd)
    obtain ⟨q, hq, he⟩ := List.mem_map.1 hk
    obtain ⟨rfl, rfl⟩ := Prod.mk.inj he
    exact ⟨rfl, ⟨q, hq, rfl⟩, rfl⟩
  obtain ⟨circ, hcirc⟩ : ∃ circ, generateCircuit realApi ((Planar.lat 3 crossOrder).latCode 2) depolarised [] (.str "Z".toList) false = .ok circ := by
    refine C113_total realApi 2 _ hm depolarised [] (.str "Z".toList) false [1] (by simp [depolarised, qubitErrorNames]) (by simp) (by simp [depolarised]) (by simp) ?_ ?_ (by decide +kernel) (by decide)
    · intro name d hd key ps hk
      obtain ⟨rfl, ⟨q, hq, rfl⟩, rfl⟩ := hentry name d hd key ps hk
      unfold EntryFits
      rw [if_pos rfl]
      exact ⟨_, rfl, hdata q hq, by simp [onePauliNames]⟩
    · intro name d hd key ps hk k v hv
      obtain ⟨rfl, -, rfl⟩ := hentry name d hd key ps hk
      simp only [List.mem_cons, List.not_mem_nil, or_false, Prod.mk.injEq] at hv
      rcases hv with ⟨-, rfl⟩ | ⟨-, rfl⟩ | ⟨-, rfl⟩ <;> exact ⟨_, rfl, fun h => absurd h (by decide)⟩
  refine ⟨_, circ, hc, hcirc, fun D => hb ℝ realApi depolarised [] (.str "Z".toList) circ _ draws ENNReal.ofReal drawsPast (fairRng ENNReal.ofReal) 0 shots (ENNReal.ofReal (1 / 1000))
    (ENNReal.ofReal (3 / 1000)) D (fairRng_exact _) (by simp) (.inl fun q _ => rfl) ((Planar.oddZ (by omega) crossOrder).onlyZ 2 (by decide)) hcirc ?_ ?_ (ENNReal.ofReal_le_ofReal (by norm_num))
    (by rw [← ENNReal.ofReal_one]; exact ENNReal.ofReal_le_ofReal (by norm_num)) hs⟩
  · intro q hq
    rw [hn] at hq
    refine ⟨_, _, rfl, dictGet_range (fun _ => [("x".toList, Raw.flt (1 / 1000 : ℝ)), ("y".toList, .flt (1 / 1000)), ("z".toList, .flt (1 / 1000))]) 13 q hq, fun k hk => ?_⟩
    simp only [List.mem_cons, List.not_mem_nil, or_false] at hk
    rcases hk with rfl | rfl | rfl
    · exact ⟨_, rfl, le_rfl⟩
    · exact ⟨_, rfl, le_rfl⟩
    · exact ⟨_, rfl, le_rfl⟩
  · intro k hk d hd key ps hp
    obtain ⟨hname, -, rfl⟩ := hentry _ d (dictGet_some_mem hd) key ps (dictGet_some_mem hp)
    have : k = ⟨"pauli", .E_PAULI, ["x", "y", "z"]⟩ := by
      simp only [errorKinds, List.mem_cons, List.not_mem_nil, or_false] at hk
      rcases hk with rfl | rfl | rfl | rfl | rfl | rfl | rfl | rfl <;> first | rfl | exact absurd hname (by decide)
    subst this
    simp only [entryRate, List.map_cons, List.map_nil, List.sum_cons, List.sum_nil, add_zero]
    show ENNReal.ofReal (1 / 1000) + (ENNReal.ofReal (1 / 1000) + ENNReal.ofReal (1 / 1000)) ≤ ENNReal.ofReal (3 / 1000)
    rw [← ENNReal.ofReal_add (by norm_num) (by norm_num), ← ENNReal.ofReal_add (by norm_num) (by norm_num)]
    exact ENNReal.ofReal_le_ofReal (by norm_num)

end Plaquette
