import Verif.Lemmas.NoisySample
import Verif.Props.Layout
import Verif.Props.Correction

/-!
# Experiments with errors (C66, C67)
-/

namespace Plaquette
variable {F : Type}

/-! ### C66: the sample tells what happened -/

/-- The sample `s` of an experiment in which the decisions `events` were made is the one of the faults `N`: these are the decisions; the syndrome is
the one of the faults; a logical operator is toggled if an odd number of errors on the data flip it; the qubits marked as erased
were erased. -/
structure Noise.Gives (N : Noise) (c : LatCode) (r : Nat) (fl : Flags) (sel : LogicalSel) (events : List Event) (s : Sample) : Prop where
  only : N.Only fl c.n r
  events : events = N.events fl c.n c.code.stabilisers.length r
  shape : ShapeOk r c.code.stabilisers.length (some s.syndrome)
  shows : (N.faults c.n).Shows r c.code.stabilisers (some s.syndrome)
  erasedShape : ShapeOk r c.n s.erased
  erased : ∀ t < r, ∀ q < c.n, SynBit s.erased t q ↔ N.erased t q = true
  toggle : ∀ is, logicalOpsToIndices c.code.logicalOps.length sel = .ok is → s.toggle.length = is.length ∧
    ∀ (j : Nat) (i : Int) (l : Op c.n) (b : Bool), is[j]? = some i → c.code.logicalOps[i.toNat]? = some l → s.toggle[j]? = some b →
      (b = true ↔ Odd (Set.ncard {t | t < r ∧ Anticommutes (opMat l) (opMat ((N.faults c.n).data t))}))

/-- The sample `s` is the one of the faults `E`. -/
structure Faults.Gives {c : LatCode} (E : Faults c.n) (r : Nat) (sel : LogicalSel) (s : Sample) : Prop where
  shape : ShapeOk r c.code.stabilisers.length (some s.syndrome)
  shows : E.Shows r c.code.stabilisers (some s.syndrome)
  erasedShape : ShapeOk r c.n s.erased
  toggle : ∀ is, logicalOpsToIndices c.code.logicalOps.length sel = .ok is → s.toggle.length = is.length ∧
    ∀ (j : Nat) (i : Int) (l : Op c.n) (b : Bool), is[j]? = some i → c.code.logicalOps[i.toNat]? = some l → s.toggle[j]? = some b →
      (b = true ↔ Odd (Set.ncard {t | t < r ∧ Anticommutes (opMat l) (opMat (E.data t))}))

theorem Noise.Gives.faults {N : Noise} {c : LatCode} {r : Nat} {fl : Flags} {sel : LogicalSel} {events : List Event} {s : Sample} (h : N.Gives c r fl sel events s) :
    (N.faults c.n).Gives r sel s := ⟨h.shape, h.shows, h.erasedShape, h.toggle⟩

/-- **C66**: for every code and every experiment with errors on qubits (Pauli channels, erasures, wrong outcomes), the sample is the one of the faults
the random generator decided on. -/
def C66_statement : Prop := ∀ (F : Type) (api : FloatApi F) (rng : Rng F) (r : Nat) (c : LatCode) (qe : List (List Char × ErrDict F))
  (sel : LogicalSel) (anc : Bool) (circ : List (Gate F)) (S0 S : Sim (numberOfQubits circ)) (s : Sample), 1 ≤ r → Made r c →
  generateCircuit api c qe [] sel anc = .ok circ → S0.run api rng circ true = .ok S →
  Sample.fromRaw c S.results.1 S.results.2 anc = .ok s →
  ∃ N : Noise, N.Gives c r (flagsOf qe) sel (S0.reset.events api rng circ) s

theorem toggles_inv {api : FloatApi F} {rng : Rng F} {c : LatCode} {sel : LogicalSel} {anc : Bool} {res : List Bool × List (List Bool)}
    (hr : toggles api rng c sel anc = .ok res) : ∃ circ S s, generateCircuit api c [] [] sel anc = .ok circ ∧
      (Sim.fresh (numberOfQubits circ) 0).run api rng circ true = .ok S ∧ Sample.fromRaw c S.results.1 S.results.2 anc = .ok s ∧
      res = (s.toggle, s.syndrome) := by
  unfold toggles at hr
  cases hg : generateCircuit api c [] [] sel anc with
  | error e => rw [hg] at hr; cases hr
  | ok circ =>
    rw [hg] at hr
    dsimp only at hr
    cases h1 : (Sim.fresh (numberOfQubits circ) 0).run api rng circ true with
    | error e => rw [h1] at hr; cases hr
    | ok S =>
      rw [h1] at hr
      dsimp only at hr
      cases h2 : Sample.fromRaw c S.results.1 S.results.2 anc with
      | error e => rw [h2] at hr; cases hr
      | ok s =>
        rw [h2] at hr
        exact ⟨circ, S, s, rfl, h1, h2, (Except.ok.inj hr).symm⟩

/-- **C66 fails** in the default mode without logical ancillas for logical operators X, even without errors: see C28. -/
theorem C66_direct_counterexample : ¬ C66_statement := by
  intro h
  obtain ⟨circ, S, s, h1, h2, h3, h4⟩ := toggles_inv rep3_toggles
  obtain ⟨N, hN⟩ := h Nat natApi (rngBits [true]) 1 _ [] _ false circ _ S s (by omega) (rep3_made 1) h1 h2 h3
  obtain ⟨_, ht⟩ := hN.toggle [0] (by decide +kernel)
  have hs : s.toggle = [true] := (congrArg Prod.fst h4).symm
  have h0 : 0 < ((Rep.lat 3).latCode 1).code.logicalOps.length := by
    have := (Rep.full 3 (by omega)).log_ne
    show 0 < (List.map _ (Rep.lat 3).logicals).length
    rw [List.length_map]
    exact List.length_pos_iff.2 this
  have := (ht 0 0 _ true rfl (List.getElem?_eq_getElem h0) (by rw [hs]; rfl)).1 rfl
  have he : {t | t < 1 ∧ Anticommutes (opMat ((Rep.lat 3).latCode 1).code.logicalOps[0]) (opMat ((N.faults ((Rep.lat 3).latCode 1).n).data t))} = ∅ := by
    refine Set.eq_empty_of_forall_notMem ?_
    rintro t ⟨_, ha⟩
    have hop : (N.faults ((Rep.lat 3).latCode 1).n).data t = ⟨fun _ => false, fun _ => false, false⟩ := by
      show N.op _ t = _
      unfold Noise.op
      have hp : ∀ q, N.pauli t q = 0 := fun q => hN.only.pauli t q (.inl rfl)
      have hsc : ∀ q, N.scramble t q = 0 := fun q => hN.only.scramble t q (hN.only.erased t q (.inl rfl))
      simp [hp, hsc, numX, numZ]
    rw [hop, anticommutes_iff] at ha
    simp [anti, bit] at ha
  have h5 : (0 : Int).toNat = 0 := rfl
  simp only [he, Set.ncard_empty] at this
  exact absurd this (by decide)

/-- The chosen logical operators consist of letters Z. -/
def OnlyZ (c : LatCode) (sel : LogicalSel) : Prop := ∀ is, logicalOpsToIndices c.code.logicalOps.length sel = .ok is → ∀ i ∈ is, ∀ a,
  c.code.logicalOps[i.toNat]? = some a → ∀ q, a.x q = false

theorem letters_z {L : Lattice} (hw : L.Wf) (hs : L.Sched) {r : Nat} {sel : LogicalSel} {is : List Int} (his : logicalOpsToIndices L.logicals.length sel = .ok is)
    (hz : OnlyZ (L.latCode r) sel) : ∀ i ∈ is, ∀ e ∈ L.opEdges (L.selPos i), e.factor = .Z := by
  intro i hi e he
  obtain ⟨_, hb⟩ := indices_inv his
  have hn : i.toNat < L.logicals.length := by have := hb i hi; omega
  have hsel : L.selPos i = (L.logicals[i.toNat]).1 := by simp [Lattice.selPos, List.getElem?_eq_getElem hn]
  have hx := hz is (by simpa [Lattice.code] using his) i hi (L.vop (L.selPos i)) (by simp [Lattice.code, hsel, List.getElem?_eq_getElem hn])
    ⟨L.idx e.data, hw.idx_lt (hw.op_data he)⟩
  have hlet : (L.vop (L.selPos i)).x ⟨L.idx e.data, hw.idx_lt (hw.op_data he)⟩ = e.factor.hasX := by
    refine (xorSum_unique he (List.Nodup.of_map _ (hw.op_idx_nodup (L.selPos i))) ?_).trans (by simp)
    intro b hb' hne
    have : L.idx b.data ≠ L.idx e.data := fun hc => hne (nodup_map_inj (hw.op_idx_nodup (L.selPos i)) hb' he hc)
    simp [this]
  have hx' : e.factor.hasX = false := by rw [← hlet]; exact hx
  have hY := hs.noY e (List.mem_filter.mp he).1
  cases hfac : e.factor with
  | X => rw [hfac] at hx'; simp [Letter.hasX] at hx'
  | Y => exact absurd hfac hY
  | Z => rfl

theorem faults_give {L : Lattice} {r : Nat} {sel : LogicalSel} {N : Noise} {s : Sample} {is : List Int}
    (his : logicalOpsToIndices L.logicals.length sel = .ok is)
    (h3 : (N.faults L.dataqubits.length).Shows r L.code.stabilisers (some s.syndrome)) (h4 : ShapeOk r L.stabgens.length (some s.syndrome))
    (h5 : s.toggle = is.map (fun i => xsum (List.range r) fun t => anti (N.op L.dataqubits.length t) (L.vop (L.selPos i))))
    (h6 : ShapeOk r L.dataqubits.length s.erased) :
    (N.faults (L.latCode r).n).Gives r sel s := by
  have hm : (L.latCode r).code.stabilisers.length = L.stabgens.length := by simp [Lattice.code]
  refine ⟨by rw [hm]; exact h4, h3, h6, fun is' his' => ?_⟩
  rw [show (L.latCode r).code.logicalOps.length = L.logicals.length by simp [Lattice.code], his] at his'
  cases his'
  rw [h5]
  refine ⟨by simp, fun j i l b hj hl hb => ?_⟩
  rw [List.getElem?_map, hj, Option.map_some, Option.some.injEq] at hb
  obtain ⟨_, hbd⟩ := indices_inv his
  have hn : i.toNat < L.logicals.length := by have := hbd i (List.mem_of_getElem? hj); omega
  have hlv : l = L.vop (L.selPos i) := by
    have hl : (L.logicals.map fun s => L.vop s.1)[i.toNat]? = some l := hl
    rw [List.getElem?_map, List.getElem?_eq_getElem hn] at hl
    cases hl
    unfold Lattice.selPos
    rw [List.getElem?_eq_getElem hn]; rfl
  subst hlv hb
  have hset : {t | t < r ∧ Anticommutes (opMat (L.vop (L.selPos i))) (opMat ((N.faults L.dataqubits.length).data t))} =
      (((List.range r).filter fun t => anti (N.op L.dataqubits.length t) (L.vop (L.selPos i))).toFinset : Set Nat) := by
    ext t
    simp only [Set.mem_ofPred_eq, List.coe_toFinset, List.mem_filter, List.mem_range]
    rw [anticommutes_iff, anti_symm]
    rfl
  refine Iff.trans ?_ (Eq.to_iff (congrArg (fun A : Set Nat => Odd A.ncard) hset).symm)
  rw [Set.ncard_coe_finset, List.toFinset_card_of_nodup (List.nodup_range.filter _), Nat.odd_iff, ← xsum_eq_odd]

theorem gives_of {L : Lattice} {r : Nat} {fl : Flags} {sel : LogicalSel} {events : List Event} {N : Noise} {s : Sample} {is : List Int}
    (his : logicalOpsToIndices L.logicals.length sel = .ok is)
    (h1 : N.Only fl L.dataqubits.length r) (h2 : events = N.events fl L.dataqubits.length L.stabgens.length r)
    (h3 : (N.faults L.dataqubits.length).Shows r L.code.stabilisers (some s.syndrome)) (h4 : ShapeOk r L.stabgens.length (some s.syndrome))
    (h5 : s.toggle = is.map (fun i => xsum (List.range r) fun t => anti (N.op L.dataqubits.length t) (L.vop (L.selPos i))))
    (h6 : ShapeOk r L.dataqubits.length s.erased) (h7 : ∀ t < r, ∀ q < L.dataqubits.length, SynBit s.erased t q ↔ N.erased t q = true) :
    N.Gives (L.latCode r) r fl sel events s := by
  have hm : (L.latCode r).code.stabilisers.length = L.stabgens.length := by simp [Lattice.code]
  obtain ⟨k1, k2, k3, k4⟩ := faults_give his h3 h4 h5 h6
  exact ⟨h1, by rw [hm]; exact h2, k1, k2, k3, h7, k4⟩

/-- **C66 (partial)**: with logical ancillas, or for logical operators of letters Z with the weight of the first logical operator. Missing: the
default mode for other operators, where the statement is false. -/
theorem C66_sample_partial (api : FloatApi F) (rng : Rng F) (r : Nat) (c : LatCode) (qe ge : List (List Char × ErrDict F)) (hg : ∀ e ∈ ge, e.2 = [])
    (sel : LogicalSel) (anc : Bool) (circ : List (Gate F)) (S0 S : Sim (numberOfQubits circ)) (s : Sample) (hr : 1 ≤ r) (hm : Made r c)
    (hZ : anc = true ∨ OnlyZ c sel ∧ SameWeight c sel)
    (h : generateCircuit api c qe ge sel anc = .ok circ) (hrun : S0.run api rng circ true = .ok S)
    (hsam : Sample.fromRaw c S.results.1 S.results.2 anc = .ok s) :
    ∃ N : Noise, N.Gives c r (flagsOf qe) sel (S0.reset.events api rng circ) s := by
  obtain ⟨L, rfl, hw, hc, hf, hs⟩ := hm.lattice
  obtain ⟨_, _, _, is, _, his, _⟩ := noisy_circuit hw hs hg h
  obtain ⟨N, h1, h2, _, h4⟩ := noisy_sample hw hc hf hs api rng hr hg his
    (hZ.imp id fun hz => ⟨letters_z hw hs his hz.1, weights_eq hw his hz.2⟩) h hrun
  obtain ⟨k1, k2, k3, k4, k5⟩ := h4 s hsam
  exact ⟨N, gives_of his h1 h2 k1 k2 k3 k4 k5⟩

/-- **C66**, the unpacking: if no data qubit or every data qubit may be erased, every run of the circuit is unpacked into a sample. -/
theorem C66_unpacks (api : FloatApi F) (rng : Rng F) (r : Nat) (c : LatCode) (qe ge : List (List Char × ErrDict F)) (hg : ∀ e ∈ ge, e.2 = [])
    (sel : LogicalSel) (anc : Bool) (circ : List (Gate F)) (S0 S : Sim (numberOfQubits circ)) (hr : 1 ≤ r) (hm : Made r c)
    (hZ : anc = true ∨ OnlyZ c sel ∧ SameWeight c sel)
    (h : generateCircuit api c qe ge sel anc = .ok circ) (hrun : S0.run api rng circ true = .ok S)
    (hall : (∀ q < c.n, (flagsOf qe).erasure q = false) ∨ ∀ q < c.n, (flagsOf qe).erasure q = true) :
    ∃ s, Sample.fromRaw c S.results.1 S.results.2 anc = .ok s := by
  obtain ⟨L, rfl, hw, hc, hf, hs⟩ := hm.lattice
  obtain ⟨_, _, _, is, _, his, _⟩ := noisy_circuit hw hs hg h
  obtain ⟨N, h1, h2, h3, _⟩ := noisy_sample hw hc hf hs api rng hr hg his
    (hZ.imp id fun hz => ⟨letters_z hw hs his hz.1, weights_eq hw his hz.2⟩) h hrun
  exact h3 hall

/-! ### C67: with few faults, union find succeeds -/

/-- The Pauli errors on qubits that were not erased, and the wrong outcomes. -/
noncomputable def Noise.count (N : Noise) (n m r : Nat) : Nat :=
  Set.ncard {p : Nat × Nat | p.1 < r ∧ p.2 < n ∧ N.pauli p.1 p.2 ≠ 0 ∧ N.erased p.1 p.2 = false} +
    Set.ncard {p : Nat × Nat | p.1 < r ∧ p.2 < m ∧ N.wrong p.1 p.2 = true}

/-- The erasures. -/
noncomputable def Noise.losses (N : Noise) (n r : Nat) : Nat := Set.ncard {p : Nat × Nat | p.1 < r ∧ p.2 < n ∧ N.erased p.1 p.2 = true}

/-- Union find without weights decodes the sample, and the check succeeds. -/
def UfSucceeds (c : LatCode) (r : Nat) (support : Bool) (sel : LogicalSel) (s : Sample) : Prop :=
  ∃ g states p, mkSynGraph FW.isInf r c.code.stabilisers none = .ok g ∧ setupAll (ufBackend support) g = .ok states ∧
    decode (ufBackend support) g c.n states s.erased (some s.syndrome) = .ok p ∧ checkSuccess c.code p s.toggle (some sel) = .ok true

/-- A decoder without weights decodes the sample, and the check succeeds. -/
def Succeeds {σ : Type} (b : Backend FW σ) (c : LatCode) (r : Nat) (sel : LogicalSel) (s : Sample) : Prop :=
  ∃ g states p, mkSynGraph FW.isInf r c.code.stabilisers none = .ok g ∧ setupAll b g = .ok states ∧
    decode b g c.n states s.erased (some s.syndrome) = .ok p ∧ checkSuccess c.code p s.toggle (some sel) = .ok true

/-- All decoders that correct few faults succeed. -/
def FewSucceed (c : LatCode) (r d : Nat) (fl : Flags) (sel : LogicalSel) (N : Noise) (s : Sample) : Prop :=
  ∀ (σ : Type) (b : Backend FW σ) (K : Nat) (lossy : Bool), Few K lossy b → (lossy = false → ∀ q < c.n, fl.erasure q = false) →
    K * N.count c.n c.code.stabilisers.length r + N.losses c.n r < d → Succeeds b c r sel s

theorem finite_pairs (P : Nat × Nat → Prop) (r n : Nat) : Set.Finite {p : Nat × Nat | p.1 < r ∧ p.2 < n ∧ P p} := by
  refine ((Set.finite_Iio r).prod (Set.finite_Iio n)).subset ?_
  rintro ⟨t, q⟩ ⟨h1, h2, _⟩
  exact ⟨h1, h2⟩

theorem Noise.Gives.counts {N : Noise} {c : LatCode} {r : Nat} {fl : Flags} {sel : LogicalSel} {events : List Event} {s : Sample}
    (h : N.Gives c r fl sel events s) : (N.faults c.n).count r c.code.stabilisers.length s.erased ≤ N.count c.n c.code.stabilisers.length r ∧
      erasures c.n r s.erased ≤ N.losses c.n r := by
  have inj : Function.Injective fun p : Nat × Fin c.n => (p.1, p.2.val) := by
    rintro ⟨a, b⟩ ⟨a', b'⟩ e
    simp only [Prod.mk.injEq] at e
    exact Prod.ext e.1 (Fin.ext e.2)
  constructor
  · unfold Faults.count Noise.count
    refine Nat.add_le_add ?_ (Nat.le_of_eq rfl)
    rw [← Set.ncard_image_of_injective _ inj]
    refine Set.ncard_le_ncard ?_ (finite_pairs _ r c.n)
    rintro _ ⟨⟨t, q⟩, ⟨ht, hp, he⟩, rfl⟩
    dsimp only at ht hp he
    rw [h.erased t ht q q.2, Bool.not_eq_true] at he
    refine ⟨ht, q.2, fun h0 => ?_, he⟩
    have hp : ((N.op c.n t).x q || (N.op c.n t).z q) = true := hp
    have h0 : N.pauli t q = 0 := h0
    simp [Noise.op, h0, h.only.scramble t q he, numX, numZ] at hp
  · unfold erasures Noise.losses
    rw [← Set.ncard_image_of_injective _ inj]
    refine Set.ncard_le_ncard ?_ (finite_pairs _ r c.n)
    rintro _ ⟨⟨t, q⟩, ⟨ht, he⟩, rfl⟩
    exact ⟨ht, q.2, (h.erased t ht q q.2).1 he⟩

/-- A correction that undoes the faults on the measured operators is counted as a success. -/
theorem checks_corrected {L : Lattice} (hf : L.Full) {r : Nat}
    {E : Faults (L.latCode r).n} {sel : LogicalSel} {s : Sample} {is : List Int} (his : logicalOpsToIndices L.logicals.length sel = .ok is)
    (h : E.Gives r sel s) {p : Op L.dataqubits.length} (k4 : E.Corrected r ((is.map L.selPos).map L.vop) p) :
    checkSuccess (L.latCode r).code p s.toggle (some sel) = .ok true := by
  have hlen : (L.latCode r).code.logicalOps.length = L.logicals.length := by simp [Lattice.code]
  obtain ⟨hil, hbd⟩ := indices_inv his
  have hget : ∀ i ∈ is, (L.latCode r).code.logicalOps[i.toNat]? = some (L.vop (L.selPos i)) := by
    intro i hi
    have hn : i.toNat < L.logicals.length := by have := hbd i hi; omega
    show (L.logicals.map fun s => L.vop s.1)[i.toNat]? = _
    unfold Lattice.selPos
    rw [List.getElem?_map, List.getElem?_eq_getElem hn]; rfl
  have hops : measuredOps (L.latCode r).code (some sel) = .ok (is.map fun i => L.vop (L.selPos i)) := by
    unfold measuredOps
    dsimp only
    rw [hlen, his]
    dsimp only
    clear his h k4 hil
    induction is with
    | nil => rfl
    | cons i is ih =>
      unfold mapLoop
      rw [hget i (by simp), ih (fun i hi => hbd i (by simp [hi])) (fun i hi => hget i (by simp [hi]))]
      rfl
  have hpos : 1 ≤ L.logicals.length / 2 := by
    have h1 := hf.log_even
    have h2 := List.length_pos_iff.mpr hf.log_ne
    omega
  have hne : (is.map fun i => L.vop (L.selPos i)) ≠ [] := by
    intro h0
    rw [List.map_eq_nil_iff] at h0
    rw [h0] at hil
    simp at hil
    omega
  obtain ⟨ht1, ht2⟩ := h.toggle is (by rw [hlen]; exact his)
  obtain ⟨b, hb1, hb2⟩ := C40_success hops hne p (toggle := s.toggle) (by rw [ht1]; simp)
  have : b = true := by
    refine hb2.2 fun j op t hj ht => ?_
    rw [List.getElem?_map] at hj
    cases hij : is[j]? with
    | none => rw [hij] at hj; cases hj
    | some i =>
      rw [hij] at hj
      cases hj
      have hi := List.mem_of_getElem? hij
      rw [ht2 j i _ t hij (hget i hi) ht]
      exact (k4 (L.vop (L.selPos i)) (by rw [List.map_map]; exact List.mem_map_of_mem hi)).symm
  rw [← this]
  exact hb1

theorem succeeds_corrected {L : Lattice} (hf : L.Full) {r : Nat} {σ : Type} {b : Backend FW σ}
    {E : Faults (L.latCode r).n} {sel : LogicalSel} {s : Sample} {is : List Int} (his : logicalOpsToIndices L.logicals.length sel = .ok is)
    (h : E.Gives r sel s) {g : SynGraph FW} {states : List σ} {p : Op L.dataqubits.length} (k1 : mkSynGraph FW.isInf r L.code.stabilisers none = .ok g)
    (k2 : setupAll b g = .ok states) (k3 : decode b g L.dataqubits.length states s.erased (some s.syndrome) = .ok p)
    (k4 : E.Corrected r ((is.map L.selPos).map L.vop) p) : Succeeds b (L.latCode r) r sel s :=
  ⟨g, states, p, k1, k2, k3, checks_corrected hf his h k4⟩

theorem succeeds_faults {L : Lattice} (hw : L.Wf) (hf : L.Full) {r d : Nat} (hm : Made r (L.latCode r)) {σ : Type} {b : Backend FW σ} {K : Nat} {lossy : Bool}
    (hb : Few K lossy b) {E : Faults (L.latCode r).n} {sel : LogicalSel} {s : Sample} {is : List Int} (his : logicalOpsToIndices L.logicals.length sel = .ok is)
    (h : E.Gives r sel s) (hE : lossy = false → ∀ t q, ¬ SynBit s.erased t q) (hA : (∀ t q, ¬ SynBit s.erased t q) ∨ L.Apart)
    (hd : K * E.count r L.stabgens.length s.erased + erasures L.dataqubits.length r s.erased < d)
    (hl : ∀ i ∈ is, L.HasLines d (L.selPos i) ∨ ((∀ q, ∀ a : Letter, a ≠ .Y → flipped L.code.stabilisers (singleOp false a q) ≠ [] →
      anti (singleOp false a q) (L.vop (L.selPos i)) = false) ∧ ∀ t < r, anti (E.data t) (L.vop (L.selPos i)) = false)) :
    Succeeds b (L.latCode r) r sel s := by
  have hm' : L.code.stabilisers.length = L.stabgens.length := by simp [Lattice.code]
  obtain ⟨g, states, p, k1, k2, k3, k4⟩ := few_on (f := E) hw hm hb h.erasedShape h.shape h.shows hE hA (d := d) (by rw [hm']; exact hd) (is.map L.selPos) fun v hv => by
      obtain ⟨i, hi, rfl⟩ := List.mem_map.1 hv
      exact hl i hi
  exact succeeds_corrected hf his h k1 k2 k3 k4

theorem succeeds_of {L : Lattice} (hw : L.Wf) (hf : L.Full) {r d : Nat} (hm : Made r (L.latCode r)) {σ : Type} {b : Backend FW σ} {K : Nat} {lossy : Bool}
    (hb : Few K lossy b) {N : Noise} {fl : Flags} {sel : LogicalSel}
    {events : List Event} {s : Sample} {is : List Int} (his : logicalOpsToIndices L.logicals.length sel = .ok is)
    (h : N.Gives (L.latCode r) r fl sel events s) (hE : lossy = false → ∀ t q, ¬ SynBit s.erased t q) (hA : (∀ t q, ¬ SynBit s.erased t q) ∨ L.Apart)
    (hd : K * N.count L.dataqubits.length L.stabgens.length r + N.losses L.dataqubits.length r < d)
    (hl : ∀ i ∈ is, L.HasLines d (L.selPos i) ∨ ((∀ q, ∀ a : Letter, a ≠ .Y → flipped L.code.stabilisers (singleOp false a q) ≠ [] →
      anti (singleOp false a q) (L.vop (L.selPos i)) = false) ∧ ∀ t < r, anti (N.op L.dataqubits.length t) (L.vop (L.selPos i)) = false)) :
    Succeeds b (L.latCode r) r sel s := by
  obtain ⟨c1, c2⟩ := h.counts
  have hm' : (L.latCode r).code.stabilisers.length = L.stabgens.length := by simp [Lattice.code]
  rw [hm'] at c1
  exact succeeds_faults hw hf hm hb his h.faults hE hA (lt_of_le_of_lt (Nat.add_le_add (Nat.mul_le_mul_left K c1) c2) hd) hl

theorem few_faults {L : Lattice} (hw : L.Wf) (hc : L.Comm) (hf : L.Full) (hs : L.Sched) {r d : Nat} (hr : 1 ≤ r) (hm : Made r (L.latCode r)) (api : FloatApi F)
    (rng : Rng F) {qe ge : List (List Char × ErrDict F)} (hg : ∀ e ∈ ge, e.2 = []) {sel : LogicalSel} {anc : Bool}
    (hZ : anc = true ∨ OnlyZ (L.latCode r) sel ∧ SameWeight (L.latCode r) sel) {circ : List (Gate F)} {S0 S : Sim (numberOfQubits circ)} {s : Sample}
    (h : generateCircuit api (L.latCode r) qe ge sel anc = .ok circ) (hrun : S0.run api rng circ true = .ok S)
    (hsam : Sample.fromRaw (L.latCode r) S.results.1 S.results.2 anc = .ok s) (hA : (∀ q < L.dataqubits.length, (flagsOf qe).erasure q = false) ∨ L.Apart)
    (hl : ∀ is, logicalOpsToIndices L.logicals.length sel = .ok is → ∀ i ∈ is, L.HasLines d (L.selPos i)) :
    ∃ N : Noise, N.Gives (L.latCode r) r (flagsOf qe) sel (S0.reset.events api rng circ) s ∧
      FewSucceed (L.latCode r) r d (flagsOf qe) sel N s := by
  obtain ⟨_, _, _, is, _, his, _⟩ := noisy_circuit hw hs hg h
  obtain ⟨N, hN⟩ := C66_sample_partial api rng r _ qe ge hg sel anc circ S0 S s hr hm hZ h hrun hsam
  have hno : (∀ q < L.dataqubits.length, (flagsOf qe).erasure q = false) → ∀ t q, ¬ SynBit s.erased t q := by
    intro hA t q hb
    obtain ⟨a, row, ha, hrow, hq⟩ := hb
    obtain ⟨s1, s2⟩ := hN.erasedShape a ha
    have ht : t < r := by rw [← s1]; exact (List.getElem?_eq_some_iff.1 hrow).1
    have hqn : q < L.dataqubits.length := by
      have h' := s2 row (List.mem_of_getElem? hrow)
      have h'' := (List.getElem?_eq_some_iff.1 hq).1
      rw [h'] at h''
      exact h''
    have := (hN.erased t ht q hqn).1 ⟨a, row, ha, hrow, hq⟩
    rw [hN.only.erased t q (.inl (hA q hqn))] at this
    cases this
  refine ⟨N, hN, fun σ b K lossy hb hE hd => succeeds_of hw hf hm hb his hN (fun h => hno (hE h)) (hA.imp hno id) (d := d) ?_ fun i hi => .inl (hl is his i hi)⟩
  · have hm' : (L.latCode r).code.stabilisers.length = L.stabgens.length := by simp [Lattice.code]
    rw [hm'] at hd
    exact hd

theorem lines_sel {L : Lattice} {d : Nat} (hl : ∀ l ∈ L.logicals, L.HasLines d l.1) {sel : LogicalSel} (is : List Int)
    (his : logicalOpsToIndices L.logicals.length sel = .ok is) (i : Int) (hi : i ∈ is) : L.HasLines d (L.selPos i) := by
  obtain ⟨_, hb⟩ := indices_inv his
  have hn : i.toNat < L.logicals.length := by have := hb i hi; omega
  have hsel : L.selPos i = (L.logicals[i.toNat]).1 := by simp [Lattice.selPos, List.getElem?_eq_getElem hn]
  rw [hsel]
  exact hl _ (List.getElem_mem hn)

theorem same_weight {L : Lattice} (hw : L.Wf) {r size : Nat} (hlen : ∀ l ∈ L.logicals, (L.opEdges l.1).length = size) (sel : LogicalSel) :
    SameWeight (L.latCode r) sel := by
  intro is _ i _ a b ha hb
  have key : ∀ (k : Nat) (o : Op (L.latCode r).n), (L.latCode r).code.logicalOps[k]? = some o → o.weight = size := by
    intro k o ho
    obtain ⟨l, hl, rfl⟩ := List.mem_map.1 (show o ∈ L.logicals.map fun s => L.vop s.1 from List.mem_of_getElem? ho)
    exact (hw.weight l.1).trans (hlen l hl)
  rw [key _ _ ha, key _ _ hb]

theorem Planar.same {r size : Nat} (h1 : 1 ≤ size) (sel : LogicalSel) : SameWeight ((Planar.lat size crossOrder).latCode r) sel := by
  refine same_weight (Planar.wf _ _ (by omega)) (size := size) (fun l hl => ?_) sel
  have hl : l ∈ Planar.logs size := hl
  simp only [Planar.logs, List.mem_cons, List.not_mem_nil, or_false] at hl
  rcases hl with rfl | rfl
  · rw [Planar.op_x _ _ (by omega)]
    simp [Planar.xEdges, length_pyRange]
  · rw [Planar.op_z _ _ (by omega)]
    simp [Planar.zEdges, length_pyRange]

theorem Toric.same {r size : Nat} (h2 : 2 ≤ size) (sel : LogicalSel) : SameWeight ((Toric.lat size crossOrder).latCode r) sel := by
  refine same_weight (Toric.wf _ h2) (size := size) (fun l hl => ?_) sel
  have hok := Toric.ok h2
  obtain ⟨f1, f2, f3, f4⟩ := Toric.filter_logs h2
  have hl : l ∈ (Toric.fam size).logs := hl
  unfold Toric.lat
  rw [hok.op_log _ (Fam.keeps_step _ _) hl]
  simp only [Toric.fam, List.mem_cons, List.not_mem_nil, or_false] at hl
  rcases hl with rfl | rfl | rfl | rfl
  · rw [f1]; simp [Toric.x0, length_lineE]
  · rw [f2]; simp [Toric.z0, length_lineE]
  · rw [f3]; simp [Toric.x1, length_lineE]
  · rw [f4]; simp [Toric.z1, length_lineE]

theorem Rotated.same {r size : Nat} {xzzx : Bool} (h2 : 2 ≤ size) (sel : LogicalSel) : SameWeight ((Rotated.lat size xzzx diagOrder).latCode r) sel := by
  refine same_weight (Rotated.wf _ h2) (size := size) (fun l hl => ?_) sel
  have hok := Rotated.ok (xzzx := xzzx) h2
  obtain ⟨f1, f2⟩ := Rotated.filter_logs (xzzx := xzzx) h2
  have hl : l ∈ (Rotated.fam size xzzx).logs := hl
  unfold Rotated.lat
  rw [hok.op_log _ (Rotated.keeps _ _ _) hl]
  simp only [Rotated.fam, List.mem_cons, List.not_mem_nil, or_false] at hl
  rcases hl with rfl | rfl
  · rw [f1]; simp [Rotated.xE, length_lineE]
  · rw [f2]; simp [Rotated.zE, length_lineE]

theorem Planar.has_lines {size : Nat} (h1 : 2 ≤ size) : ∀ l ∈ (Planar.lat size crossOrder).logicals, (Planar.lat size crossOrder).HasLines size l.1 := by
  intro l hl
  have hl : l ∈ Planar.logs size := hl
  simp only [Planar.logs, List.mem_cons, List.not_mem_nil, or_false] at hl
  rcases hl with rfl | rfl
  · exact ⟨Planar.linesX (by omega), size - 1, by omega, Planar.line_x (by omega)⟩
  · exact ⟨Planar.linesZ (by omega), size - 1, by omega, Planar.line_z (by omega)⟩

theorem Toric.has_lines {size : Nat} (h2 : 2 ≤ size) : ∀ l ∈ (Toric.lat size crossOrder).logicals, (Toric.lat size crossOrder).HasLines size l.1 := by
  intro l hl
  have hl : l ∈ (Toric.fam size).logs := hl
  simp only [Toric.fam, List.mem_cons, List.not_mem_nil, or_false] at hl
  rcases hl with rfl | rfl | rfl | rfl
  · exact ⟨Toric.linesX0 h2, 0, by omega, Toric.line_X0 h2⟩
  · exact ⟨Toric.linesZ0 h2, size - 1, by omega, Toric.line_Z0 h2⟩
  · exact ⟨Toric.linesX1 h2, 0, by omega, Toric.line_X1 h2⟩
  · exact ⟨Toric.linesZ1 h2, size - 1, by omega, Toric.line_Z1 h2⟩

theorem Rotated.has_lines {size : Nat} {xzzx : Bool} (h2 : 2 ≤ size) :
    ∀ l ∈ (Rotated.lat size xzzx diagOrder).logicals, (Rotated.lat size xzzx diagOrder).HasLines size l.1 := by
  intro l hl
  have hl : l ∈ (Rotated.fam size xzzx).logs := hl
  simp only [Rotated.fam, List.mem_cons, List.not_mem_nil, or_false] at hl
  rcases hl with rfl | rfl
  · exact ⟨Rotated.linesX h2, 0, by omega, Rotated.line_x h2⟩
  · exact ⟨Rotated.linesZ h2, 0, by omega, Rotated.line_z h2⟩

theorem planar_shots (api : FloatApi F) (rng : Rng F) (r size : Nat) (hr : 1 ≤ r) (h3 : 3 ≤ size) (c : LatCode) (hc : makePlanar r size = .ok c)
    (qe ge : List (List Char × ErrDict F)) (hg : ∀ e ∈ ge, e.2 = []) (sel : LogicalSel) (anc : Bool) (hZ : anc = true ∨ OnlyZ c sel)
    (circ : List (Gate F)) (S0 S : Sim (numberOfQubits circ)) (s : Sample)
    (h : generateCircuit api c qe ge sel anc = .ok circ) (hrun : S0.run api rng circ true = .ok S)
    (hsam : Sample.fromRaw c S.results.1 S.results.2 anc = .ok s) :
    ∃ N : Noise, N.Gives c r (flagsOf qe) sel (S0.reset.events api rng circ) s ∧
      FewSucceed c r size (flagsOf qe) sel N s := by
  have hc' : makePlanar r size = .ok ((Planar.lat size crossOrder).latCode r) := by
    rw [makePlanar, Planar.make size (by omega) crossOrder (by decide)]; exact mkLatCode_ok (Planar.wf _ _ (by omega)) (Planar.full _ _ (by omega)) r
  obtain rfl : (Planar.lat size crossOrder).latCode r = c := by rw [hc'] at hc; exact Except.ok.inj hc
  refine few_faults (Planar.wf _ _ (by omega)) (Planar.comm _ _ (by omega)) (Planar.full _ _ (by omega)) (Planar.sched _ (by omega)) hr (.planar (by omega) hc)
    api rng hg (hZ.imp id fun hz => ⟨hz, Planar.same (by omega) sel⟩) h hrun hsam (.inr (Planar.apart h3)) fun is his i hi =>
    lines_sel (Planar.has_lines (by omega)) is his i hi

theorem toric_shots (api : FloatApi F) (rng : Rng F) (r size : Nat) (hr : 1 ≤ r) (h3 : 3 ≤ size) (c : LatCode) (hc : makeToric r size = .ok c)
    (qe ge : List (List Char × ErrDict F)) (hg : ∀ e ∈ ge, e.2 = []) (sel : LogicalSel) (anc : Bool) (hZ : anc = true ∨ OnlyZ c sel)
    (circ : List (Gate F)) (S0 S : Sim (numberOfQubits circ)) (s : Sample)
    (h : generateCircuit api c qe ge sel anc = .ok circ) (hrun : S0.run api rng circ true = .ok S)
    (hsam : Sample.fromRaw c S.results.1 S.results.2 anc = .ok s) :
    ∃ N : Noise, N.Gives c r (flagsOf qe) sel (S0.reset.events api rng circ) s ∧
      FewSucceed c r size (flagsOf qe) sel N s := by
  have h2 : 2 ≤ size := by omega
  have hc' : makeToric r size = .ok ((Toric.lat size crossOrder).latCode r) := by
    rw [makeToric, Toric.make h2 crossOrder (by decide)]; exact mkLatCode_ok (Toric.wf _ h2) (Toric.full _ h2) r
  obtain rfl : (Toric.lat size crossOrder).latCode r = c := by rw [hc'] at hc; exact Except.ok.inj hc
  refine few_faults (Toric.wf _ h2) (Toric.comm _ h2) (Toric.full _ h2) (Toric.sched _ h2) hr (.toric h2 hc)
    api rng hg (hZ.imp id fun hz => ⟨hz, Toric.same h2 sel⟩) h hrun hsam (.inr (Toric.apart h3)) fun is his i hi =>
    lines_sel (Toric.has_lines h2) is his i hi

theorem rotated_shots (api : FloatApi F) (rng : Rng F) (r size : Nat) (xzzx : Bool) (hr : 1 ≤ r) (h2 : 2 ≤ size) (c : LatCode)
    (hc : makeRotated r size xzzx = .ok c) (qe ge : List (List Char × ErrDict F)) (hg : ∀ e ∈ ge, e.2 = [])
    (hq : ∀ q < c.n, (flagsOf qe).erasure q = false) (sel : LogicalSel) (anc : Bool) (hZ : anc = true ∨ OnlyZ c sel)
    (circ : List (Gate F)) (S0 S : Sim (numberOfQubits circ)) (s : Sample)
    (h : generateCircuit api c qe ge sel anc = .ok circ) (hrun : S0.run api rng circ true = .ok S)
    (hsam : Sample.fromRaw c S.results.1 S.results.2 anc = .ok s) :
    ∃ N : Noise, N.Gives c r (flagsOf qe) sel (S0.reset.events api rng circ) s ∧
      FewSucceed c r size (flagsOf qe) sel N s := by
  have hc' : makeRotated r size xzzx = .ok ((Rotated.lat size xzzx diagOrder).latCode r) := by
    rw [makeRotated, Rotated.make h2 diagOrder (by decide)]; exact mkLatCode_ok (Rotated.wf _ h2) (Rotated.full _ h2) r
  obtain rfl : (Rotated.lat size xzzx diagOrder).latCode r = c := by rw [hc'] at hc; exact Except.ok.inj hc
  refine few_faults (Rotated.wf _ h2) (Rotated.comm _ h2) (Rotated.full _ h2) (Rotated.sched _ _ h2) hr (.rotated h2 hc)
    api rng hg (hZ.imp id fun hz => ⟨hz, Rotated.same h2 sel⟩) h hrun hsam (.inl hq) fun is his i hi =>
    lines_sel (Rotated.has_lines h2) is his i hi

theorem Rep.has_lines {r size : Nat} (h3 : 3 ≤ size) {sel : LogicalSel} (hZ : OnlyZ ((Rep.lat size).latCode r) sel) {is : List Int}
    (his : logicalOpsToIndices (Rep.lat size).logicals.length sel = .ok is) (i : Int) (hi : i ∈ is) : (Rep.lat size).HasLines size ((Rep.lat size).selPos i) := by
  have hz := letters_z (Rep.wf _ h3) (Rep.sched _) his hZ i hi
  obtain ⟨_, hb⟩ := indices_inv his
  have hn : i.toNat < (Rep.lat size).logicals.length := by have := hb i hi; omega
  have hsel : (Rep.lat size).selPos i = ((Rep.lat size).logicals[i.toNat]).1 := by simp [Lattice.selPos, List.getElem?_eq_getElem hn]
  have hl : (Rep.lat size).logicals[i.toNat] ∈ Rep.logs size := List.getElem_mem hn
  generalize (Rep.lat size).logicals[i.toNat] = l at hsel hl
  simp only [Rep.logs, List.mem_cons, List.not_mem_nil, or_false] at hl
  rw [hsel] at hz ⊢
  rcases hl with rfl | rfl
  · exfalso
    rw [Rep.op_x] at hz
    obtain ⟨e, he, hx⟩ : ∃ e ∈ Rep.xEdges size, e.factor = .X := by
      obtain ⟨e, he⟩ := List.exists_mem_of_ne_nil (Rep.xEdges size) (by
        rw [← Rep.op_x]
        exact (Rep.full size h3).log (((size : Int) - 1, 1), ['X']) (by simp [Rep.lat, Rep.raw, Rep.logs, Lattice.assignIndices]))
      obtain ⟨i, _, rfl⟩ := List.mem_map.1 he
      exact ⟨_, he, rfl⟩
    rw [hz e he] at hx
    cases hx
  · exact ⟨Rep.linesZ h3, size - 1, by omega, Rep.line_z h3⟩

theorem repetition_shots (api : FloatApi F) (rng : Rng F) (r size : Nat) (hr : 1 ≤ r) (hodd : size % 2 = 1) (h3 : 3 ≤ size) (c : LatCode)
    (hc : makeRepetition r size = .ok c) (qe ge : List (List Char × ErrDict F)) (hg : ∀ e ∈ ge, e.2 = []) (sel : LogicalSel) (hZ : OnlyZ c sel)
    (circ : List (Gate F)) (S0 S : Sim (numberOfQubits circ)) (s : Sample)
    (h : generateCircuit api c qe ge sel true = .ok circ) (hrun : S0.run api rng circ true = .ok S)
    (hsam : Sample.fromRaw c S.results.1 S.results.2 true = .ok s) :
    ∃ N : Noise, N.Gives c r (flagsOf qe) sel (S0.reset.events api rng circ) s ∧
      FewSucceed c r size (flagsOf qe) sel N s := by
  have hc' : makeRepetition r size = .ok ((Rep.lat size).latCode r) := by
    rw [makeRepetition, Rep.make size hodd h3]; exact mkLatCode_ok (Rep.wf size h3) (Rep.full size h3) r
  obtain rfl : (Rep.lat size).latCode r = c := by rw [hc'] at hc; exact Except.ok.inj hc
  refine few_faults (Rep.wf _ h3) (Rep.comm _ h3) (Rep.full _ h3) (Rep.sched _) hr (.repetition (by omega) hc)
    api rng hg (.inl rfl) h hrun hsam (.inr (Rep.apart h3)) fun is his i hi => ?_
  exact Rep.has_lines h3 hZ his i hi

/-- **C67 (planar code)**: if in a run of the experiment `t` Pauli errors on qubits that are not erased and wrong outcomes, and `e` erasures happen, with
`3 t + e < size`, then union find finds the right correction: with ancillas for all logical operators, and in the default mode for the operator Z. -/
theorem C67_planar (api : FloatApi F) (rng : Rng F) (r size : Nat) (hr : 1 ≤ r) (h3 : 3 ≤ size) (c : LatCode) (hc : makePlanar r size = .ok c)
    (qe ge : List (List Char × ErrDict F)) (hg : ∀ e ∈ ge, e.2 = []) (sel : LogicalSel) (anc : Bool) (hZ : anc = true ∨ OnlyZ c sel)
    (circ : List (Gate F)) (S0 S : Sim (numberOfQubits circ)) (s : Sample)
    (h : generateCircuit api c qe ge sel anc = .ok circ) (hrun : S0.run api rng circ true = .ok S)
    (hsam : Sample.fromRaw c S.results.1 S.results.2 anc = .ok s) :
    ∃ N : Noise, N.Gives c r (flagsOf qe) sel (S0.reset.events api rng circ) s ∧
      (3 * N.count c.n c.code.stabilisers.length r + N.losses c.n r < size → ∀ support, UfSucceeds c r support sel s) := by
  obtain ⟨N, h1, h2⟩ := planar_shots api rng r size hr h3 c hc qe ge hg sel anc hZ circ S0 S s h hrun hsam
  exact ⟨N, h1, fun hd support => h2 _ _ 3 true (uf_few support) (by simp) hd⟩

/-- **C67 (toric code)**. -/
theorem C67_toric (api : FloatApi F) (rng : Rng F) (r size : Nat) (hr : 1 ≤ r) (h3 : 3 ≤ size) (c : LatCode) (hc : makeToric r size = .ok c)
    (qe ge : List (List Char × ErrDict F)) (hg : ∀ e ∈ ge, e.2 = []) (sel : LogicalSel) (anc : Bool) (hZ : anc = true ∨ OnlyZ c sel)
    (circ : List (Gate F)) (S0 S : Sim (numberOfQubits circ)) (s : Sample)
    (h : generateCircuit api c qe ge sel anc = .ok circ) (hrun : S0.run api rng circ true = .ok S)
    (hsam : Sample.fromRaw c S.results.1 S.results.2 anc = .ok s) :
    ∃ N : Noise, N.Gives c r (flagsOf qe) sel (S0.reset.events api rng circ) s ∧
      (3 * N.count c.n c.code.stabilisers.length r + N.losses c.n r < size → ∀ support, UfSucceeds c r support sel s) := by
  obtain ⟨N, h1, h2⟩ := toric_shots api rng r size hr h3 c hc qe ge hg sel anc hZ circ S0 S s h hrun hsam
  exact ⟨N, h1, fun hd support => h2 _ _ 3 true (uf_few support) (by simp) hd⟩

/-- **C67 (rotated code and XZZX code)**, without erasures (see C56). -/
theorem C67_rotated (api : FloatApi F) (rng : Rng F) (r size : Nat) (xzzx : Bool) (hr : 1 ≤ r) (h2 : 2 ≤ size) (c : LatCode)
    (hc : makeRotated r size xzzx = .ok c) (qe ge : List (List Char × ErrDict F)) (hg : ∀ e ∈ ge, e.2 = [])
    (hq : ∀ q < c.n, (flagsOf qe).erasure q = false) (sel : LogicalSel) (anc : Bool) (hZ : anc = true ∨ OnlyZ c sel)
    (circ : List (Gate F)) (S0 S : Sim (numberOfQubits circ)) (s : Sample)
    (h : generateCircuit api c qe ge sel anc = .ok circ) (hrun : S0.run api rng circ true = .ok S)
    (hsam : Sample.fromRaw c S.results.1 S.results.2 anc = .ok s) :
    ∃ N : Noise, N.Gives c r (flagsOf qe) sel (S0.reset.events api rng circ) s ∧
      (3 * N.count c.n c.code.stabilisers.length r + N.losses c.n r < size → ∀ support, UfSucceeds c r support sel s) := by
  obtain ⟨N, h1, h2⟩ := rotated_shots api rng r size xzzx hr h2 c hc qe ge hg hq sel anc hZ circ S0 S s h hrun hsam
  exact ⟨N, h1, fun hd support => h2 _ _ 3 true (uf_few support) (by simp) hd⟩

/-- **C67 (repetition code)**, for the logical operator Z, measured with an ancilla (see C27 for the default mode). -/
theorem C67_repetition (api : FloatApi F) (rng : Rng F) (r size : Nat) (hr : 1 ≤ r) (hodd : size % 2 = 1) (h3 : 3 ≤ size) (c : LatCode)
    (hc : makeRepetition r size = .ok c) (qe ge : List (List Char × ErrDict F)) (hg : ∀ e ∈ ge, e.2 = []) (sel : LogicalSel) (hZ : OnlyZ c sel)
    (circ : List (Gate F)) (S0 S : Sim (numberOfQubits circ)) (s : Sample)
    (h : generateCircuit api c qe ge sel true = .ok circ) (hrun : S0.run api rng circ true = .ok S)
    (hsam : Sample.fromRaw c S.results.1 S.results.2 true = .ok s) :
    ∃ N : Noise, N.Gives c r (flagsOf qe) sel (S0.reset.events api rng circ) s ∧
      (3 * N.count c.n c.code.stabilisers.length r + N.losses c.n r < size → ∀ support, UfSucceeds c r support sel s) := by
  obtain ⟨N, h1, h2⟩ := repetition_shots api rng r size hr hodd h3 c hc qe ge hg sel hZ circ S0 S s h hrun hsam
  exact ⟨N, h1, fun hd support => h2 _ _ 3 true (uf_few support) (by simp) hd⟩

/-! ### Examples -/

/-- The sample of an experiment with errors. -/
def noisySample {F : Type} (api : FloatApi F) (rng : Rng F) (c : LatCode) (qe : List (List Char × ErrDict F)) (sel : LogicalSel) (anc : Bool) :
    Except Err (List Bool × List (List Bool) × Option (List (List Bool))) :=
  match generateCircuit api c qe [] sel anc with
  | .error e => .error e
  | .ok circ => match (Sim.fresh (numberOfQubits circ) 0).run api rng circ true with
    | .error e => .error e
    | .ok S => match Sample.fromRaw c S.results.1 S.results.2 anc with
      | .error e => .error e
      | .ok s => .ok (s.toggle, s.syndrome, s.erased)

theorem noisySample_inv {api : FloatApi F} {rng : Rng F} {c : LatCode} {qe : List (List Char × ErrDict F)} {sel : LogicalSel} {anc : Bool}
    {res : List Bool × List (List Bool) × Option (List (List Bool))} (hr : noisySample api rng c qe sel anc = .ok res) : ∃ circ S s,
      generateCircuit api c qe [] sel anc = .ok circ ∧ (Sim.fresh (numberOfQubits circ) 0).run api rng circ true = .ok S ∧
      Sample.fromRaw c S.results.1 S.results.2 anc = .ok s ∧ res = (s.toggle, s.syndrome, s.erased) := by
  unfold noisySample at hr
  cases hg : generateCircuit api c qe [] sel anc with
  | error e => rw [hg] at hr; cases hr
  | ok circ =>
    rw [hg] at hr
    dsimp only at hr
    cases h1 : (Sim.fresh (numberOfQubits circ) 0).run api rng circ true with
    | error e => rw [h1] at hr; cases hr
    | ok S =>
      rw [h1] at hr
      dsimp only at hr
      cases h2 : Sample.fromRaw c S.results.1 S.results.2 anc with
      | error e => rw [h2] at hr; cases hr
      | ok s =>
        rw [h2] at hr
        exact ⟨circ, S, s, rfl, h1, h2, (Except.ok.inj hr).symm⟩

/-- A Pauli channel on qubit 1. -/
def onePauli : List (List Char × ErrDict Nat) := [("pauli".toList, [(.int 1, [("x".toList, .flt 1)])])]

/-- Pauli channels on qubit 0, erasures of all qubits and wrong outcomes of the first stabiliser. -/
def manyErrors : List (List Char × ErrDict Nat) :=
  [("pauli".toList, [(.int 0, [("x".toList, .flt 1)])]), ("erasure".toList, [(.int 0, [("p".toList, .flt 0)]), (.int 1, [("p".toList, .flt 1)]),
    (.int 2, [("p".toList, .flt 0)])]), ("measurement".toList, [(.int 3, [("p".toList, .flt 1)])])]

/-- The first Pauli channel applies X, the others nothing; erased qubits suffer Z. -/
def rngFirst : Rng Nat where
  below _ p := decide (p = 1)
  bit _ := true
  int3 _ := 0
  int4 k := if k < 5 then 3 else 0
  choice4 k _ := some (if k < 3 then 1 else 0)
  choice16 _ _ := some 0

set_option maxRecDepth 100000 in
theorem rep3_many : noisySample natApi rngFirst ((Rep.lat 3).latCode 2) manyErrors (.str "X".toList) true =
    .ok ([true], [[false, false], [true, false]], some [[false, true, false], [false, true, false]]) := by
  decide +kernel

/-- C66 for a run with Pauli errors, erasures and wrong outcomes: the error X on qubit 0 in the first round is hidden by the wrong outcome, which is
seen in the second round; the erasure of qubit 1 in the first round toggles the logical operator X. -/
example : ∃ circ S s, generateCircuit natApi ((Rep.lat 3).latCode 2) manyErrors [] (.str "X".toList) true = .ok circ ∧
    (Sim.fresh (numberOfQubits circ) 0).run natApi rngFirst circ true = .ok S ∧ s.toggle = [true] ∧ s.syndrome = [[false, false], [true, false]] ∧
    ∃ N : Noise, N.Gives ((Rep.lat 3).latCode 2) 2 (flagsOf manyErrors) (.str "X".toList) ((Sim.fresh (numberOfQubits circ) 0).reset.events natApi rngFirst circ) s := by
  obtain ⟨circ, S, s, h1, h2, h3, h4⟩ := noisySample_inv rep3_many
  simp only [Prod.mk.injEq] at h4
  exact ⟨circ, S, s, h1, h2, h4.1.symm, h4.2.1.symm,
    C66_sample_partial natApi rngFirst 2 _ manyErrors [] (by simp) _ true circ _ S s (by omega) (rep3_made 2) (.inl rfl) h1 h2 h3⟩

set_option maxRecDepth 100000 in
theorem rep5_one : noisySample natApi (rngBits []) ((Rep.lat 5).latCode 1) onePauli (.str "Z".toList) true =
    .ok ([false], [[true, true, false, false]], none) := by
  decide +kernel

set_option maxRecDepth 100000 in
/-- C67 for a run in which an error happens on the repetition code of size 5. -/
example : ∃ circ S s, generateCircuit natApi ((Rep.lat 5).latCode 1) onePauli [] (.str "Z".toList) true = .ok circ ∧
    (Sim.fresh (numberOfQubits circ) 0).run natApi (rngBits []) circ true = .ok S ∧ s.syndrome = [[true, true, false, false]] ∧
    UfSucceeds ((Rep.lat 5).latCode 1) 1 false (.str "Z".toList) s := by
  obtain ⟨circ, S, s, h1, h2, h3, h4⟩ := noisySample_inv rep5_one
  simp only [Prod.mk.injEq] at h4
  have hc : makeRepetition 1 5 = .ok ((Rep.lat 5).latCode 1) := by
    rw [makeRepetition, Rep.make 5 (by decide) (by omega)]; exact mkLatCode_ok (Rep.wf 5 (by omega)) (Rep.full 5 (by omega)) 1
  have hz : OnlyZ ((Rep.lat 5).latCode 1) (.str "Z".toList) := by
    intro is his i hi a ha q
    have e : logicalOpsToIndices ((Rep.lat 5).latCode 1).code.logicalOps.length (.str "Z".toList) = .ok [1] := by decide +kernel
    rw [e] at his
    cases his
    obtain rfl := List.mem_singleton.1 hi
    cases ha
    revert q
    decide +kernel
  obtain ⟨N, hN, hok⟩ := C67_repetition natApi (rngBits []) 1 5 (by omega) (by decide) (by omega) _ hc onePauli [] (by simp) _ hz circ _ S s h1 h2 h3
  refine ⟨circ, S, s, h1, h2, h4.2.1.symm, hok ?_ false⟩
  have hn : ((Rep.lat 5).latCode 1).n = 5 := by decide +kernel
  have hp : ∀ t, ∀ q < 5, q ≠ 1 → N.pauli t q = 0 := fun t q hq h1 => hN.only.pauli t q (.inl (by
    have : ∀ q < 5, q ≠ 1 → (flagsOf onePauli).pauli q = false := by decide +kernel
    exact this q hq h1))
  have he : ∀ t, ∀ q < 5, N.erased t q = false := fun t q hq => hN.only.erased t q (.inl (by
    have : ∀ q < 5, (flagsOf onePauli).erasure q = false := by decide +kernel
    exact this q hq))
  have c1 : N.count ((Rep.lat 5).latCode 1).n ((Rep.lat 5).latCode 1).code.stabilisers.length 1 ≤ 1 + 0 := by
    unfold Noise.count
    refine Nat.add_le_add ?_ ?_
    · refine (Set.ncard_le_ncard (t := {(0, 1)}) ?_ (Set.finite_singleton _)).trans (by rw [Set.ncard_singleton])
      rintro ⟨t, q⟩ ⟨h1, h5, h2, _⟩
      have ht : t = 0 := by dsimp only at h1; omega
      subst ht
      by_cases hq : q = 1
      · rw [hq]; rfl
      · exact absurd (hp 0 q (by rw [← hn]; exact h5) hq) h2
    · rw [Nat.le_zero, Set.ncard_eq_zero (finite_pairs _ _ _)]
      refine Set.eq_empty_of_forall_notMem ?_
      rintro ⟨t, q⟩ ⟨h1, _, h2⟩
      rw [hN.only.last t q (by dsimp only at h1; omega)] at h2
      cases h2
  have c2 : N.losses ((Rep.lat 5).latCode 1).n 1 = 0 := by
    unfold Noise.losses
    rw [Set.ncard_eq_zero (finite_pairs _ _ _)]
    refine Set.eq_empty_of_forall_notMem ?_
    rintro ⟨t, q⟩ ⟨_, h5, h2⟩
    rw [he t q (by rw [← hn]; exact h5)] at h2
    cases h2
  omega

end Plaquette
