import Verif.Lemmas.GateSample
import Verif.Props.MatchingExperiment

/-!
# Experiments with faulty gates (C83), and their decoding (C84)
-/

namespace Plaquette
variable {F : Type}

/-! ### Sparse codes -/

theorem degree_eq {L : Lattice} (hw : L.Wf) (q : Fin L.dataqubits.length) :
    ((L.stabgens.map Prod.fst).toFinset.filter fun a => q.val ∈ L.suppF a).card = L.code.stabilisers.countP (·.actsOn q) := by
  have hst : (L.stabgens.map Prod.fst).Nodup := by
    have hn := hw.occ
    rw [Lattice.occupied] at hn
    exact (List.nodup_append.mp (List.nodup_append.mp hn).1).2.1
  have e1 : (L.stabgens.map Prod.fst).toFinset.filter (fun a => q.val ∈ L.suppF a) =
      ((L.stabgens.map Prod.fst).filter fun a => decide (q.val ∈ L.suppF a)).toFinset := by
    ext a
    simp
  rw [e1, List.toFinset_card_of_nodup (hst.filter _), ← List.countP_eq_length_filter, Lattice.code]
  rw [List.countP_map, List.countP_map]
  congr 1
  funext st
  have := edgesOp_supp (n := L.dataqubits.length) L.idx (L.opEdges st.1) (hw.op_idx_nodup st.1) q
  show decide (q.val ∈ L.suppF st.1) = ((L.vop st.1).x q || (L.vop st.1).z q)
  unfold Lattice.vop
  rw [this]
  simp [Lattice.suppF]

theorem sparse_iff {L : Lattice} (hw : L.Wf) {w deg : Nat} : Sparse L.code.stabilisers w deg ↔ L.Sparse w deg := by
  constructor
  · intro h
    refine ⟨fun a ha => ?_, fun q hq => ?_⟩
    · obtain ⟨st, hst, rfl⟩ := List.mem_map.1 ha
      rw [← hw.weight]
      exact h.weight _ (List.mem_map.2 ⟨st, hst, rfl⟩)
    · exact (degree_eq hw ⟨q, hq⟩).trans_le (h.degree ⟨q, hq⟩)
  · intro h
    refine ⟨fun p hp => ?_, fun q => ?_⟩
    · obtain ⟨st, hst, rfl⟩ := List.mem_map.1 hp
      rw [hw.weight]
      exact h.weight _ (List.mem_map.2 ⟨st, hst, rfl⟩)
    · exact (degree_eq hw q).symm.trans_le (h.degree q q.2)

theorem degree_le {L : Lattice} (hw : L.Wf) {q k : Nat} (hq : q < L.dataqubits.length)
    (h : ∃ A : Finset Pos, A.card ≤ k ∧ ∀ st ∈ L.stabgens, ∀ e ∈ L.opEdges st.1, e.data = L.dataqubits[q] → st.1 ∈ A) :
    ((L.stabgens.map Prod.fst).toFinset.filter fun a => q ∈ L.suppF a).card ≤ k := by
  have hp : L.dataqubits[q] ∈ L.dataqubits := List.getElem_mem _
  have hidx : L.idx L.dataqubits[q] = q := by
    have hn := hw.occ
    rw [Lattice.occupied, List.append_assoc] at hn
    rw [hw.idx_data hp]
    exact List.Nodup.idxOf_getElem (List.nodup_append.mp hn).1 _ _
  obtain ⟨A, hA, h⟩ := h
  refine (Finset.card_le_card fun a ha => ?_).trans hA
  simp only [Finset.mem_filter, List.mem_toFinset, Lattice.suppF, List.mem_map] at ha
  obtain ⟨⟨st, hst, rfl⟩, e, he, heq⟩ := ha
  exact h st hst e he (hw.idx_inj (hw.op_data he) hp (heq.trans hidx.symm))

theorem sparse_two {L : Lattice} (hw : L.Wf) (hx : L.TwoAt .X) (hz : L.TwoAt .Z) {w : Nat} (hwt : ∀ st ∈ L.stabgens, (L.opEdges st.1).length ≤ w) : L.Sparse w 4 := by
  refine ⟨fun a ha => ?_, fun q hq => degree_le hw hq ?_⟩
  · obtain ⟨st, hst, rfl⟩ := List.mem_map.1 ha
    exact hwt st hst
  · obtain ⟨u, v, h1⟩ := hx _ (List.getElem_mem hq)
    obtain ⟨u', v', h2⟩ := hz _ (List.getElem_mem hq)
    refine ⟨{u, v, u', v'}, Finset.card_le_four, fun st hst e he hd => ?_⟩
    simp only [Finset.mem_insert, Finset.mem_singleton]
    by_cases hX : e.factor = .X
    · have := h2 st hst e he hd (by rw [hX]; decide)
      tauto
    · have := h1 st hst e he hd hX
      tauto

theorem dirEdges_length {δ : Type} (dirs : List δ) (out : δ → Prop) [DecidablePred out] (mk : δ → LEdge) : (dirEdges dirs out mk).length ≤ dirs.length :=
  List.length_filterMap_le _ _

theorem Planar.sparse {size : Nat} (h1 : 2 ≤ size) : (Planar.lat size crossOrder).Sparse 4 4 := by
  refine sparse_two (Planar.wf _ _ (by omega)) (Planar.twoAt _ (by decide)) (Planar.twoAt _ (by decide)) fun st hst => ?_
  rw [Planar.op_stab size crossOrder hst, List.length_map]
  exact List.length_filterMap_le _ _

theorem Toric.sparse {size : Nat} (h2 : 2 ≤ size) : (Toric.lat size crossOrder).Sparse 4 4 := by
  refine sparse_two (Toric.wf _ h2) (Toric.twoAt h2 _ (by decide)) (Toric.twoAt h2 _ (by decide)) fun st hst => ?_
  show (((Toric.fam size).lat _ _).opEdges st.1).length ≤ 4
  rw [(Toric.ok h2).op_stab _ (Fam.keeps_step (Toric.fam size).raw.isStab crossOrder) hst, List.length_map]
  exact dirEdges_length _ _ _

theorem Rotated.sparse {size : Nat} {xzzx : Bool} (h2 : 2 ≤ size) : (Rotated.lat size xzzx diagOrder).Sparse 4 4 := by
  refine sparse_two (Rotated.wf _ h2) (Rotated.twoAt h2 _ (by decide)) (Rotated.twoAt h2 _ (by decide)) fun st hst => ?_
  show (((Rotated.fam size xzzx).lat _ _).opEdges st.1).length ≤ 4
  rw [(Rotated.ok h2).op_stab _ (Rotated.keeps _ _ _) hst, List.length_map]
  exact dirEdges_length _ _ _

theorem Rep.sparse {size : Nat} (h3 : 3 ≤ size) : (Rep.lat size).Sparse 2 2 := by
  have key : ∀ st ∈ (Rep.lat size).stabgens, (∀ e ∈ (Rep.lat size).opEdges st.1, e.factor = .Z) ∧ ((Rep.lat size).opEdges st.1).length ≤ 2 := by
    intro st hst
    have hst : st ∈ Rep.stabs size := hst
    obtain ⟨i, hi, rfl⟩ := List.mem_map.mp hst
    rw [Rep.op_stab _ _ hi]
    refine ⟨fun e he => ?_, le_refl _⟩
    simp only [Rep.stabEdges, List.mem_cons, List.not_mem_nil, or_false] at he
    rcases he with rfl | rfl <;> rfl
  refine ⟨fun a ha => ?_, fun q hq => degree_le (Rep.wf _ h3) hq ?_⟩
  · obtain ⟨st, hst, rfl⟩ := List.mem_map.1 ha
    exact (key st hst).2
  · obtain ⟨u, v, h1⟩ := Rep.twoAt (size := size) .X _ (List.getElem_mem hq)
    refine ⟨{u, v}, Finset.card_le_two, fun st hst e he hd => ?_⟩
    simp only [Finset.mem_insert, Finset.mem_singleton]
    exact h1 st hst e he hd (by rw [(key st hst).1 e he]; decide)

/-! ### C83 -/

/-- **C83**: an experiment on any code in which at most `deg` stabilisers act on each qubit and each stabiliser acts on at most `w` qubits, with any errors of
qubits, measurements and gates: the sample is that of an experiment in which only data qubits have errors and outcomes are wrong (see C66), and
there are at most as many of those as there are errors of data qubits and of outcomes in the run, when each faulty gate is counted `w (deg + 1)` times. At
most as many qubits are reported as erased as are erased in the run. With logical ancillas, or for operators of letters Z with the weight of the first logical operator (see C66). -/
theorem C83_gate_faults (api : FloatApi F) (rng : Rng F) (r : Nat) (c : LatCode) (qe ge : List (List Char × ErrDict F))
    (sel : LogicalSel) (anc : Bool) (circ : List (Gate F)) (S0 S : Sim (numberOfQubits circ)) (s : Sample) (hr : 1 ≤ r) (hm : Made r c)
    (hZ : anc = true ∨ OnlyZ c sel ∧ SameWeight c sel) (w deg : Nat) (hS : Sparse c.code.stabilisers w deg)
    (h : generateCircuit api c qe ge sel anc = .ok circ) (hrun : S0.run api rng circ true = .ok S)
    (hsam : Sample.fromRaw c S.results.1 S.results.2 anc = .ok s) :
    ∃ E : Faults c.n, E.Gives r sel s ∧
      E.count r c.code.stabilisers.length s.erased ≤ faultWeight c.n (w * (deg + 1)) (S0.reset.trace api rng circ) ∧
      erasures c.n r s.erased ≤ lossCount (S0.reset.trace api rng circ) ∧
      ∀ t q, SynBit s.erased t q → (flagsOf qe).erasure q = true := by
  obtain ⟨L, rfl, hw, hc, hf, hs⟩ := hm.lattice
  obtain ⟨_, _, _, _, _, is, _, his, _⟩ := gate_circuit hw hs h
  obtain ⟨N, h1, _, h2⟩ := gate_sample hw hc hf hs api rng hr his
    (hZ.imp id fun hz => ⟨letters_z hw hs his hz.1, weights_eq hw his hz.2⟩) ((sparse_iff hw).1 hS) h hrun
  obtain ⟨⟨k1, k2, k3, k4, k5⟩, k6, k7⟩ := h2 s hsam
  have hm' : (L.latCode r).code.stabilisers.length = L.stabgens.length := by simp [Lattice.code]
  refine ⟨N.faults _, faults_give his k1 k2 k3 k4, by rw [hm']; exact k6, k7, fun t q hb => ?_⟩
  obtain ⟨a, row, ha, hrow, hq⟩ := hb
  obtain ⟨s1, s2⟩ := k4 a ha
  have ht : t < r := by rw [← s1]; exact (List.getElem?_eq_some_iff.1 hrow).1
  have hqn : q < L.dataqubits.length := by
    have h' := s2 row (List.mem_of_getElem? hrow)
    have h'' := (List.getElem?_eq_some_iff.1 hq).1
    rw [h'] at h''
    exact h''
  have := (k5 t ht q hqn).1 ⟨a, row, ha, hrow, hq⟩
  by_contra hf'
  rw [h1 t q (.inl (by simpa using hf'))] at this
  cases this

/-- **C83**, the unpacking: if no data qubit or every data qubit may be erased, every run of the circuit is unpacked into a sample. -/
theorem C83_unpacks (api : FloatApi F) (rng : Rng F) (r : Nat) (c : LatCode) (qe ge : List (List Char × ErrDict F))
    (sel : LogicalSel) (anc : Bool) (circ : List (Gate F)) (S0 S : Sim (numberOfQubits circ)) (hr : 1 ≤ r) (hm : Made r c)
    (hZ : anc = true ∨ OnlyZ c sel ∧ SameWeight c sel)
    (h : generateCircuit api c qe ge sel anc = .ok circ) (hrun : S0.run api rng circ true = .ok S)
    (hall : (∀ q < c.n, (flagsOf qe).erasure q = false) ∨ ∀ q < c.n, (flagsOf qe).erasure q = true) :
    ∃ s, Sample.fromRaw c S.results.1 S.results.2 anc = .ok s := by
  obtain ⟨L, rfl, hw, hc, hf, hs⟩ := hm.lattice
  obtain ⟨_, _, _, _, _, is, _, his, _⟩ := gate_circuit hw hs h
  have hS : Sparse L.code.stabilisers ((L.code.stabilisers.map Op.weight).sum) L.code.stabilisers.length :=
    ⟨fun p hp => List.single_le_sum (by simp) _ (List.mem_map_of_mem hp), fun q => List.countP_le_length⟩
  obtain ⟨N, _, h1, _⟩ := gate_sample hw hc hf hs api rng hr his
    (hZ.imp id fun hz => ⟨letters_z hw hs his hz.1, weights_eq hw his hz.2⟩) ((sparse_iff hw).1 hS) h hrun
  exact h1 hall

/-- **C83**, the families: the stabilisers of the planar, toric and rotated codes act on at most four qubits, and at most four act on each; for the repetition code these numbers are two. -/
theorem C83_sparse (r size : Nat) (c : LatCode) :
    (2 ≤ size → makePlanar r size = .ok c → Sparse c.code.stabilisers 4 4) ∧ (2 ≤ size → makeToric r size = .ok c → Sparse c.code.stabilisers 4 4) ∧
    (∀ xzzx, 2 ≤ size → makeRotated r size xzzx = .ok c → Sparse c.code.stabilisers 4 4) ∧
    (size % 2 = 1 → 3 ≤ size → makeRepetition r size = .ok c → Sparse c.code.stabilisers 2 2) := by
  refine ⟨fun h2 hc => ?_, fun h2 hc => ?_, fun xzzx h2 hc => ?_, fun hodd h3 hc => ?_⟩
  · have hc' : makePlanar r size = .ok ((Planar.lat size crossOrder).latCode r) := by
      rw [makePlanar, Planar.make size (by omega) crossOrder (by decide)]; exact mkLatCode_ok (Planar.wf _ _ (by omega)) (Planar.full _ _ (by omega)) r
    obtain rfl : (Planar.lat size crossOrder).latCode r = c := by rw [hc'] at hc; exact Except.ok.inj hc
    exact (sparse_iff (Planar.wf _ _ (by omega))).2 (Planar.sparse h2)
  · have hc' : makeToric r size = .ok ((Toric.lat size crossOrder).latCode r) := by
      rw [makeToric, Toric.make h2 crossOrder (by decide)]; exact mkLatCode_ok (Toric.wf _ h2) (Toric.full _ h2) r
    obtain rfl : (Toric.lat size crossOrder).latCode r = c := by rw [hc'] at hc; exact Except.ok.inj hc
    exact (sparse_iff (Toric.wf _ h2)).2 (Toric.sparse h2)
  · have hc' : makeRotated r size xzzx = .ok ((Rotated.lat size xzzx diagOrder).latCode r) := by
      rw [makeRotated, Rotated.make h2 diagOrder (by decide)]; exact mkLatCode_ok (Rotated.wf _ h2) (Rotated.full _ h2) r
    obtain rfl : (Rotated.lat size xzzx diagOrder).latCode r = c := by rw [hc'] at hc; exact Except.ok.inj hc
    exact (sparse_iff (Rotated.wf _ h2)).2 (Rotated.sparse h2)
  · have hc' : makeRepetition r size = .ok ((Rep.lat size).latCode r) := by
      rw [makeRepetition, Rep.make size hodd h3]; exact mkLatCode_ok (Rep.wf size h3) (Rep.full size h3) r
    obtain rfl : (Rep.lat size).latCode r = c := by rw [hc'] at hc; exact Except.ok.inj hc
    exact (sparse_iff (Rep.wf _ h3)).2 (Rep.sparse h3)

/-! ### C84 -/

/-- Few faults are decoded successfully, when a faulty gate counts `k` times: less than a third of `d` by union find, and less than half of `d` by PyMatching
(if nothing can be erased) and Fusion Blossom; erased qubits count once. -/
structure GateShots (c : LatCode) (r d k : Nat) (fl : Flags) (sel : LogicalSel) (tr : List (Kicked1 F)) (s : Sample) : Prop where
  uf : 3 * faultWeight c.n k tr + lossCount tr < d → ∀ support, UfSucceeds c r support sel s
  pm : (∀ q < c.n, fl.erasure q = false) → 2 * faultWeight c.n k tr < d → ∀ solve, IsPyMatching solve → Succeeds (pmBackend solve) c r sel s
  fb : 2 * faultWeight c.n k tr + lossCount tr < d → ∀ solve, IsFusionBlossom solve → Succeeds (fbBackend solve) c r sel s

theorem gate_few {L : Lattice} (hw : L.Wf) (hf : L.Full) (hs : L.Sched) {r d : Nat} (hr : 1 ≤ r) (hm : Made r (L.latCode r)) (api : FloatApi F)
    (rng : Rng F) {qe ge : List (List Char × ErrDict F)} {sel : LogicalSel} {anc : Bool}
    (hZ : anc = true ∨ OnlyZ (L.latCode r) sel ∧ SameWeight (L.latCode r) sel) {w deg : Nat} (hS : L.Sparse w deg)
    {circ : List (Gate F)} {S0 S : Sim (numberOfQubits circ)} {s : Sample}
    (h : generateCircuit api (L.latCode r) qe ge sel anc = .ok circ) (hrun : S0.run api rng circ true = .ok S)
    (hsam : Sample.fromRaw (L.latCode r) S.results.1 S.results.2 anc = .ok s) (hA : (∀ q < L.dataqubits.length, (flagsOf qe).erasure q = false) ∨ L.Apart)
    (hl : ∀ is, logicalOpsToIndices L.logicals.length sel = .ok is → ∀ i ∈ is, L.HasLines d (L.selPos i)) :
    GateShots (L.latCode r) r d (w * (deg + 1)) (flagsOf qe) sel (S0.reset.trace api rng circ) s := by
  obtain ⟨_, _, _, _, _, is, _, his, _⟩ := gate_circuit hw hs h
  obtain ⟨E, hE, c1, c2, c3⟩ := C83_gate_faults api rng r _ qe ge sel anc circ S0 S s hr hm hZ w deg ((sparse_iff hw).2 hS) h hrun hsam
  have hno : (∀ q < L.dataqubits.length, (flagsOf qe).erasure q = false) → ∀ t q, ¬ SynBit s.erased t q := by
    intro hA t q hb
    have h1 := c3 t q hb
    obtain ⟨a, row, ha, hrow, hq⟩ := hb
    obtain ⟨s1, s2⟩ := hE.erasedShape a ha
    have hqn : q < L.dataqubits.length := by
      have h' := s2 row (List.mem_of_getElem? hrow)
      have h'' := (List.getElem?_eq_some_iff.1 hq).1
      rw [h'] at h''
      exact h''
    rw [hA q hqn] at h1
    cases h1
  have hm' : (L.latCode r).code.stabilisers.length = L.stabgens.length := by simp [Lattice.code]
  rw [hm'] at c1
  have key : ∀ (σ : Type) (b : Backend FW σ) (K : Nat) (lossy : Bool), Few K lossy b → (lossy = false → ∀ q < L.dataqubits.length, (flagsOf qe).erasure q = false) →
      K * faultWeight (L.latCode r).n (w * (deg + 1)) (S0.reset.trace api rng circ) + erasures L.dataqubits.length r s.erased < d →
      Succeeds b (L.latCode r) r sel s := fun σ b K lossy hb hE' hd =>
    succeeds_faults hw hf hm hb his hE (fun h => hno (hE' h)) (hA.imp hno id) (lt_of_le_of_lt (Nat.add_le_add_right (Nat.mul_le_mul_left K c1) _) hd)
      fun i hi => .inl (hl is his i hi)
  refine ⟨fun hd support => ?_, fun hq hd solve hS => ?_, fun hd solve hS => ?_⟩
  · exact key _ _ 3 true (uf_few support) (by simp) (lt_of_le_of_lt (Nat.add_le_add_left c2 _) hd)
  · refine key _ _ 2 false (pm_few hS) (fun _ => hq) ?_
    have : erasures L.dataqubits.length r s.erased = 0 := by
      unfold erasures
      rw [show {p : Nat × Fin L.dataqubits.length | p.1 < r ∧ SynBit s.erased p.1 p.2} = ∅ from
        Set.eq_empty_of_forall_notMem fun p hp => hno hq _ _ hp.2]
      exact Set.ncard_empty _
    rw [this]
    exact hd
  · exact key _ _ 2 true (fb_few hS) (by simp) (lt_of_le_of_lt (Nat.add_le_add_left c2 _) hd)

/-- **C84 (planar code)**: experiments with any errors of qubits, measurements and gates are decoded successfully if there are few faults, a faulty gate counting as 20. -/
theorem C84_planar (api : FloatApi F) (rng : Rng F) (r size : Nat) (hr : 1 ≤ r) (h3 : 3 ≤ size) (c : LatCode) (hc : makePlanar r size = .ok c)
    (qe ge : List (List Char × ErrDict F)) (sel : LogicalSel) (anc : Bool) (hZ : anc = true ∨ OnlyZ c sel)
    (circ : List (Gate F)) (S0 S : Sim (numberOfQubits circ)) (s : Sample)
    (h : generateCircuit api c qe ge sel anc = .ok circ) (hrun : S0.run api rng circ true = .ok S)
    (hsam : Sample.fromRaw c S.results.1 S.results.2 anc = .ok s) : GateShots c r size 20 (flagsOf qe) sel (S0.reset.trace api rng circ) s := by
  have hc' : makePlanar r size = .ok ((Planar.lat size crossOrder).latCode r) := by
    rw [makePlanar, Planar.make size (by omega) crossOrder (by decide)]; exact mkLatCode_ok (Planar.wf _ _ (by omega)) (Planar.full _ _ (by omega)) r
  obtain rfl : (Planar.lat size crossOrder).latCode r = c := by rw [hc'] at hc; exact Except.ok.inj hc
  exact gate_few (Planar.wf _ _ (by omega)) (Planar.full _ _ (by omega)) (Planar.sched _ (by omega)) hr (.planar (by omega) hc)
    api rng (hZ.imp id fun hz => ⟨hz, Planar.same (by omega) sel⟩) (Planar.sparse (by omega)) h hrun hsam (.inr (Planar.apart h3)) fun is his i hi =>
    lines_sel (Planar.has_lines (by omega)) is his i hi

/-- **C84 (toric code)**. -/
theorem C84_toric (api : FloatApi F) (rng : Rng F) (r size : Nat) (hr : 1 ≤ r) (h3 : 3 ≤ size) (c : LatCode) (hc : makeToric r size = .ok c)
    (qe ge : List (List Char × ErrDict F)) (sel : LogicalSel) (anc : Bool) (hZ : anc = true ∨ OnlyZ c sel)
    (circ : List (Gate F)) (S0 S : Sim (numberOfQubits circ)) (s : Sample)
    (h : generateCircuit api c qe ge sel anc = .ok circ) (hrun : S0.run api rng circ true = .ok S)
    (hsam : Sample.fromRaw c S.results.1 S.results.2 anc = .ok s) : GateShots c r size 20 (flagsOf qe) sel (S0.reset.trace api rng circ) s := by
  have h2 : 2 ≤ size := by omega
  have hc' : makeToric r size = .ok ((Toric.lat size crossOrder).latCode r) := by
    rw [makeToric, Toric.make h2 crossOrder (by decide)]; exact mkLatCode_ok (Toric.wf _ h2) (Toric.full _ h2) r
  obtain rfl : (Toric.lat size crossOrder).latCode r = c := by rw [hc'] at hc; exact Except.ok.inj hc
  exact gate_few (Toric.wf _ h2) (Toric.full _ h2) (Toric.sched _ h2) hr (.toric h2 hc)
    api rng (hZ.imp id fun hz => ⟨hz, Toric.same h2 sel⟩) (Toric.sparse h2) h hrun hsam (.inr (Toric.apart h3)) fun is his i hi =>
    lines_sel (Toric.has_lines h2) is his i hi

/-- **C84 (rotated code and XZZX code)**, without erasures (see C56). -/
theorem C84_rotated (api : FloatApi F) (rng : Rng F) (r size : Nat) (xzzx : Bool) (hr : 1 ≤ r) (h2 : 2 ≤ size) (c : LatCode)
    (hc : makeRotated r size xzzx = .ok c) (qe ge : List (List Char × ErrDict F))
    (hq : ∀ q < c.n, (flagsOf qe).erasure q = false) (sel : LogicalSel) (anc : Bool) (hZ : anc = true ∨ OnlyZ c sel)
    (circ : List (Gate F)) (S0 S : Sim (numberOfQubits circ)) (s : Sample)
    (h : generateCircuit api c qe ge sel anc = .ok circ) (hrun : S0.run api rng circ true = .ok S)
    (hsam : Sample.fromRaw c S.results.1 S.results.2 anc = .ok s) : GateShots c r size 20 (flagsOf qe) sel (S0.reset.trace api rng circ) s := by
  have hc' : makeRotated r size xzzx = .ok ((Rotated.lat size xzzx diagOrder).latCode r) := by
    rw [makeRotated, Rotated.make h2 diagOrder (by decide)]; exact mkLatCode_ok (Rotated.wf _ h2) (Rotated.full _ h2) r
  obtain rfl : (Rotated.lat size xzzx diagOrder).latCode r = c := by rw [hc'] at hc; exact Except.ok.inj hc
  exact gate_few (Rotated.wf _ h2) (Rotated.full _ h2) (Rotated.sched _ _ h2) hr (.rotated h2 hc)
    api rng (hZ.imp id fun hz => ⟨hz, Rotated.same h2 sel⟩) (Rotated.sparse h2) h hrun hsam (.inl hq) fun is his i hi =>
    lines_sel (Rotated.has_lines h2) is his i hi

/-- **C84 (repetition code)**, for the logical operator Z, measured with an ancilla; a faulty gate counts as 6. -/
theorem C84_repetition (api : FloatApi F) (rng : Rng F) (r size : Nat) (hr : 1 ≤ r) (hodd : size % 2 = 1) (h3 : 3 ≤ size) (c : LatCode)
    (hc : makeRepetition r size = .ok c) (qe ge : List (List Char × ErrDict F)) (sel : LogicalSel) (hZ : OnlyZ c sel)
    (circ : List (Gate F)) (S0 S : Sim (numberOfQubits circ)) (s : Sample)
    (h : generateCircuit api c qe ge sel true = .ok circ) (hrun : S0.run api rng circ true = .ok S)
    (hsam : Sample.fromRaw c S.results.1 S.results.2 true = .ok s) : GateShots c r size 6 (flagsOf qe) sel (S0.reset.trace api rng circ) s := by
  have hc' : makeRepetition r size = .ok ((Rep.lat size).latCode r) := by
    rw [makeRepetition, Rep.make size hodd h3]; exact mkLatCode_ok (Rep.wf size h3) (Rep.full size h3) r
  obtain rfl : (Rep.lat size).latCode r = c := by rw [hc'] at hc; exact Except.ok.inj hc
  exact gate_few (Rep.wf _ h3) (Rep.full _ h3) (Rep.sched _) hr (.repetition (by omega) hc)
    api rng (.inl rfl) (Rep.sparse h3) h hrun hsam (.inr (Rep.apart h3)) fun is his i hi => Rep.has_lines h3 hZ his i hi

/-! ### Examples -/

/-- The sample of an experiment with faulty gates, the numbers of errors of data qubits, wrong outcomes, faulty gates and erasures. -/
def gateRun (api : FloatApi F) (rng : Rng F) (c : LatCode) (qe ge : List (List Char × ErrDict F)) (sel : LogicalSel) (anc : Bool) :
    Except Err ((List Bool × List (List Bool) × Option (List (List Bool))) × List Nat) :=
  match generateCircuit api c qe ge sel anc with
  | .error e => .error e
  | .ok circ => match (Sim.fresh (numberOfQubits circ) 0).run api rng circ true with
    | .error e => .error e
    | .ok S => match Sample.fromRaw c S.results.1 S.results.2 anc with
      | .error e => .error e
      | .ok s =>
        let tr := (Sim.fresh (numberOfQubits circ) 0).reset.trace api rng circ
        .ok ((s.toggle, s.syndrome, s.erased), [tr.countP (dataFault c.n), tr.countP measFault, tr.countP (gateFault c.n), lossCount tr])

theorem gateRun_inv {api : FloatApi F} {rng : Rng F} {c : LatCode} {qe ge : List (List Char × ErrDict F)} {sel : LogicalSel} {anc : Bool}
    {res : (List Bool × List (List Bool) × Option (List (List Bool))) × List Nat} (hr : gateRun api rng c qe ge sel anc = .ok res) : ∃ circ S s,
      generateCircuit api c qe ge sel anc = .ok circ ∧ (Sim.fresh (numberOfQubits circ) 0).run api rng circ true = .ok S ∧
      Sample.fromRaw c S.results.1 S.results.2 anc = .ok s ∧ res = ((s.toggle, s.syndrome, s.erased),
        let tr := (Sim.fresh (numberOfQubits circ) 0).reset.trace api rng circ
        [tr.countP (dataFault c.n), tr.countP measFault, tr.countP (gateFault c.n), lossCount tr]) := by
  unfold gateRun at hr
  split at hr
  · cases hr
  next circ h1 =>
  split at hr
  · cases hr
  next S h2 =>
  split at hr
  · cases hr
  next s h3 => exact ⟨circ, S, s, h1, h2, h3, (Except.ok.inj hr).symm⟩

/-- Errors of one of the gates CZ and of a Hadamard gate. -/
def badGates : List (List Char × ErrDict Nat) :=
  [("CZ".toList, [(.tup [3, 0], [("xx".toList, .flt 1)])]), ("H".toList, [(.int 4, [("z".toList, .flt 1)])])]

set_option maxRecDepth 100000 in
theorem rep3_gates : gateRun natApi (rngBits []) ((Rep.lat 3).latCode 2) onePauli badGates (.str "Z".toList) true =
    .ok (([false], [[true, false], [true, false]], none), [2, 0, 3, 0]) := by
  decide +kernel

set_option maxRecDepth 100000 in
/-- C83 for a run with two errors of data qubits and three faulty gates. -/
example : ∃ circ S s, generateCircuit natApi ((Rep.lat 3).latCode 2) onePauli badGates (.str "Z".toList) true = .ok circ ∧
    (Sim.fresh (numberOfQubits circ) 0).run natApi (rngBits []) circ true = .ok S ∧ s.syndrome = [[true, false], [true, false]] ∧
    ((Sim.fresh (numberOfQubits circ) 0).reset.trace natApi (rngBits []) circ).countP (gateFault 3) = 3 ∧
    ∃ E : Faults ((Rep.lat 3).latCode 2).n, E.Gives 2 (.str "Z".toList) s ∧ E.count 2 ((Rep.lat 3).latCode 2).code.stabilisers.length s.erased ≤ 20 := by
  obtain ⟨circ, S, s, h1, h2, h3, h4⟩ := gateRun_inv rep3_gates
  simp only [Prod.mk.injEq, List.cons.injEq, and_true] at h4
  obtain ⟨⟨_, k1, _⟩, k2, k3, k4, k5⟩ := h4
  have hc : makeRepetition 2 3 = .ok ((Rep.lat 3).latCode 2) := by
    rw [makeRepetition, Rep.make 3 (by decide) (by omega)]; exact mkLatCode_ok (Rep.wf 3 (by omega)) (Rep.full 3 (by omega)) 2
  obtain ⟨E, e1, e2, _⟩ := C83_gate_faults natApi (rngBits []) 2 _ onePauli badGates _ true circ _ S s (by omega) (rep3_made 2) (.inl rfl) 2 2
    ((C83_sparse 2 3 _).2.2.2 (by decide) (by omega) hc) h1 h2 h3
  have hn : (Rep.lat 3).dataqubits.length = 3 := by decide +kernel
  refine ⟨circ, S, s, h1, h2, k1.symm, by rw [hn] at k4; exact k4.symm, E, e1, e2.trans ?_⟩
  show faultWeight (Rep.lat 3).dataqubits.length _ _ ≤ 20
  unfold faultWeight
  rw [← k2, ← k3, ← k4]

/-- Errors of one gate. -/
def badGate : List (List Char × ErrDict Nat) := [("CZ".toList, [(.tup [5, 0], [("xx".toList, .flt 1)])])]

/-- Draws for which the gate does not fail. -/
def rngGate : Rng Nat := { rngBits [] with choice16 := fun _ _ => some 0 }

set_option maxRecDepth 100000 in
theorem rep5_gate : gateRun natApi rngGate ((Rep.lat 5).latCode 2) onePauli badGate (.str "Z".toList) true =
    .ok (([false], [[true, true, false, false], [true, true, false, false]], none), [2, 0, 0, 0]) := by
  decide +kernel

set_option maxRecDepth 100000 in
/-- C84 for a run with two errors of data qubits and a gate with an error that does not happen (a faulty gate needs the code of size 13). -/
example : ∃ circ S s, generateCircuit natApi ((Rep.lat 5).latCode 2) onePauli badGate (.str "Z".toList) true = .ok circ ∧
    (Sim.fresh (numberOfQubits circ) 0).run natApi rngGate circ true = .ok S ∧ s.syndrome = [[true, true, false, false], [true, true, false, false]] ∧
    ∀ solve, IsFusionBlossom solve → Succeeds (fbBackend solve) ((Rep.lat 5).latCode 2) 2 (.str "Z".toList) s := by
  obtain ⟨circ, S, s, h1, h2, h3, h4⟩ := gateRun_inv rep5_gate
  simp only [Prod.mk.injEq, List.cons.injEq, and_true] at h4
  obtain ⟨⟨_, k1, _⟩, k2, k3, k4, k5⟩ := h4
  have hc : makeRepetition 2 5 = .ok ((Rep.lat 5).latCode 2) := by
    rw [makeRepetition, Rep.make 5 (by decide) (by omega)]; exact mkLatCode_ok (Rep.wf 5 (by omega)) (Rep.full 5 (by omega)) 2
  have hz : OnlyZ ((Rep.lat 5).latCode 2) (.str "Z".toList) := by
    intro is his i hi a ha q
    have e : logicalOpsToIndices ((Rep.lat 5).latCode 2).code.logicalOps.length (.str "Z".toList) = .ok [1] := by decide +kernel
    rw [e] at his
    cases his
    obtain rfl := List.mem_singleton.1 hi
    cases ha
    revert q
    decide +kernel
  refine ⟨circ, S, s, h1, h2, k1.symm, (C84_repetition natApi rngGate 2 5 (by omega) (by decide) (by omega) _ hc onePauli badGate _ hz circ _ S s h1 h2 h3).fb ?_⟩
  show 2 * faultWeight (Rep.lat 5).dataqubits.length _ _ + _ < 5
  unfold faultWeight
  rw [← k2, ← k3, ← k4, ← k5]
  decide

end Plaquette
