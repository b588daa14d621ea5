import Verif.Lemmas.QecExperiment

/-!
# Properties of the generated circuits (C28)
-/

namespace Plaquette

/-! ### C28: no errors, no events -/

/-- The codes made by the class methods of `LatticeCode` (with the default order of the edges). -/
inductive Made (r : Nat) : LatCode → Prop
  | planar {size : Nat} {c : LatCode} : 2 ≤ size → makePlanar r size = .ok c → Made r c
  | toric {size : Nat} {c : LatCode} : 2 ≤ size → makeToric r size = .ok c → Made r c
  | rotated {size : Nat} {xzzx : Bool} {c : LatCode} : 2 ≤ size → makeRotated r size xzzx = .ok c → Made r c
  | repetition {size : Nat} {c : LatCode} : 2 ≤ size → makeRepetition r size = .ok c → Made r c
  | fiveQubit {c : LatCode} : makeFiveQubit r = .ok c → Made r c
  | shor {c : LatCode} : makeShor r = .ok c → Made r c

theorem Made.lattice {r : Nat} {c : LatCode} (h : Made r c) :
    ∃ L : Lattice, c = L.latCode r ∧ L.Wf ∧ L.Comm ∧ L.Full ∧ L.Sched := by
  have fin : ∀ {x : Except Err Lattice} {L : Lattice}, x = .ok L → L.Wf → L.Comm → L.Full → L.Sched →
      x.bind (fun L => mkLatCode L r) = .ok c → ∃ L : Lattice, c = L.latCode r ∧ L.Wf ∧ L.Comm ∧ L.Full ∧ L.Sched := by
    rintro x L rfl hw hc hf hs h
    have h : mkLatCode L r = .ok c := h
    rw [mkLatCode_ok hw hf, Except.ok.injEq] at h
    exact ⟨L, h.symm, hw, hc, hf, hs⟩
  cases h with
  | planar h2 h =>
    exact fin (Planar.make _ h2 crossOrder (by decide)) (Planar.wf _ _ (by omega)) (Planar.comm _ _ (by omega)) (Planar.full _ _ h2)
      (Planar.sched _ (by omega)) h
  | toric h2 h =>
    exact fin (Toric.make h2 crossOrder (by decide)) (Toric.wf _ h2) (Toric.comm _ h2) (Toric.full _ h2) (Toric.sched _ h2) h
  | rotated h2 h =>
    exact fin (Rotated.make h2 diagOrder (by decide)) (Rotated.wf _ h2) (Rotated.comm _ h2) (Rotated.full _ h2)
      (Rotated.sched _ _ h2) h
  | @repetition size _ h2 h =>
    by_cases hodd : size % 2 = 1
    · have h3 : 3 ≤ size := by omega
      exact fin (Rep.make size hodd h3) (Rep.wf size h3) (Rep.comm size h3) (Rep.full size h3) (Rep.sched size) h
    · rw [makeRepetition, repetitionLattice, if_pos hodd] at h
      cases h
  | fiveQubit h =>
    obtain ⟨L, hL, hw, hc, hf⟩ := goodResult_spec five_good
    exact fin hL hw hc hf (sequential_spec five_seq hL) h
  | shor h =>
    obtain ⟨L, hL, hw, hc, hf⟩ := goodResult_spec shor_good
    exact fin hL hw hc hf (sequential_spec shor_seq hL) h

/-- The experiment without errors: the circuit is run on a fresh simulator with as many qubits as the circuit needs, and
the sample has neither syndrome events nor logical toggles. -/
def NoEvents {F : Type} (api : FloatApi F) (rng : Rng F) (pos r : Nat) (c : LatCode) (circ : List (Gate F)) (anc : Bool) : Prop :=
  ∃ (S : Sim (numberOfQubits circ)) (s : Sample), (Sim.fresh (numberOfQubits circ) pos).run api rng circ true = .ok S ∧
    Sample.fromRaw c S.results.1 S.results.2 anc = .ok s ∧
    s.syndrome = List.replicate r (List.replicate c.code.stabilisers.length false) ∧
    s.toggle = List.replicate c.code.nLogicalQubits false

/-- **C28 (full statement)**: with and without ancillas for the logical operators. -/
def C28_statement : Prop := ∀ (F : Type) (api : FloatApi F) (rng : Rng F) (pos r : Nat) (c : LatCode) (sel : LogicalSel) (anc : Bool)
  (circ : List (Gate F)), 1 ≤ r → Made r c → generateCircuit api c [] [] sel anc = .ok circ → NoEvents api rng pos r c circ anc

/-- A random generator with given bits, for the examples. -/
def rngBits (bs : List Bool) : Rng Nat where
  below _ p := decide (p = 1)
  bit k := bs.getD k false
  int3 _ := 0
  int4 _ := 3
  choice4 _ _ := some 1
  choice16 _ _ := some 7

/-- The toggles and the syndrome of a run. -/
def toggles {F : Type} (api : FloatApi F) (rng : Rng F) (c : LatCode) (sel : LogicalSel) (anc : Bool) :
    Except Err (List Bool × List (List Bool)) :=
  match generateCircuit api c [] [] sel anc with
  | .error e => .error e
  | .ok circ => match (Sim.fresh (numberOfQubits circ) 0).run api rng circ true with
    | .error e => .error e
    | .ok S => match Sample.fromRaw c S.results.1 S.results.2 anc with
      | .error e => .error e
      | .ok s => .ok (s.toggle, s.syndrome)

theorem toggles_of {F : Type} {api : FloatApi F} {rng : Rng F} {r : Nat} {c : LatCode} {sel : LogicalSel} {anc : Bool}
    (h : ∀ circ, generateCircuit api c [] [] sel anc = .ok circ → NoEvents api rng 0 r c circ anc) {res : List Bool × List (List Bool)}
    (hr : toggles api rng c sel anc = .ok res) : res.1 = List.replicate c.code.nLogicalQubits false := by
  unfold toggles at hr
  cases hg : generateCircuit api c [] [] sel anc with
  | error e => rw [hg] at hr; cases hr
  | ok circ =>
    obtain ⟨S, s, h1, h2, _, h4⟩ := h circ hg
    rw [hg] at hr
    dsimp only at hr
    rw [h1] at hr
    dsimp only at hr
    rw [h2] at hr
    dsimp only at hr
    simp only [Except.ok.injEq] at hr
    rw [← hr]
    exact h4

theorem rep3_made (r : Nat) : Made r ((Rep.lat 3).latCode r) := by
  refine .repetition (size := 3) (by omega) ?_
  rw [makeRepetition, Rep.make 3 (by omega) (by omega)]
  exact mkLatCode_ok (Rep.wf 3 (by omega)) (Rep.full 3 (by omega)) r

set_option maxRecDepth 100000 in
theorem rep3_toggles : toggles natApi (rngBits [true]) ((Rep.lat 3).latCode 1) (.str "X".toList) false = .ok ([true], [[false, false]]) := by
  decide +kernel

/-- **C28 fails** in the default mode without logical ancillas, if a logical operator X is measured: the data qubits are
measured in the X basis by `H` and `M`, without a second `H`, and at the end of the experiment they are measured after
another `H`, so that the final result has nothing to do with the initial one. -/
theorem C28_counterexample : ¬ C28_statement := by
  intro h
  have := toggles_of (fun circ hg => h Nat natApi (rngBits [true]) 0 1 _ _ _ circ (by omega) (rep3_made 1) hg) rep3_toggles
  exact absurd this (by decide)

/-- **C28 (partial)**: with logical ancillas, for all codes, numbers of rounds, selections and draws. (The dictionaries of
the errors may name kinds of errors, as long as they have no entries.) Missing: the default mode without ancillas, see
`C28_direct_partial`. -/
theorem C28_ancilla_partial {F : Type} (api : FloatApi F) (rng : Rng F) (pos r : Nat) (c : LatCode) (sel : LogicalSel)
    (circ : List (Gate F)) (hr : 1 ≤ r) (hm : Made r c) (qe ge : List (List Char × ErrDict F)) (hq : ∀ e ∈ qe, e.2 = [])
    (hg : ∀ e ∈ ge, e.2 = []) (h : generateCircuit api c qe ge sel true = .ok circ) : NoEvents api rng pos r c circ true := by
  obtain ⟨L, rfl, hw, hc, hf, hs⟩ := hm.lattice
  obtain ⟨S, s, h1, h2, h3, h4⟩ := quiet_anc hw hc hf hs api rng pos hr hq hg h
  refine ⟨S, s, h1, h2, ?_, ?_⟩
  · rw [h3]; simp [Lattice.code]
  · rw [h4]; simp [StabCode.nLogicalQubits, Lattice.code]

/-- **C28 (partial)**: without logical ancillas, there are no syndrome events if all logical operators have the same weight,
and no logical toggles if in addition the selected ones consist of letters Z. Missing: letters X, where the statement
is false. -/
theorem C28_direct_partial {F : Type} (api : FloatApi F) (rng : Rng F) (pos r : Nat) (c : LatCode) (sel : LogicalSel)
    (circ : List (Gate F)) (hr : 1 ≤ r) (hm : Made r c) (qe ge : List (List Char × ErrDict F)) (hq : ∀ e ∈ qe, e.2 = [])
    (hg : ∀ e ∈ ge, e.2 = []) (hwt : ∀ a ∈ c.code.logicalOps, ∀ b ∈ c.code.logicalOps, a.weight = b.weight)
    (h : generateCircuit api c qe ge sel false = .ok circ) :
    ∃ (S : Sim (numberOfQubits circ)) (s : Sample), (Sim.fresh (numberOfQubits circ) pos).run api rng circ true = .ok S ∧
      Sample.fromRaw c S.results.1 S.results.2 false = .ok s ∧
      s.syndrome = List.replicate r (List.replicate c.code.stabilisers.length false) ∧
      ∀ is, logicalOpsToIndices c.code.logicalOps.length sel = .ok is →
        (∀ i ∈ is, ∀ a, c.code.logicalOps[i.toNat]? = some a → ∀ q, a.x q = false) →
        s.toggle = List.replicate c.code.nLogicalQubits false := by
  obtain ⟨L, rfl, hw, hc, hf, hs⟩ := hm.lattice
  have hlen : (L.latCode r).code.logicalOps.length = L.logicals.length := by simp [Lattice.code]
  obtain ⟨_, _, _, ⟨is, his, _⟩, _⟩ := quiet_run hw hc hf hs api rng pos r hq hg h
  obtain ⟨_, hb⟩ := indices_inv his
  have hsel : ∀ i ∈ is, ∃ l ∈ L.logicals, L.selPos i = l.1 ∧ (L.latCode r).code.logicalOps[i.toNat]? = some (L.vop l.1) := by
    intro i hi
    have := hb i hi
    have hlt : i.toNat < L.logicals.length := by omega
    refine ⟨_, List.getElem_mem hlt, ?_, ?_⟩
    · unfold Lattice.selPos; rw [List.getElem?_eq_getElem hlt]; rfl
    · show (L.logicals.map fun s => L.vop s.1)[i.toNat]? = _
      rw [List.getElem?_map, List.getElem?_eq_getElem hlt]; rfl
  have heq : ∀ l ∈ L.logicals, ∀ i ∈ is, (L.opEdges (L.selPos i)).length = (L.opEdges l.1).length := by
    intro l hl i hi
    obtain ⟨l', hl', he, _⟩ := hsel i hi
    rw [he, ← hw.weight, ← hw.weight]
    exact hwt _ (List.mem_map_of_mem (f := fun s : Pos × List Char => L.vop s.1) hl') _
      (List.mem_map_of_mem (f := fun s : Pos × List Char => L.vop s.1) hl)
  obtain ⟨S, s, h1, h2, h3, h4⟩ := quiet_direct hw hc hf hs api rng pos hr hq hg his heq h
  refine ⟨S, s, h1, h2, ?_, ?_⟩
  · rw [h3]; simp [Lattice.code]
  · intro is' his' hZ
    rw [hlen, his, Except.ok.injEq] at his'
    subst his'
    rw [h4 ?_]
    · simp [StabCode.nLogicalQubits, Lattice.code]
    · intro i hi e he
      obtain ⟨l, hl, hp, ho⟩ := hsel i hi
      rw [hp] at he
      have hx := hZ i hi _ ho ⟨L.idx e.data, hw.idx_lt (hw.op_data he)⟩
      have hlet : (L.vop l.1).x ⟨L.idx e.data, hw.idx_lt (hw.op_data he)⟩ = e.factor.hasX := by
        refine (xorSum_unique he (List.Nodup.of_map _ (hw.op_idx_nodup l.1)) ?_).trans (by simp)
        intro b hb' hne
        have : L.idx b.data ≠ L.idx e.data := fun hc => hne (nodup_map_inj (hw.op_idx_nodup l.1) hb' he hc)
        simp [this]
      have hx' : e.factor.hasX = false := by rw [← hlet]; exact hx
      have hY := hs.noY e (List.mem_filter.mp he).1
      cases hfac : e.factor with
      | X => rw [hfac] at hx'; simp [Letter.hasX] at hx'
      | Y => exact absurd hfac hY
      | Z => rfl

theorem circuit_of {F : Type} {L : Lattice} (hw : L.Wf) (hc : L.Comm) (hs : L.Sched) (api : FloatApi F) (r : Nat) {sel : LogicalSel} {anc : Bool}
    {is : List Int} (his : logicalOpsToIndices L.logicals.length sel = .ok is) (hcom : ∀ i ∈ is, ∀ j ∈ is, i / 2 = j / 2 → i = j) :
    ∃ circ : List (Gate F), generateCircuit api (L.latCode r) [] [] sel anc = .ok circ := by
  obtain ⟨_, hb⟩ := indices_inv his
  obtain ⟨G, hG⟩ : ∃ G : Gen F, Gen.make (L.latCode r) [] [] anc = .ok G := ⟨_, rfl⟩
  obtain ⟨hQ, hcode, hanc⟩ := quiet_of_empty (by simp) (by simp) hG
  unfold generateCircuit
  rw [hG]
  refine ⟨_, quiet_circuit_ok hQ hcode hw hs.noY his ?_⟩
  intro i hi j hj
  have h1 := hb i hi
  have h2 := hb j hj
  have hi' : i.toNat < L.logicals.length := by omega
  have hj' : j.toNat < L.logicals.length := by omega
  have := hc.log_log i.toNat j.toNat _ _ (List.getElem?_eq_getElem hi') (List.getElem?_eq_getElem hj')
  unfold Lattice.selPos
  rw [List.getElem?_eq_getElem hi', List.getElem?_eq_getElem hj']
  refine this.trans ?_
  rw [decide_eq_false_iff_not]
  rintro ⟨a, b⟩
  exact b (by rw [hcom i hi j hj (by omega)])

/-- The circuit exists for every selection of commuting operators, i.e. not X and Z of the same logical qubit. -/
theorem C28_circuit {F : Type} (api : FloatApi F) (r : Nat) (c : LatCode) (hm : Made r c) (sel : LogicalSel) (anc : Bool) (is : List Int)
    (his : logicalOpsToIndices c.code.logicalOps.length sel = .ok is) (hcom : ∀ i ∈ is, ∀ j ∈ is, i / 2 = j / 2 → i = j) :
    ∃ circ : List (Gate F), generateCircuit api c [] [] sel anc = .ok circ := by
  obtain ⟨L, rfl, hw, hc, hf, hs⟩ := hm.lattice
  have hlen : (L.latCode r).code.logicalOps.length = L.logicals.length := by simp [Lattice.code]
  rw [hlen] at his
  exact circuit_of hw hc hs api r his hcom

theorem memory_of {F : Type} (api : FloatApi F) (rng : Rng F) (pos : Nat) {r size : Nat} (hr : 1 ≤ r) {L : Lattice} (hm : Made r (L.latCode r))
    (hw : L.Wf) (hc : L.Comm) (hf : L.Full) (hs : L.Sched) {sel : LogicalSel} {is : List Int}
    (his : logicalOpsToIndices L.logicals.length sel = .ok is) (hcom : ∀ i ∈ is, ∀ j ∈ is, i / 2 = j / 2 → i = j)
    (hlen : L.logicals.map (fun l => (L.opEdges l.1).length) = List.replicate L.logicals.length size)
    (hZ : ∀ i ∈ is, ∀ e ∈ L.opEdges (L.selPos i), e.factor = .Z) :
    ∃ circ : List (Gate F), generateCircuit api (L.latCode r) [] [] sel false = .ok circ ∧
      NoEvents api rng pos r (L.latCode r) circ false := by
  have hn : (L.latCode r).code.logicalOps.length = L.logicals.length := by simp [Lattice.code]
  obtain ⟨circ, hcirc⟩ := C28_circuit api r _ hm sel false is (by rw [hn]; exact his) hcom
  have hl : ∀ l ∈ L.logicals, (L.opEdges l.1).length = size := by
    intro l hl
    have := List.mem_map_of_mem (f := fun l : Pos × List Char => (L.opEdges l.1).length) hl
    rw [hlen] at this
    exact (List.mem_replicate.mp this).2
  obtain ⟨_, hb⟩ := indices_inv his
  obtain ⟨S, s, h1, h2, h3, h4⟩ := quiet_direct hw hc hf hs api rng pos hr (by simp) (by simp) his (by
    intro l hl' i hi
    have := hb i hi
    have hlt : i.toNat < L.logicals.length := by omega
    unfold Lattice.selPos
    rw [List.getElem?_eq_getElem hlt, hl l hl']
    exact hl _ (List.getElem_mem hlt)) hcirc
  refine ⟨circ, hcirc, S, s, h1, h2, ?_, ?_⟩
  · rw [h3]; simp [Lattice.code]
  · rw [h4 hZ]; simp [StabCode.nLogicalQubits, Lattice.code]

/-- The standard memory experiment, the measurement of all logical operators Z of the planar, the toric and the (CSS) rotated
code: in the default mode too there are no events. -/
theorem C28_memory {F : Type} (api : FloatApi F) (rng : Rng F) (pos r size : Nat) (hr : 1 ≤ r) (h2 : 2 ≤ size) (c : LatCode) (k : Nat)
    (hc : (makePlanar r size = .ok c ∧ k = 1) ∨ (makeToric r size = .ok c ∧ k = 2) ∨ (makeRotated r size false = .ok c ∧ k = 1)) :
    ∃ circ : List (Gate F), generateCircuit api c [] [] (.str (List.replicate k 'Z')) false = .ok circ ∧
      NoEvents api rng pos r c circ false := by
  have fin : ∀ {x : Except Err Lattice} {L : Lattice}, x = .ok L → L.Wf → L.Full →
      x.bind (fun L => mkLatCode L r) = .ok c → c = L.latCode r := by
    rintro x L rfl hw hf h
    have h : mkLatCode L r = .ok c := h
    rw [mkLatCode_ok hw hf, Except.ok.injEq] at h
    exact h.symm
  rcases hc with ⟨hc, rfl⟩ | ⟨hc, rfl⟩ | ⟨hc, rfl⟩
  · have hm : Made r c := .planar h2 hc
    obtain rfl := fin (Planar.make _ h2 crossOrder (by decide)) (Planar.wf _ _ (by omega)) (Planar.full _ _ h2) hc
    refine memory_of api rng pos hr hm (size := size) (is := [1]) (Planar.wf _ _ (by omega)) (Planar.comm _ _ (by omega)) (Planar.full _ _ h2)
      (Planar.sched _ (by omega)) (by show logicalOpsToIndices 2 _ = _; decide +kernel) (by decide) ?_ ?_
    · show [((Planar.lat size crossOrder).opEdges (Planar.xPos size)).length, ((Planar.lat size crossOrder).opEdges (Planar.zPos size)).length] = _
      rw [Planar.op_x _ _ (by omega), Planar.op_z _ _ (by omega)]
      simp only [Planar.xEdges, Planar.zEdges, length_pyRange, List.length_map]
      simp [Planar.lat, Planar.raw, Planar.logs, Lattice.assignIndices]
    · intro i hi e he
      rw [List.mem_singleton.mp hi] at he
      have he : e ∈ (Planar.lat size crossOrder).opEdges (Planar.zPos size) := he
      rw [Planar.op_z _ _ (by omega)] at he
      obtain ⟨e', he', rfl⟩ := List.mem_map.mp he
      obtain ⟨_, _, rfl⟩ := List.mem_map.mp he'
      rw [(stepEdge_df _ _ _).2]
      rfl
  · have hm : Made r c := .toric h2 hc
    obtain rfl := fin (Toric.make h2 crossOrder (by decide)) (Toric.wf _ h2) (Toric.full _ h2) hc
    have hok := Toric.ok h2
    obtain ⟨f1, f2, f3, f4⟩ := Toric.filter_logs h2
    refine memory_of api rng pos hr hm (size := size) (is := [1, 3]) (Toric.wf _ h2) (Toric.comm _ h2) (Toric.full _ h2)
      (Toric.sched _ h2) (by show logicalOpsToIndices 4 _ = _; decide +kernel) (by decide) ?_ ?_
    · show [((Toric.lat size crossOrder).opEdges _).length, ((Toric.lat size crossOrder).opEdges _).length,
        ((Toric.lat size crossOrder).opEdges _).length, ((Toric.lat size crossOrder).opEdges _).length] = [_, _, _, _]
      unfold Toric.lat
      rw [hok.op_log _ (Fam.keeps_step _ _) (by simp [Toric.fam]), hok.op_log _ (Fam.keeps_step _ _) (by simp [Toric.fam]), hok.op_log _ (Fam.keeps_step _ _) (by simp [Toric.fam]),
        hok.op_log _ (Fam.keeps_step _ _) (by simp [Toric.fam]), f1, f2, f3, f4]
      simp [Toric.x0, Toric.z0, Toric.x1, Toric.z1, length_lineE]
    · intro i hi e he
      simp only [List.mem_cons, List.not_mem_nil, or_false] at hi
      rcases hi with rfl | rfl
      · have he : e ∈ ((Toric.fam size).lat _ _).opEdges (((size : Int), 2 * (size : Int) + 1), ['Z']).1 := he
        rw [hok.op_log _ (Fam.keeps_step _ _) (by simp [Toric.fam]), f2] at he
        obtain ⟨e', he', rfl⟩ := List.mem_map.mp he
        obtain ⟨_, _, rfl⟩ := List.mem_map.mp he'
        rw [(stepEdge_df _ _ _).2]
        rfl
      · have he : e ∈ ((Toric.fam size).lat _ _).opEdges ((2 * (size : Int) + 1, (size : Int)), ['Z']).1 := he
        rw [hok.op_log _ (Fam.keeps_step _ _) (by simp [Toric.fam]), f4] at he
        obtain ⟨e', he', rfl⟩ := List.mem_map.mp he
        obtain ⟨_, _, rfl⟩ := List.mem_map.mp he'
        rw [(stepEdge_df _ _ _).2]
        rfl
  · have hm : Made r c := .rotated h2 hc
    obtain rfl := fin (Rotated.make h2 diagOrder (by decide)) (Rotated.wf _ h2) (Rotated.full _ h2) hc
    have hok := Rotated.ok (xzzx := false) h2
    obtain ⟨f1, f2⟩ := Rotated.filter_logs (xzzx := false) h2
    refine memory_of api rng pos hr hm (size := size) (is := [1]) (Rotated.wf _ h2) (Rotated.comm _ h2) (Rotated.full _ h2)
      (Rotated.sched _ _ h2) (by show logicalOpsToIndices 2 _ = _; decide +kernel) (by decide) ?_ ?_
    · show [((Rotated.lat size false diagOrder).opEdges _).length, ((Rotated.lat size false diagOrder).opEdges _).length] = [_, _]
      unfold Rotated.lat
      rw [hok.op_log _ (Rotated.keeps _ _ _) (by simp [Rotated.fam]), hok.op_log _ (Rotated.keeps _ _ _) (by simp [Rotated.fam]), f1, f2]
      simp [Rotated.xE, Rotated.zE, length_lineE]
    · intro i hi e he
      rw [List.mem_singleton.mp hi] at he
      have he : e ∈ ((Rotated.fam size false).lat _ _).opEdges (Rotated.zPos size, ['Z']).1 := he
      rw [hok.op_log _ (Rotated.keeps _ _ _) (by simp [Rotated.fam]), f2] at he
      obtain ⟨e', he', rfl⟩ := List.mem_map.mp he
      obtain ⟨_, _, rfl⟩ := List.mem_map.mp he'
      rw [((Rotated.keeps size false diagOrder).df _).2]
      rfl

/-! Non-trivial cases. -/

example : ∃ circ : List (Gate Nat), generateCircuit natApi ((Rep.lat 3).latCode 2) [] [] (.str "X".toList) true = .ok circ ∧
    NoEvents natApi (rngBits [true]) 0 2 ((Rep.lat 3).latCode 2) circ true := by
  obtain ⟨circ, h⟩ := C28_circuit natApi 2 _ (rep3_made 2) (.str "X".toList) true [0] (by decide +kernel) (by decide)
  exact ⟨circ, h, C28_ancilla_partial natApi _ 0 2 _ _ circ (by omega) (rep3_made 2) [] [] (by simp) (by simp) h⟩

end Plaquette
