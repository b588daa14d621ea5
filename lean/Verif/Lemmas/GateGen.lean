import Verif.Lemmas.FrameBlock

/-!
# The gates of a generated circuit with all errors
-/

namespace Plaquette
variable {F : Type} {api : FloatApi F} {L : Lattice}

/-- The measurement of all stabilisers, with errors after each gate. -/
def Lattice.gateRound (L : Lattice) (ge1 : Name → Nat → List (Gate F)) (ge2 : Name → Nat → Nat → List (Gate F)) (err : Nat → List (Gate F)) : List (Gate F) :=
  L.stabBlocks.flatMap fun b => gateBlock ge1 ge2 err L.idx b.1 b.2

/-- The circuit of the selected logical operators with errors. -/
def Lattice.gateGates (L : Lattice) (ge1 : Name → Nat → List (Gate F)) (ge2 : Name → Nat → Nat → List (Gate F)) (pg eg err : Nat → List (Gate F)) (anc : Bool) (r : Nat) (as : List Pos) :
    List (Gate F) :=
  L.selGates anc as ++ (L.noisyRound (fun _ => []) ++
    ((List.replicate (r - 1) (dataGates pg eg (List.range L.dataqubits.length) ++ L.gateRound ge1 ge2 err)).flatten ++
      (dataGates pg eg (List.range L.dataqubits.length) ++ (L.noisyRound (fun _ => []) ++ L.selGates anc as))))

/-- The error after a gate on one qubit. -/
def Gen.gErr1 (api : FloatApi F) (G : Gen F) (w : Bool) (nm : Name) (a : Nat) : List (Gate F) :=
  if w then getOr [⟨.E_PAULI, [.flt (api.ofInt 0), .flt (api.ofInt 0), .flt (api.ofInt 0), .int a]⟩] (G.applyGateError api nm a none) else []

/-- The error after a gate on two qubits. -/
def Gen.gErr2 (api : FloatApi F) (G : Gen F) (w : Bool) (nm : Name) (a b : Nat) : List (Gate F) :=
  if w && (nm = .CX || nm = .CZ) then getOr [⟨.E_PAULI2, List.replicate 15 (.flt (api.ofInt 0)) ++ [.int a, .int b]⟩] (G.applyGateError api nm a (some b)) else []

theorem toFloats_length {rs : List (Raw F)} {vs : List (Val F)} (h : toFloats api rs = .ok vs) : vs.length = rs.length := by
  induction rs generalizing vs with
  | nil => cases h; rfl
  | cons r rs ih =>
    unfold toFloats at h
    split at h
    · cases h
    · split at h
      · cases h
      · next hs => cases h; rw [List.length_cons, List.length_cons, ih hs]

theorem gives_two {l : List (Raw F)} (hl : l.length = 15) {a b : Nat} {x : List (Gate F)} (h : emit api .E_PAULI2 (l ++ [.int a, .int b]) = .ok x) :
    ∃ vs : List (Val F), vs.length = 15 ∧ x = [⟨.E_PAULI2, vs ++ [.int a, .int b]⟩] := by
  obtain ⟨vs, hvs, rfl, _⟩ := emit_inv h
  unfold appendArgs at hvs
  dsimp only at hvs
  have e1 : (l ++ [(.int a : Raw F), .int b]).take 15 = l := by rw [← hl, List.take_left']; rfl
  have e2 : (l ++ [(.int a : Raw F), .int b]).drop 15 = [.int a, .int b] := by rw [← hl, List.drop_left']; rfl
  split at hvs
  · rw [e1, e2] at hvs
    split at hvs
    · cases hvs
    · next fs hfs =>
      rw [show toInts api [(.int a : Raw F), .int b] = .ok [.int a, .int b] from rfl] at hvs
      cases hvs
      exact ⟨fs, by rw [toFloats_length hfs, hl], rfl⟩
  · cases hvs

theorem gErr1_form (G : Gen F) (w : Bool) (nm : Name) (a : Nat) : PauliGate a (G.gErr1 api w nm a) := by
  unfold Gen.gErr1
  cases w with
  | false => exact .inl rfl
  | true =>
    rw [if_pos rfl]
    cases h : G.applyGateError api nm a none with
    | error e => exact .inr ⟨_, _, _, rfl⟩
    | ok x =>
      unfold Gen.applyGateError at h
      split at h
      · cases h; exact .inl rfl
      · split at h
        · obtain ⟨p, q, s, rfl⟩ := gives_pauli h; exact .inr ⟨_, _, _, rfl⟩
        · obtain ⟨p, q, s, rfl⟩ := gives_pauli h; exact .inr ⟨_, _, _, rfl⟩
        · obtain ⟨p, q, s, rfl⟩ := gives_pauli h; exact .inr ⟨_, _, _, rfl⟩
        · cases h
        · cases h
        · cases h

theorem gErr2_form (G : Gen F) (w : Bool) (nm : Name) (a b : Nat) : PairGate a b (G.gErr2 api w nm a b) := by
  unfold Gen.gErr2
  split
  · next hw =>
    cases h : G.applyGateError api nm a (some b) with
    | error e => exact .inr ⟨_, List.length_replicate, rfl⟩
    | ok x =>
      unfold Gen.applyGateError at h
      split at h
      · cases h; exact .inl rfl
      · next ps _ =>
        have hl : ((pairNames.map (param api ps)).drop 1).length = 15 := by
          rw [List.length_drop, List.length_map]; rfl
        rw [Bool.and_eq_true, Bool.or_eq_true, decide_eq_true_eq, decide_eq_true_eq] at hw
        rcases hw.2 with rfl | rfl
        · obtain ⟨vs, h1, rfl⟩ := gives_two hl h; exact .inr ⟨_, h1, rfl⟩
        · obtain ⟨vs, h1, rfl⟩ := gives_two hl h; exact .inr ⟨_, h1, rfl⟩
  · exact .inl rfl

theorem yields_one (G : Gen F) (gate : Name) (hg : gate = .H ∨ gate = .R ∨ gate = .M) (a : Nat) (w : Bool) :
    Yields (G.gateAndError api gate a none w) (toGate (g1 gate a) :: G.gErr1 api w gate a) := by
  have e : emit api gate [.int a] = .ok [toGate (g1 gate a)] := by rcases hg with rfl | rfl | rfl <;> rfl
  unfold Gen.gateAndError
  dsimp only
  rw [e, show toGate (g1 gate a) :: G.gErr1 api w gate a = [toGate (g1 gate a)] ++ G.gErr1 api w gate a from rfl]
  refine (Yields.of_ok rfl).cat ?_
  unfold Gen.gErr1
  cases w with
  | true => exact yields_getOr _ _
  | false => exact Yields.of_ok rfl

theorem yields_edge (G : Gen F) (y : Err) (w : Bool) (e : LEdge) (hY : e.factor ≠ .Y) :
    Yields (G.edgeGate api y (G.lat.idx e.op) w e) (edgeErr (G.gErr2 api w) G.lat.idx e) := by
  have key : ∀ gate : Name, gate = .CX ∨ gate = .CZ → ∀ a b, Yields (G.gateAndError api gate a (some b) w) (toGate (g2 gate a b) :: G.gErr2 api w gate a b) := by
    intro gate hg a b
    have e : emit api gate [.int a, .int b] = .ok [toGate (g2 gate a b)] := by rcases hg with rfl | rfl <;> rfl
    unfold Gen.gateAndError
    dsimp only
    rw [e, show toGate (g2 gate a b) :: G.gErr2 api w gate a b = [toGate (g2 gate a b)] ++ G.gErr2 api w gate a b from rfl]
    refine (Yields.of_ok rfl).cat ?_
    unfold Gen.gErr2
    cases w with
    | true =>
      rw [if_pos rfl, if_pos (by rcases hg with rfl | rfl <;> rfl)]
      exact yields_getOr _ _
    | false => exact Yields.of_ok rfl
  unfold Gen.edgeGate edgeErr ctl
  cases hf : e.factor with
  | X => exact key .CX (.inl rfl) _ _
  | Y => exact absurd hf hY
  | Z => exact key .CZ (.inr rfl) _ _

theorem yields_prep (G : Gen F) (w : Bool) (a : Pos) : Yields (G.prepare api w a) (prepErr (G.gErr1 api w) (G.lat.idx a)) := by
  unfold Gen.prepare prepErr
  exact (yields_one G .R (by simp) _ w).cat (yields_one G .H (by simp) _ w)

theorem yields_readErr (G : Gen F) (w : Bool) (a : Pos) : Yields (G.readOut api w a) (readErr (G.gErr1 api w) (G.flips api w) (G.lat.idx a)) := by
  unfold Gen.readOut readErr
  refine (yields_one G .H (by simp) _ w).cat (Emits.cat ?_ (yields_one G .M (by simp) _ w))
  cases w with
  | true => exact yields_getOr _ _
  | false => exact Yields.of_ok rfl

theorem yields_opErr (G : Gen F) (hY : ∀ e ∈ G.lat.edges, e.factor ≠ .Y) (w : Bool) (a : Pos) :
    Yields (G.measureOp api w a) (gateBlock (G.gErr1 api w) (G.gErr2 api w) (G.flips api w) G.lat.idx [a] (G.lat.opEdges a)) := by
  unfold Gen.measureOp gateBlock
  rw [List.flatMap_cons, List.flatMap_nil, List.append_nil, List.flatMap_cons, List.flatMap_nil, List.append_nil]
  refine (yields_prep G w a).cat (Emits.cat (Emits.forE fun e he => ?_) (yields_readErr G w a))
  obtain ⟨h1, h2⟩ := List.mem_filter.mp he
  have h2 : e.op = a := of_decide_eq_true h2
  rw [← h2]
  exact yields_edge G _ w e (hY e h1)

theorem yields_gateRound (G : Gen F) (hY : ∀ e ∈ G.lat.edges, e.factor ≠ .Y) (w : Bool) :
    Yields (G.measureStabgens api w) (G.lat.gateRound (G.gErr1 api w) (G.gErr2 api w) (G.flips api w)) := by
  unfold Gen.measureStabgens Lattice.gateRound Lattice.stabBlocks
  cases G.lat.timeSteps with
  | none =>
    dsimp only
    rw [List.flatMap_map]
    exact Emits.forE fun s _ => yields_opErr G hY w s.1
  | some T =>
    dsimp only
    rw [List.flatMap_cons, List.flatMap_nil, List.append_nil]
    unfold Gen.measurePar gateBlock Lattice.stepEdges
    rw [List.flatMap_map, List.flatMap_map, List.flatMap_assoc]
    refine (Emits.forE fun s _ => yields_prep G w s.1).cat (Emits.cat (Emits.forE fun i _ => Emits.forE fun e he => ?_) (Emits.forE fun s _ => yields_readErr G w s.1))
    exact yields_edge G _ w e (hY e (List.mem_filter.mp he).1)

/-- Without errors these are the gates of a clean block. -/
theorem gateBlock_clean (idx : Pos → Nat) (as : List Pos) (es : List LEdge) :
    gateBlock (fun _ _ => []) (fun _ _ _ => []) (fun _ => []) idx as es = noisyBlock (F := F) (fun _ => []) idx as es ∧
      gateBlock (fun _ _ => []) (fun _ _ _ => []) (fun _ => []) idx as es = (blockGates idx as es).map (toGate (F := F)) := by
  have e1 : (es.flatMap (edgeErr (F := F) (fun _ _ _ => []) idx)) = (es.map (ctl idx)).map toGate := by
    rw [List.map_map, List.map_eq_flatMap]; rfl
  constructor
  · unfold gateBlock noisyBlock readGates
    rw [e1]
    simp only [List.map_flatMap, List.flatMap_map]
    rfl
  · unfold gateBlock blockGates
    rw [e1]
    simp only [List.map_append, List.map_flatMap, List.flatMap_map]
    rfl

theorem gateRound_clean (L : Lattice) : L.gateRound (fun _ _ => []) (fun _ _ _ => []) (fun _ => []) = L.noisyRound (F := F) (fun _ => []) := by
  unfold Lattice.gateRound Lattice.noisyRound
  exact List.flatMap_congr fun b _ => (gateBlock_clean _ _ _).1

theorem yields_logsErr (G : Gen F) (hY : ∀ e ∈ G.lat.edges, e.factor ≠ .Y) {is : List Int}
    (his : ∀ i ∈ is, 0 ≤ i ∧ i < G.lat.logicals.length) : Yields (G.measureLogicals api is) (G.lat.selGates G.logicalAncilla (is.map G.lat.selPos)) := by
  unfold Gen.measureLogicals Lattice.selGates
  have e : (if G.logicalAncilla then G.lat.logGates (is.map G.lat.selPos) else G.lat.directGates (is.map G.lat.selPos)).map (toGate (F := F)) =
      is.flatMap fun i => (if G.logicalAncilla then blockGates G.lat.idx [G.lat.selPos i] (G.lat.opEdges (G.lat.selPos i)) else
        (G.lat.opEdges (G.lat.selPos i)).flatMap fun e =>
          if e.factor = .X then [g1 .H (G.lat.idx e.data), g1 .M (G.lat.idx e.data)] else [g1 .M (G.lat.idx e.data)]).map toGate := by
    unfold Lattice.logGates Lattice.directGates
    split <;> rw [List.flatMap_map, List.map_flatMap]
  rw [e]
  refine Emits.forE fun i hi => ?_
  have hlt : i.toNat < G.lat.logicals.length := by have := his i hi; omega
  unfold Gen.measureLogical Lattice.selPos
  rw [List.getElem?_eq_getElem hlt]
  dsimp only [Option.map_some, Option.getD_some]
  have f1 : G.gErr1 api false = fun _ _ => [] := rfl
  have f2 : G.gErr2 api false = fun _ _ _ => [] := rfl
  have f3 : G.flips api false = fun _ => [] := rfl
  cases G.logicalAncilla with
  | true =>
    rw [if_neg (by simp), if_pos rfl]
    have := yields_opErr (api := api) G hY false (G.lat.logicals[i.toNat]).1
    rw [f1, f2, f3, (gateBlock_clean _ _ _).2] at this
    exact this
  | false =>
    simp only [Bool.not_false, if_true, Bool.false_eq_true, if_false]
    rw [List.map_flatMap]
    refine Emits.forE fun e he => ?_
    unfold Gen.measureFactor
    have hm := yields_one (api := api) G .M (by simp) (G.lat.idx e.data) false
    have hh := yields_one (api := api) G .H (by simp) (G.lat.idx e.data) false
    rw [f1] at hm hh
    cases hf : e.factor with
    | X => exact hh.cat hm
    | Y => exact absurd hf (hY e (List.mem_filter.mp he).1)
    | Z => exact hm

/-- The error gates of a circuit. -/
structure AllErrs (L : Lattice) (fl : Flags) (ge1 : Name → Nat → List (Gate F)) (ge2 : Name → Nat → Nat → List (Gate F)) (pg eg err : Nat → List (Gate F)) : Prop where
  qubit : ErrGates L fl pg eg err
  one : ∀ nm a, PauliGate a (ge1 nm a)
  two : ∀ nm a b, PairGate a b (ge2 nm a b)

/-- The circuit has the expected form. -/
theorem gate_circuit (hw : L.Wf) (hs : L.Sched) {r : Nat} {qe ge : List (List Char × ErrDict F)} {sel : LogicalSel} {anc : Bool} {c : List (Gate F)}
    (h : generateCircuit api (L.latCode r) qe ge sel anc = .ok c) :
    ∃ ge1 ge2 pg eg err is, AllErrs L (flagsOf qe) ge1 ge2 pg eg err ∧ logicalOpsToIndices L.logicals.length sel = .ok is ∧ is.length = L.logicals.length / 2 ∧
      (∀ i ∈ is, 0 ≤ i ∧ i < L.logicals.length) ∧ (∀ i ∈ is, ∀ j ∈ is, antiE (L.opEdges (L.selPos i)) (L.opEdges (L.selPos j)) = false) ∧
      c = L.gateGates ge1 ge2 pg eg err anc r (is.map L.selPos) := by
  have hG : ∃ G : Gen F, Gen.make (L.latCode r) qe ge anc = .ok G ∧ G.getCircuit api sel = .ok c := by
    unfold generateCircuit at h
    split at h
    · cases h
    · next G hG => exact ⟨G, hG, h⟩
  obtain ⟨G, hG, hc⟩ := hG
  obtain ⟨hcode, hanc, hq⟩ := make_inv hG
  have hlat : G.lat = L := by unfold Gen.lat; rw [hcode]
  obtain ⟨is, i1, i2, i3, i4, hc⟩ := getCircuit_inv hcode hw hc
  have hE := gen_errs (api := api) hq
  have y1 := yields_logsErr (api := api) (is := is) G (by rw [hlat]; exact hs.noY) (by rw [hlat]; exact i3)
  have y2 := yields_gateRound (api := api) G (by rw [hlat]; exact hs.noY)
  have y3 := yields_data (api := api) (G := G) (by rw [hlat]; exact hw)
  have y2f := y2 false
  have y2t := y2 true
  have f1 : G.gErr1 api false = fun _ _ => [] := rfl
  have f2 : G.gErr2 api false = fun _ _ _ => [] := rfl
  have f3 : G.flips api false = fun _ => [] := rfl
  rw [f1, f2, f3, gateRound_clean] at y2f
  rw [hanc] at y1
  rw [hlat] at hE y1 y2f y2t y3
  refine ⟨_, _, _, _, _, is, ⟨hE, gErr1_form (api := api) G true, gErr2_form (api := api) G true⟩, i1, i2, i3, i4, ?_⟩
  exact yields_iff.1 (y1.cat (y2f.cat (Emits.cat (Emits.repeatE (y3.cat y2t) (r - 1)) (y3.cat (y2f.cat y1))))) c hc

end Plaquette
