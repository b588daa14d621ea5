import Verif.Lemmas.NoisyRounds
import Verif.Lemmas.Unpack

/-!
# The gates of a generated circuit with errors on the qubits
-/

namespace Plaquette
variable {F : Type} {api : FloatApi F} {L : Lattice}

/-- The gates, if nothing is raised. -/
abbrev Yields (a : Except Err (List (Gate F))) (ms : List (Gate F)) : Prop := Emits (fun g => [g]) a ms

theorem yields_iff {a : Except Err (List (Gate F))} {ms : List (Gate F)} : Yields a ms ↔ ∀ x, a = .ok x → x = ms := by
  unfold Yields Emits
  simp only [List.flatMap_singleton']

theorem Yields.of_ok {a : Except Err (List (Gate F))} {ms : List (Gate F)} (h : a = .ok ms) : Yields a ms := by
  rw [yields_iff]; rintro x hx; rw [h] at hx; cases hx; rfl

/-- The gates, or others if something is raised. -/
def getOr (d : List (Gate F)) : Except Err (List (Gate F)) → List (Gate F)
  | .ok x => x
  | .error _ => d

theorem yields_getOr (d : List (Gate F)) (a : Except Err (List (Gate F))) : Yields a (getOr d a) := by
  rw [yields_iff]; rintro x rfl; rfl

/-! ### Gates without errors -/

theorem clean_one {G : Gen F} (h : ∀ g a d, G.gateError g a d = none) (gate : Name) (hg : gate = .H ∨ gate = .R ∨ gate = .M) (a : Nat) (w : Bool) :
    G.gateAndError api gate a none w = .ok [toGate (g1 gate a)] := by
  have e : emit api gate [.int a] = .ok [toGate (g1 gate a)] := by rcases hg with rfl | rfl | rfl <;> rfl
  unfold Gen.gateAndError
  dsimp only
  rw [e]
  unfold Gen.applyGateError
  rw [h]
  cases w <;> rfl

theorem clean_two {G : Gen F} (h : ∀ g a d, G.gateError g a d = none) (gate : Name) (hg : gate = .CX ∨ gate = .CZ) (a b : Nat) (w : Bool) :
    G.gateAndError api gate a (some b) w = .ok [toGate (g2 gate a b)] := by
  have e : emit api gate [.int a, .int b] = .ok [toGate (g2 gate a b)] := by rcases hg with rfl | rfl <;> rfl
  unfold Gen.gateAndError
  dsimp only
  rw [e]
  unfold Gen.applyGateError
  rw [h]
  cases w <;> rfl

theorem clean_edge {G : Gen F} (h : ∀ g a d, G.gateError g a d = none) (y : Err) (w : Bool) (e : LEdge) (hY : e.factor ≠ .Y) :
    G.edgeGate api y (G.lat.idx e.op) w e = .ok [toGate (ctl G.lat.idx e)] := by
  unfold Gen.edgeGate ctl
  cases hf : e.factor with
  | X => exact clean_two h .CX (.inl rfl) _ _ w
  | Y => exact absurd hf hY
  | Z => exact clean_two h .CZ (.inr rfl) _ _ w

theorem clean_prep {G : Gen F} (h : ∀ g a d, G.gateError g a d = none) (w : Bool) (a : Pos) :
    G.prepare api w a = .ok ([g1 .R (G.lat.idx a), g1 .H (G.lat.idx a)].map toGate) := by
  unfold Gen.prepare
  rw [clean_one h .R (by simp), clean_one h .H (by simp)]
  rfl

/-- The flip of an ancilla, in a round with errors. -/
def Gen.flips (api : FloatApi F) (G : Gen F) (w : Bool) (i : Nat) : List (Gate F) :=
  if w then getOr [⟨.ERROR, [.flt (api.ofInt 0), .name .X, .int i]⟩] (G.applyMeasError api i) else []

theorem yields_read {G : Gen F} (h : ∀ g a d, G.gateError g a d = none) (w : Bool) (a : Pos) :
    Yields (G.readOut api w a) ([g1 .H (G.lat.idx a)].map toGate ++ (G.flips api w (G.lat.idx a) ++ [g1 .M (G.lat.idx a)].map toGate)) := by
  unfold Gen.readOut
  refine (Yields.of_ok (clean_one h .H (by simp) _ w)).cat (Emits.cat ?_ (Yields.of_ok (clean_one h .M (by simp) _ w)))
  cases w with
  | true => exact yields_getOr _ _
  | false => exact Yields.of_ok rfl

theorem yields_op {G : Gen F} (h : ∀ g a d, G.gateError g a d = none) (hY : ∀ e ∈ G.lat.edges, e.factor ≠ .Y) (w : Bool) (a : Pos) :
    Yields (G.measureOp api w a) (noisyBlock (G.flips api w) G.lat.idx [a] (G.lat.opEdges a)) := by
  unfold Gen.measureOp noisyBlock
  have e1 : (([a].map G.lat.idx).flatMap fun a => [g1 .R a, g1 .H a]).map (toGate (F := F)) = [g1 .R (G.lat.idx a), g1 .H (G.lat.idx a)].map toGate := by simp
  have e2 : ((G.lat.opEdges a).map (ctl G.lat.idx)).map (toGate (F := F)) = (G.lat.opEdges a).flatMap fun e => [toGate (ctl G.lat.idx e)] := by
    rw [← List.map_eq_flatMap, List.map_map]; rfl
  have e3 : readGates (G.flips api w) ([a].map G.lat.idx) = [g1 .H (G.lat.idx a)].map toGate ++ (G.flips api w (G.lat.idx a) ++ [g1 .M (G.lat.idx a)].map toGate) := by
    simp [readGates]
  rw [e1, e2, e3]
  refine (Yields.of_ok (clean_prep h w a)).cat (Emits.cat (Emits.forE fun e he => ?_) (yields_read h w a))
  obtain ⟨h1, h2⟩ := List.mem_filter.mp he
  have h2 : e.op = a := of_decide_eq_true h2
  rw [← h2]
  exact Yields.of_ok (clean_edge h _ w e (hY e h1))

theorem yields_round {G : Gen F} (h : ∀ g a d, G.gateError g a d = none) (hY : ∀ e ∈ G.lat.edges, e.factor ≠ .Y) (w : Bool) :
    Yields (G.measureStabgens api w) (G.lat.noisyRound (G.flips api w)) := by
  unfold Gen.measureStabgens Lattice.noisyRound Lattice.stabBlocks
  cases G.lat.timeSteps with
  | none =>
    dsimp only
    rw [List.flatMap_map]
    exact Emits.forE fun s _ => yields_op h hY w s.1
  | some T =>
    dsimp only
    rw [List.flatMap_cons, List.flatMap_nil, List.append_nil]
    unfold Gen.measurePar noisyBlock
    have e1 : (((G.lat.stabgens.map Prod.fst).map G.lat.idx).flatMap fun a => [g1 .R a, g1 .H a]).map (toGate (F := F)) =
        G.lat.stabgens.flatMap fun s => [g1 .R (G.lat.idx s.1), g1 .H (G.lat.idx s.1)].map toGate := by
      simp only [List.map_flatMap, List.flatMap_map]
    have e2 : ((G.lat.stepEdges T).map (ctl G.lat.idx)).map (toGate (F := F)) =
        (List.range T).flatMap fun i => (G.lat.edges.filter fun e => e.step = some i).flatMap fun e => [toGate (ctl G.lat.idx e)] := by
      unfold Lattice.stepEdges
      simp only [List.map_flatMap, ← List.map_eq_flatMap, List.map_map]
      rfl
    have e3 : readGates (G.flips api w) ((G.lat.stabgens.map Prod.fst).map G.lat.idx) =
        G.lat.stabgens.flatMap fun s => [g1 .H (G.lat.idx s.1)].map toGate ++ (G.flips api w (G.lat.idx s.1) ++ [g1 .M (G.lat.idx s.1)].map toGate) := by
      unfold readGates
      simp only [List.flatMap_map]
    rw [e1, e2, e3]
    refine (Emits.forE fun s _ => Yields.of_ok (clean_prep h w s.1)).cat (Emits.cat (Emits.forE fun i _ => Emits.forE fun e he => ?_) (Emits.forE fun s _ => yields_read h w s.1))
    exact Yields.of_ok (clean_edge h _ w e (hY e (List.mem_filter.mp he).1))

/-- The Pauli channel of a qubit. -/
def Gen.pauliOf (api : FloatApi F) (G : Gen F) (i : Nat) : List (Gate F) :=
  getOr [⟨.E_PAULI, [.flt (api.ofInt 0), .flt (api.ofInt 0), .flt (api.ofInt 0), .int i]⟩] (match G.qubitErr "pauli".toList i with
      | .error e => .error e
      | .ok none => .ok []
      | .ok (some []) => .ok []
      | .ok (some ps) => emit api .E_PAULI [param api ps "x".toList, param api ps "y".toList, param api ps "z".toList, .int i])

/-- The erasure of a qubit. -/
def Gen.eraseOf (api : FloatApi F) (G : Gen F) (i : Nat) : List (Gate F) :=
  getOr [⟨.E_ERASE, [.flt (api.ofInt 0), .int i]⟩] (match G.qubitErr "erasure".toList i with
      | .error e => .error e
      | .ok none => .ok []
      | .ok (some []) => .ok []
      | .ok (some ps) => emit api .E_ERASE [param api ps "p".toList, .int i])

theorem yields_data {G : Gen F} (hw : G.lat.Wf) :
    Yields (G.applyDataErrors api) (dataGates (G.pauliOf api) (G.eraseOf api) (List.range G.lat.dataqubits.length)) := by
  unfold Gen.applyDataErrors dataGates
  rw [← hw.data_range, List.flatMap_map]
  refine Emits.forE fun v _ => ?_
  unfold Gen.dataErrors
  exact (yields_getOr _ _).cat (yields_getOr _ _)

theorem yields_logs {G : Gen F} (h : ∀ g a d, G.gateError g a d = none) (hY : ∀ e ∈ G.lat.edges, e.factor ≠ .Y) {is : List Int}
    (his : ∀ i ∈ is, 0 ≤ i ∧ i < G.lat.logicals.length) : Yields (G.measureLogicals api is) (G.lat.selGates G.logicalAncilla (is.map G.lat.selPos)) := by
  unfold Gen.measureLogicals Lattice.selGates
  have e : (if G.logicalAncilla then G.lat.logGates (is.map G.lat.selPos) else G.lat.directGates (is.map G.lat.selPos)).map (toGate (F := F)) =
      is.flatMap fun i => (if G.logicalAncilla then blockGates G.lat.idx [G.lat.selPos i] (G.lat.opEdges (G.lat.selPos i)) else
        (G.lat.opEdges (G.lat.selPos i)).flatMap fun e =>
          if e.factor = .X then [g1 .H (G.lat.idx e.data), g1 .M (G.lat.idx e.data)] else [g1 .M (G.lat.idx e.data)]).map toGate := by
    unfold Lattice.logGates Lattice.directGates
    split <;> rw [List.flatMap_map, List.map_flatMap]
  rw [e]
  refine Emits.forE fun i hi => ?_
  have hlt : i.toNat < G.lat.logicals.length := by have := his i hi; omega
  unfold Gen.measureLogical Lattice.selPos
  rw [List.getElem?_eq_getElem hlt]
  dsimp only [Option.map_some, Option.getD_some]
  cases G.logicalAncilla with
  | true =>
    rw [if_neg (by simp), if_pos rfl]
    have := yields_op (api := api) h hY false (G.lat.logicals[i.toNat]).1
    have e : noisyBlock (G.flips api false) G.lat.idx [(G.lat.logicals[i.toNat]).1] (G.lat.opEdges (G.lat.logicals[i.toNat]).1) =
        (blockGates G.lat.idx [(G.lat.logicals[i.toNat]).1] (G.lat.opEdges (G.lat.logicals[i.toNat]).1)).map toGate := by
      unfold noisyBlock blockGates readGates Gen.flips
      simp
    rw [e] at this
    exact this
  | false =>
    simp only [Bool.not_false, if_true, Bool.false_eq_true, if_false]
    rw [List.map_flatMap]
    refine Emits.forE fun e he => Yields.of_ok ?_
    unfold Gen.measureFactor
    cases hf : e.factor with
    | X => simp only [clean_one h .H (by simp), clean_one h .M (by simp)]; rfl
    | Y => exact absurd hf (hY e (List.mem_filter.mp he).1)
    | Z => simp only [clean_one h .M (by simp)]; rfl

/-! ### The error gates -/

theorem gives_pauli {a b c : Raw F} {i : Nat} {x : List (Gate F)} (h : emit api .E_PAULI [a, b, c, .int i] = .ok x) :
    ∃ p q s, x = [⟨.E_PAULI, [p, q, s, .int i]⟩] := by
  obtain ⟨vs, hvs, rfl, _⟩ := emit_inv h
  unfold appendArgs at hvs
  dsimp only at hvs
  rw [if_pos (by rfl), show toInts api ([a, b, c, (.int i : Raw F)].drop 3) = .ok [.int i] from rfl] at hvs
  simp only [List.take_succ_cons, List.take_zero, toFloats] at hvs
  cases ha : toFloat api a with
  | error e => rw [ha] at hvs; cases hvs
  | ok p =>
    cases hb : toFloat api b with
    | error e => rw [ha, hb] at hvs; cases hvs
    | ok q =>
      cases hc : toFloat api c with
      | error e => rw [ha, hb, hc] at hvs; cases hvs
      | ok s => rw [ha, hb, hc] at hvs; cases hvs; exact ⟨_, _, _, rfl⟩

theorem gives_erase {a : Raw F} {i : Nat} {x : List (Gate F)} (h : emit api .E_ERASE [a, .int i] = .ok x) : ∃ p, x = [⟨.E_ERASE, [p, .int i]⟩] := by
  obtain ⟨vs, hvs, rfl, _⟩ := emit_inv h
  unfold appendArgs at hvs
  dsimp only at hvs
  rw [if_pos (by rfl), show toInts api ([a, (.int i : Raw F)].drop 1) = .ok [.int i] from rfl] at hvs
  simp only [List.take_succ_cons, List.take_zero, toFloats] at hvs
  cases ha : toFloat api a with
  | error e => rw [ha] at hvs; cases hvs
  | ok p => rw [ha] at hvs; cases hvs; exact ⟨_, rfl⟩

theorem gives_flip {a : Raw F} {i : Nat} {x : List (Gate F)} (h : emit api .ERROR [a, .str "X".toList, .int i] = .ok x) :
    ∃ p, x = [⟨.ERROR, [.flt p, .name .X, .int i]⟩] := by
  obtain ⟨vs, hvs, rfl, _⟩ := emit_inv h
  unfold appendArgs at hvs
  dsimp only at hvs
  cases ha : toFloat api a with
  | error e => rw [ha] at hvs; cases hvs
  | ok p =>
    rw [ha] at hvs
    dsimp only at hvs
    split at hvs
    · rw [show allowedName (List.head? [Raw.str "X".toList, (Raw.int i : Raw F)]) = .ok .X by rfl] at hvs
      dsimp only at hvs
      rw [show toInts api [Raw.str "X".toList, (Raw.int i : Raw F)].tail = .ok [.int i] by rfl] at hvs
      cases hvs
      exact ⟨p, rfl⟩
    · cases hvs

/-- What the generator finds for a qubit. -/
theorem qubitErr_configured {G : Gen F} {qe : List (List Char × ErrDict F)} (hq : G.qubitErrors = setDefaults qubitErrorNames qe) {name : List Char} (hn : name ∈ qubitErrorNames) (i : Nat) :
    ((G.qubitErr name i = .ok none ∨ G.qubitErr name i = .ok (some [])) ∧ configured qe name i = false) ∨
      ∃ a ps, G.qubitErr name i = .ok (some (a :: ps)) ∧ configured qe name i = true := by
  have hget : dictGet (setDefaults qubitErrorNames qe) name = some ((dictGet qe name).getD []) := by
    unfold setDefaults
    cases hd : dictGet qe name with
    | some d =>
      unfold dictGet at hd ⊢
      rw [Option.map_eq_some_iff] at hd
      obtain ⟨e, he, rfl⟩ := hd
      rw [List.find?_append, he]
      rfl
    | none =>
      unfold dictGet at hd ⊢
      rw [Option.map_eq_none_iff] at hd
      rw [List.find?_append, hd, Option.none_or]
      have : ((qubitErrorNames.filter fun m => (Option.map Prod.snd (List.find? (fun e => decide (e.1 = m)) qe)).isNone).map fun m => (m, ([] : ErrDict F))).find? (fun e => decide (e.1 = name)) = some (name, []) := by
        rw [List.find?_map]
        have hmem : name ∈ qubitErrorNames.filter fun m => (Option.map Prod.snd (List.find? (fun e => decide (e.1 = m)) qe)).isNone := by
          rw [List.mem_filter, hd]
          exact ⟨hn, rfl⟩
        cases hf : (qubitErrorNames.filter fun m => (Option.map Prod.snd (List.find? (fun e => decide (e.1 = m)) qe)).isNone).find? ((fun e : List Char × ErrDict F => decide (e.1 = name)) ∘ fun m => (m, [])) with
        | none => exact absurd (List.find?_eq_none.1 hf name hmem) (by simp)
        | some m =>
          have := List.find?_some hf
          simp only [Function.comp, decide_eq_true_eq] at this
          rw [this]; rfl
      rw [this]
      rfl
  unfold Gen.qubitErr configured
  rw [hq, hget]
  dsimp only
  cases hd : dictGet qe name with
  | none => exact .inl ⟨.inl rfl, rfl⟩
  | some d =>
    dsimp only [Option.getD_some]
    cases hx : dictGet d (.int i) with
    | none => exact .inl ⟨.inl rfl, rfl⟩
    | some ps =>
      cases ps with
      | nil => exact .inl ⟨.inr rfl, rfl⟩
      | cons a ps => exact .inr ⟨a, ps, rfl, rfl⟩

theorem gen_errs {G : Gen F} {qe : List (List Char × ErrDict F)} (hq : G.qubitErrors = setDefaults qubitErrorNames qe) :
    ErrGates G.lat (flagsOf qe) (G.pauliOf api) (G.eraseOf api) (G.flips api true) where
  pauli i _ := by
    unfold Gen.pauliOf flagsOf
    dsimp only
    rcases qubitErr_configured hq (show "pauli".toList ∈ qubitErrorNames by simp [qubitErrorNames]) i with ⟨h1, h2⟩ | ⟨a, ps, h1, h2⟩
    · rw [h2]
      rcases h1 with h1 | h1 <;> (rw [h1]; exact ⟨.inl rfl, by simp [getOr]⟩)
    · rw [h1, h2]
      dsimp only
      cases he : emit api .E_PAULI [param api (a :: ps) "x".toList, param api (a :: ps) "y".toList, param api (a :: ps) "z".toList, .int i] with
      | error e => exact ⟨.inr ⟨_, _, _, rfl⟩, by simp [getOr]⟩
      | ok x =>
        obtain ⟨p, q, s, rfl⟩ := gives_pauli he
        exact ⟨.inr ⟨_, _, _, rfl⟩, by simp [getOr]⟩
  erase i _ := by
    unfold Gen.eraseOf flagsOf
    dsimp only
    rcases qubitErr_configured hq (show "erasure".toList ∈ qubitErrorNames by simp [qubitErrorNames]) i with ⟨h1, h2⟩ | ⟨a, ps, h1, h2⟩
    · rw [h2]
      rcases h1 with h1 | h1 <;> (rw [h1]; exact ⟨.inl rfl, by simp [getOr]⟩)
    · rw [h1, h2]
      dsimp only
      cases he : emit api .E_ERASE [param api (a :: ps) "p".toList, .int i] with
      | error e => exact ⟨.inr ⟨_, rfl⟩, by simp [getOr]⟩
      | ok x =>
        obtain ⟨p, rfl⟩ := gives_erase he
        exact ⟨.inr ⟨_, rfl⟩, by simp [getOr]⟩
  flip v _ := by
    unfold Gen.flips flagsOf Gen.applyMeasError
    dsimp only
    rw [if_pos rfl]
    generalize G.lat.idx v = i
    rcases qubitErr_configured hq (show "measurement".toList ∈ qubitErrorNames by simp [qubitErrorNames]) i with ⟨h1, h2⟩ | ⟨a, ps, h1, h2⟩
    · rw [h2]
      rcases h1 with h1 | h1 <;> (rw [h1]; exact ⟨.inl rfl, by simp [getOr]⟩)
    · rw [h1, h2]
      dsimp only
      cases hp : dictGet (a :: ps) "p".toList with
      | none => exact ⟨.inr ⟨_, rfl⟩, by simp [getOr]⟩
      | some p =>
        dsimp only
        cases he : emit api .ERROR [p, .str "X".toList, .int i] with
        | error e => exact ⟨.inr ⟨_, rfl⟩, by simp [getOr]⟩
        | ok x =>
          obtain ⟨p, rfl⟩ := gives_flip he
          exact ⟨.inr ⟨_, rfl⟩, by simp [getOr]⟩

/-! ### The circuit -/

theorem gate_quiet {code : LatCode} {qe ge : List (List Char × ErrDict F)} {anc : Bool} {G : Gen F} (hg : ∀ e ∈ ge, e.2 = [])
    (h : Gen.make code qe ge anc = .ok G) (g : Name) (a : Nat) (d : Option Nat) : G.gateError g a d = none := by
  have hG : G.gateErrors = setDefaults gateErrorNames ge := by
    unfold Gen.make at h
    split at h
    · cases h
    split at h
    · cases h
    dsimp only at h
    split at h
    · cases h
    cases h
    rfl
  unfold Gen.gateError
  rw [hG]
  cases hx : dictGet (setDefaults gateErrorNames ge) g.text with
  | none => rfl
  | some x =>
    have : x = [] := by
      unfold dictGet at hx
      rw [Option.map_eq_some_iff] at hx
      obtain ⟨e, he, rfl⟩ := hx
      have he := List.mem_of_find?_eq_some he
      unfold setDefaults at he
      rcases List.mem_append.mp he with he | he
      · exact hg e he
      · obtain ⟨m, _, rfl⟩ := List.mem_map.mp he; rfl
    rw [this]
    cases d <;> rfl

theorem getCircuit_inv {G : Gen F} {r : Nat} (hcode : G.code = L.latCode r) (hw : L.Wf) {sel : LogicalSel} {c : List (Gate F)} (hc : G.getCircuit api sel = .ok c) :
    ∃ is, logicalOpsToIndices L.logicals.length sel = .ok is ∧ is.length = L.logicals.length / 2 ∧ (∀ i ∈ is, 0 ≤ i ∧ i < L.logicals.length) ∧
      (∀ i ∈ is, ∀ j ∈ is, antiE (L.opEdges (L.selPos i)) (L.opEdges (L.selPos j)) = false) ∧
      catE (G.measureLogicals api is)
        (catE (G.measureStabgens api false)
          (catE (repeatE (catE (G.applyDataErrors api) (G.measureStabgens api true)) (r - 1))
            (catE (G.applyDataErrors api)
              (catE (G.measureStabgens api false) (G.measureLogicals api is))))) = .ok c := by
  obtain ⟨code, qe, ge, anc⟩ := G
  obtain rfl : code = L.latCode r := hcode
  have hlen : (L.latCode r).code.logicalOps.length = L.logicals.length := by
    show (L.logicals.map _).length = _
    simp
  unfold Gen.getCircuit at hc
  dsimp only at hc
  rw [hlen] at hc
  cases hi : logicalOpsToIndices L.logicals.length sel with
  | error e => rw [hi] at hc; simp at hc
  | ok is =>
    rw [hi] at hc
    dsimp only at hc
    obtain ⟨h1, h2⟩ := indices_inv hi
    have hml : mapLoop (getItem L.code.logicalOps) is = .ok (is.map fun i => L.vop (L.selPos i)) := by
      refine mapLoop_ok is ?_
      intro i hi'
      obtain ⟨k1, k2⟩ := h2 i hi'
      have hlt : i.toNat < L.logicals.length := by omega
      unfold getItem Lattice.selPos Lattice.code
      dsimp only
      rw [List.getElem?_map, List.getElem?_eq_getElem hlt]
      rfl
    rw [hml] at hc
    dsimp only at hc
    cases hct : (commTable (is.map fun i => L.vop (L.selPos i)) (is.map fun i => L.vop (L.selPos i))).any fun r => r.any (· ≠ 0) with
    | true => rw [if_pos (by exact hct)] at hc; simp at hc
    | false =>
      rw [if_neg (by rw [Bool.not_eq_true]; exact hct)] at hc
      refine ⟨is, rfl, h1, h2, ?_, hc⟩
      intro i hi' j hj'
      rw [commTable_zero] at hct
      have := hct _ (List.mem_map_of_mem hi') _ (List.mem_map_of_mem hj')
      rw [commSign_zero_iff, commutes_iff, hw.anti_vop] at this
      exact this

/-- Without gate errors the circuit has the expected form. -/
theorem noisy_circuit (hw : L.Wf) (hs : L.Sched) {r : Nat} {qe ge : List (List Char × ErrDict F)} (hg : ∀ e ∈ ge, e.2 = []) {sel : LogicalSel} {anc : Bool} {c : List (Gate F)}
    (h : generateCircuit api (L.latCode r) qe ge sel anc = .ok c) :
    ∃ pg eg err is, ErrGates L (flagsOf qe) pg eg err ∧ logicalOpsToIndices L.logicals.length sel = .ok is ∧ is.length = L.logicals.length / 2 ∧
      (∀ i ∈ is, 0 ≤ i ∧ i < L.logicals.length) ∧ (∀ i ∈ is, ∀ j ∈ is, antiE (L.opEdges (L.selPos i)) (L.opEdges (L.selPos j)) = false) ∧
      c = L.noisyGates pg eg err anc r (is.map L.selPos) := by
  have hG : ∃ G : Gen F, Gen.make (L.latCode r) qe ge anc = .ok G ∧ G.getCircuit api sel = .ok c := by
    unfold generateCircuit at h
    split at h
    · cases h
    · next G hG => exact ⟨G, hG, h⟩
  obtain ⟨G, hG, hc⟩ := hG
  obtain ⟨hcode, hanc, hq⟩ := make_inv hG
  have hge := gate_quiet hg hG
  have hlat : G.lat = L := by unfold Gen.lat; rw [hcode]
  obtain ⟨is, i1, i2, i3, i4, hc⟩ := getCircuit_inv hcode hw hc
  have hE := gen_errs (api := api) hq
  have hf : G.flips api false = fun _ => [] := by funext i; rfl
  have y1 := yields_logs (api := api) (is := is) hge (by rw [hlat]; exact hs.noY) (by rw [hlat]; exact i3)
  have y2 := yields_round (api := api) hge (by rw [hlat]; exact hs.noY)
  have y3 := yields_data (api := api) (G := G) (by rw [hlat]; exact hw)
  have y2f := y2 false
  have y2t := y2 true
  rw [hf] at y2f
  rw [hanc] at y1
  rw [hlat] at hE y1 y2f y2t y3
  refine ⟨_, _, _, is, hE, i1, i2, i3, i4, ?_⟩
  exact yields_iff.1 (y1.cat (y2f.cat (Emits.cat (Emits.repeatE (y3.cat y2t) (r - 1)) (y3.cat (y2f.cat y1))))) c hc

end Plaquette
