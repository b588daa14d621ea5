import Verif.Model.Errors

/-!
# Model of `src/plaquette/circuit/generator.py` and of `MeasurementSample` (`src/plaquette/device/__init__.py`)

A method of the generator appends gates to the circuit; in the model it returns the list of the gates it appends, or the
exception.
-/

namespace Plaquette
variable {F : Type}

/-- Statements one after the other: the gates of the first, then those of the second. -/
def catE {α : Type} (a b : Except Err (List α)) : Except Err (List α) :=
  match a with
  | .error e => .error e
  | .ok x => match b with
    | .error e => .error e
    | .ok y => .ok (x ++ y)

/-- `for v in l: f(v)` -/
def forE {α β : Type} (f : α → Except Err (List β)) : List α → Except Err (List β)
  | [] => .ok []
  | a :: as => catE (f a) (forE f as)

/-- `Circuit.append(name, *args)` and the methods of `CircuitBuilder`, `circuit/__init__.py:188-229, 279-350`. -/
def emit (api : FloatApi F) (name : Name) (args : List (Raw F)) : Except Err (List (Gate F)) :=
  match appendGate api name.text args with
  | .error e => .error e
  | .ok g => .ok [g]

/-- The state of a `QECCircuitGenerator`, `generator.py:82-124` (the circuit under construction aside). -/
structure Gen (F : Type) where
  code : LatCode
  qubitErrors : List (List Char × ErrDict F)
  gateErrors : List (List Char × ErrDict F)
  logicalAncilla : Bool

/-- `self.qubit_errors.setdefault(key, {})` for all keys: afterwards a missing kind of error is an empty dictionary.
(The python loop goes over a `frozenset`; the order in which keys are added does not matter.) -/
def setDefaults (names : List (List Char)) (d : List (List Char × ErrDict F)) : List (List Char × ErrDict F) :=
  d ++ (names.filter fun n => (dictGet d n).isNone).map fun n => (n, [])

/-- `QECCircuitGenerator.__init__`, `generator.py:82-124`. -/
def Gen.make (code : LatCode) (qubitErrors gateErrors : List (List Char × ErrDict F)) (logicalAncilla : Bool) :
    Except Err (Gen F) :=
  if qubitErrors.any fun e => e.1 ∉ qubitErrorNames then .error .keyError
  else if gateErrors.any fun e => e.1 ∉ gateErrorNames then .error .keyError
  else
    let q := setDefaults qubitErrorNames qubitErrors
    let g := setDefaults gateErrorNames gateErrors
    match checkAgainstCode code.lattice (q ++ g) with
    | .error e => .error e
    | .ok () => .ok { code := code, qubitErrors := q, gateErrors := g, logicalAncilla := logicalAncilla }

/-- `self.lat` -/
def Gen.lat (G : Gen F) : Lattice := G.code.lattice

/-- `self.qubit_errors[name].get(key, None)` -/
def Gen.qubitErr (G : Gen F) (name : List Char) (i : Nat) : Except Err (Option (Params F)) :=
  match dictGet G.qubitErrors name with
  | none => .error .keyError
  | some d => .ok (dictGet d (.int i))

/-- `p.get(name, 0.0)` -/
def param (api : FloatApi F) (ps : Params F) (name : List Char) : Raw F := (dictGet ps name).getD (.flt (api.ofInt 0))

/-- The body of the loop of `apply_dataqubit_errors`, `generator.py:128-139`. -/
def Gen.dataErrors (api : FloatApi F) (G : Gen F) (v : Pos) : Except Err (List (Gate F)) :=
  catE
    (match G.qubitErr "pauli".toList (G.lat.idx v) with
      | .error e => .error e
      | .ok none => .ok []
      | .ok (some []) => .ok []
      | .ok (some ps) => emit api .E_PAULI [param api ps "x".toList, param api ps "y".toList, param api ps "z".toList,
          .int (G.lat.idx v)])
    (match G.qubitErr "erasure".toList (G.lat.idx v) with
      | .error e => .error e
      | .ok none => .ok []
      | .ok (some []) => .ok []
      | .ok (some ps) => emit api .E_ERASE [param api ps "p".toList, .int (G.lat.idx v)])

/-- `apply_dataqubit_errors`, `generator.py:128-141`. -/
def Gen.applyDataErrors (api : FloatApi F) (G : Gen F) : Except Err (List (Gate F)) :=
  forE (G.dataErrors api) G.lat.dataqubits

/-- `apply_measurement_error`, `generator.py:143-147`. -/
def Gen.applyMeasError (api : FloatApi F) (G : Gen F) (anc : Nat) : Except Err (List (Gate F)) :=
  match G.qubitErr "measurement".toList anc with
  | .error e => .error e
  | .ok none => .ok []
  | .ok (some []) => .ok []
  | .ok (some ps) =>
    match dictGet ps "p".toList with
    | none => .error .keyError
    | some p => emit api .ERROR [p, .str "X".toList, .int anc]

/-- `get_gate_error`, `generator.py:197-210`. -/
def Gen.gateError (G : Gen F) (gate : Name) (anc : Nat) (data : Option Nat) : Option (Params F) :=
  match dictGet G.gateErrors gate.text with
  | none => none
  | some d =>
    let err := match data with
      | some q => dictGet d (.tup [(anc : Int), (q : Int)])
      | none => none
    match err with
    | some e => some e
    | none => dictGet d (.int anc)

/-- The loop over `"ixyz"` twice, `generator.py:186-190`. -/
def pairNames : List (List Char) :=
  "ixyz".toList.flatMap fun p1 => "ixyz".toList.map fun p2 => [p1, p2]

/-- `apply_gate_error`, `generator.py:172-195`. -/
def Gen.applyGateError (api : FloatApi F) (G : Gen F) (gate : Name) (anc : Nat) (data : Option Nat) :
    Except Err (List (Gate F)) :=
  match G.gateError gate anc data with
  | none => .ok []
  | some ps =>
    match gate with
    | .H | .R | .M =>
      emit api .E_PAULI [param api ps "x".toList, param api ps "y".toList, param api ps "z".toList, .int anc]
    | .CZ | .CX =>
      match data with
      | some q => emit api .E_PAULI2 (((pairNames.map (param api ps)).drop 1) ++ [.int anc, .int q])
      | none => .error .typeError
    | _ => .error .valueError

/-- `apply_gate_and_error`, `generator.py:149-170`. -/
def Gen.gateAndError (api : FloatApi F) (G : Gen F) (gate : Name) (anc : Nat) (data : Option Nat) (withErrors : Bool) :
    Except Err (List (Gate F)) :=
  catE (emit api gate (.int anc :: (match data with | some q => [.int q] | none => [])))
    (if withErrors then G.applyGateError api gate anc data else .ok [])

/-- The controlled Pauli gate of an edge, `generator.py:222-235` (`yErr` is the exception for the factor Y). -/
def Gen.edgeGate (api : FloatApi F) (G : Gen F) (yErr : Err) (anc : Nat) (withErrors : Bool) (e : LEdge) :
    Except Err (List (Gate F)) :=
  match e.factor with
  | .X => G.gateAndError api .CX anc (some (G.lat.idx e.data)) withErrors
  | .Y => .error yErr
  | .Z => G.gateAndError api .CZ anc (some (G.lat.idx e.data)) withErrors

/-- The preparation of an ancilla, `generator.py:220-221, 301-304`. -/
def Gen.prepare (api : FloatApi F) (G : Gen F) (withErrors : Bool) (op : Pos) : Except Err (List (Gate F)) :=
  catE (G.gateAndError api .R (G.lat.idx op) none withErrors) (G.gateAndError api .H (G.lat.idx op) none withErrors)

/-- The read-out of an ancilla, `generator.py:236-239, 319-324`. -/
def Gen.readOut (api : FloatApi F) (G : Gen F) (withErrors : Bool) (op : Pos) : Except Err (List (Gate F)) :=
  catE (G.gateAndError api .H (G.lat.idx op) none withErrors)
    (catE (if withErrors then G.applyMeasError api (G.lat.idx op) else .ok [])
      (G.gateAndError api .M (G.lat.idx op) none withErrors))

/-- `measure_op`, `generator.py:212-239`. -/
def Gen.measureOp (api : FloatApi F) (G : Gen F) (withErrors : Bool) (op : Pos) : Except Err (List (Gate F)) :=
  catE (G.prepare api withErrors op)
    (catE (forE (G.edgeGate api .valueError (G.lat.idx op) withErrors) (G.lat.opEdges op)) (G.readOut api withErrors op))

/-- The direct measurement of one factor of a logical operator, `generator.py:254-264`. -/
def Gen.measureFactor (api : FloatApi F) (G : Gen F) (e : LEdge) : Except Err (List (Gate F)) :=
  match e.factor with
  | .X => catE (G.gateAndError api .H (G.lat.idx e.data) none false) (G.gateAndError api .M (G.lat.idx e.data) none false)
  | .Y => .error .valueError
  | .Z => G.gateAndError api .M (G.lat.idx e.data) none false

/-- The body of the loop of `measure_logical_ops`, `generator.py:250-266`. -/
def Gen.measureLogical (api : FloatApi F) (G : Gen F) (i : Int) : Except Err (List (Gate F)) :=
  match G.lat.logicals[i.toNat]? with
  | none => .error .indexError
  | some op =>
    if !G.logicalAncilla then forE (G.measureFactor api) (G.lat.opEdges op.1)
    else G.measureOp api false op.1

/-- `measure_logical_ops`, `generator.py:241-266`. -/
def Gen.measureLogicals (api : FloatApi F) (G : Gen F) (sel : List Int) : Except Err (List (Gate F)) :=
  forE (G.measureLogical api) sel

/-- `measure_stabgens_seq`, `generator.py:282-291`. -/
def Gen.measureSeq (api : FloatApi F) (G : Gen F) (withErrors : Bool) : Except Err (List (Gate F)) :=
  forE (fun s => G.measureOp api withErrors s.1) G.lat.stabgens

/-- `measure_stabgens_pl`, `generator.py:295-324`. -/
def Gen.measurePar (api : FloatApi F) (G : Gen F) (steps : Nat) (withErrors : Bool) : Except Err (List (Gate F)) :=
  catE (forE (fun s => G.prepare api withErrors s.1) G.lat.stabgens)
    (catE
      (forE (fun (i : Nat) => forE (fun e => G.edgeGate api .notImplementedError (G.lat.idx e.op) withErrors e)
        (G.lat.edges.filter fun e => e.step = some i)) (List.range steps))
      (forE (fun s => G.readOut api withErrors s.1) G.lat.stabgens))

/-- `measure_stabgens`, `generator.py:268-280`. -/
def Gen.measureStabgens (api : FloatApi F) (G : Gen F) (withErrors : Bool) : Except Err (List (Gate F)) :=
  match G.lat.timeSteps with
  | some k => G.measurePar api k withErrors
  | none => G.measureSeq api withErrors

/-- Repeat a statement. -/
def repeatE {β : Type} (a : Except Err (List β)) : Nat → Except Err (List β)
  | 0 => .ok []
  | k + 1 => catE a (repeatE a k)

/-- `l[i]` for an index that is not negative. -/
def getItem {α : Type} (l : List α) (i : Int) : Except Err α :=
  match l[i.toNat]? with
  | some a => .ok a
  | none => .error .indexError

/-- `get_circuit`, `generator.py:326-372`: the gates that are appended. -/
def Gen.getCircuit (api : FloatApi F) (G : Gen F) (sel : LogicalSel) : Except Err (List (Gate F)) :=
  match logicalOpsToIndices G.code.code.logicalOps.length sel with
  | .error e => .error e
  | .ok idx =>
    match mapLoop (getItem G.code.code.logicalOps) idx with
    | .error e => .error e
    | .ok ops =>
      if (commTable ops ops).any fun r => r.any (· ≠ 0) then .error .valueError
      else
        catE (G.measureLogicals api idx)
          (catE (G.measureStabgens api false)
            (catE (repeatE (catE (G.applyDataErrors api) (G.measureStabgens api true)) (G.code.nRounds - 1))
              (catE (G.applyDataErrors api)
                (catE (G.measureStabgens api false) (G.measureLogicals api idx)))))

/-- `generate_qec_circuit`, `generator.py:375-425`. -/
def generateCircuit (api : FloatApi F) (code : LatCode) (qubitErrors gateErrors : List (List Char × ErrDict F))
    (sel : LogicalSel) (logicalAncilla : Bool) : Except Err (List (Gate F)) :=
  match Gen.make code qubitErrors gateErrors logicalAncilla with
  | .error e => .error e
  | .ok G => G.getCircuit api sel

/-! ### `MeasurementSample` -/

/-- A bound of a slice of a list of length `len`. -/
def pyBound (len : Nat) (i : Int) : Nat := min (if i < 0 then i + len else i).toNat len

/-- Python's `l[a:b]`: negative bounds count from the end, bounds are clipped. -/
def pySlice {α : Type} (l : List α) (a b : Int) : List α :=
  (l.drop (pyBound l.length a)).take (pyBound l.length b - pyBound l.length a)

/-- `np.sum(bits) % 2` -/
def parity (l : List Bool) : Bool := decide (l.count true % 2 = 1)

/-- Element-wise XOR of two lists. -/
def xorL (a b : List Bool) : List Bool := List.zipWith xor a b

/-- Rows of length `k`. -/
def chunks {α : Type} (k : Nat) : Nat → List α → List (List α)
  | 0, _ => []
  | r + 1, l => l.take k :: chunks k r (l.drop k)

/-- `l.reshape((rows, cols))` -/
def reshape {α : Type} (l : List α) (rows cols : Nat) : Except Err (List (List α)) :=
  if l.length = rows * cols then .ok (chunks cols rows l) else .error .valueError

/-- `MeasurementSample`, `device/__init__.py:169-213`. -/
structure Sample where
  initial : List Bool
  final : List Bool
  toggle : List Bool
  stabilizers : List (List Bool)
  syndrome : List (List Bool)
  erased : Option (List (List Bool))
  deriving DecidableEq

/-- `count_qubits(code.logical_ops, include_identities=False)[0]`, `pauli.py:750-781`. -/
def firstWeight {n : Nat} (c : StabCode n) : Except Err Nat :=
  match c.logicalOps with
  | [] => .error .indexError
  | a :: _ => .ok ((List.finRange n).countP fun q => a.x q || a.z q)

/-- The logical results and the ancilla results, `device/__init__.py:236-263`. -/
def splitResults (c : LatCode) (raw : List Bool) (logicalAncilla : Bool) :
    Except Err (List Bool × List Bool × List Bool) :=
  let k : Nat := c.code.nLogicalQubits
  if !logicalAncilla then
    match firstWeight c.code with
    | .error e => .error e
    | .ok d => .ok
      ((List.range k).map fun (i : Nat) => parity (pySlice raw (i * d) ((i + 1) * d)),
       ((List.range k).map fun (i : Nat) => parity (pySlice raw ((raw.length : Int) - i * d - d) ((raw.length : Int) - i * d))).reverse,
       pySlice raw (k * d) (-(k * d)))
  else .ok (pySlice raw 0 k, pySlice raw (-k) raw.length, pySlice raw k (-k))

/-- `from_code_and_raw_results`, `device/__init__.py:216-285`. -/
def Sample.fromRaw (c : LatCode) (raw : List Bool) (erasure : Option (List Bool)) (logicalAncilla : Bool) :
    Except Err Sample :=
  match splitResults c raw logicalAncilla with
  | .error e => .error e
  | .ok (init, final, anc) =>
    match reshape anc (c.nRounds + 1) c.code.stabilisers.length with
    | .error e => .error e
    | .ok stab =>
      let syndrome := List.zipWith xorL stab.tail stab.dropLast
      let mk (e : Option (List (List Bool))) : Sample :=
        { initial := init, final := final, toggle := xorL init final, stabilizers := stab, syndrome := syndrome, erased := e }
      match erasure with
      | none => .ok (mk none)
      | some er =>
        if er.length ≠ c.nRounds * c.n then .error .valueError
        else match reshape er c.nRounds c.n with
          | .error e => .error e
          | .ok er => .ok (mk (some er))

end Plaquette
