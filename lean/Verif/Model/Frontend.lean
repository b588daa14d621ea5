import Verif.Model.Generator
import Verif.Model.Weights

/-!
# Model of the configuration classes, `src/plaquette/frontend/__init__.py`, and of the error tables of
`src/plaquette/errors/__init__.py` they fill

Paths, files and warnings are left out: the contents of a CSV file are an argument. The order in which python iterates over a
set is an argument as well, and so are the draws of the normal distribution.
-/

namespace Plaquette
variable {F : Type}

/-! ### Codes -/

/-- A value given for a number. For a float only the sign is kept (`nan` is not negative); `other` is everything that cannot
be compared with an integer (`None`, strings, lists). -/
inductive PyNum
  | int (i : Int)
  | bool (b : Bool)
  | flt (neg : Bool)
  | other
  deriving DecidableEq

/-- `v < 0` -/
def PyNum.ltZero : PyNum → Except Err Bool
  | .int i => .ok (decide (i < 0))
  | .bool _ => .ok false
  | .flt neg => .ok neg
  | .other => .error .typeError

/-- `isinstance(v, int)` -/
def PyNum.isInt : PyNum → Bool
  | .int _ => true
  | .bool _ => true
  | _ => false

/-- `CodeConfig`, `frontend/__init__.py:72-109`. The name `None` stands for every value that is no string. -/
structure CodeConfig where
  name : Option (List Char)
  rounds : PyNum
  size : PyNum
  deriving DecidableEq

/-- `CodeConfig.VALID_CODES`, `frontend/__init__.py:101-108`. -/
def validCodes : List (List Char) :=
  ["RotatedPlanarCode".toList, "PlanarCode".toList, "ToricCode".toList, "RepetitionCode".toList, "FiveQubitCode".toList,
   "ShorCode".toList]

/-- `self.size < 0 or self.rounds < 0`, `frontend/__init__.py:121`. -/
def CodeConfig.negative (c : CodeConfig) : Except Err Bool :=
  match c.size.ltZero with
  | .error e => .error e
  | .ok true => .ok true
  | .ok false => c.rounds.ltZero

/-- `CodeConfig.__post_init__`, `frontend/__init__.py:111-130`. -/
def CodeConfig.postInit (c : CodeConfig) : Except Err CodeConfig :=
  match c.name with
  | none => .error .valueError
  | some name =>
    if name ∉ validCodes then .error .valueError
    else if name ∈ validCodes.drop 4 then .ok { c with size := .int (-1) }
    else match c.negative with
      | .error e => .error e
      | .ok neg =>
        if neg || (!(c.size.isInt && c.rounds.isInt) && decide (name ∈ validCodes.take 4)) then .error .valueError
        else .ok c

/-- The dictionary given to `from_dict`; a key that is missing is `none`. -/
structure CodeDict where
  name : Option (Option (List Char)) := none
  rounds : Option PyNum := none
  size : Option PyNum := none

/-- `CodeConfig.from_dict`, `frontend/__init__.py:132-160`. -/
def CodeConfig.fromDict (d : CodeDict) : Except Err CodeConfig :=
  CodeConfig.postInit ⟨d.name.getD none, d.rounds.getD (.int 1), d.size.getD (.int (-1))⟩

/-- `CodeConfig.update`, `frontend/__init__.py:170-192`: the changed object if there is no exception. -/
def CodeConfig.update (c : CodeConfig) (d : CodeDict) : Except Err CodeConfig :=
  CodeConfig.postInit ⟨d.name.getD c.name, d.rounds.getD c.rounds, d.size.getD c.size⟩

/-- A natural number that is the value. -/
def PyNum.nat? : PyNum → Option Nat
  | .int i => if 0 ≤ i then some i.toNat else none
  | .bool b => some b.toNat
  | _ => none

/-- `CodeConfig.instantiate`, `frontend/__init__.py:197-222`. Numbers of rounds and sizes that are not natural numbers are
not modelled. -/
def CodeConfig.instantiate (c : CodeConfig) : Except Err LatCode :=
  match c.rounds.nat? with
  | none => .error .unmodelled
  | some r =>
    if c.name = some "ShorCode".toList then makeShor r
    else if c.name = some "FiveQubitCode".toList then makeFiveQubit r
    else match c.size.nat? with
      | none => .error .unmodelled
      | some s =>
        if c.name = some "RepetitionCode".toList then makeRepetition r s
        else if c.name = some "PlanarCode".toList then makePlanar r s
        else if c.name = some "RotatedPlanarCode".toList then makeRotated r s false
        else if c.name = some "ToricCode".toList then makeToric r s
        else .error .attributeError

/-! ### Qubit errors -/

/-- `_QubitErrorMetadata`, `frontend/__init__.py:226-260`. -/
structure QubitMeta (F : Type) where
  distribution : List Char
  params : List F
  enabled : Bool

/-- `_QubitErrorMetadata.is_empty`, `frontend/__init__.py:384-392`. -/
def QubitMeta.isEmpty (m : QubitMeta F) : Bool := m.distribution.isEmpty && m.params.isEmpty

/-- `_QubitErrorMetadata.__post_init__`, `frontend/__init__.py:262-294`. -/
def QubitMeta.postInit (m : QubitMeta F) : Except Err (QubitMeta F) :=
  let fin : Except Err (QubitMeta F) := .ok (if m.isEmpty then { m with enabled := false } else m)
  if m.distribution = "user".toList then if m.params.isEmpty then fin else .error .valueError
  else if m.distribution = "constant".toList then if m.params.length ≠ 1 then .error .valueError else fin
  else if m.distribution = "gaussian".toList then if m.params.length ≠ 2 then .error .valueError else fin
  else if m.distribution = [] then fin
  else .error .valueError

/-- `_QubitErrorMetadata.make_empty`, `frontend/__init__.py:335-344`. -/
def QubitMeta.empty : QubitMeta F := ⟨[], [], false⟩

/-- `QubitErrorsConfig.QUBIT_KEYS`, `frontend/__init__.py:496-503`. -/
def qubitKeys : List (List Char) :=
  ["X".toList, "Y".toList, "Z".toList, "erasure".toList, "measurement".toList, "fabrication".toList]

/-- `QubitErrorsConfig`, `frontend/__init__.py:395-509`, without the paths. -/
structure QubitConfig (F : Type) where
  sample : Bool
  chan : List Char → QubitMeta F

/-- `QubitErrorsConfig.simulated_errors`, `frontend/__init__.py:680-727`, for an order of the keys. -/
def QubitConfig.simulated (c : QubitConfig F) (order : List (List Char)) : Option (List (List Char × List Char × List F)) :=
  if !c.sample then none
  else some (order.filterMap fun key =>
    let m := c.chan key
    if m.enabled && !m.isEmpty then
      if m.distribution = "user".toList then some (key, m.distribution, []) else some (key, m.distribution, m.params)
    else none)

/-! ### Gate errors -/

/-- The attribute `distribution` of gate errors. -/
inductive Distr
  | str (s : List Char)
  | list (l : List (List Char))

/-- `_GateErrorMetadata`, `frontend/__init__.py:730-796`. -/
structure GateMeta (F : Type) where
  distribution : Distr
  induced : List (List Char)
  params : List (List F)
  enabled : Bool

/-- `_GateErrorMetadata.VALID_INDUCED_ERRORS`, `frontend/__init__.py:798-802`. (`difference` iterates over the characters of
its argument.) -/
def validInduced : List (List Char) :=
  (("XYZI".toList.flatMap fun a => "XYZI".toList.map fun b => [a, b]).filter fun s => s ∉ "II".toList.map fun c => [c]) ++
    ["X".toList, "Y".toList, "Z".toList]

/-- The loop of `_GateErrorMetadata.__post_init__`, `frontend/__init__.py:818-837`; the lists begin at the index. -/
def checkChannels : List (List Char) → List (List Char) → List (List F) → Except Err Unit
  | [], _, _ => .ok ()
  | _ :: _, [], _ => .error .indexError
  | d :: ds, e :: es, ps =>
    if e ∉ validInduced then .error .valueError
    else if d = "constant".toList ∨ d = "gaussian".toList then
      match ps with
      | [] => .error .indexError
      | p :: ps =>
        if p.length ≠ (if d = "constant".toList then 1 else 2) then .error .valueError else checkChannels ds es ps
    else .error .valueError

/-- `_GateErrorMetadata.__post_init__`, `frontend/__init__.py:807-837`. -/
def GateMeta.postInit (m : GateMeta F) : Except Err (GateMeta F) :=
  match m.distribution with
  | .str _ => if m.induced.length ≠ 0 ∧ m.params.length ≠ 0 then .error .valueError else .ok m
  | .list ds =>
    if m.induced.length ≠ m.params.length then .error .valueError
    else match checkChannels ds m.induced m.params with
      | .error e => .error e
      | .ok () => .ok m

/-- `_GateErrorMetadata.make_empty`, `frontend/__init__.py:894-907`. -/
def GateMeta.empty : GateMeta F := ⟨.str [], [], [], false⟩

/-- `_GateErrorMetadata.is_empty`, `frontend/__init__.py:939-947`. -/
def GateMeta.isEmpty (m : GateMeta F) : Bool :=
  match m.distribution with
  | .str s => s.isEmpty
  | .list l => l.isEmpty

/-- The value of `simulated_errors` for one gate. -/
inductive GateSim (F : Type)
  | str (s : List Char)
  | channels (l : List (List Char × List Char × List F))

/-- The loop over the induced errors, `frontend/__init__.py:1333-1342`; the lists begin at the index. -/
def zipChannels : List (List Char) → List (List Char) → List (List F) → Except Err (List (List Char × List Char × List F))
  | _, [], _ => .ok []
  | [], _ :: _, _ => .error .indexError
  | _ :: _, _ :: _, [] => .error .indexError
  | d :: ds, e :: es, p :: ps =>
    match zipChannels ds es ps with
    | .error x => .error x
    | .ok l => .ok ((d, e, p) :: l)

/-- The body of the loop of `simulated_errors`, `frontend/__init__.py:1328-1343`, for one gate that is enabled. -/
def GateMeta.sim (m : GateMeta F) : Except Err (GateSim F) :=
  match m.distribution with
  | .str s => .ok (.str s)
  | .list ds => match zipChannels ds m.induced m.params with
    | .error e => .error e
    | .ok l => .ok (.channels l)

/-- `GateErrorsConfig.GATE_KEYS`, `frontend/__init__.py:1077`. -/
def gateKeys : List (List Char) := ["CZ".toList, "CX".toList, "H".toList, "R".toList, "M".toList, "fabrication".toList]

/-- `GateErrorsConfig`, `frontend/__init__.py:950-1083`, without the paths. -/
structure GateConfig (F : Type) where
  sample : Bool
  chan : List Char → GateMeta F

/-- `GateErrorsConfig.from_dict`, `frontend/__init__.py:1088-1177`: `fabrication` is not passed on. -/
def GateConfig.fromDict (sample : Option Bool) (d : List (List Char × GateMeta F)) : Except Err (GateConfig F) :=
  match mapLoop (fun key => match dictGet d key with
      | none => .ok (key, GateMeta.empty)
      | some m => match m.postInit with
        | .error e => .error e
        | .ok m => .ok (key, m)) gateKeys with
  | .error e => .error e
  | .ok l => .ok ⟨sample.getD false, fun key =>
      if key = "fabrication".toList then GateMeta.empty else (dictGet l key).getD GateMeta.empty⟩

/-- The loop of `simulated_errors` over the gates, `frontend/__init__.py:1326-1343`. -/
def GateConfig.simLoop (c : GateConfig F) : List (List Char) → Except Err (List (List Char × GateSim F))
  | [] => .ok []
  | key :: keys =>
    if !(c.chan key).isEmpty && (c.chan key).enabled then
      match (c.chan key).sim with
      | .error e => .error e
      | .ok s => match c.simLoop keys with
        | .error e => .error e
        | .ok l => .ok ((key, s) :: l)
    else c.simLoop keys

/-- `GateErrorsConfig.simulated_errors`, `frontend/__init__.py:1281-1343`, for an order of the keys. -/
def GateConfig.simulated (c : GateConfig F) (order : List (List Char)) : Except Err (Option (List (List Char × GateSim F))) :=
  if !c.sample then .ok none
  else match c.simLoop order with
    | .error e => .error e
    | .ok l => .ok (some l)

/-! ### The table of qubit errors -/

/-- `ErrorData.qubit_errors`: the qubits (all but the logical ancillas) with a mark for data qubits, and the columns of
probabilities. The column `fabrication` is not modelled; nothing reads it. -/
structure QubitTable (F : Type) where
  qubits : List (Nat × Bool)
  cols : List (List Char × List F)

/-- The first columns, `errors/__init__.py:343-348`. -/
def Lattice.qubitInfo (L : Lattice) : List (Nat × Bool) :=
  (L.equbits.filter fun p => p ∉ L.logicals.map Prod.fst).map fun p => (L.idx p, decide (p ∈ L.dataqubits))

/-- The cell of a column that is changed by the CSV file (`DataFrame.update`). -/
def updateCol (qs : List (Nat × Bool)) (col : List F) (new : List (Nat × F)) : List F :=
  List.zipWith (fun q v => (dictGet new q.1).getD v) qs col

/-- The loop body of `assimilate_qubit_errors`, `errors/__init__.py:1189-1209`. `csv` has the columns of the file (an empty
list if there is no file or no row), `draws` the numbers drawn for the label. -/
def assimilateQubit (csv : List (List Char × List (Nat × F))) (draws : List Char → List F) (t : QubitTable F)
    (e : List Char × List Char × List F) : Except Err (QubitTable F) :=
  let set (c : List F) : QubitTable F := { t with cols := dictSet t.cols e.1 c }
  if e.2.1 = "constant".toList then
    match e.2.2 with
    | [] => .error .indexError
    | p :: _ => .ok (set (t.qubits.map fun _ => p))
  else if e.2.1 = "gaussian".toList then
    match e.2.2 with
    | _ :: _ :: _ => .ok (set (draws e.1))
    | _ => .error .indexError
  else if e.2.1 = "user".toList then
    if csv.isEmpty then .ok t
    else match dictGet csv e.1 with
      | none => .error .keyError
      | some new => .ok (set (updateCol t.qubits ((dictGet t.cols e.1).getD []) new))
  else .ok t

/-- A loop over a table. -/
def foldE {α β : Type} (f : β → α → Except Err β) : β → List α → Except Err β
  | b, [] => .ok b
  | b, a :: as => match f b a with
    | .error e => .error e
    | .ok b => foldE f b as

/-- `assimilate_qubit_errors`, `errors/__init__.py:1159-1211`, with `generate_empty_qubit_errors`, `errors/__init__.py:301-355`;
`zero` is `0.0`. -/
def assimilateQubits (zero : F) (L : Lattice) (csv : List (List Char × List (Nat × F))) (draws : List Char → List F)
    (conf : List (List Char × List Char × List F)) : Except Err (QubitTable F) :=
  if conf.any fun e => e.1 ∉ qubitKeys then .error .valueError
  else foldE (assimilateQubit csv draws) ⟨L.qubitInfo, conf.map fun e => (e.1, L.qubitInfo.map fun _ => zero)⟩ conf

/-- The entry of a column for the qubit, `self.qubit_errors[e][k]`. -/
def QubitTable.cell (t : QubitTable F) (e : List Char) (q : Nat) : Except Err F :=
  match dictGet t.cols e with
  | none => .error .keyError
  | some col => match dictGet (t.qubits.zip col |>.map fun x => (x.1.1, x.2)) q with
    | none => .error .keyError
    | some v => .ok v

/-- The loop over the qubits of one kind: the parameter `par` of every qubit gets the value of the column. -/
def QubitTable.fill (t : QubitTable F) (e par : List Char) : ErrDict F → Except Err (ErrDict F)
  | [] => .ok []
  | (k, ps) :: rest =>
    match k with
    | .tup _ => .error .keyError
    | .int q =>
      match t.cell e q.toNat with
      | .error x => .error x
      | .ok v => match t.fill e par rest with
        | .error x => .error x
        | .ok r => .ok ((k, dictSet ps par (.flt v)) :: r)

/-- The loop body of `qubit_errors_dict`, `errors/__init__.py:873-911`. -/
def QubitTable.addKind (t : QubitTable F) (d : List (List Char × ErrDict F)) (e : List Char) :
    Except Err (List (List Char × ErrDict F)) :=
  let go (kind par : List Char) (data : Bool) : Except Err (List (List Char × ErrDict F)) :=
    let old : ErrDict F := match dictGet d kind with
      | some o => o
      | none => (t.qubits.filter fun q => q.2 = data).map fun q => (QKey.int (q.1 : Int), [])
    match t.fill e par old with
    | .error x => .error x
    | .ok new => .ok (dictSet d kind new)
  if e = "X".toList ∨ e = "Y".toList ∨ e = "Z".toList then go "pauli".toList (e.map Char.toLower) true
  else if e = "erasure".toList then go "erasure".toList "p".toList true
  else if e = "measurement".toList then go "measurement".toList "p".toList false
  else .ok d

/-- `qubit_errors_dict`, `errors/__init__.py:867-911`, for an order of the enabled errors. -/
def QubitTable.dict (t : QubitTable F) (enabled : List (List Char)) : Except Err (List (List Char × ErrDict F)) :=
  foldE t.addKind [] enabled

/-! ### The table of gate errors -/

/-- A row of `ErrorData.gate_errors`. (A string of induced errors is the list of its characters, which is what the code makes
of it.) -/
structure GateRow (F : Type) where
  gate : List Char
  onQubits : List Nat
  induced : List (List Char)
  probs : List F

/-- The rows made for one channel of `H`, `M`, `R`, `errors/__init__.py:1246-1286`. -/
def rowsOne (L : Lattice) (draws : List F) (gate : List Char) (ch : List Char × List Char × List F) : Except Err (List (GateRow F)) :=
  let stabs := L.stabgens.map fun s => L.idx s.1
  if ch.1 = "constant".toList then
    match ch.2.2 with
    | [] => .error .indexError
    | p :: _ => .ok [⟨gate, stabs, [ch.2.1], [p]⟩]
  else if ch.1 = "gaussian".toList then
    match ch.2.2 with
    | _ :: _ :: _ => .ok (List.zipWith (fun q p => ⟨gate, [q], [ch.2.1], [p]⟩) stabs draws)
    | _ => .error .indexError
  else .ok []

/-- The pairs of ancilla and data qubit, `errors/__init__.py:1290-1295`. -/
def Lattice.gatePairs (L : Lattice) : List (Nat × Nat) :=
  L.stabgens.flatMap fun s => (L.opEdges s.1).map fun e => (L.idx s.1, L.idx e.data)

/-- The rows made for one channel of `CX`, `CZ`, `errors/__init__.py:1288-1338`. -/
def rowsTwo (L : Lattice) (draws : List F) (gate : List Char) (ch : List Char × List Char × List F) : Except Err (List (GateRow F)) :=
  if ch.1 = "constant".toList then
    match ch.2.2 with
    | [] => .error .indexError
    | p :: _ => .ok [⟨gate, L.gatePairs.flatMap fun q => [q.1, q.2], [ch.2.1], [p]⟩]
  else if ch.1 = "gaussian".toList then
    match ch.2.2 with
    | _ :: _ :: _ => .ok (List.zipWith (fun q p => ⟨gate, [q.1, q.2], ch.2.1.map fun c => [c], [p]⟩) L.gatePairs draws)
    | _ => .error .indexError
  else .ok []

/-- The loop over the channels of a gate. -/
def rowsLoop (f : List Char × List Char × List F → Except Err (List (GateRow F))) :
    List (List Char × List Char × List F) → Except Err (List (GateRow F))
  | [] => .ok []
  | ch :: chs => match f ch with
    | .error e => .error e
    | .ok rows => match rowsLoop f chs with
      | .error e => .error e
      | .ok rest => .ok (rows ++ rest)

/-- The loop body of `assimilate_gate_errors`, `errors/__init__.py:1242-1348`. A single string other than `user` is a tuple
with one string, whose characters are no distributions, so that there are no rows. -/
def assimilateGate (L : Lattice) (csv : List (GateRow F)) (draws : List Char → List F) (e : List Char × GateSim F) :
    Except Err (List (GateRow F)) :=
  match e.2 with
  | .str s => if s = "user".toList then .ok (csv.filter fun r => r.gate = e.1) else .ok []
  | .channels [] => .error .indexError
  | .channels chs =>
    if e.1 = "H".toList ∨ e.1 = "M".toList ∨ e.1 = "R".toList then rowsLoop (rowsOne L (draws e.1) e.1) chs
    else if e.1 = "CX".toList ∨ e.1 = "CZ".toList then rowsLoop (rowsTwo L (draws e.1) e.1) chs
    else .ok []

/-- `assimilate_gate_errors`, `errors/__init__.py:1213-1349`. (All channels of a gate get the same draws here, which is one of
the possibilities.) -/
def assimilateGates (L : Lattice) (csv : List (GateRow F)) (draws : List Char → List F) :
    List (List Char × GateSim F) → Except Err (List (GateRow F))
  | [] => .ok []
  | e :: es => match assimilateGate L csv draws e with
    | .error x => .error x
    | .ok rows => match assimilateGates L csv draws es with
      | .error x => .error x
      | .ok rest => .ok (rows ++ rest)

/-- The parameters of a row: `{str(k).lower(): v for k, v in zip(induced_errors, probs)}`. -/
def GateRow.params (r : GateRow F) : Params F :=
  (r.induced.zip r.probs).foldl (fun d kv => dictSet d (kv.1.map Char.toLower) (.flt kv.2)) []

/-- The pairs of the qubits of a row; an odd number raises `IndexError`. -/
def pairUp : List Nat → Except Err (List QKey)
  | [] => .ok []
  | [_] => .error .indexError
  | a :: b :: rest => match pairUp rest with
    | .error e => .error e
    | .ok l => .ok (.tup [(a : Int), (b : Int)] :: l)

/-- The loop body of `gate_errors_dict`, `errors/__init__.py:920-951`. -/
def addRow (enabled : List (List Char)) (d : List (List Char × ErrDict F)) (r : GateRow F) : Except Err (List (List Char × ErrDict F)) :=
  if r.gate ∉ enabled then .ok d
  else
    let old := (dictGet d r.gate).getD []
    if r.gate = "H".toList ∨ r.gate = "M".toList ∨ r.gate = "R".toList then
      .ok (dictSet d r.gate (r.onQubits.foldl (fun o (q : Nat) => dictSet o (.int (q : Int)) r.params) old))
    else if r.gate = "CX".toList ∨ r.gate = "CZ".toList then
      if r.induced.any fun s => s ∈ (["X".toList, "Y".toList, "Z".toList] : List (List Char)) then .error .keyError
      else match pairUp r.onQubits with
        | .error e => .error e
        | .ok ks => .ok (dictSet d r.gate (ks.foldl (fun o k => dictSet o k r.params) old))
    else .ok d

/-- `gate_errors_dict`, `errors/__init__.py:913-952`. -/
def gateDict (enabled : List (List Char)) (rows : List (GateRow F)) : Except Err (List (List Char × ErrDict F)) :=
  foldE (addRow enabled) [] rows

/-- The dictionaries of errors made from the two configurations (`None` if nothing is to be sampled): `ErrorData.from_lattice`,
`errors/__init__.py:457-553`, with `qubit_errors_dict` and `gate_errors_dict`. Without any configuration there are errors X, Y
and Z with probability `tenth` (0.1). `order` is the order of the set of enabled qubit errors. -/
def errorDicts (zero tenth : F) (L : Lattice) (qcsv : List (List Char × List (Nat × F))) (gcsv : List (GateRow F))
    (qdraws gdraws : List Char → List F) (order : List (List Char)) (qc : Option (List (List Char × List Char × List F)))
    (gc : Option (List (List Char × GateSim F))) : Except Err (List (List Char × ErrDict F) × List (List Char × ErrDict F)) :=
  match qc, gc with
  | none, none =>
    let t : QubitTable F :=
      ⟨L.qubitInfo, (["X".toList, "Y".toList, "Z".toList] : List (List Char)).map fun e => (e, L.qubitInfo.map fun _ => tenth)⟩
    match t.dict (order.filter fun e => e ∈ (["X".toList, "Y".toList, "Z".toList] : List (List Char))) with
    | .error x => .error x
    | .ok d => .ok (d, [])
  | qc, gc =>
    let q : Except Err (List (List Char × ErrDict F)) := match qc with
      | none => .ok []
      | some conf => match assimilateQubits zero L qcsv qdraws conf with
        | .error x => .error x
        | .ok t => t.dict (order.filter fun e => e ∈ conf.map Prod.fst)
    match q with
    | .error x => .error x
    | .ok qd =>
      let g : Except Err (List (List Char × ErrDict F)) := match gc with
        | none => .ok []
        | some conf => match assimilateGates L gcsv gdraws conf with
          | .error x => .error x
          | .ok rows => gateDict (conf.map Prod.fst) rows
      match g with
      | .error x => .error x
      | .ok gd => .ok (qd, gd)

/-- The dictionaries of a configuration, `ErrorsConfig.instantiate`, `frontend/__init__.py:1408-1422`. -/
def configErrors (zero tenth : F) (L : Lattice) (qcsv : List (List Char × List (Nat × F))) (gcsv : List (GateRow F))
    (qdraws gdraws : List Char → List F) (qorder gorder order : List (List Char)) (q : QubitConfig F) (g : GateConfig F) :
    Except Err (List (List Char × ErrDict F) × List (List Char × ErrDict F)) :=
  match g.simulated gorder with
  | .error x => .error x
  | .ok gc => errorDicts zero tenth L qcsv gcsv qdraws gdraws order (q.simulated qorder) gc

/-! ### Device and decoder -/

/-- `DeviceConfig.__post_init__`, `frontend/__init__.py:1597-1602`; the names of the devices, `device/__init__.py`, are an
argument. -/
def deviceCheck (devices : List (List Char)) (name : List Char) (shots : PyNum) : Except Err Unit :=
  if name ∉ devices then .error .valueError
  else match shots with
    | .int i => if 0 < i then .ok () else .error .valueError
    | .bool b => if b then .ok () else .error .valueError
    | _ => .error .valueError

end Plaquette
