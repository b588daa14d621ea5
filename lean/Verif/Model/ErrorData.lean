import Verif.Model.Frontend

/-!
# Model of the class `ErrorData`, `src/plaquette/errors/__init__.py:358-996`: the tables of errors and the functions that change them

A table of qubit errors has rows with a label (the index of the dataframe). The values are data of a type `F` with a value `nan`
for missing numbers (`None` and `NaN` are not distinguished). Labels are supposed to be different. The column `fabrication` is
not modelled. The contents of files are arguments.
-/

namespace Plaquette
variable {F : Type} [DecidableEq F]

/-- A row of the table of qubit errors: its label and, unless the row was made by an assignment to a new label, `qubit_id` and
`qubit_type` (is it a data qubit? The other types are `stab` and `ancilla`). -/
structure EdRow where
  label : Nat
  info : Option (Nat × Bool)
  deriving DecidableEq

/-- `ErrorData`, `errors/__init__.py:358-390`. The sets of enabled errors are lists without repetition. -/
structure ErrTable (F : Type) where
  rows : List EdRow
  cols : List (List Char × List F)
  gates : List (GateRow F)
  enabledQ : List (List Char)
  enabledG : List (List Char)

/-- `s.add(x)` -/
def setAdd (s : List (List Char)) (x : List Char) : List (List Char) := if x ∈ s then s else s ++ [x]

/-- `set(l)` -/
def setOf (l : List (List Char)) : List (List Char) := l.foldl setAdd []

/-- The names of all columns. -/
def ErrTable.columns (d : ErrTable F) : List (List Char) := ["qubit_id".toList, "qubit_type".toList] ++ d.cols.map Prod.fst

/-- A new row with the label, if there is none: assigning to a label that is missing enlarges the table, all other cells of the
row are missing. -/
def ErrTable.ensureRow (nan : F) (d : ErrTable F) (i : Nat) : ErrTable F :=
  if d.rows.any fun r => r.label = i then d
  else { d with rows := d.rows ++ [⟨i, none⟩], cols := d.cols.map fun c => (c.1, c.2 ++ [nan]) }

/-- `self.qubit_errors.at[i, name] = p` -/
def ErrTable.setCell (nan : F) (name : List Char) (d : ErrTable F) (ip : Nat × F) : ErrTable F :=
  let d := d.ensureRow nan ip.1
  { d with cols := d.cols.map fun c => if c.1 = name then (c.1, List.zipWith (fun r v => if r.label = ip.1 then ip.2 else v) d.rows c.2) else c }

/-- `fillna(0.0)` for one column. -/
def ErrTable.fillNa (zero nan : F) (name : List Char) (d : ErrTable F) : ErrTable F :=
  { d with cols := d.cols.map fun c => if c.1 = name then (c.1, c.2.map fun v => if v = nan then zero else v) else c }

/-- `add_qubit_error`, `errors/__init__.py:555-611`. -/
def ErrTable.addQubitError (zero nan : F) (d : ErrTable F) (ids : List Nat) (name : List Char) (probs : List F) : Except Err (ErrTable F) :=
  if name = "fabrication".toList then .error .valueError
  else if name ∈ d.columns then .error .valueError
  else
    let d := { d with enabledQ := setAdd d.enabledQ name, cols := d.cols ++ [(name, d.rows.map fun _ => nan)] }
    .ok (((ids.zip probs).foldl (ErrTable.setCell nan name) d).fillNa zero nan name)

/-- The arguments `qubit_id` and `probs` of `update_qubit_error`: an integer and a float, two lists (or a list and an array), or
anything else. -/
inductive UpdateArgs (F : Type)
  | one (i : Nat) (p : F)
  | many (ids : List Nat) (probs : List F)
  | other

/-- `update_qubit_error`, `errors/__init__.py:613-680`. (The names `qubit_id` and `qubit_type` are accepted by the code, which
then overwrites these columns; this is not modelled.) -/
def ErrTable.updateQubitError (nan : F) (d : ErrTable F) (name : List Char) : UpdateArgs F → Except Err (ErrTable F)
  | args =>
    if name = "fabrication".toList then .error .valueError
    else if name ∉ d.columns then .error .valueError
    else if name = "qubit_id".toList ∨ name = "qubit_type".toList then .error .unmodelled
    else match args with
      | .one i p => .ok (d.setCell nan name (i, p))
      | .many ids probs =>
        if probs.length ≠ ids.length then .error .valueError
        else .ok ((ids.zip probs).foldl (ErrTable.setCell nan name) d)
      | .other => .error .typeError

/-- `add_gate_error`, `errors/__init__.py:682-722`. -/
def ErrTable.addGateError (d : ErrTable F) (r : GateRow F) : ErrTable F :=
  { d with enabledG := setAdd d.enabledG r.gate, gates := d.gates ++ [r] }

/-- `update_gate_error`, `errors/__init__.py:724-733`. -/
def ErrTable.updateGateError (_ : ErrTable F) : Except Err (ErrTable F) := .error .notImplementedError

/-- A table of qubit errors read from a file, with the names of all columns in order. -/
structure QubitCsv (F : Type) where
  header : List (List Char)
  rows : List (Nat × Bool)
  cols : List (List Char × List F)

/-- `update`, `errors/__init__.py:735-768`, for dataframes given or not: the truth value of a dataframe is an exception. -/
def ErrTable.update (d : ErrTable F) (q : Option (QubitCsv F)) (g : Option (List (GateRow F))) (_overwrite : Bool) : Except Err (ErrTable F) :=
  match q, g with
  | some _, _ => .error .valueError
  | none, some _ => .error .valueError
  | none, none => .ok d

/-- A new column with missing values, if there is none of this name. -/
def ErrTable.ensureCol (nan : F) (d : ErrTable F) (name : List Char) : ErrTable F :=
  if name ∈ d.columns then d else { d with cols := d.cols ++ [(name, d.rows.map fun _ => nan)] }

/-- A value of the file replaces the one in the table, unless it is missing. -/
def newValue (nan : F) (w : Option F) (v : F) : F :=
  match w with
  | some w => if w = nan then v else w
  | none => v

/-- `self.qubit_errors.update(column)`: the cells with a label of the file get its value, unless this is missing. -/
def ErrTable.updateCol (nan : F) (ids : List Nat) (d : ErrTable F) (col : List Char × List F) : ErrTable F :=
  let d := d.ensureCol nan col.1
  { d with cols := d.cols.map fun c => if c.1 = col.1 then
      (c.1, List.zipWith (fun r v => newValue nan (dictGet (ids.zip col.2) r.label) v) d.rows c.2) else c }

/-- The types in the file replace those of the table. (`update` of the column `qubit_type`.) -/
def ErrTable.updateTypes (d : ErrTable F) (q : QubitCsv F) : ErrTable F :=
  { d with rows := d.rows.map fun r => match r.info, dictGet q.rows r.label with
      | some (id, _), some t => { r with info := some (id, t) }
      | _, _ => r }

/-- The gate errors of a file, columns of strings. -/
abbrev GateCsv := List (List Char × List (List Char))

/-- `f(x)` for one of the parts of a string, `errors/__init__.py:194`. -/
def parseField {α : Type} (f : List Char → Option α) (x : List Char) : Except Err α :=
  match f x with
  | none => .error .valueError
  | some a => .ok a

/-- `[f(x) for x in val.split(delimiter)]` for all values, `delimited_string_list_to_series`, `errors/__init__.py:154-198`. -/
def delimited {α : Type} (f : List Char → Option α) (vals : List (List Char)) : Except Err (List (List α)) :=
  mapLoop (fun val => mapLoop (parseField f) (splitOn '|' val)) vals

/-- The rows of gate errors of a file: all columns after the first are split, the second into integers, the third into strings and
the fourth into floats, `errors/__init__.py:444-447`, `errors/__init__.py:797-800`. The gates are the column called `gate`, the
others are read by name when they are used. (Negative indices are not modelled. Only the files used here are modelled: with the
four columns in order, or with one more column at the beginning, which is what `save_to_csv` writes.) -/
def readGateCsv (pf : List Char → Option F) : GateCsv → Except Err (List (GateRow F))
  | [(_, gs), (_, qs), (_, es), (_, ps)] =>
    match delimited parseInt qs with
    | .error e => .error e
    | .ok qs => match delimited some es with
      | .error e => .error e
      | .ok es => match delimited pf ps with
        | .error e => .error e
        | .ok ps =>
          if qs.any fun l => l.any fun i => i < 0 then .error .unmodelled
          else .ok (List.zipWith (fun (g : List Char) (x : List Int × List (List Char) × List F) => ⟨g, x.1.map Int.toNat, x.2.1, x.2.2⟩)
            gs (qs.zip (es.zip ps)))
  | [_, (_, gs), (_, qs), (_, es), _] =>
    match delimited parseInt gs with
    | .error e => .error e
    | .ok _ => match delimited some qs with
      | .error e => .error e
      | .ok _ => match delimited pf es with
        | .error e => .error e
        | .ok _ => if gs.isEmpty then .ok [] else .error .unmodelled
  | _ => .error .unmodelled

/-- `update_from_csv`, `errors/__init__.py:770-810`. With `overwrite` the labels of the new table are the numbers of the rows. -/
def ErrTable.updateFromCsv (nan : F) (pf : List Char → Option F) (d : ErrTable F) (q : Option (QubitCsv F)) (g : Option GateCsv)
    (overwrite : Bool) : Except Err (ErrTable F) :=
  let d := match q with
    | none => d
    | some q =>
      if overwrite then { d with rows := q.rows.zipIdx.map fun r => ⟨r.2, some r.1⟩, cols := q.cols }
      else q.cols.foldl (ErrTable.updateCol nan (q.rows.map Prod.fst)) (d.updateTypes q)
  match g with
  | none => .ok d
  | some g => match readGateCsv pf g with
    | .error e => .error e
    | .ok rows =>
      let gates := if overwrite then rows else d.gates ++ rows
      .ok { d with gates := gates, enabledG := setOf (gates.map GateRow.gate) }

/-- `from_csv`, `errors/__init__.py:407-455`, with `__post_init__`, `errors/__init__.py:397-405`: without a file the table is empty. -/
def ErrTable.fromCsv (pf : List Char → Option F) (q : Option (QubitCsv F)) (g : Option GateCsv) : Except Err (ErrTable F) :=
  let (rows, cols, enabled) : List EdRow × List (List Char × List F) × List (List Char) := match q with
    | none => ([], [], [])
    | some q => (q.rows.map fun r => ⟨r.1, some r⟩, q.cols, if q.rows.isEmpty then [] else setOf (q.header.drop 2))
  match g with
  | none => .ok ⟨rows, cols, [], enabled, []⟩
  | some g => match readGateCsv pf g with
    | .error e => .error e
    | .ok gates => .ok ⟨rows, cols, gates, enabled, setOf (gates.map GateRow.gate)⟩

/-- `save_to_csv`, `errors/__init__.py:848-865`, the file of the qubit errors as it is read again: the index is written as well,
and `read_csv` calls the second of two columns of the same name `qubit_id.1`. Only tables all of whose rows are qubits. -/
def ErrTable.saveQubits (d : ErrTable F) : Option (QubitCsv F) :=
  if d.rows.any fun r => r.info.isNone then none
  else some ⟨"qubit_id".toList :: "qubit_id.1".toList :: "qubit_type".toList :: d.cols.map Prod.fst,
    d.rows.filterMap fun r => r.info.map fun i => (r.label, i.2), d.cols⟩

/-- `save_to_csv`, the file of the gate errors: the index has no name, and lists are written as python prints them (`reprI`,
`reprS` and `reprF`). -/
def ErrTable.saveGates (reprI : List Nat → List Char) (reprS : List (List Char) → List Char) (reprF : List F → List Char) (d : ErrTable F) : GateCsv :=
  [("Unnamed: 0".toList, (List.range d.gates.length).map fun i => (toString i).toList), ("gate".toList, d.gates.map GateRow.gate),
    ("on_qubits".toList, d.gates.map fun r => reprI r.onQubits), ("induced_errors".toList, d.gates.map fun r => reprS r.induced),
    ("probs".toList, d.gates.map fun r => reprF r.probs)]

/-! ### The dictionaries -/

/-- The qubits of a kind, `errors/__init__.py:877-880`: the type is looked up by the label that is the `qubit_id` of the row. -/
def ErrTable.keys (d : ErrTable F) (data : Bool) : Except Err (List Nat) :=
  match mapLoop (fun (r : EdRow) => match r.info with
    | none => .error .keyError
    | some (id, _) => match d.rows.find? fun r' => r'.label = id with
      | none => .error .keyError
      | some r' => .ok (id, r'.info.any fun i => i.2 = data)) d.rows with
  | .error e => .error e
  | .ok l => .ok ((l.filter fun x => x.2).map Prod.fst)

/-- `self.qubit_errors[e][q]` -/
def ErrTable.cell (d : ErrTable F) (e : List Char) (q : Nat) : Except Err F :=
  match dictGet d.cols e with
  | none => .error .keyError
  | some col => match dictGet (List.zipWith (fun r v => (r.label, v)) d.rows col) q with
    | none => .error .keyError
    | some v => .ok v

/-- The loop over the qubits of one kind. -/
def ErrTable.fill (d : ErrTable F) (e par : List Char) : ErrDict F → Except Err (ErrDict F)
  | [] => .ok []
  | (k, ps) :: rest =>
    match k with
    | .tup _ => .error .keyError
    | .int q =>
      match d.cell e q.toNat with
      | .error x => .error x
      | .ok v => match d.fill e par rest with
        | .error x => .error x
        | .ok r => .ok ((k, dictSet ps par (.flt v)) :: r)

/-- The loop body of `qubit_errors_dict`, `errors/__init__.py:873-911`. -/
def ErrTable.addKind (t : ErrTable F) (d : List (List Char × ErrDict F)) (e : List Char) : Except Err (List (List Char × ErrDict F)) :=
  let go (kind par : List Char) (data : Bool) : Except Err (List (List Char × ErrDict F)) :=
    let old : Except Err (ErrDict F) := match dictGet d kind with
      | some o => .ok o
      | none => match t.keys data with
        | .error x => .error x
        | .ok qs => .ok (qs.map fun (q : Nat) => (QKey.int (q : Int), []))
    match old with
    | .error x => .error x
    | .ok old => match t.fill e par old with
      | .error x => .error x
      | .ok new => .ok (dictSet d kind new)
  if e = "X".toList ∨ e = "Y".toList ∨ e = "Z".toList then go "pauli".toList (e.map Char.toLower) true
  else if e = "erasure".toList then go "erasure".toList "p".toList true
  else if e = "measurement".toList then go "measurement".toList "p".toList false
  else .ok d

/-- `qubit_errors_dict`, `errors/__init__.py:867-911`; `order` is an order of all names, as the enabled errors are a set. -/
def ErrTable.qubitDict (t : ErrTable F) (order : List (List Char)) : Except Err (List (List Char × ErrDict F)) :=
  foldE t.addKind [] (order.filter fun e => e ∈ t.enabledQ)

/-- `error_data_dict`, `errors/__init__.py:812-846`. (The keys of the two dictionaries are always known.) -/
def ErrTable.dict (t : ErrTable F) (order : List (List Char)) : Except Err (List (List Char × ErrDict F)) :=
  let g : Except Err (List (List Char × ErrDict F)) := if t.enabledG.isEmpty then .ok [] else gateDict t.enabledG t.gates
  match g with
  | .error e => .error e
  | .ok gd =>
    if gd.any fun x => x.1 ∉ gateErrorNames then .error .keyError
    else if t.enabledQ.isEmpty then .ok gd
    else match t.qubitDict order with
      | .error e => .error e
      | .ok qd => if qd.any fun x => x.1 ∉ qubitErrorNames then .error .keyError else .ok (gd ++ qd)

end Plaquette
