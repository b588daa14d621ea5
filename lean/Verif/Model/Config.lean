import Verif.Model.Frontend
import Verif.Model.Experiment

/-!
# Model of reading and building an experiment, `src/plaquette/frontend/__init__.py` and `frontend/schemas.py`

`from_dict` changes the dictionary it is given (`setdefault`, and objects in the place of dictionaries). So every `fromDict` below
gives the changed dictionary together with the object or the exception. The dictionaries are typed: a value that has the wrong
type from the start is not modelled, and neither are values `None` and keys that are never read. Two keys with the same (shared)
dictionary are not modelled either.
-/

namespace Plaquette
variable {F : Type}

/-! ### Paths -/

/-- What `_validate_filepath` asks the file system: whether the directory of a path exists, and whether the file does. -/
structure Files where
  dir : List Char → Bool
  file : List Char → Bool

/-- `_validate_filepath`, `frontend/__init__.py:29-51`. -/
def validateFilepath (fs : Files) (p : List Char) (load : Bool) : Except Err Bool :=
  if !fs.dir p then .error .osError
  else if !fs.file p && load then .error .osError
  else .ok true

/-! ### The sections of errors -/

/-- A dictionary for `_QubitErrorMetadata.from_dict`. -/
structure QubitMetaDict (F : Type) where
  distribution : Option (List Char) := none
  params : Option (List F) := none
  enabled : Option Bool := none

/-- `_QubitErrorMetadata.from_dict`, `frontend/__init__.py:297-333`. A missing distribution is `None`, which is no known
distribution. -/
def QubitMeta.fromDict (d : QubitMetaDict F) : QubitMetaDict F × Except Err (QubitMeta F) :=
  let d : QubitMetaDict F := { d with enabled := some (d.enabled.getD true) }
  let d : QubitMetaDict F := { d with params := some (d.params.getD []) }
  (d, match d.distribution with
    | none => .error .valueError
    | some s => QubitMeta.postInit ⟨s, d.params.getD [], d.enabled.getD true⟩)

/-- `_QubitErrorMetadata.update`, `frontend/__init__.py:354-382`: the attributes are set, then checked. The result is the object and
the exception, if any. (`__post_init__` changes the object only when it raises nothing.) -/
def QubitMeta.update (m : QubitMeta F) (d : QubitMetaDict F) : QubitMeta F × Except Err Unit :=
  let m : QubitMeta F := ⟨d.distribution.getD m.distribution, d.params.getD m.params, d.enabled.getD m.enabled⟩
  match m.postInit with
  | .error e => (m, .error e)
  | .ok m => (m, .ok ())

/-- A dictionary for `_GateErrorMetadata.from_dict`. -/
structure GateMetaDict (F : Type) where
  distribution : Option Distr := none
  induced : Option (List (List Char)) := none
  params : Option (List (List F)) := none
  enabled : Option Bool := none

/-- `_GateErrorMetadata.from_dict`, `frontend/__init__.py:842-892`. A distribution that is missing is `None`: neither a string nor a list, so
that nothing is checked; such an object is not modelled. -/
def GateMeta.fromDict (d : GateMetaDict F) : GateMetaDict F × Except Err (GateMeta F) :=
  let d : GateMetaDict F := { d with enabled := some (d.enabled.getD true) }
  let d : GateMetaDict F := { d with induced := some (d.induced.getD []) }
  let d : GateMetaDict F := { d with params := some (d.params.getD []) }
  (d, match d.distribution with
    | none => .error .unmodelled
    | some s => GateMeta.postInit ⟨s, d.induced.getD [], d.params.getD [], d.enabled.getD true⟩)

/-- `_GateErrorMetadata.update`, `frontend/__init__.py:917-937`: nothing is checked. -/
def GateMeta.update (m : GateMeta F) (d : GateMetaDict F) : GateMeta F :=
  ⟨d.distribution.getD m.distribution, d.induced.getD m.induced, d.params.getD m.params, d.enabled.getD m.enabled⟩

/-- The value of a channel in a section: a dictionary, or the object that `from_dict` has put there. -/
inductive Slot (D M : Type)
  | dict (d : D)
  | obj (m : M)

/-- A section `qubit_errors` or `gate_errors`. -/
structure ErrSection (D M : Type) where
  dataPath : Option (List Char) := none
  sample : Option Bool := none
  loadFile : Option Bool := none
  chan : List (List Char × Slot D M) := []

/-- `bool(section)`: an empty dictionary is false. -/
def ErrSection.truthy {D M : Type} (s : ErrSection D M) : Bool :=
  s.dataPath.isSome || s.sample.isSome || s.loadFile.isSome || !s.chan.isEmpty

/-- The first part of `from_dict`, `frontend/__init__.py:555-565` and `1147-1157`. -/
def ErrSection.paths {D M : Type} (fs : Files) (default : List Char) (s : ErrSection D M) : ErrSection D M × Except Err Unit :=
  match s.dataPath with
  | some p => match s.loadFile with
    | some load => match validateFilepath fs p load with
      | .error e => (s, .error e)
      | .ok _ => (s, .ok ())
    | none => match validateFilepath fs p true with
      | .error e => (s, .error e)
      | .ok true => ({ s with loadFile := some true }, .ok ())
      | .ok false => ({ s with loadFile := some false }, .ok ())
  | none => ({ s with dataPath := some default, loadFile := some (s.loadFile.getD false) }, .ok ())

/-- The loop over the channels, `frontend/__init__.py:568-574` and `1161-1167`; `read` is `from_dict` of the metadata. An object has
no method `setdefault`. -/
def ErrSection.channels {D M : Type} (read : D → D × Except Err M) (empty : M) :
    List (List Char) → ErrSection D M → ErrSection D M × Except Err Unit
  | [], s => (s, .ok ())
  | k :: ks, s =>
    match dictGet s.chan k with
    | some (.obj _) => (s, .error .attributeError)
    | some (.dict d) => match read d with
      | (d, .error e) => ({ s with chan := dictSet s.chan k (.dict d) }, .error e)
      | (_, .ok m) => ErrSection.channels read empty ks { s with chan := dictSet s.chan k (.obj m) }
    | none => ErrSection.channels read empty ks { s with chan := dictSet s.chan k (.obj empty) }

/-- The object in a channel. -/
def ErrSection.metaOf {D M : Type} (empty : M) (s : ErrSection D M) (k : List Char) : M :=
  match dictGet s.chan k with
  | some (.obj m) => m
  | _ => empty

/-- The attributes `data_path` and `load_file` of the two classes. -/
structure PathConfig where
  dataPath : List Char
  loadFile : Bool
  deriving DecidableEq

/-- The text that `QubitErrorsConfig.from_dict`, `frontend/__init__.py:555-586`, and `GateErrorsConfig.from_dict`, 1147-1177, have in common: the
two paths and the two default values for `sample` are arguments. With the checks of `__post_init__`, 508-509 and 1082-1083. -/
def ErrSection.read {D M : Type} (fs : Files) (default : List Char) (sample : Bool) (read : D → D × Except Err M) (empty : M)
    (order : List (List Char)) (s : ErrSection D M) : ErrSection D M × Except Err (PathConfig × Bool) :=
  match s.paths fs default with
  | (s, .error e) => (s, .error e)
  | (s, .ok ()) =>
    match ErrSection.channels read empty order { s with sample := some (s.sample.getD sample) } with
    | (s, .error e) => (s, .error e)
    | (s, .ok ()) =>
      match validateFilepath fs (s.dataPath.getD []) (s.loadFile.getD false) with
      | .error e => (s, .error e)
      | .ok _ => (s, .ok (⟨s.dataPath.getD [], s.loadFile.getD false⟩, s.sample.getD sample))

/-- `QubitErrorsConfig`, `frontend/__init__.py:395-509`. -/
structure QubitErrors (F : Type) where
  paths : PathConfig
  conf : QubitConfig F

/-- `GateErrorsConfig`, `frontend/__init__.py:950-1083`. -/
structure GateErrors (F : Type) where
  paths : PathConfig
  conf : GateConfig F

/-- A section of qubit errors. -/
abbrev QubitSection (F : Type) := ErrSection (QubitMetaDict F) (QubitMeta F)

/-- A section of gate errors. -/
abbrev GateSection (F : Type) := ErrSection (GateMetaDict F) (GateMeta F)

/-- `QubitErrorsConfig.from_dict`, `frontend/__init__.py:511-586`, with `__post_init__`, 508-509; `order` is the order of the set
`QUBIT_KEYS`. -/
def QubitErrors.fromDict (fs : Files) (order : List (List Char)) (s : QubitSection F) : QubitSection F × Except Err (QubitErrors F) :=
  match s.read fs "qubit_errors.csv".toList true QubitMeta.fromDict QubitMeta.empty order with
  | (s, .error e) => (s, .error e)
  | (s, .ok (p, sample)) => (s, .ok ⟨p, ⟨sample, s.metaOf QubitMeta.empty⟩⟩)

/-- `QubitErrorsConfig.make_empty`, `frontend/__init__.py:596-624`. -/
def QubitErrors.makeEmpty (fs : Files) (order : List (List Char)) : Except Err (QubitErrors F) := (QubitErrors.fromDict fs order {}).2

/-- `GateErrorsConfig.from_dict`, `frontend/__init__.py:1088-1177`, with `__post_init__`, 1082-1083; `order` is the order of the set
`GATE_KEYS`. The channel `fabrication` is read, but not passed on. -/
def GateErrors.fromDict (fs : Files) (order : List (List Char)) (s : GateSection F) : GateSection F × Except Err (GateErrors F) :=
  match s.read fs "gate_errors.csv".toList false GateMeta.fromDict GateMeta.empty order with
  | (s, .error e) => (s, .error e)
  | (s, .ok (p, sample)) => (s, .ok ⟨p, ⟨sample, fun k =>
      if k = "fabrication".toList then GateMeta.empty else s.metaOf GateMeta.empty k⟩⟩)

/-- `GateErrorsConfig.make_empty`, `frontend/__init__.py:1179-1210`. -/
def GateErrors.makeEmpty (fs : Files) (order : List (List Char)) : Except Err (GateErrors F) := (GateErrors.fromDict fs order {}).2

/-- `GateErrorsConfig(**kwargs)` with the default values of the class, `frontend/__init__.py:997-1083`. The default path
is in the current directory, written out; here it is `cwd`. -/
def GateErrors.new (fs : Files) (cwd : List Char) (sample loadFile : Option Bool) (chan : List Char → GateMeta F) : Except Err (GateErrors F) :=
  let p : PathConfig := ⟨cwd ++ "/gate_errors.csv".toList, loadFile.getD true⟩
  match validateFilepath fs p.dataPath p.loadFile with
  | .error e => .error e
  | .ok _ => .ok ⟨p, ⟨sample.getD true, chan⟩⟩

/-- `ErrorsConfig`, `frontend/__init__.py:1347-1363`. -/
structure ErrorsConfig (F : Type) where
  qubit : QubitErrors F
  gate : GateErrors F

/-- The section `errors`. -/
structure ErrorsDict (F : Type) where
  qubit : Option (QubitSection F) := none
  gate : Option (GateSection F) := none

/-- The first branching of `ErrorsConfig.from_dict`, `frontend/__init__.py:1379-1382`. -/
def QubitErrors.readOpt (fs : Files) (order : List (List Char)) : Option (QubitSection F) → Option (QubitSection F) × Except Err (QubitErrors F)
  | some s => if s.truthy then (some (QubitErrors.fromDict fs order s).1, (QubitErrors.fromDict fs order s).2)
    else (some s, QubitErrors.makeEmpty fs order)
  | none => (none, QubitErrors.makeEmpty fs order)

/-- The second branching of `ErrorsConfig.from_dict`, `frontend/__init__.py:1384-1387`. -/
def GateErrors.readOpt (fs : Files) (order : List (List Char)) : Option (GateSection F) → Option (GateSection F) × Except Err (GateErrors F)
  | some s => if s.truthy then (some (GateErrors.fromDict fs order s).1, (GateErrors.fromDict fs order s).2)
    else (some s, GateErrors.makeEmpty fs order)
  | none => (none, GateErrors.makeEmpty fs order)

/-- `ErrorsConfig.from_dict`, `frontend/__init__.py:1365-1392`; `qo` and `go` are the orders of the keys. -/
def ErrorsConfig.fromDict (fs : Files) (qo go : List (List Char)) (d : ErrorsDict F) : ErrorsDict F × Except Err (ErrorsConfig F) :=
  match QubitErrors.readOpt fs qo d.qubit with
  | (q, .error e) => (⟨q, d.gate⟩, .error e)
  | (q, .ok qc) =>
    match GateErrors.readOpt fs go d.gate with
    | (g, .error e) => (⟨q, g⟩, .error e)
    | (g, .ok gc) => (⟨q, g⟩, .ok ⟨qc, gc⟩)

/-! ### Circuit, device, decoder and code -/

/-- `CircuitConfig`, `frontend/__init__.py:1439-1465`. -/
structure CircuitConfig where
  provided : Bool
  hasErrors : Bool
  path : List Char
  deriving DecidableEq

/-- The section `circuit`. -/
structure CircuitDict where
  provided : Option Bool := none
  hasErrors : Option Bool := none
  path : Option (List Char) := none
  deriving DecidableEq

/-- `CircuitConfig.from_dict`, `frontend/__init__.py:1472-1494`, with `__post_init__`, 1466-1467. -/
def CircuitConfig.fromDict (fs : Files) (d : CircuitDict) : CircuitDict × Except Err CircuitConfig :=
  let d : CircuitDict := { d with provided := some (d.provided.getD false) }
  let d : CircuitDict := { d with hasErrors := some (d.hasErrors.getD false) }
  let d : CircuitDict := { d with path := some (d.path.getD "circuit.txt".toList) }
  let c : CircuitConfig := ⟨d.provided.getD false, d.hasErrors.getD false, d.path.getD []⟩
  match validateFilepath fs c.path c.provided with
  | .error e => (d, .error e)
  | .ok _ => (d, .ok c)

/-- `CircuitConfig.update`, `frontend/__init__.py:1504-1515`: nothing is checked. -/
def CircuitConfig.update (c : CircuitConfig) (d : CircuitDict) : CircuitConfig :=
  ⟨d.provided.getD c.provided, d.hasErrors.getD c.hasErrors, d.path.getD c.path⟩

/-- `DeviceConfig`, `frontend/__init__.py:1563-1593`. -/
structure DeviceConfig where
  name : List Char
  shots : PyNum
  deriving DecidableEq

/-- The section `device`. -/
structure DeviceDict where
  name : Option (List Char) := none
  shots : Option PyNum := none
  deriving DecidableEq

/-- `DeviceConfig.from_dict`, `frontend/__init__.py:1620-1634`; `devices` is `VALID_SIMULATORS`. -/
def DeviceConfig.fromDict (devices : List (List Char)) (d : DeviceDict) : DeviceDict × Except Err DeviceConfig :=
  let d : DeviceDict := { d with name := some (d.name.getD "clifford".toList) }
  let d : DeviceDict := { d with shots := some (d.shots.getD (.int 1024)) }
  match deviceCheck devices (d.name.getD []) (d.shots.getD .other) with
  | .error e => (d, .error e)
  | .ok () => (d, .ok ⟨d.name.getD [], d.shots.getD .other⟩)

/-- `DeviceConfig.update`, `frontend/__init__.py:1607-1618`: nothing is checked. -/
def DeviceConfig.update (c : DeviceConfig) (d : DeviceDict) : DeviceConfig := ⟨d.name.getD c.name, d.shots.getD c.shots⟩

/-- `DeviceConfig.instantiate`, `frontend/__init__.py:1645-1656`: the name of the backend stands for the device. -/
def DeviceConfig.instantiate (devices : List (List Char)) (c : DeviceConfig) : Except Err (List Char) :=
  if c.name ∈ devices then .ok c.name else .error .attributeError

/-- The section `decoder`. -/
structure DecoderDict where
  name : Option (List Char) := none
  weighted : Option Bool := none
  deriving DecidableEq

/-- `DecoderConfig.from_dict`, `frontend/__init__.py:1700-1712`, with the changed dictionary. -/
def DecoderConfig.read (d : DecoderDict) : DecoderDict × Except Err DecoderConfig :=
  (⟨some (d.name.getD "PyMatchingDecoder".toList), some (d.weighted.getD false)⟩, DecoderConfig.fromDict d.name d.weighted)

/-- `CodeConfig.from_dict`, `frontend/__init__.py:132-160`, with the changed dictionary. -/
def CodeConfig.read (d : CodeDict) : CodeDict × Except Err CodeConfig :=
  ({ d with rounds := some (d.rounds.getD (.int 1)), size := some (d.size.getD (.int (-1))) }, CodeConfig.fromDict d)

/-! ### The experiment -/

/-- `GeneralConfig`, `frontend/__init__.py:1771-1784`. -/
structure General where
  logicalOp : List Char
  qecProperty : List (List Char)
  seed : Int
  deriving DecidableEq

/-- The dictionary of an experiment. -/
structure ExperimentDict (F : Type) where
  general : Option General := none
  device : Option DeviceDict := none
  errors : Option (ErrorsDict F) := none
  decoder : Option DecoderDict := none
  circuit : Option CircuitDict := none
  code : Option CodeDict := none

/-- The configuration part of `ExperimentConfig`, `frontend/__init__.py:1787-1826`. -/
structure ExperimentConf (F : Type) where
  code : CodeConfig
  errors : ErrorsConfig F
  general : Option General
  device : DeviceConfig
  circuit : CircuitConfig
  decoder : DecoderConfig

/-- The fields that are filled by the class when they are not given, `frontend/__init__.py:1803-1807`. -/
def defaultGeneral : General := ⟨"X".toList, ["logical_error_rate".toList], 12345⟩

/-- The environment of a call of `from_dict`: the file system, the recognised devices and the orders of the two sets of keys. -/
structure Env where
  fs : Files
  devices : List (List Char)
  qo : List (List Char)
  go : List (List Char)

/-- `ExperimentConfig.from_dict`, `frontend/__init__.py:2000-2109`. -/
def ExperimentConf.fromDict (env : Env) (d : ExperimentDict F) : ExperimentDict F × Except Err (ExperimentConf F) :=
  let dev := d.device.getD {}
  let err := d.errors.getD {}
  let dec := d.decoder.getD {}
  let cir := d.circuit.getD {}
  let cod := d.code.getD {}
  let d : ExperimentDict F := { d with device := some dev, errors := some err, decoder := some dec, circuit := some cir, code := some cod }
  match DeviceConfig.fromDict env.devices dev with
  | (dev, .error e) => ({ d with device := some dev }, .error e)
  | (dev, .ok device) =>
    let d := { d with device := some dev }
    match CircuitConfig.fromDict env.fs cir with
    | (cir, .error e) => ({ d with circuit := some cir }, .error e)
    | (cir, .ok circuit) =>
      let d := { d with circuit := some cir }
      match CodeConfig.read cod with
      | (cod, .error e) => ({ d with code := some cod }, .error e)
      | (cod, .ok code) =>
        let d := { d with code := some cod }
        match ErrorsConfig.fromDict env.fs env.qo env.go err with
        | (err, .error e) => ({ d with errors := some err }, .error e)
        | (err, .ok errors) =>
          let d := { d with errors := some err }
          match DecoderConfig.read dec with
          | (dec, .error e) => ({ d with decoder := some dec }, .error e)
          | (dec, .ok decoder) => ({ d with decoder := some dec }, .ok ⟨code, errors, d.general, device, circuit, decoder⟩)

/-! ### The schema -/

/-- `isinstance(v, int)` and at least `lo`; for a JSON schema a boolean is no integer, and a float with an integer value is not modelled. -/
def PyNum.schemaInt (lo : Int) (hi : Option Int) : PyNum → Bool
  | .int i => decide (lo ≤ i) && match hi with
    | none => true
    | some h => decide (i ≤ h)
  | _ => false

/-- `_validate_config`, `frontend/__init__.py:54-69`, for the schema of `schemas.py:8-276`. The keyword `items` in the two sections of
errors applies to arrays only, so that nothing in them is checked. -/
def schemaOk (d : ExperimentDict F) : Bool :=
  (match d.general with
    | none => true
    | some g => decide (g.logicalOp ∈ (["X".toList, "Z".toList] : List (List Char))) &&
        g.qecProperty.all fun s => decide (s ∈ (["logical_error_rate".toList, "threshold".toList] : List (List Char)))) &&
  (match d.device with
    | none => true
    | some v => (v.name.all fun s => decide (s ∈ (["stim".toList, "clifford".toList] : List (List Char)))) &&
        v.shots.all (PyNum.schemaInt 1 (some 1000000))) &&
  (match d.code with
    | none => false
    | some c => (match c.name with
        | some (some s) => decide (s ∈ validCodes)
        | _ => false) && (match c.rounds with
        | some r => r.schemaInt 1 none
        | none => false) && c.size.all (PyNum.schemaInt 1 none)) &&
  d.errors.isSome &&
  (match d.decoder with
    | none => true
    | some v => v.name.all fun s => decide (s ∈ validDecoders))

/-- `ExperimentConfig.load_json` and `load_toml`, `frontend/__init__.py:1980-1998`, for the dictionary that is in the file. -/
def ExperimentConf.load (env : Env) (d : ExperimentDict F) : Except Err (ExperimentConf F) :=
  if schemaOk d then (ExperimentConf.fromDict env d).2 else .error .valueError

/-! ### Building -/

/-- The objects an `ExperimentConfig` has built, `frontend/__init__.py:1828-1832`. `E` is the type of `ErrorData`, `D` that of decoders. -/
structure BuiltParts (F E D : Type) where
  code : Option LatCode := none
  errors : Option E := none
  device : Option (List Char) := none
  circuit : Option (List (Gate F)) := none
  decoder : Option D := none

/-- What the configurations build: `ErrorsConfig.instantiate`, `CircuitConfig.instantiate` and the end of `DecoderConfig.instantiate`. -/
structure Makers (F E D : Type) where
  errors : ErrorsConfig F → LatCode → Except Err E
  /-- `generate_qec_circuit(code, errors.qubit_errors_dict, errors.gate_errors_dict, logop_indices)` -/
  generate : LatCode → E → List Char → Except Err (List (Gate F))
  /-- `Circuit.from_str` of the contents of a file -/
  parse : List Char → Except Err (List (Gate F))
  decoder : DecoderConfig → LatCode → E → Except Err D

variable {E D : Type}

/-- `CircuitConfig.instantiate`, `frontend/__init__.py:1517-1558`. -/
def CircuitConfig.instantiate (mk : Makers F E D) (c : CircuitConfig) (code : Option LatCode) (errors : Option E) (op : List Char) :
    Except Err (List (Gate F)) :=
  if c.provided then
    if c.hasErrors then mk.parse c.path else .error .notImplementedError
  else match code, errors with
    | some code, some errors => mk.generate code errors op
    | _, _ => .error .valueError

/-- `build_code`, `frontend/__init__.py:2157-2165`. -/
def ExperimentConf.buildCode (x : ExperimentConf F) (b : BuiltParts F E D) : Except Err (BuiltParts F E D) :=
  match x.code.instantiate with
  | .error e => .error e
  | .ok c => .ok { b with code := some c }

/-- `build_errors`, `frontend/__init__.py:2167-2175`. -/
def ExperimentConf.buildErrors (mk : Makers F E D) (x : ExperimentConf F) (b : BuiltParts F E D) : Except Err (BuiltParts F E D) :=
  match b.code with
  | none => .error .attributeError
  | some c => match mk.errors x.errors c with
    | .error e => .error e
    | .ok v => .ok { b with errors := some v }

/-- `build_circuit`, `frontend/__init__.py:2179-2191`. Without `general` the attribute `general_conf` is `None`. -/
def ExperimentConf.buildCircuit (mk : Makers F E D) (x : ExperimentConf F) (b : BuiltParts F E D) : Except Err (BuiltParts F E D) :=
  match x.general with
  | none => .error .typeError
  | some g => match x.circuit.instantiate mk b.code b.errors g.logicalOp with
    | .error e => .error e
    | .ok c => .ok { b with circuit := some c }

/-- `build_device`, `frontend/__init__.py:2193-2205`. -/
def ExperimentConf.buildDevice (devices : List (List Char)) (x : ExperimentConf F) (b : BuiltParts F E D) : Except Err (BuiltParts F E D) :=
  match x.device.instantiate devices with
  | .error e => .error e
  | .ok v => .ok { b with device := some v }

/-- `build_decoder`, `frontend/__init__.py:2207-2227`. With `None` for the code or the errors the decoder raises AttributeError. -/
def ExperimentConf.buildDecoder (mk : Makers F E D) (x : ExperimentConf F) (b : BuiltParts F E D) : Except Err (BuiltParts F E D) :=
  match x.decoder.check with
  | .error e => .error e
  | .ok () => match b.code, b.errors with
    | some c, some e => match mk.decoder x.decoder c e with
      | .error e => .error e
      | .ok v => .ok { b with decoder := some v }
    | _, _ => .error .attributeError

/-- `update_rng`, `frontend/__init__.py:1834-1835`: the seed of the new random generator. -/
def ExperimentConf.updateRng (x : ExperimentConf F) : Except Err Int :=
  match x.general with
  | none => .error .typeError
  | some g => .ok g.seed

/-- `build`, `frontend/__init__.py:2144-2155`. -/
def ExperimentConf.build (mk : Makers F E D) (devices : List (List Char)) (x : ExperimentConf F) (b : BuiltParts F E D) : Except Err (BuiltParts F E D) :=
  match x.updateRng with
  | .error e => .error e
  | .ok _ => match x.buildCode b with
    | .error e => .error e
    | .ok b => match x.buildErrors mk b with
      | .error e => .error e
      | .ok b => match x.buildCircuit mk b with
        | .error e => .error e
        | .ok b => match x.buildDevice devices b with
          | .error e => .error e
          | .ok b => x.buildDecoder mk b

/-- The property `code`, `frontend/__init__.py:1837-1842`: it builds the code if there is none. -/
def ExperimentConf.getCode (x : ExperimentConf F) (b : BuiltParts F E D) : Except Err (BuiltParts F E D × LatCode) :=
  match b.code with
  | some c => .ok (b, c)
  | none => match x.code.instantiate with
    | .error e => .error e
    | .ok c => .ok ({ b with code := some c }, c)

/-- The property `errors`, `frontend/__init__.py:1844-1852`. -/
def BuiltParts.getErrors (b : BuiltParts F E D) : Except Err E := match b.errors with
  | none => .error .valueError
  | some v => .ok v

/-- The property `circuit`, `frontend/__init__.py:1854-1862`. -/
def BuiltParts.getCircuit (b : BuiltParts F E D) : Except Err (List (Gate F)) := match b.circuit with
  | none => .error .valueError
  | some v => .ok v

/-- The property `device`, `frontend/__init__.py:1864-1872`: it looks at the circuit, and may give `None`. -/
def BuiltParts.getDevice (b : BuiltParts F E D) : Except Err (Option (List Char)) := match b.circuit with
  | none => .error .valueError
  | some _ => .ok b.device

/-- The property `decoder`, `frontend/__init__.py:1874-1882`. -/
def BuiltParts.getDecoder (b : BuiltParts F E D) : Except Err D := match b.decoder with
  | none => .error .valueError
  | some v => .ok v

end Plaquette
