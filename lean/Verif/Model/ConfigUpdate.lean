import Verif.Model.Config

/-!
# Model of the methods `update` of the configurations, `src/plaquette/frontend/__init__.py`

An object is changed in place, also if the method raises an exception afterwards: every change gives the new object together with the exception, if any.
Keywords that name a method or a class variable are not modelled.
-/

namespace Plaquette
variable {F : Type}

/-- The loop that all the methods `update` begin with, e.g. `frontend/__init__.py:189-191`, for the attributes of an object and the keywords. -/
def setAttrs {V : Type} : List (List Char × V) → List (List Char × V) → List (List Char × V)
  | attrs, [] => attrs
  | attrs, (key, value) :: kwargs => if (dictGet attrs key).isSome then setAttrs (dictSet attrs key value) kwargs else setAttrs attrs kwargs

/-- `CodeConfig.update`, `frontend/__init__.py:170-192`, with the object that remains after an exception. (`__post_init__` changes the object only when it raises
nothing.) -/
def CodeConfig.change (c : CodeConfig) (d : CodeDict) : CodeConfig × Except Err Unit :=
  let c : CodeConfig := ⟨d.name.getD c.name, d.rounds.getD c.rounds, d.size.getD c.size⟩
  match c.postInit with
  | .error e => (c, .error e)
  | .ok c => (c, .ok ())

/-- A call of `update` of a part of an experiment. -/
inductive Change (F : Type)
  | code (d : CodeDict)
  | device (d : DeviceDict)
  | circuit (d : CircuitDict)
  | decoder (name : Option (List Char)) (weighted : Option Bool)
  /-- `errors_conf.qubit_errors.<key>.update(...)` -/
  | qubit (key : List Char) (d : QubitMetaDict F)
  /-- `errors_conf.gate_errors.<key>.update(...)` -/
  | gate (key : List Char) (d : GateMetaDict F)
  /-- `errors_conf.qubit_errors.update(data_path=..., load_file=..., sample=...)`, `frontend/__init__.py:634-675` -/
  | qubitPaths (path : Option (List Char)) (load sample : Option Bool)
  /-- `errors_conf.gate_errors.update(data_path=..., load_file=..., sample=...)`, `frontend/__init__.py:1225-1278` -/
  | gatePaths (path : Option (List Char)) (load sample : Option Bool)

/-- The function with another value. -/
def setChan {M : Type} (chan : List Char → M) (key : List Char) (m : M) : List Char → M := fun k => if k = key then m else chan k

/-- The experiment after a call of `update`, and the exception. The metadata objects of the channels are different objects (`from_dict` makes one for each). -/
def ExperimentConf.change (x : ExperimentConf F) : Change F → ExperimentConf F × Except Err Unit
  | .code d => ({ x with code := (x.code.change d).1 }, (x.code.change d).2)
  | .device d => ({ x with device := x.device.update d }, .ok ())
  | .circuit d => ({ x with circuit := x.circuit.update d }, .ok ())
  | .decoder name weighted => ({ x with decoder := (x.decoder.update name weighted).1 }, (x.decoder.update name weighted).2)
  | .qubit key d =>
    let r := (x.errors.qubit.conf.chan key).update d
    ({ x with errors := { x.errors with qubit := { x.errors.qubit with conf := { x.errors.qubit.conf with chan := setChan x.errors.qubit.conf.chan key r.1 } } } }, r.2)
  | .gate key d =>
    let m := (x.errors.gate.conf.chan key).update d
    ({ x with errors := { x.errors with gate := { x.errors.gate with conf := { x.errors.gate.conf with chan := setChan x.errors.gate.conf.chan key m } } } }, .ok ())
  | .qubitPaths path load sample =>
    ({ x with errors := { x.errors with qubit := ⟨⟨path.getD x.errors.qubit.paths.dataPath, load.getD x.errors.qubit.paths.loadFile⟩,
      { x.errors.qubit.conf with sample := sample.getD x.errors.qubit.conf.sample }⟩ } }, .ok ())
  | .gatePaths path load sample =>
    ({ x with errors := { x.errors with gate := ⟨⟨path.getD x.errors.gate.paths.dataPath, load.getD x.errors.gate.paths.loadFile⟩,
      { x.errors.gate.conf with sample := sample.getD x.errors.gate.conf.sample }⟩ } }, .ok ())

/-- Several calls, until the first exception. -/
def ExperimentConf.changes (x : ExperimentConf F) : List (Change F) → ExperimentConf F × Except Err Unit
  | [] => (x, .ok ())
  | c :: cs => match x.change c with
    | (x, .error e) => (x, .error e)
    | (x, .ok ()) => x.changes cs

end Plaquette
