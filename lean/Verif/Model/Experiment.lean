import Verif.Model.Generator
import Verif.Model.Decoder
import Verif.Model.Frontend
import Verif.Model.Sim

/-!
# Model of `DecoderConfig` and `ExperimentConfig`, `src/plaquette/frontend/__init__.py`

The parts of the frontend that put an experiment together and run it. The simulator is the Clifford simulator.
-/

namespace Plaquette
variable {F : Type}

/-! ### `DecoderConfig` -/

/-- `DecoderConfig`, `frontend/__init__.py:1659-1687`. -/
structure DecoderConfig where
  name : List Char
  weighted : Bool
  deriving DecidableEq, Repr

/-- `VALID_DECODERS`, `frontend/__init__.py:1689-1694`. -/
def validDecoders : List (List Char) :=
  ["PyMatchingDecoder".toList, "UnionFindDecoder".toList, "UnionFindNoWeights".toList, "FusionBlossomDecoder".toList]

/-- `DecoderConfig(name=..., weighted=...)` with the default values of the class, `frontend/__init__.py:1673-1687`, and
`__post_init__`, 1699-1702. -/
def DecoderConfig.new (name : Option (List Char)) (weighted : Option Bool) : Except Err DecoderConfig :=
  let d : DecoderConfig := ⟨name.getD "PyMatchingDecoder".toList, weighted.getD true⟩
  if d.name ∉ validDecoders then .error .valueError else .ok d

/-- `DecoderConfig.from_dict`, `frontend/__init__.py:1701-1712`: the entries of the dictionary. -/
def DecoderConfig.fromDict (name : Option (List Char)) (weighted : Option Bool) : Except Err DecoderConfig :=
  DecoderConfig.new (some (name.getD "PyMatchingDecoder".toList)) (some (weighted.getD false))

/-- `DecoderConfig.update`, `frontend/__init__.py:1722-1732`: the attributes are set first, then checked; unknown keywords are
ignored. The result is the new state of the object and the exception, if any. -/
def DecoderConfig.update (d : DecoderConfig) (name : Option (List Char)) (weighted : Option Bool) : DecoderConfig × Except Err Unit :=
  let d' : DecoderConfig := ⟨name.getD d.name, weighted.getD d.weighted⟩
  (d', if d'.name ∉ validDecoders then .error .valueError else .ok ())

/-- The check of `DecoderConfig.instantiate`, `frontend/__init__.py:1762-1765`, and of `build_decoder`, 2216-2222. -/
def DecoderConfig.check (d : DecoderConfig) : Except Err Unit :=
  if d.weighted ∧ d.name = "UnionFindNoWeights".toList then .error .valueError else .ok ()

/-! ### `ExperimentConfig.as_dict` -/

/-- The values of the attributes of an `ExperimentConfig`: a configuration object, a dictionary (`general_conf` is a `TypedDict`),
`None`, or a built object (which has no method `as_dict`). -/
inductive Attr
  | config
  | dict
  | none
  | built
  deriving DecidableEq, Repr

/-- `.as_dict()` of an attribute. -/
def Attr.asDict : Attr → Except Err Unit
  | .config => .ok ()
  | _ => .error .attributeError

/-- The attributes of an `ExperimentConfig` in the order of `fields(self)`, `frontend/__init__.py:1790-1836`; `general` is
`general_conf`, and `objs` the five built objects. -/
def experimentFields (general : Attr) (objs : List Attr) : List Attr := [.config, .config, general, .config, .config, .config] ++ objs

/-- `ExperimentConfig.as_dict`, `frontend/__init__.py:2111-2119`. -/
def experimentAsDict (general : Attr) (objs : List Attr) : Except Err Unit :=
  loopE (fun (_ : Unit) a => a.asDict) () (experimentFields general objs)

/-- `ExperimentConfig.validate`, `frontend/__init__.py:2136-2138`; `schema` is `_validate_config`. -/
def experimentValidate (schema : Except Err Bool) (general : Attr) (objs : List Attr) : Except Err Bool :=
  match experimentAsDict general objs with
  | .error e => .error e
  | .ok () => schema

/-! ### `ExperimentConfig.run` -/

/-- A python object that is looked up in the set `local_simulators`: a string or a class. -/
inductive PyObj
  | str (s : List Char)
  | cls (name : List Char)
  deriving DecidableEq, Repr

/-- `local_simulators`, `device/__init__.py:288`. -/
def localSimulators : List PyObj := [.str "clifford".toList, .str "stim".toList]

/-- What `ExperimentConfig.build` has built, `frontend/__init__.py:2144-2156`: the code, the circuit, the decoder (as the function
`decode`), the number of shots and the logical operators (`general_conf["logical_op"]`). -/
structure Experiment (F : Type) where
  code : LatCode
  circ : List (Gate F)
  decode : Option (List (List Bool)) → Option (List (List Bool)) → Except Err (Op code.n)
  shots : Nat
  sel : LogicalSel

/-- The body of the loop of `run`, `frontend/__init__.py:2262-2275`. The device is the Clifford simulator; `Device.run` uses the same
backend for all shots, because the circuit stays the same object (`device/__init__.py:407-414`). -/
def Experiment.oneShot (api : FloatApi F) (rng : Rng F) (E : Experiment F) (S0 : Sim (numberOfQubits E.circ)) :
    Except Err (Sim (numberOfQubits E.circ) × Bool) :=
  match S0.run api rng E.circ true with
  | .error e => .error e
  | .ok S =>
    match Sample.fromRaw E.code S.results.1 S.results.2 false with
    | .error e => .error e
    | .ok s =>
      match E.decode s.erased (some s.syndrome) with
      | .error e => .error e
      | .ok correction =>
        match checkSuccess E.code.code correction s.toggle (some E.sel) with
        | .error e => .error e
        | .ok b => .ok (S, b)

/-- The loop of `run`, `frontend/__init__.py:2261-2275`: the entries of `test_success`. -/
def Experiment.loop (api : FloatApi F) (rng : Rng F) (E : Experiment F) : Nat → Sim (numberOfQubits E.circ) → Except Err (List Bool)
  | 0, _ => .ok []
  | k + 1, S0 =>
    match E.oneShot api rng S0 with
    | .error e => .error e
    | .ok (S, b) =>
      match E.loop api rng k S with
      | .error e => .error e
      | .ok bs => .ok (b :: bs)

/-- `1.0 - np.count_nonzero(test_success) / len(test_success)`, `frontend/__init__.py:2276`, for at least one shot (without shots python raises
`ZeroDivisionError`; the bounds on rates assume a shot). -/
def rateOf (success : List Bool) : ℚ := 1 - (success.count true : ℚ) / (success.length : ℚ)

/-- The part of `run` that runs the shots, `frontend/__init__.py:2260-2276`; the simulator is created by the first `Device.run`. -/
def Experiment.rate (api : FloatApi F) (rng : Rng F) (E : Experiment F) (pos : Nat) : Except Err ℚ :=
  match E.loop api rng E.shots (Sim.fresh _ pos) with
  | .error e => .error e
  | .ok l => .ok (rateOf l)

/-- `ExperimentConfig.run`, `frontend/__init__.py:2251-2276`; `qecProperty` is `general_conf["qec_property"]`, and `backend` is
`self._device._backend_class`. A function without `return` returns `None`. -/
def Experiment.run (api : FloatApi F) (rng : Rng F) (E : Experiment F) (pos : Nat) (qecProperty : List (List Char)) (backend : PyObj) :
    Except Err (Option ℚ) :=
  if qecProperty = ["logical_error_rate".toList] then
    if backend ∈ localSimulators then
      match E.rate api rng pos with
      | .error e => .error e
      | .ok q => .ok (some q)
    else .ok none
  else .ok none

/-- The class that `recognized_devices[backend].load()` gives, `device/__init__.py:334`. -/
def backendClass (name : List Char) : PyObj :=
  .cls (if name = "clifford".toList then "CircuitSimulator".toList else if name = "stim".toList then "StimSimulator".toList else name)

end Plaquette
