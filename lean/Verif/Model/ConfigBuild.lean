import Verif.Model.Config
import Verif.Model.Weights
import Verif.Model.Matching

/-!
# What an `ExperimentConfig` builds: `ErrorsConfig.instantiate`, `CircuitConfig.instantiate` and `DecoderConfig.instantiate` put together

The floats of the configuration are rational numbers here, because the weights of the decoders are computed from them.
-/

namespace Plaquette

/-- The two dictionaries of an `ErrorData` object: `qubit_errors_dict` and `gate_errors_dict`. -/
abbrev ErrPair := List (List Char × ErrDict ℚ) × List (List Char × ErrDict ℚ)

/-- A decoder object: the syndrome graph and the backends of its components, `decoders/decoderbase.py:273-297`. -/
inductive BuiltDecoder
  | pm (g : SynGraph FW) (states : List PmGraph)
  | fb (g : SynGraph FW) (states : List FbGraph)
  | uf (support : Bool) (g : SynGraph FW) (states : List UGraph)

/-- What the functions of `build` use besides the configuration: floats, the logarithm, the value `1e-15`, the contents of the CSV files, the draws of the
distributions, the orders of sets, the parser of circuit files, and the two matching libraries. -/
structure BuildEnv where
  api : FloatApi ℚ
  negLog : ℚ → Option FW
  tiny : ℚ
  tenth : ℚ
  qcsv : List (List Char × List (Nat × ℚ))
  gcsv : List (GateRow ℚ)
  qdraws : List Char → List ℚ
  gdraws : List Char → List ℚ
  qorder : List (List Char)
  gorder : List (List Char)
  order : List (List Char)
  parse : List Char → Except Err (List (Gate ℚ))
  pmSolve : PmGraph → List Bool → Except Err (List Bool)
  fbSolve : FbGraph → List Nat → List Nat → Except Err (List Nat)

/-- `decode` of the decoder object, `decoders/decoderbase.py:405-425`, for a code with `n` data qubits. -/
def BuiltDecoder.decode (env : BuildEnv) (n : Nat) (erased syn : Option (List (List Bool))) : BuiltDecoder → Except Err (Op n)
  | .pm g states => Plaquette.decode (pmBackend env.pmSolve) g n states erased syn
  | .fb g states => Plaquette.decode (fbBackend env.fbSolve) g n states erased syn
  | .uf support g states => Plaquette.decode (ufBackend support) g n states erased syn

/-- `getattr(decoders, self.name).from_code(code, ed.error_data_dict, weighted=self.weighted)`, `frontend/__init__.py:1764-1766`. The property
`error_data_dict`, `errors/__init__.py:812-846`, has the errors of gates before those of qubits. -/
def DecoderConfig.make (env : BuildEnv) (d : DecoderConfig) (code : LatCode) (ed : ErrPair) : Except Err BuiltDecoder :=
  if d.name = "PyMatchingDecoder".toList then
    match fromCode FW.isInf env.negLog env.tiny (pmBackend env.pmSolve) code (some (ed.2 ++ ed.1)) (some d.weighted) none with
    | .error e => .error e
    | .ok (g, states) => .ok (.pm g states)
  else if d.name = "FusionBlossomDecoder".toList then
    match fromCode FW.isInf env.negLog env.tiny (fbBackend env.fbSolve) code (some (ed.2 ++ ed.1)) (some d.weighted) none with
    | .error e => .error e
    | .ok (g, states) => .ok (.fb g states)
  else if d.name = "UnionFindDecoder".toList then
    match fromCode FW.isInf env.negLog env.tiny (ufBackend true) code (some (ed.2 ++ ed.1)) (some d.weighted) none with
    | .error e => .error e
    | .ok (g, states) => .ok (.uf true g states)
  else if d.name = "UnionFindNoWeights".toList then
    match fromCode FW.isInf env.negLog env.tiny (ufBackend false) code (some (ed.2 ++ ed.1)) (some d.weighted) none with
    | .error e => .error e
    | .ok (g, states) => .ok (.uf false g states)
  else .error .attributeError

/-- `ErrorsConfig.instantiate`, `frontend/__init__.py:1408-1422`; `generate_qec_circuit` with the arguments of `CircuitConfig.instantiate`,
`frontend/__init__.py:1551-1557`; and `DecoderConfig.instantiate`, `frontend/__init__.py:1734-1768`. -/
def BuildEnv.makers (env : BuildEnv) : Makers ℚ ErrPair BuiltDecoder where
  errors conf code := configErrors 0 env.tenth code.lattice env.qcsv env.gcsv env.qdraws env.gdraws env.qorder env.gorder env.order conf.qubit.conf conf.gate.conf
  generate code ed op := generateCircuit env.api code ed.1 ed.2 (.str op) false
  parse := env.parse
  decoder d code ed := d.make env code ed

/-- The objects that the loop of `run` uses, `frontend/__init__.py:2260-2275`. Objects that were not built are `None`, which has none of the attributes. -/
def BuiltParts.experiment (env : BuildEnv) (x : ExperimentConf ℚ) (b : BuiltParts ℚ ErrPair BuiltDecoder) : Except Err (Experiment ℚ) :=
  match b.code, b.circuit, b.decoder, x.device.shots.nat?, x.general with
  | some code, some circ, some dec, some shots, some g => .ok ⟨code, circ, fun erased syn => dec.decode env code.n erased syn, shots, .str g.logicalOp⟩
  | _, _, _, _, _ => .error .attributeError

end Plaquette
