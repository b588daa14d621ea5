import Verif.Model.Config

/-!
# Configurations that the constructors of their classes accept
-/

namespace Plaquette
variable {F : Type}

/-- A code with a known name; size and number of rounds are natural numbers (or booleans), or the code has no size. -/
def CodeConfig.Valid (c : CodeConfig) : Prop := ∃ name, c.name = some name ∧
  ((name ∈ (["FiveQubitCode".toList, "ShorCode".toList] : List (List Char)) ∧ c.size = .int (-1)) ∨
   (name ∈ (["RotatedPlanarCode".toList, "PlanarCode".toList, "ToricCode".toList, "RepetitionCode".toList] : List (List Char)) ∧
     c.size.nat?.isSome = true ∧ c.rounds.nat?.isSome = true))

/-- A known device and at least one shot. -/
def DeviceConfig.Valid (devices : List (List Char)) (c : DeviceConfig) : Prop :=
  c.name ∈ devices ∧ ((∃ n : Nat, 0 < n ∧ c.shots = .int n) ∨ c.shots = .bool true)

/-- A path in a directory that exists; the file exists if it will be read. -/
def PathValid (fs : Files) (path : List Char) (load : Bool) : Prop := fs.dir path = true ∧ (load = true → fs.file path = true)

/-- The right number of parameters for the distribution, or no distribution at all. -/
def QubitMeta.Valid (m : QubitMeta F) : Prop :=
  m.distribution = "user".toList ∧ m.params = [] ∨ m.distribution = "constant".toList ∧ m.params.length = 1 ∨
    m.distribution = "gaussian".toList ∧ m.params.length = 2 ∨ m.distribution = []

/-- What `_GateErrorMetadata.__post_init__` accepts, `frontend/__init__.py:807-837`. -/
def GateMeta.Valid (m : GateMeta F) : Prop :=
  match m.distribution with
  | .str _ => m.induced = [] ∨ m.params = []
  | .list ds => m.induced.length = m.params.length ∧ checkChannels ds m.induced m.params = .ok ()

/-- All the parts of an experiment are accepted. -/
structure ExperimentConf.Valid (env : Env) (x : ExperimentConf F) : Prop where
  code : x.code.Valid
  device : x.device.Valid env.devices
  circuit : PathValid env.fs x.circuit.path x.circuit.provided
  decoder : x.decoder.name ∈ validDecoders
  qubitPaths : PathValid env.fs x.errors.qubit.paths.dataPath x.errors.qubit.paths.loadFile
  gatePaths : PathValid env.fs x.errors.gate.paths.dataPath x.errors.gate.paths.loadFile
  qubit : ∀ k ∈ qubitKeys, (x.errors.qubit.conf.chan k).Valid
  gate : ∀ k ∈ gateKeys, (x.errors.gate.conf.chan k).Valid

end Plaquette
