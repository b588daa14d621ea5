import Verif.Model.Sim
import Verif.Model.Stim

/-!
# Model of `Device` with the Clifford simulator, `src/plaquette/device/__init__.py:298-444`

Circuits are objects with an identity; `circs` gives the instructions of each, which are assumed not to change between runs. The device with the Stim
simulator is in `Verif.Model.Stim`. Remote backends are not modelled.
-/

namespace Plaquette
variable {F : Type}

/-- The backend of a device: the circuit it was made for, and the simulator. -/
structure DeviceBackend (circs : Nat → List (Gate F)) where
  circ : Nat
  sim : Sim (numberOfQubits (circs circ))

/-- A `Device("clifford")`, `device/__init__.py:304-342`: there is no backend before the first run. `pos` is the number of calls of the random
generator (`plaquette.rng`) so far. -/
structure CliffordDevice (circs : Nat → List (Gate F)) where
  backend : Option (DeviceBackend circs)
  pos : Nat

/-- The backend that `Device.run` uses, `device/__init__.py:409-413`: a new one unless the same circuit object was run before. -/
def CliffordDevice.use {circs : Nat → List (Gate F)} (d : CliffordDevice circs) (arg : CircArg) : DeviceBackend circs :=
  match d.backend with
  | none => ⟨arg.circ, Sim.fresh _ d.pos⟩
  | some b => if arg.is b.circ then b else ⟨arg.circ, Sim.fresh _ d.pos⟩

/-- `Device.run`, `device/__init__.py:388-416`. -/
def CliffordDevice.run {circs : Nat → List (Gate F)} (api : FloatApi F) (rng : Rng F) (d : CliffordDevice circs) (arg : CircArg)
    (afterReset : Bool) : Except Err (CliffordDevice circs) :=
  let b := d.use arg
  match b.sim.run api rng (circs b.circ) afterReset with
  | .error e => .error e
  | .ok S => .ok ⟨some ⟨b.circ, S⟩, S.pos⟩

/-- `Device.get_sample`, `device/__init__.py:418-433`: the results that the backend has. -/
def CliffordDevice.getSample {circs : Nat → List (Gate F)} (d : CliffordDevice circs) : Except Err (List Bool × Option (List Bool)) :=
  match d.backend with
  | none => .error .attributeError
  | some b => .ok b.sim.results

/-- `Device.n_qubits`, `device/__init__.py:376-382`. -/
def CliffordDevice.nQubits {circs : Nat → List (Gate F)} (d : CliffordDevice circs) : Except Err Nat :=
  match d.backend with
  | none => .error .attributeError
  | some b => .ok (numberOfQubits (circs b.circ))

/-- `Device.reset_backend`, `device/__init__.py:384-386`. -/
def CliffordDevice.resetBackend {circs : Nat → List (Gate F)} (d : CliffordDevice circs) : Except Err (CliffordDevice circs) :=
  match d.backend with
  | none => .error .attributeError
  | some b => .ok { d with backend := some ⟨b.circ, b.sim.reset⟩ }

/-- `Device.is_completed`, `device/__init__.py:435-444`, for the local simulators. -/
def CliffordDevice.isCompleted {circs : Nat → List (Gate F)} (_d : CliffordDevice circs) : Option (List Bool) := none

end Plaquette
