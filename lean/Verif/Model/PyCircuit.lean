import Verif.Model.Sim
import Verif.Model.QuantumState

/-!
# Model of `CircuitSimulator` for circuits with negative qubit indices

`Sim` (`Verif/Model/Sim.lean`) is for circuits whose indices are not negative. Here the arguments are the integers of the circuit, and the gates are the calls of
`Verif/Model/QuantumState.lean`. The error channels are in `Verif/Model/PyChannels.lean`; conditional errors are left out.
-/

namespace Plaquette
variable {n : Nat} {F : Type}

/-- The calls made for gates, `_circuitsim.py:130-141`. -/
def callOf : Name → List Int → Option GateCall
  | .X, qs => some (.x (.seq qs))
  | .Y, qs => some (.y (.seq qs))
  | .Z, qs => some (.z (.seq qs))
  | .H, qs => some (.hadamard (.seq qs))
  | .CX, qs => some (.cx (.seq (evens qs)) (.seq (odds qs)))
  | .CZ, qs => some (.cz (.seq (evens qs)) (.seq (odds qs)))
  | _, _ => none

/-- A call that changes the state of the simulator. -/
def Sim.call (S : Sim n) (c : GateCall) : Except Err (Sim n) :=
  match c.exec S.tab with
  | (_, .error e) => .error e
  | (T, .ok ()) => .ok { S with tab := T }

/-- The loop of case "M", `_circuitsim.py:142-149`; the check of the index is in `single_qubit_pauli_operator`, `pauli.py:1299-1304`. -/
def Sim.pyMeasure (rng : Rng F) : Sim n → List Int → Except Err (Sim n)
  | S, [] => .ok S
  | S, q :: qs =>
    if h : 0 ≤ q ∧ q < n then
      match S.measureZ rng ⟨q.toNat, by omega⟩ with
      | .error e => .error e
      | .ok S' => S'.pyMeasure rng qs
    else .error .valueError

/-- The loop of `reset_qubits_to_eigenstate`, `pauli.py:1267-1275`, called in case "R", `_circuitsim.py:150-151`. -/
def Sim.pyReset (rng : Rng F) : Sim n → List Int → Except Err (Sim n)
  | S, [] => .ok S
  | S, q :: qs =>
    if h : 0 ≤ q ∧ q < n then
      match S.resetAll rng [⟨q.toNat, by omega⟩] with
      | .error e => .error e
      | .ok S' => S'.pyReset rng qs
    else .error .valueError

/-- The loop of case "DEPOLARIZE", `_circuitsim.py:152-155`, with `_apply_pauli_from_int`, 180-192. -/
def Sim.pyDepolarize (rng : Rng F) : Sim n → List Int → Except Err (Sim n)
  | S, [] => .ok S
  | S, q :: qs =>
    let c : GateCall := match rng.int3 S.pos with
      | 0 => .x (.one q)
      | 1 => .y (.one q)
      | 2 => .z (.one q)
    match ({ S with pos := S.pos + 1 } : Sim n).call c with
    | .error e => .error e
    | .ok S' => S'.pyDepolarize rng qs

/-- `_run_gate` and `_handle_gate`, `_circuitsim.py:128-178, 194-200`, for an instruction with integers only. -/
def Sim.pyGate (rng : Rng F) (S : Sim n) (name : Name) (args : List Int) : Except Err (Sim n) :=
  let S := { S with inError := false }
  match callOf name args with
  | some c => S.call c
  | none =>
    match name with
    | .M => S.pyMeasure rng args
    | .R => S.pyReset rng args
    | .DEPOLARIZE => S.pyDepolarize rng args
    | _ => .error .unmodelled

/-- The loop over all instructions, `_circuitsim.py:72-90, 206-208`. -/
def Sim.pyRun (rng : Rng F) : Sim n → List (Name × List Int) → Except Err (Sim n)
  | S, [] => .ok S
  | S, g :: gs =>
    match S.pyGate rng g.1 g.2 with
    | .error e => .error e
    | .ok S' => S'.pyRun rng gs

end Plaquette
