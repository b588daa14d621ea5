import Verif.Model.PyCircuit

/-!
# Model of the error channels of `CircuitSimulator` for negative qubit indices
-/

namespace Plaquette
variable {n : Nat} {F : Type}

/-- An error channel with probabilities and the integers of the circuit. -/
inductive PyChannel (F : Type)
  | erase (p : F) (q : Int)
  | pauli (ps : List F) (q : Int)
  | pauli2 (ps : List F) (q1 q2 : Int)

/-- `_apply_pauli_from_int`, `_circuitsim.py:180-192`. -/
def Sim.pyPauli (S : Sim n) (q : Int) (sample : Nat) : Except Err (Sim n) :=
  match sample with
  | 0 => .ok S
  | 1 => S.call (.x (.one q))
  | 2 => S.call (.y (.one q))
  | 3 => S.call (.z (.one q))
  | _ => .error .assertionError

/-- `_run_gate` for the cases "E_ERASE", "E_PAULI" and "E_PAULI2" of `_handle_gate`, `_circuitsim.py:156-176, 198-200`. -/
def Sim.pyChannel (rng : Rng F) (S : Sim n) (c : PyChannel F) : Except Err (Sim n) :=
  let S := { S with inError := false }
  match c with
  | .erase p q =>
    let erase := rng.below S.pos p
    let S1 := { S with erasure := S.erasure ++ [erase], pos := S.pos + 1 }
    if erase then ({ S1 with pos := S1.pos + 1 } : Sim n).pyPauli q (rng.int4 S1.pos).val else .ok S1
  | .pauli ps q =>
    match rng.choice4 S.pos ps with
    | none => .error .valueError
    | some sample => ({ S with pos := S.pos + 1 } : Sim n).pyPauli q sample.val
  | .pauli2 ps q1 q2 =>
    match rng.choice16 S.pos ps with
    | none => .error .valueError
    | some sample =>
      match ({ S with pos := S.pos + 1 } : Sim n).pyPauli q1 (sample.val / 4) with
      | .error e => .error e
      | .ok S1 => S1.pyPauli q2 (sample.val % 4)

/-- An instruction on qubits or an error channel. -/
inductive PyInstr (F : Type)
  | gate (name : Name) (args : List Int)
  | channel (c : PyChannel F)

/-- `_run_gate`, `_circuitsim.py:194-200`. -/
def Sim.pyInstr (rng : Rng F) (S : Sim n) : PyInstr F → Except Err (Sim n)
  | .gate name args => S.pyGate rng name args
  | .channel c => S.pyChannel rng c

/-- The loop over all instructions, `_circuitsim.py:72-90, 206-208`. -/
def Sim.pyRunAll (rng : Rng F) : Sim n → List (PyInstr F) → Except Err (Sim n)
  | S, [] => .ok S
  | S, g :: gs =>
    match S.pyInstr rng g with
    | .error e => .error e
    | .ok S' => S'.pyRunAll rng gs

end Plaquette
