import Verif.Model.PauliText

/-!
# Model of resets with the Pauli operator given as text, and of states as text
-/

namespace Plaquette
variable {n : Nat}

/-- `state_to_stabiliser_string`, `pauli.py:898-927`: destabilisers and stabilisers (a `Tab` has the right shape). -/
def stateToStrings (T : Tab n) (showIdentities : Bool) : List (List Char) × List (List Char) :=
  ((List.ofFn T.d).map fun o => pauliToString o showIdentities, (List.ofFn T.s).map fun o => pauliToString o showIdentities)

/-- The letter at the end of the text, `pauli.py:1309-1317`. -/
def lastLetter : Option Char → Except Err Letter
  | some 'X' => .ok .X
  | some 'Z' => .ok .Z
  | some 'Y' => .ok .Y
  | _ => .error .valueError

/-- `single_qubit_pauli_operator(op, qubit, qubits)`, `pauli.py:1279-1320`, with the number of qubits `n` of the state. -/
def singleOpText (op : List Char) (qubit : Int) (n : Nat) : Except Err (Fin n × Op n) :=
  if qubit < 0 then .error .valueError
  else if n < 1 then .error .valueError
  else if h : qubit.toNat < n then
    match op with
    | [] => .error .indexError
    | c :: _ =>
      match lastLetter op.getLast? with
      | .error e => .error e
      | .ok l => .ok (⟨qubit.toNat, h⟩, singleOp (c == '-') l ⟨qubit.toNat, h⟩)
  else .error .valueError

/-- One iteration of the loop of `reset_qubits_to_eigenstate`, `pauli.py:1267-1275`, with the text. -/
def resetTextOne (pauli : List Char) (T : Tab n) (qubit : Int) (draw : Bool) : Except Err (Tab n) :=
  match singleOpText pauli qubit n with
  | .error e => .error e
  | .ok (q, m) =>
    match measure T m none draw with
    | .error e => .error e
    | .ok (T', out) =>
      if out then
        if pauli = ['Z'] ∨ pauli = ['-', 'Z'] then .ok ((CGate.x q).app T')
        else if pauli = ['X'] ∨ pauli = ['-', 'X'] then .ok ((CGate.z q).app T')
        else .ok T'
      else .ok T'

/-- `reset_qubits_to_eigenstate`, `pauli.py:1248-1276`; the draws are paired with the targets. -/
def resetText (pauli : List Char) (T : Tab n) : List (Int × Bool) → Except Err (Tab n)
  | [] => .ok T
  | (q, draw) :: rest =>
    match resetTextOne pauli T q draw with
    | .error e => .error e
    | .ok T' => resetText pauli T' rest

/-- `QuantumState.reset_qubits_to_eigenstate`, `device/__init__.py:157-167`; `in` on strings asks for a substring. -/
def stateReset (basis : List Char) (T : Tab n) (qs : List (Int × Bool)) : Except Err (Tab n) :=
  if ¬ basis <:+: ['X', 'Z'] ∧ basis.length ≠ 1 then .error .valueError else resetText basis T qs

end Plaquette
