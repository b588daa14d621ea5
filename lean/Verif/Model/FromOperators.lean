import Verif.Model.Codes

/-!
# Codes made from operators
-/

namespace Plaquette

/-- `LatticeCode.from_operators`, `codes/__init__.py:294-316`: the number of qubits is that of the first stabiliser. -/
def fromOperators (stabs logs : List AnyOp) (nRounds : Nat) : Except Err LatCode :=
  match stabs with
  | [] => .error .indexError
  | ⟨n, _⟩ :: _ =>
    match fromStabLattice n (stabs.map fun s => pauliToString s.2 true) (logs.map fun s => pauliToString s.2 true) with
    | .error e => .error e
    | .ok L => mkLatCode L nRounds

end Plaquette
