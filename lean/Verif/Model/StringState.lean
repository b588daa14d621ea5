import Verif.Model.PauliText
import Mathlib.LinearAlgebra.Matrix.NonsingularInverse

/-!
# Model of `string_to_state` without destabilisers

The floating point functions of numpy are parameters: `pinv` for `np.linalg.pinv` and `cast` for `astype("u1")` of one number.
The numbers are rationals (the product with `omega` only moves them). Bytes are natural numbers.
-/

namespace Plaquette
variable {n m : Nat}

/-- A row of bytes (without the sign, which is 0), a row of `binary_destabilisers` in the branch without destabilisers. -/
structure ByteOp (n : Nat) where
  x : Fin n → Nat
  z : Fin n → Nat

/-- What `commutator_sign` reads of a row of bytes, `pauli.py:239`: sums of products modulo 2. -/
def ByteOp.parity (b : ByteOp n) : Op n where
  x q := b.x q % 2 = 1
  z q := b.z q % 2 = 1
  r := false

/-- `binary_stabilisers[:, :-1]`: the columns are the X bits and the Z bits. -/
def bitMatrix (S : Fin m → Op n) : Matrix (Fin m) (Fin n ⊕ Fin n) ℚ :=
  Matrix.of fun i => Sum.elim (fun q => if (S i).x q then 1 else 0) fun q => if (S i).z q then 1 else 0

/-- `omega`, `pauli.py:1124-1126`. -/
def omega (n : Nat) : Matrix (Fin n ⊕ Fin n) (Fin n ⊕ Fin n) ℚ := Matrix.fromBlocks 0 1 1 0

/-- The type of `np.linalg.pinv` on the matrices that occur. -/
abbrev Pinv := (n m : Nat) → Matrix (Fin n ⊕ Fin n) (Fin m) ℚ → Matrix (Fin m) (Fin n ⊕ Fin n) ℚ

/-- The computed destabilisers, `pauli.py:1127-1133`. -/
def findDestabs (pinv : Pinv) (cast : ℚ → Nat) (S : Fin m → Op n) : List (ByteOp n) :=
  let P := pinv n m (bitMatrix S).transpose * omega n
  (List.finRange m).map fun i => ⟨fun q => cast (P i (.inl q)), fun q => cast (P i (.inr q))⟩

/-- `string_to_state(stabilisers)` behind the parsing of the strings, `pauli.py:1120-1160`. Without stabilisers
`binary_stabilisers[0]` raises `IndexError`; `np.hstack` with `n` zeros raises `ValueError` unless there are `n` stabilisers. -/
def stateFromStabs (pinv : Pinv) (cast : ℚ → Nat) (stabs : List (Op n)) : Except Err (List (ByteOp n) × List (Op n)) :=
  match stabs with
  | [] => .error .indexError
  | _ :: _ =>
    if stabs.length = n then
      let ds := findDestabs pinv cast stabs.get
      match stateCheck stabs (ds.map ByteOp.parity) with
      | .error e => .error e
      | .ok _ => .ok (ds, stabs)
    else .error .valueError

/-- `string_to_state(stabilisers, None, qubits)`, `pauli.py:1059-1160`, with all operators on `n` qubits. -/
def stringToState' (pinv : Pinv) (cast : ℚ → Nat) (n : Nat) (stabs : List (List Char)) (qubits : Option Nat) :
    Except Err (List (ByteOp n) × List (Op n)) :=
  match parseAll qubits stabs with
  | .error e => .error e
  | .ok ss =>
    match sameSize n ss with
    | .error e => .error e
    | .ok ss => stateFromStabs pinv cast ss

end Plaquette
