import Verif.Model.Circuit

/-!
# Specification of the properties of circuits: the qubits of an instruction, exact OpenQASM export
-/

namespace Plaquette
variable {F : Type}

/-- The qubits an instruction with this name and these arguments acts on (specification): every argument for gates,
the last one for one-qubit channels, the last two for two-qubit channels. -/
def targetsOf (name : Name) (args : List (Val F)) : List (Val F) :=
  match name with
  | .E_ERASE => args.drop 1
  | .E_PAULI => args.drop 3
  | .E_PAULI2 => args.drop 15
  | _ => args

/-- The qubits a stored gate can act on: for a conditional error, those of the gate it contains. -/
def Gate.qubits (g : Gate F) : List (Val F) :=
  match g.name, g.args with
  | .ERROR, _ :: .name n :: rest => targetsOf n rest
  | .ERROR_ELSE, _ :: .name n :: rest => targetsOf n rest
  | .ERROR_CONTINUE, .name n :: rest => targetsOf n rest
  | n, args => targetsOf n args

/-- Every qubit index in the circuit is smaller than `N`. -/
def FitsIn (c : List (Gate F)) (N : Nat) : Prop := ∀ g ∈ c, ∀ i : Int, Val.int i ∈ g.qubits → i < N

/-- Not a channel inside a conditional error. -/
def Gate.plain (g : Gate F) : Prop :=
  match g.name, g.args with
  | .ERROR, _ :: .name n :: _ => n ∉ [Name.E_ERASE, .E_PAULI, .E_PAULI2]
  | .ERROR_ELSE, _ :: .name n :: _ => n ∉ [Name.E_ERASE, .E_PAULI, .E_PAULI2]
  | .ERROR_CONTINUE, .name n :: _ => n ∉ [Name.E_ERASE, .E_PAULI, .E_PAULI2]
  | _, _ => True

/-- What an exact export of one gate would be (specification); `k` is the number of measurements before it. -/
def exactQasm (k : Nat) (g : Gate F) : List QasmLine :=
  match g.name with
  | .M => g.args.mapIdx fun j a => .measure a.toInt (k + j)
  | .R => g.args.map fun a => .reset a.toInt
  | .CX | .CZ => (List.range (g.args.length / 2)).map fun j =>
      .gate2 g.name ((g.args[2 * j]?.map Val.toInt).getD 0) ((g.args[2 * j + 1]?.map Val.toInt).getD 0)
  | _ => g.args.map fun a => .gate1 g.name a.toInt

/-- The exact export of a circuit. -/
def exactQasmAll (k : Nat) : List (Gate F) → List QasmLine
  | [] => []
  | g :: gs => exactQasm k g ++ exactQasmAll (if g.name = .M then k + g.args.length else k) gs

/-- The classical bits of the measurement lines. -/
def measBits : List QasmLine → List Nat
  | [] => []
  | .measure _ b :: ls => b :: measBits ls
  | _ :: ls => measBits ls

end Plaquette
