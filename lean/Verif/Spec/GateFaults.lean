import Verif.Spec.PauliFrame

/-!
# Specification of the number of faults in a run

The error instructions of a run with the Pauli matrices they applied, and a count of those that applied something.
-/

namespace Plaquette
variable {F : Type} {n : Nat}

/-- An instruction of a run and the Pauli matrices it applied as an error: qubit and number of the matrix. -/
abbrev Kicked1 (F : Type) := Gate F × List (Nat × Fin 4)

/-- The instructions of a run. -/
def Sim.trace (api : FloatApi F) (rng : Rng F) : Sim n → List (Gate F) → List (Kicked1 F)
  | _, [] => []
  | S, g :: gs => (g, S.kicks api rng g) ::
    match S.runGate api rng g with
    | .ok S' => S'.trace api rng gs
    | .error _ => []

/-- Some matrix is not the identity. -/
def hitBy (k : List (Nat × Fin 4)) : Bool := k.any fun p => p.2 ≠ 0

/-- The first qubit. -/
def firstQubit (k : List (Nat × Fin 4)) : Nat := (k.head?.map Prod.fst).getD 0

/-- A Pauli error on one of the first `d` qubits, the data. -/
def dataFault (d : Nat) (p : Kicked1 F) : Bool := hitBy p.2 && decide (p.1.name = .E_PAULI) && decide (firstQubit p.2 < d)

/-- A Pauli error on an ancilla, or on two qubits: a faulty gate. -/
def gateFault (d : Nat) (p : Kicked1 F) : Bool :=
  hitBy p.2 && (decide (p.1.name = .E_PAULI2) || (decide (p.1.name = .E_PAULI) && decide (d ≤ firstQubit p.2)))

/-- A flip before a measurement. -/
def measFault (p : Kicked1 F) : Bool := hitBy p.2 && decide (p.1.name = .ERROR)

/-- A loss of a qubit. -/
def lossFault (p : Kicked1 F) : Bool := !p.2.isEmpty && decide (p.1.name = .E_ERASE)

/-- The instruction did something: it applied a Pauli matrix other than the identity, or erased a qubit. -/
def struck (p : Kicked1 F) : Prop := hitBy p.2 = true ∨ lossFault p = true

/-- The number of faults when a faulty gate counts as `K`. -/
def faultWeight (d K : Nat) (tr : List (Kicked1 F)) : Nat := tr.countP (dataFault d) + tr.countP measFault + K * tr.countP (gateFault d)

/-- The number of losses. -/
def lossCount (tr : List (Kicked1 F)) : Nat := tr.countP lossFault

/-- The operator acts on a qubit. -/
def Op.actsOn (p : Op n) (q : Fin n) : Bool := p.x q || p.z q

/-- Every operator acts on at most `w` qubits, and at most `deg` of them act on each qubit. -/
structure Sparse (stabs : List (Op n)) (w deg : Nat) : Prop where
  weight : ∀ p ∈ stabs, p.weight ≤ w
  degree : ∀ q : Fin n, stabs.countP (·.actsOn q) ≤ deg

end Plaquette
