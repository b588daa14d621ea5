import Verif.Spec.QuantumState
import Verif.Model.Circuit

/-!
# Circuits with indices that count from the end
-/

namespace Plaquette
variable {n : Nat}

/-- The instructions whose arguments are qubits only. -/
def qubitNames : List Name := [.X, .Y, .Z, .H, .CX, .CZ, .M, .R, .DEPOLARIZE]

/-- The instructions are those with the given qubits: a negative integer counts from the end. -/
def SameCircuit (gs : List (Name × List Int)) (hs : List (Name × List (Fin n))) : Prop := List.Forall₂ (fun g h => g.1 = h.1 ∧ AllName g.2 h.2) gs hs

/-- The circuit written with indices from 0 on. -/
def plainCircuit {F : Type} (hs : List (Name × List (Fin n))) : List (Gate F) := hs.map fun h => ⟨h.1, h.2.map fun q => .int (q.val : Int)⟩

end Plaquette
