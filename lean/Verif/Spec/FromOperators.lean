import Verif.Model.FromOperators

/-!
# What is asked of the operators of a code made from operators
-/

namespace Plaquette

variable {n : Nat}

/-- Operators with their number of qubits, as arrays have it. -/
def arrays (l : List (Op n)) : List AnyOp := l.map fun o => ⟨n, o⟩

/-- An operator that is not the identity. -/
def Op.Acts (o : Op n) : Prop := ∃ q, o.x q = true ∨ o.z q = true

/-- No letter of the operator is Y. -/
def Op.NoY (o : Op n) : Prop := ∀ q, ¬ (o.x q = true ∧ o.z q = true)

/-- The operator with sign `+`. -/
def Op.plus (o : Op n) : Op n := { o with r := false }

end Plaquette
