import Verif.Model.PyChannels
import Verif.Spec.PyCircuit

/-!
# Error channels with indices that count from the end
-/

namespace Plaquette
variable {n : Nat} {F : Type}

/-- The instruction of the circuit with indices from 0 on. -/
inductive PyChannel.Plain : PyChannel F → Gate F → Prop
  | erase {p : F} {q : Int} {i : Fin n} : Names q i → Plain (.erase p q) ⟨.E_ERASE, [.flt p, .int (i.val : Int)]⟩
  | pauli {px py pz : F} {q : Int} {i : Fin n} : Names q i → Plain (.pauli [px, py, pz] q) ⟨.E_PAULI, [.flt px, .flt py, .flt pz, .int (i.val : Int)]⟩
  | pauli2 {ps : List F} {q1 q2 : Int} {i j : Fin n} : ps.length = 15 → Names q1 i → Names q2 j →
    Plain (.pauli2 ps q1 q2) ⟨.E_PAULI2, ps.map .flt ++ [.int (i.val : Int), .int (j.val : Int)]⟩

/-- The indices of a channel. -/
def PyChannel.indices : PyChannel F → List Int
  | .erase _ q => [q]
  | .pauli _ q => [q]
  | .pauli2 _ q1 q2 => [q1, q2]

/-- The instruction of the circuit with indices from 0 on. -/
inductive PyInstr.Plain : PyInstr F → Gate F → Prop
  | gate {name : Name} {qs : List Int} {is : List (Fin n)} : name ∈ qubitNames → AllName qs is → Plain (.gate name qs) ⟨name, is.map fun q => .int (q.val : Int)⟩
  | channel {c : PyChannel F} {g : Gate F} : c.Plain (n := n) g → Plain (.channel c) g

end Plaquette
