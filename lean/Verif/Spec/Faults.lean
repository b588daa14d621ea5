import Verif.Spec.Codes
import Verif.Props.Decoder

/-!
# Specification of the faults during the rounds of a memory experiment, and of their correction
-/

namespace Plaquette
variable {n : Nat}

/-- What goes wrong in the rounds: a Pauli error before each round, and outcomes of stabilisers that are reported wrongly. -/
structure Faults (n : Nat) where
  data : Nat → Op n
  meas : Nat → Nat → Prop

/-- The syndrome bit `[t, s]` says that the outcome of stabiliser `s` in round `t` differs from that in the round before. An error on the
data changes it once; a wrong outcome changes two consecutive bits. In the last round all outcomes are right. -/
structure Faults.Shows (f : Faults n) (r : Nat) (stabs : List (Op n)) (syn : Option (List (List Bool))) : Prop where
  last : ∀ t s, r ≤ t + 1 → ¬ f.meas t s
  bit : ∀ t < r, ∀ s gen, stabs[s]? = some gen →
    (SynBit syn t s ↔ Xor (Anticommutes (opMat gen) (opMat (f.data t))) (Xor (f.meas t s) (0 < t ∧ f.meas (t - 1) s)))

/-- The errors on qubits that were not erased, and the wrong outcomes. -/
noncomputable def Faults.count (f : Faults n) (r m : Nat) (erased : Option (List (List Bool))) : Nat :=
  Set.ncard {p : Nat × Fin n | p.1 < r ∧ ((f.data p.1).x p.2 || (f.data p.1).z p.2) = true ∧ ¬ SynBit erased p.1 p.2} +
    Set.ncard {p : Nat × Nat | p.1 < r ∧ p.2 < m ∧ f.meas p.1 p.2}

/-- The qubits that were erased, in all rounds. -/
noncomputable def erasures (n r : Nat) (erased : Option (List (List Bool))) : Nat := Set.ncard {p : Nat × Fin n | p.1 < r ∧ SynBit erased p.1 p.2}

/-- The correction undoes what the errors of all rounds together do to the logical operators. -/
def Faults.Corrected (f : Faults n) (r : Nat) (logicals : List (Op n)) (p : Op n) : Prop :=
  ∀ l ∈ logicals, (Anticommutes (opMat l) (opMat p) ↔ Odd (Set.ncard {t | t < r ∧ Anticommutes (opMat l) (opMat (f.data t))}))

end Plaquette
