import Verif.Spec.Faults

/-!
# The number of letters of the faults in a memory experiment
-/

namespace Plaquette
variable {n : Nat}

/-- The letters of the errors on the data in all rounds, where `Y` counts as `X` and `Z`, and the wrong outcomes. -/
noncomputable def Faults.letters (f : Faults n) (r m : Nat) : Nat :=
  Set.ncard {p : Nat × Fin n | p.1 < r ∧ (f.data p.1).x p.2 = true} + Set.ncard {p : Nat × Fin n | p.1 < r ∧ (f.data p.1).z p.2 = true} +
    Set.ncard {p : Nat × Nat | p.1 < r ∧ p.2 < m ∧ f.meas p.1 p.2}

/-- The errors on the data in all rounds, where `Y` counts once. -/
noncomputable def Faults.errors (f : Faults n) (r : Nat) : Nat :=
  Set.ncard {p : Nat × Fin n | p.1 < r ∧ ((f.data p.1).x p.2 || (f.data p.1).z p.2) = true}

end Plaquette
