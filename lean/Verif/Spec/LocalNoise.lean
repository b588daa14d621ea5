import Verif.Spec.Faults
import Mathlib.MeasureTheory.Measure.MeasureSpace

/-!
# Specification of random faults
-/

open MeasureTheory
open scoped ENNReal

namespace Plaquette
variable {n : Nat}

/-- Where something can go wrong: on a data qubit before a round, or in the outcome of a stabiliser in a round. -/
abbrev Place (n : Nat) := (Nat × Fin n) ⊕ (Nat × Nat)

/-- Something goes wrong there: an error or an erasure on the data qubit, or a wrong outcome. -/
def Faults.At (f : Faults n) (erased : Option (List (List Bool))) : Place n → Prop
  | .inl (t, q) => ((f.data t).x q || (f.data t).z q) = true ∨ SynBit erased t q
  | .inr (t, s) => f.meas t s

/-- The place is in one of `r` rounds of a code with `m` stabilisers. -/
def Place.Within (r m : Nat) : Place n → Prop
  | .inl (t, _) => t < r
  | .inr (t, s) => t < r ∧ s < m

/-- Random faults of rate `p`: that something goes wrong at all places of a set is as improbable as if they were independent. -/
def LocalNoise {Ω : Type*} [MeasurableSpace Ω] (μ : Measure Ω) (p : ℝ≥0∞) (r m : Nat) (f : Ω → Faults n) (erased : Ω → Option (List (List Bool))) : Prop :=
  ∀ A : Finset (Place n), (∀ a ∈ A, Place.Within r m a) → μ {ω | ∀ a ∈ A, (f ω).At (erased ω) a} ≤ p ^ A.card

end Plaquette
