import Verif.Model.StringState
import Verif.Spec.Stabiliser

/-!
# What computed destabilisers should be, and what is assumed of numpy
-/

namespace Plaquette
variable {n m : Nat}

/-- The Moore-Penrose inverse of a matrix with independent columns. -/
noncomputable def exactPinv : Pinv := fun _ _ A => (A.transpose * A)⁻¹ * A.transpose

/-- `pinv` is good to 1/4 on matrices with independent columns. -/
def Accurate (pinv : Pinv) : Prop := ∀ (n m : Nat) (A : Matrix (Fin n ⊕ Fin n) (Fin m) ℚ), IsUnit (A.transpose * A).det →
  ∀ i j, |pinv n m A i j - exactPinv n m A i j| < 1 / 4

/-- Conversion to unsigned bytes drops the digits behind the point. (Other negative numbers: depends on the machine.) -/
def Truncates (cast : ℚ → Nat) : Prop := ∀ v : ℚ, -1 < v → v < 256 → cast v = ⌊v⌋.toNat

/-- Bytes that are a tableau: only 0 and 1, with the relations of a valid tableau. -/
structure IsTableau (S : Fin n → Op n) (d : List (ByteOp n)) : Prop where
  length : d.length = n
  binary : ∀ b ∈ d, ∀ q, b.x q ≤ 1 ∧ b.z q ≤ 1
  valid : Tab.Valid ⟨fun i => (d[i]'(by omega)).parity, S⟩

/-- In how many bits (X and Z bits counted apart) two operators share a 1. -/
def overlap (a b : Op n) : Nat :=
  (Finset.univ.filter fun q => (a.x q && b.x q) = true).card + (Finset.univ.filter fun q => (a.z q && b.z q) = true).card

end Plaquette
