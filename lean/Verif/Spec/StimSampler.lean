import Verif.Spec.StimSemantics
import Verif.Model.Stim

/-!
# What is asked of Stim's sampler
-/

open MeasureTheory
open scoped ENNReal

namespace Plaquette

/-- The sampler is faithful to the Stim circuit: the rows of the batches are independent, and each has the distribution that Born's rule gives for the circuit on `N` qubits. -/
def Faithful {Ω : Type} [MeasurableSpace Ω] (μ : Measure Ω) (smp : Ω → Sampler (List Bool)) (N : Nat) (is : List (SInstr ℝ)) : Prop :=
  (∀ b j r, MeasurableSet {ω | smp ω b j = r}) ∧ ∃ J : SInstrument N, stimMeaning N is = some J ∧
    ∀ (places : Finset (Nat × Nat)) (r : Nat × Nat → List Bool), μ {ω | ∀ p ∈ places, smp ω p.1 p.2 = r p} = ∏ p ∈ places, J.born (zeroDensity N) (r p)

end Plaquette
