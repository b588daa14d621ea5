import Verif.Spec.GateFaults
import Mathlib.MeasureTheory.Measure.MeasureSpace

/-!
# Specification of a random generator

A random generator is one whose answers depend on chance. It is fair if each answer has the probability that was asked for, whatever the answers before it were.
-/

open MeasureTheory
open scoped ENNReal

namespace Plaquette
variable {F : Type}

/-- A random generator that is fair from the call `k₀` on: the answers of the calls before call `k` are known in the σ-algebra `past k`, and given any event of the past
the answers of call `k` have at most the probabilities that were asked for (`prob x` is the probability denoted by the number `x`; a number may denote more than 1, and probabilities
that are not a distribution are refused). -/
structure FairFrom (k₀ : Nat) {Ω : Type} [m0 : MeasurableSpace Ω] (μ : Measure Ω) (prob : F → ℝ≥0∞) (past : Nat → MeasurableSpace Ω) (rng : Ω → Rng F) : Prop where
  mono : Monotone past
  le : ∀ k, past k ≤ m0
  below : ∀ k x, MeasurableSet[past (k + 1)] {ω | (rng ω).below k x = true}
  bit : ∀ k v, MeasurableSet[past (k + 1)] {ω | (rng ω).bit k = v}
  int3 : ∀ k v, MeasurableSet[past (k + 1)] {ω | (rng ω).int3 k = v}
  int4 : ∀ k v, MeasurableSet[past (k + 1)] {ω | (rng ω).int4 k = v}
  choice4 : ∀ k ps v, MeasurableSet[past (k + 1)] {ω | (rng ω).choice4 k ps = v}
  choice16 : ∀ k ps v, MeasurableSet[past (k + 1)] {ω | (rng ω).choice16 k ps = v}
  below_prob : ∀ k x E, k₀ ≤ k → MeasurableSet[past k] E → μ (E ∩ {ω | (rng ω).below k x = true}) ≤ prob x * μ E
  choice4_prob : ∀ k ps (v : Fin 4) i p E, k₀ ≤ k → v.val = i + 1 → ps[i]? = some p → MeasurableSet[past k] E → μ (E ∩ {ω | (rng ω).choice4 k ps = some v}) ≤ prob p * μ E
  choice16_prob : ∀ k ps (v : Fin 16) i p E, k₀ ≤ k → v.val = i + 1 → ps[i]? = some p → MeasurableSet[past k] E →
    μ (E ∩ {ω | (rng ω).choice16 k ps = some v}) ≤ prob p * μ E

/-- A fair random generator. -/
abbrev Fair {Ω : Type} [MeasurableSpace Ω] (μ : Measure Ω) (prob : F → ℝ≥0∞) (past : Nat → MeasurableSpace Ω) (rng : Ω → Rng F) : Prop := FairFrom 0 μ prob past rng

/-- The probability of an argument. -/
def argProb (api : FloatApi F) (prob : F → ℝ≥0∞) (v : Val F) : ℝ≥0∞ :=
  match numOf api v with
  | .ok p => prob p
  | .error _ => 1

/-- The rate of an error instruction: the probability that it does something. Other instructions have rate 1. -/
def Gate.rate (api : FloatApi F) (prob : F → ℝ≥0∞) (g : Gate F) : ℝ≥0∞ :=
  match g.name with
  | .ERROR | .ERROR_ELSE | .E_ERASE => ((g.args.take 1).map (argProb api prob)).sum
  | .E_PAULI => ((g.args.take 3).map (argProb api prob)).sum
  | .E_PAULI2 => ((g.args.take 15).map (argProb api prob)).sum
  | _ => 1

end Plaquette
