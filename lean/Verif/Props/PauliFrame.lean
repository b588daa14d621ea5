import Verif.Lemmas.PauliRun
import Verif.Props.Sim

/-!
# Runs with Pauli errors (C82)
-/

namespace Plaquette
open Matrix
variable {F : Type} {n : Nat}

/-- **C82** a run of a circuit with Pauli errors (channels, erasures, conditional errors) is a run of the circuit without its errors, with other random
bits, in which some results are flipped: these are the measurements of qubits with an X in the Pauli frame, which is carried along by the gates,
forgotten by resets, and multiplied with each error that the random generator decides on; the final state is the one of the run without errors, multiplied
with the frame. -/
theorem C82_pauli_frame (api : FloatApi F) (rng : Rng F) (c : List (Gate F)) (hc : ∀ g ∈ c, g.TwoOk ∧ g.PauliErrors) (S S' : Sim n) (hv : S.tab.Valid)
    (h : S.runGates api rng c = .ok S') :
    ∃ (rng' : Rng F) (S0 : Sim n) (ms : List Bool), S.runGates api rng' (noiseless c) = .ok S0 ∧ S0.meas = S.meas ++ ms ∧
      ms.length = (PFrame.zero.flips (S.frameSteps api rng c)).length ∧
      S'.meas = S.meas ++ List.zipWith xor ms (PFrame.zero.flips (S.frameSteps api rng c)) ∧ S0.erasure = S.erasure ∧
      ∀ ψ, S0.tab.Represents ψ → S'.tab.Represents (opMat ((PFrame.zero.after (S.frameSteps api rng c)).op n) *ᵥ ψ) := by
  obtain ⟨S0, ms, ⟨_, bits, k1⟩, k2, _, k4, k5, k6, k7⟩ := tracks_run (f := PFrame.zero) (framed_zero S.tab) hv hc h
  exact ⟨{ rng with bit := bits }, S0, ms, k1 _ fun _ _ _ => rfl, k4, k6, k5, k7, fun ψ hψ => framed_represents k2 hψ⟩

/-- Two entangled qubits with errors, measurements of both, a reset and another measurement. -/
def frameCircuit : List (Gate Nat) :=
  [⟨.R, [.int 0, .int 1]⟩, ⟨.H, [.int 0]⟩, ⟨.E_PAULI, [.int 0, .int 0, .int 0, .int 0]⟩, ⟨.CX, [.int 0, .int 1]⟩, ⟨.ERROR, [.int 1, .name .Z, .int 1]⟩,
   ⟨.H, [.int 1]⟩, ⟨.M, [.int 0, .int 1]⟩, ⟨.R, [.int 0]⟩, ⟨.E_ERASE, [.int 0, .int 0]⟩, ⟨.M, [.int 0]⟩]

-- X on the first qubit before the gate becomes X on both, then Z on the second; Z on the second becomes X: both results are flipped; after the
-- reset nothing is
example : (∀ g ∈ frameCircuit, g.TwoOk ∧ g.PauliErrors) ∧ ((Sim.fresh 2 0).runGates natApi rngOnes frameCircuit).isOk = true ∧
    PFrame.zero.flips ((Sim.fresh 2 0).frameSteps natApi rngOnes frameCircuit) = [true, true, false] ∧ (noiseless frameCircuit).length = 7 := by
  refine ⟨?_, by rfl, by rfl, by rfl⟩
  intro g hg
  simp only [frameCircuit, List.mem_cons, List.not_mem_nil, or_false] at hg
  rcases hg with rfl | rfl | rfl | rfl | rfl | rfl | rfl | rfl | rfl | rfl <;> simp [Gate.TwoOk, TwoOk, PairsDiffer, Gate.PauliErrors, Name.pauliLike]

end Plaquette
