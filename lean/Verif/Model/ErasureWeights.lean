import Verif.Model.Weights

/-!
# Model of `src/plaquette/syngraph/weights.py` with the flag `erasure_weights`

`Verif.Model.Weights` has the probabilities with the flag as it is in the class (`False`). A subclass, or an assignment to the class
attribute, sets it; then the erasures are another source of errors. Probabilities are rational numbers, as there.
-/

namespace Plaquette

/-- The body of the loop of `_p_eff_erasure`, `weights.py:166-171`. -/
def erasureStep (L : Lattice) (q : List ℚ × List ℚ) (e : QKey × Params ℚ) : Except Err (List ℚ × List ℚ) := do
  let p ← L.equbit e.1
  if p ∈ L.dataqubits then
    let v ← getNum e.2 "p".toList
    let qx ← setAt q.1 (L.idx p) (v / 2)
    let qz ← setAt q.2 (L.idx p) (v / 2)
    .ok (qx, qz)
  else .error .assertionError

/-- `_p_eff_erasure`, `weights.py:162-172`, if there are erasures; `eff` are the probabilities before. -/
def erasureEff (L : Lattice) (n : Nat) (eff : List ℚ × List ℚ) : Option (ErrDict ℚ) → Except Err (List ℚ × List ℚ)
  | none => .ok eff
  | some d => do
    let q ← loopE (erasureStep L) (List.replicate n 0, List.replicate n 0) d
    .ok (updateEff q.1 eff.1, updateEff q.2 eff.2)

/-- `WeightComputation.__init__`, `weights.py:104-128`, with `_compute_probabs`, 130-138, for both values of `erasure_weights`. -/
def edgeProbsFlag (erasureWeights : Bool) (C : LatCode) (errs : ErrData) : Except Err EdgeProbs := do
  checkAgainstCode C.lattice errs
  if errs.any fun e => e.1 ∉ supportedErrors then .error .valueError
  else do
    let eff ← pauliEff C.lattice C.n (dictGet errs "pauli".toList)
    let eff ← if erasureWeights then erasureEff C.lattice C.n eff (dictGet errs "erasure".toList) else .ok eff
    let pm ← measEff C.lattice C.code.stabilisers.length (dictGet errs "measurement".toList)
    .ok ⟨eff.1, eff.2, pm⟩

end Plaquette
