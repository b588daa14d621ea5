import Verif.Model.Decoder
import Verif.Model.Errors
import Mathlib.Analysis.SpecialFunctions.Log.ENNRealLog

/-!
# Model of `src/plaquette/syngraph/weights.py`, `SyndromeGraphManager.__init__` and `DecoderInterface.from_code`

Probabilities are rational numbers. (The code computes with floats: the sum of two probabilities may be rounded there.) A weight is
an element of a linear order `W`, or `none` for `nan`; the function `-log(p / (1 - p))` is a parameter of the model.

The indices of the lattice are up to date (`assign_indices` is called by the constructors and by `apply_fabrication_errors`).
-/

namespace Plaquette

/-- The value of a parameter of an error. (A text is not modelled.) -/
def Raw.num : Raw ℚ → Except Err ℚ
  | .int i => .ok i
  | .flt f => .ok f
  | .str _ => .error .unmodelled

/-- `params.get(k, 0.0)` -/
def getNum (ps : Params ℚ) (k : List Char) : Except Err ℚ :=
  match dictGet ps k with
  | none => .ok 0
  | some v => v.num

/-- `array[i] = v` -/
def setAt (l : List ℚ) (i : Nat) (v : ℚ) : Except Err (List ℚ) := if i < l.length then .ok (l.set i v) else .error .indexError

/-- `lattice.equbits[equbit_idx]`. (A negative index counts from the end; it does not get past `check_against_code`.) -/
def Lattice.equbit (L : Lattice) : QKey → Except Err Pos
  | .tup _ => .error .typeError
  | .int i =>
    if i < 0 then .error .unmodelled
    else match L.equbits[i.toNat]? with
      | none => .error .indexError
      | some p => .ok p

/-- The attribute `stabgen_idx`: the stabiliser generators are counted after the data qubits. -/
def Lattice.stabIdx (L : Lattice) (p : Pos) : Nat := L.idx p - L.dataqubits.length

/-- The body of the loop of `_p_eff_pauli_1`, `weights.py:152-159`. -/
def pauliStep (L : Lattice) (q : List ℚ × List ℚ) (e : QKey × Params ℚ) : Except Err (List ℚ × List ℚ) := do
  let p ← L.equbit e.1
  if p ∈ L.dataqubits then
    let x ← getNum e.2 "x".toList
    let y ← getNum e.2 "y".toList
    let z ← getNum e.2 "z".toList
    let qx ← setAt q.1 (L.idx p) (x + y)
    let qz ← setAt q.2 (L.idx p) (y + z)
    .ok (qx, qz)
  else .error .assertionError

/-- `_update_p_eff`, `weights.py:174-177`, for one of the two arrays. -/
def updateEff (q p : List ℚ) : List ℚ := List.zipWith (fun q p => (1 - q) * p + q * (1 - p)) q p

/-- The body of the loop of `_p_meas`, `weights.py:142-146`. -/
def measStep (L : Lattice) (pm : List ℚ) (e : QKey × Params ℚ) : Except Err (List ℚ) := do
  let p ← L.equbit e.1
  if L.isStab p then
    let v ← getNum e.2 "p".toList
    setAt pm (L.stabIdx p) v
  else .error .assertionError

/-- `get_edge_probab`, `weights.py:179-181`. -/
structure EdgeProbs where
  px : List ℚ
  pz : List ℚ
  pm : List ℚ

/-- `supported_errors`, `weights.py:91`. -/
def supportedErrors : List (List Char) := ["erasure".toList, "pauli".toList, "measurement".toList]

/-- The error dictionaries of all kinds (`ErrorDataDict`). -/
abbrev ErrData := List (List Char × ErrDict ℚ)

/-- `_p_eff_pauli_1`, `weights.py:148-160`, if there are Pauli errors. -/
def pauliEff (L : Lattice) (n : Nat) : Option (ErrDict ℚ) → Except Err (List ℚ × List ℚ)
  | none => .ok (List.replicate n 0, List.replicate n 0)
  | some d => do
    let q ← loopE (pauliStep L) (List.replicate n 0, List.replicate n 0) d
    .ok (updateEff q.1 (List.replicate n 0), updateEff q.2 (List.replicate n 0))

/-- `_p_meas`, `weights.py:140-146`, if there are measurement errors. -/
def measEff (L : Lattice) (m : Nat) : Option (ErrDict ℚ) → Except Err (List ℚ)
  | none => .ok (List.replicate m 0)
  | some d => loopE (measStep L) (List.replicate m 0) d

/-- `WeightComputation.__init__`, `weights.py:116-128`, with `_compute_probabs`, 130-138; `erasure_weights` is `False`. -/
def edgeProbs (C : LatCode) (errs : ErrData) : Except Err EdgeProbs := do
  checkAgainstCode C.lattice errs
  if errs.any fun e => e.1 ∉ supportedErrors then .error .valueError
  else do
    let eff ← pauliEff C.lattice C.n (dictGet errs "pauli".toList)
    let pm ← measEff C.lattice C.code.stabilisers.length (dictGet errs "measurement".toList)
    .ok ⟨eff.1, eff.2, pm⟩

variable {W σ : Type}

/-- `get_edge_weights`, `weights.py:183-208`; `negLog p` is `-log(p / (1 - p))`. -/
def EdgeProbs.weights (negLog : ℚ → Option W) (p : EdgeProbs) : Weights W :=
  ⟨.arr (p.px.map negLog), .arr (p.pz.map negLog), .arr (p.pm.map negLog)⟩

/-- `-np.log(p / (1 - p))`, `weights.py:204-208`, with exact real numbers: a division by zero gives infinity, the logarithm of 0 is minus
infinity, the logarithm of a negative number is `nan`. -/
noncomputable def logWeight (p : ℚ) : Option EReal :=
  if 0 ≤ p ∧ p ≤ 1 then some (-ENNReal.log (ENNReal.ofReal (p : ℝ) / ENNReal.ofReal (1 - (p : ℝ)))) else none

open Classical in
/-- `np.isinf` -/
noncomputable def erealInf (w : EReal) : Bool := decide (w = ⊤ ∨ w = ⊥)

/-- `SyndromeGraphManager.__init__`, `syngraph/__init__.py:1116-1131`: the weights for the syndrome graph. -/
def managerWeights (negLog : ℚ → Option W) (C : LatCode) (errs : Option ErrData) (weighted : Option Bool)
    (weights : Option (Weights W)) : Except Err (Option (Weights W)) :=
  if errs.isSome ∧ weights.isSome then .error .valueError
  else if weighted.getD (errs.isSome || weights.isSome) then
    match weights with
    | some w => .ok (some w)
    | none =>
      match errs with
      | none => .error .valueError
      | some errs => do
        let p ← edgeProbs C errs
        .ok (some (p.weights negLog))
  else .ok none

/-- `SyndromeGraphManager.__init__`, `syngraph/__init__.py:1098-1130`: the syndrome graph. -/
def manager [LinearOrder W] (isInf : W → Bool) (negLog : ℚ → Option W) (C : LatCode) (errs : Option ErrData) (weighted : Option Bool)
    (weights : Option (Weights W)) : Except Err (SynGraph W) := do
  let w ← managerWeights negLog C errs weighted weights
  mkSynGraph isInf C.nRounds C.code.stabilisers w

/-! ### `from_code` -/

/-- `d[k] = v` -/
def dictSet {K V : Type} [DecidableEq K] (d : List (K × V)) (k : K) (v : V) : List (K × V) :=
  if d.any fun e => e.1 = k then d.map fun e => if e.1 = k then (k, v) else e else d ++ [(k, v)]

/-- `bool(v)` -/
def Raw.truthy : Raw ℚ → Bool
  | .int i => i ≠ 0
  | .flt f => f ≠ 0
  | .str s => !s.isEmpty

/-- `_default_pauli_errors`, `decoderbase.py:344-348`; `tiny` is `1e-15`. -/
def defaultPauli (tiny : ℚ) : Params ℚ := [("x".toList, .flt tiny), ("y".toList, .flt tiny), ("z".toList, .flt tiny)]

/-- `not d.get(k)` for a dictionary of dictionaries: the entry is missing or empty. -/
def entryEmpty (d : ErrDict ℚ) (q : Nat) : Bool := ((dictGet d (.int q)).getD []).isEmpty

/-- The loop over `"xyz"`, `decoderbase.py:363-371`. -/
def completeParams (tiny : ℚ) (ps : Params ℚ) : Params ℚ :=
  onePauliNames.foldl (fun ps k =>
    match dictGet ps k with
    | some v => if v.truthy then ps else dictSet ps k (.flt tiny)
    | none => dictSet ps k (.flt tiny)) ps

/-- The body of the loop over the qubits, `decoderbase.py:355-371`. -/
def completePauli (tiny : ℚ) (d : ErrDict ℚ) (q : Nat) : ErrDict ℚ :=
  if entryEmpty d q then dictSet d (.int q) (defaultPauli tiny)
  else dictSet d (.int q) (completeParams tiny ((dictGet d (.int q)).getD []))

/-- The body of the loop over the qubits, `decoderbase.py:372-373`. -/
def completeErasure (d : ErrDict ℚ) (q : Nat) : ErrDict ℚ :=
  if entryEmpty d q then dictSet d (.int q) [("p".toList, .int 0)] else d

/-- `errordata` after the completion, `decoderbase.py:349-380`. The dictionary of the caller is changed in the same way. -/
def completeErrors (tiny : ℚ) (nData : Nat) : Option ErrData → ErrData
  | none => [("pauli".toList, (List.range nData).map fun q : Nat => (QKey.int (q : Int), defaultPauli tiny))]
  | some errs =>
    match dictGet errs "pauli".toList with
    | none => dictSet errs "pauli".toList ((List.range nData).map fun q : Nat => (QKey.int (q : Int), defaultPauli tiny))
    | some d =>
      let errs := dictSet errs "pauli".toList ((List.range nData).foldl (completePauli tiny) d)
      match dictGet errs "erasure".toList with
      | none => errs
      | some d => dictSet errs "erasure".toList ((List.range nData).foldl completeErasure d)

/-- The error data of the caller after `from_code`: the dictionaries are changed in place, `decoderbase.py:349-373`. -/
def errorDataAfter (tiny : ℚ) (C : LatCode) (errs : Option ErrData) : Option ErrData :=
  errs.map fun e => completeErrors tiny C.lattice.dataqubits.length (some e)

/-- `DecoderInterface.from_code`, `decoderbase.py:298-387`: the syndrome graph and the decoders of its components. -/
def fromCode [LinearOrder W] (isInf : W → Bool) (negLog : ℚ → Option W) (tiny : ℚ) (b : Backend W σ) (C : LatCode)
    (errs : Option ErrData) (weighted : Option Bool) (weights : Option (Weights W)) : Except Err (SynGraph W × List σ) := do
  let g ← manager isInf negLog C (some (completeErrors tiny C.lattice.dataqubits.length errs)) weighted weights
  let states ← setupAll b g
  .ok (g, states)

end Plaquette
