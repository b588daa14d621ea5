import Verif.Spec.Distribution
import Verif.Model.Stim

/-!
# Specification of the meaning of Stim circuits

The instructions of Stim that the translation may emit, as Stim documents them: unitaries, measurements, resets, Pauli channels, and chains of correlated errors, whose members are
linked by a flag (whether an error of the chain has happened). An instruction that Stim does not know, or that is used with wrong targets or parameters, has no meaning. Nothing here
refers to the translation; from the model only the syntax of an instruction (`SInstr`, `STarget`) is used.
-/

open Matrix
open scoped ENNReal

namespace Plaquette
variable {N : Nat}

/-- One possibility: a weight, an operator, what is added to the measurement record, and whether an error of the current chain of correlated errors has happened. -/
structure SBranch (N : Nat) where
  weight : ℝ≥0∞
  op : Mat N
  recd : List Bool
  hit : Bool

/-- The possibilities, for each value of the flag before. -/
abbrev SInstrument (N : Nat) := Bool → List (SBranch N)

/-- Nothing happens. -/
def SInstrument.nothing : SInstrument N := fun h => [⟨1, 1, [], h⟩]

/-- One after the other. -/
noncomputable def SInstrument.andThen (I J : SInstrument N) : SInstrument N := fun h =>
  (I h).flatMap fun a => (J a.hit).map fun b => ⟨a.weight * b.weight, b.op * a.op, a.recd ++ b.recd, b.hit⟩

/-- An instrument that does not touch the flag; it records only measurement results. -/
def SInstrument.keep (I : Instrument N) : SInstrument N := fun h => I.map fun b => ⟨b.weight, b.op, b.meas, h⟩

/-- The qubit with index `i`, if there is one. -/
def qubitNo (N : Nat) (i : Int) : Option (Fin N) := if h : i.toNat < N ∧ 0 ≤ i then some ⟨i.toNat, h.1⟩ else none

/-- A target that is a plain qubit. -/
def STarget.plain (N : Nat) : STarget → Option (Fin N)
  | .qubit i => qubitNo N i
  | _ => none

/-- A target that is a Pauli factor. -/
noncomputable def STarget.factor (N : Nat) : STarget → Option (Mat N)
  | .qubit _ => none
  | .x i => (qubitNo N i).map fun q => pauliNo q 1
  | .y i => (qubitNo N i).map fun q => pauliNo q 2
  | .z i => (qubitNo N i).map fun q => pauliNo q 3

/-- The product of the Pauli factors. -/
noncomputable def factors (N : Nat) : List STarget → Option (Mat N)
  | [] => some 1
  | t :: ts =>
    match t.factor N, factors N ts with
    | some A, some B => some (B * A)
    | _, _ => none

/-- Plain qubits. -/
def plains (N : Nat) : List STarget → Option (List (Fin N))
  | [] => some []
  | t :: ts =>
    match t.plain N, plains N ts with
    | some q, some qs => some (q :: qs)
    | _, _ => none

/-- Pairs of different plain qubits. -/
def plainPairs (N : Nat) : List STarget → Option (List (Fin N × Fin N))
  | [] => some []
  | [_] => none
  | s :: t :: ts =>
    match s.plain N, t.plain N, plainPairs N ts with
    | some p, some q, some ps => if p = q then none else some ((p, q) :: ps)
    | _, _, _ => none

/-- The parameters of a distribution. -/
def IsDist (ps : List ℝ) : Prop := (∀ p ∈ ps, 0 ≤ p) ∧ ps.sum ≤ 1

/-- An error that happens with probability `p`. -/
noncomputable def Instrument.maybe (p : ℝ) (A : Mat N) : Instrument N := [⟨.ofReal p, A, [], []⟩, ⟨.ofReal (1 - p), 1, [], []⟩]

/-- A correlated error: a new chain begins. -/
noncomputable def SInstrument.correlated (p : ℝ) (A : Mat N) : SInstrument N := fun _ => [⟨.ofReal p, A, [], true⟩, ⟨.ofReal (1 - p), 1, [], false⟩]

/-- A further correlated error of a chain: nothing happens if an error of the chain has happened. -/
noncomputable def SInstrument.elseCorrelated (p : ℝ) (A : Mat N) : SInstrument N
  | true => [⟨1, 1, [], true⟩]
  | false => [⟨.ofReal p, A, [], true⟩, ⟨.ofReal (1 - p), 1, [], false⟩]

open Classical in
/-- `f` of the value, if the condition holds. -/
noncomputable def given (c : Prop) {α β : Type} (o : Option α) (f : α → β) : Option β := if c then o.map f else none

/-- The meaning of an instruction on `N` qubits. -/
noncomputable def SInstr.meaning (N : Nat) (i : SInstr ℝ) : Option (SInstrument N) :=
  if i.name = "X".toList then given (i.params = []) (plains N i.targets) fun qs => .keep (.inOrder (qs.map fun q => .gate (.x q)))
  else if i.name = "Y".toList then given (i.params = []) (plains N i.targets) fun qs => .keep (.inOrder (qs.map fun q => .gate (.y q)))
  else if i.name = "Z".toList then given (i.params = []) (plains N i.targets) fun qs => .keep (.inOrder (qs.map fun q => .gate (.z q)))
  else if i.name = "H".toList then given (i.params = []) (plains N i.targets) fun qs => .keep (.inOrder (qs.map fun q => .gate (.h q)))
  else if i.name = "CX".toList then given (i.params = []) (plainPairs N i.targets) fun ps => .keep (.inOrder (ps.map fun p => .gate (.cx p.1 p.2)))
  else if i.name = "CZ".toList then given (i.params = []) (plainPairs N i.targets) fun ps => .keep (.inOrder (ps.map fun p => .gate (.cz p.1 p.2)))
  else if i.name = "M".toList then given (i.params = []) (plains N i.targets) fun qs => .keep (.inOrder (qs.map .measure))
  else if i.name = "R".toList then given (i.params = []) (plains N i.targets) fun qs => .keep (.inOrder (qs.map .reset))
  else if i.name = "X_ERROR".toList then given (i.params.length = 1 ∧ IsDist i.params) (plains N i.targets) fun qs =>
    .keep (.inOrder (qs.map fun q => .maybe (i.params.headD 0) (pauliNo q 1)))
  else if i.name = "Y_ERROR".toList then given (i.params.length = 1 ∧ IsDist i.params) (plains N i.targets) fun qs =>
    .keep (.inOrder (qs.map fun q => .maybe (i.params.headD 0) (pauliNo q 2)))
  else if i.name = "Z_ERROR".toList then given (i.params.length = 1 ∧ IsDist i.params) (plains N i.targets) fun qs =>
    .keep (.inOrder (qs.map fun q => .maybe (i.params.headD 0) (pauliNo q 3)))
  else if i.name = "PAULI_CHANNEL_1".toList then given (i.params.length = 3 ∧ IsDist i.params) (plains N i.targets) fun qs =>
    .keep (.inOrder (qs.map fun q => .pauli (i.params.map .ofReal) q))
  else if i.name = "PAULI_CHANNEL_2".toList then given (i.params.length = 15 ∧ IsDist i.params) (plainPairs N i.targets) fun ps =>
    .keep (.inOrder (ps.map fun p => .pauli2 (i.params.map .ofReal) p.1 p.2))
  else if i.name = "CORRELATED_ERROR".toList then given (i.params.length = 1 ∧ IsDist i.params) (factors N i.targets) fun A => .correlated (i.params.headD 0) A
  else if i.name = "ELSE_CORRELATED_ERROR".toList then given (i.params.length = 1 ∧ IsDist i.params) (factors N i.targets) fun A =>
    .elseCorrelated (i.params.headD 0) A
  else none

/-- The meaning of a Stim circuit. -/
noncomputable def stimMeaning (N : Nat) : List (SInstr ℝ) → Option (SInstrument N)
  | [] => some .nothing
  | i :: is =>
    match i.meaning N, stimMeaning N is with
    | some I, some J => some (I.andThen J)
    | _, _ => none

/-- Born's rule: the probability of a measurement record. No chain of correlated errors is open at the beginning. -/
noncomputable def SInstrument.born (J : SInstrument N) (ρ : Mat N) (r : List Bool) : ℝ≥0∞ :=
  ((J false).map fun b => if b.recd = r then b.weight * ENNReal.ofReal (b.op * ρ * b.opᴴ).trace.re else 0).sum

end Plaquette
