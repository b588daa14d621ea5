import Verif.Model.Stim
import Mathlib.Data.Real.Basic
import Mathlib.Algebra.BigOperators.Group.List.Basic

/-!
# Specification for the Stim backend
-/

namespace Plaquette

/-- The probability that alternative `i` of a chain of correlated errors happens (Stim's definition: an `ELSE_` alternative
is tried only if none of the alternatives before happened). -/
noncomputable def chainProb : List ℝ → Nat → ℝ
  | [], _ => 0
  | q :: _, 0 => q
  | q :: qs, i + 1 => (1 - q) * chainProb qs i

/-- The probability that no alternative of the chain happens. -/
noncomputable def chainNone : List ℝ → ℝ
  | [] => 1
  | q :: qs => (1 - q) * chainNone qs

/-- How many entries of the measurement record belong to an instruction of the original circuit. -/
def recordLen {F : Type} (g : Gate F) : Nat :=
  match g.name with
  | .M => g.args.length
  | .E_ERASE => 1
  | _ => 0

/-- The measurement record `rec` of a circuit cut into the parts of the instructions. -/
inductive RecordOf {F : Type} : List (Gate F) → List (List Bool) → Prop
  | nil : RecordOf [] []
  | cons {g : Gate F} {gs : List (Gate F)} {p : List Bool} {ps : List (List Bool)} (h : p.length = recordLen g)
      (hs : RecordOf gs ps) : RecordOf (g :: gs) (p :: ps)

/-- The parts that belong to instructions with the given name, one after the other. -/
def partsOf {F : Type} (name : Name) : List (Gate F) → List (List Bool) → List Bool
  | g :: gs, p :: ps => (if g.name = name then p else []) ++ partsOf name gs ps
  | _, _ => []

/-- Number of entries that a Stim instruction adds to Stim's measurement record. -/
def SInstr.records {F : Type} (i : SInstr F) : Nat := if i.name = "M".toList then i.targets.length else 0

/-- The qubits of a Stim instruction. -/
def SInstr.qubits {F : Type} (i : SInstr F) : List Int :=
  i.targets.map fun
    | .qubit q => q
    | .x q => q
    | .y q => q
    | .z q => q

end Plaquette
