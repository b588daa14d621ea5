import Verif.Model.Codes
import Verif.Spec.Quantum

/-!
# Specification of stabiliser codes

Stated with matrices.
-/

namespace Plaquette
variable {n : Nat}

/-- A valid stabiliser code: the stabilisers commute with each other and with the logical operators; the logical operators
are listed in pairs (X, Z) of the logical qubits, the two operators of a pair anticommute and all others commute. -/
structure StabCode.Valid (c : StabCode n) : Prop where
  stab_stab : ∀ a ∈ c.stabilisers, ∀ b ∈ c.stabilisers, Commutes (opMat a) (opMat b)
  stab_log : ∀ a ∈ c.stabilisers, ∀ b ∈ c.logicalOps, Commutes (opMat a) (opMat b)
  log_log : ∀ (i j : Nat) (a b : Op n), c.logicalOps[i]? = some a → c.logicalOps[j]? = some b →
    if i / 2 = j / 2 ∧ i ≠ j then Anticommutes (opMat a) (opMat b) else Commutes (opMat a) (opMat b)

/-- The number of qubits on which an operator is not the identity. -/
def Op.weight (a : Op n) : Nat := (List.finRange n).countP fun q => a.x q || a.z q

/-- An error that no stabiliser detects but that changes the logical qubits: it commutes with all stabilisers and
anticommutes with some logical operator. -/
structure StabCode.IsLogical (c : StabCode n) (e : Op n) : Prop where
  unseen : ∀ a ∈ c.stabilisers, Commutes (opMat a) (opMat e)
  acts : ∃ a ∈ c.logicalOps, Anticommutes (opMat a) (opMat e)

/-- The distance of a code: the smallest weight of an undetected error that changes the logical qubits. -/
structure StabCode.HasDistance (c : StabCode n) (d : Nat) : Prop where
  attained : ∃ e, c.IsLogical e ∧ e.weight = d
  least : ∀ e, c.IsLogical e → d ≤ e.weight

/-- The schedule of a lattice has no conflicts: every edge of a stabiliser has exactly one time step, and two edges of the
same time step have neither a stabiliser (ancilla) nor a data qubit in common. -/
structure Lattice.ConflictFree (L : Lattice) : Prop where
  steps : ∃ T, L.timeSteps = some T ∧ ∀ e ∈ L.edges, L.isStab e.op = true → ∃ k, e.step = some k ∧ k < T
  once : (L.edges.map fun e => (e.op, e.data)).Nodup
  apart : ∀ a ∈ L.edges, ∀ b ∈ L.edges, L.isStab a.op = true → L.isStab b.op = true → a.step = b.step →
    a.op = b.op ∨ a.data = b.data → a = b

/-- Of two stabilisers, the same one acts first on all data qubits where they have different letters. -/
def Lattice.SameOrder (L : Lattice) : Prop :=
  ∀ a ∈ L.edges, ∀ b ∈ L.edges, ∀ a' ∈ L.edges, ∀ b' ∈ L.edges,
    L.isStab a.op = true → L.isStab b.op = true → a'.op = a.op → b'.op = b.op →
    a.data = b.data → a'.data = b'.data → a.factor ≠ b.factor → a'.factor ≠ b'.factor →
    ∀ i j k l, a.step = some i → b.step = some j → a'.step = some k → b'.step = some l → (i < j ↔ k < l)

/-- The lattices that are made by the constructors, and by applying fabrication errors with the default handling
(`keep_gauge = "none"`, `boundary_join = False`) any number of times. -/
inductive Lattice.Fabricated : Lattice → Prop
  | planar {size : Nat} {L : Lattice} : 2 ≤ size → planarLattice size crossOrder = .ok L → Fabricated L
  | toric {size : Nat} {L : Lattice} : 2 ≤ size → toricLattice size crossOrder = .ok L → Fabricated L
  | rotated {size : Nat} {xzzx : Bool} {L : Lattice} : 2 ≤ size → rotatedLattice size xzzx diagOrder = .ok L → Fabricated L
  | repetition {size : Nat} {L : Lattice} : 3 ≤ size → repetitionLattice size = .ok L → Fabricated L
  | five {L : Lattice} : fiveQubitLattice = .ok L → Fabricated L
  | shor {L : Lattice} : shorLattice = .ok L → Fabricated L
  | errors {L L' : Lattice} {qubits : List VertexRef} {gates : List (VertexRef × VertexRef)} {stabs : List VertexRef}
      {kg : Option (List Char)} {bj : Option Bool} : Fabricated L → kg = none ∨ kg = some "none".toList →
      bj = none ∨ bj = some false → L.applyFabrication qubits gates stabs kg bj = .ok L' → Fabricated L'

end Plaquette
