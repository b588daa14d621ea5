import Verif.Spec.Codes

/-!
# Lattices of CSS codes with fabrication errors

The lattices in which every operator has a single letter, up to a change of basis of single qubits, and when a data qubit of them can be removed.
-/

namespace Plaquette

/-- The three documented ways to treat gauge operators, `latticebase.py:797-803`. -/
def gaugeSettings : List (List Char) := ["none".toList, "half".toList, "all".toList]

/-- Lattices of the planar, toric, rotated (also XZZX), repetition and Shor code after any number of fabrication errors, with
any of the documented treatments of gauge operators and of the boundary. -/
inductive Lattice.CssFabricated : Lattice → Prop
  | planar {size : Nat} {L : Lattice} : 2 ≤ size → planarLattice size crossOrder = .ok L → CssFabricated L
  | toric {size : Nat} {L : Lattice} : 2 ≤ size → toricLattice size crossOrder = .ok L → CssFabricated L
  | rotated {size : Nat} {xzzx : Bool} {L : Lattice} : 2 ≤ size → rotatedLattice size xzzx diagOrder = .ok L → CssFabricated L
  | repetition {size : Nat} {L : Lattice} : 3 ≤ size → repetitionLattice size = .ok L → CssFabricated L
  | shor {L : Lattice} : shorLattice = .ok L → CssFabricated L
  | errors {L L' : Lattice} {qubits : List VertexRef} {gates : List (VertexRef × VertexRef)} {stabs : List VertexRef}
      {kg : Option (List Char)} {bj : Option Bool} : CssFabricated L → kg = none ∨ (∃ g ∈ gaugeSettings, kg = some g) →
      L.applyFabrication qubits gates stabs kg bj = .ok L' → CssFabricated L'

/-- Every logical operator at `q` acts on `q` with the letter of a stabiliser at `q`: it can be moved away. -/
def Lattice.Movable (L : Lattice) (q : Pos) : Prop :=
  ∀ e ∈ L.edges, e.data = q → L.isStab e.op = false → ∃ s ∈ L.edges, s.data = q ∧ L.isStab s.op = true ∧ s.factor = e.factor

/-- A stabiliser acts on `q`. -/
def Lattice.Checked (L : Lattice) (q : Pos) : Prop := ∃ e ∈ L.edges, e.data = q ∧ L.isStab e.op = true

end Plaquette
