import Verif.Spec.CssLattice

/-!
# Sequences of fabrication errors
-/

namespace Plaquette

/-- `L'` is made from `L` by any number of calls of `apply_fabrication_errors` with documented settings. -/
inductive Lattice.AfterErrors (L : Lattice) : Lattice → Prop
  | none : AfterErrors L L
  | errors {M M' : Lattice} {qubits : List VertexRef} {gates : List (VertexRef × VertexRef)} {stabs : List VertexRef}
      {kg : Option (List Char)} {bj : Option Bool} : AfterErrors L M → kg = Option.none ∨ (∃ g ∈ gaugeSettings, kg = some g) →
      M.applyFabrication qubits gates stabs kg bj = .ok M' → AfterErrors L M'

end Plaquette
