import Verif.Model.Matching
import Verif.Props.Erasure
import Verif.Props.Decoder
import Mathlib.Data.Set.Card
import Mathlib.Algebra.Ring.Parity
import Mathlib.Algebra.BigOperators.Group.Finset.Basic

/-!
# What is assumed of the libraries PyMatching and Fusion Blossom

Both find, in a graph with weights that are not negative, a set of edges that ends at the vertices of the syndrome (and at any of the boundary
vertices) whose total weight is minimal. (PyMatching rounds large weights to multiples of a small fraction of the largest; this is not taken
into account.)
-/

namespace Plaquette

/-! ## PyMatching -/

/-- The graphs of which something is assumed: no two edges between the same nodes, boundary nodes after the `n` others, and weights that are not
negative. -/
structure PmGraph.Wf (n : Nat) (G : PmGraph) : Prop where
  ends : ∀ e ∈ G.edges, e.u < n ∧ e.u ≠ e.v ∧ (e.v < n ∨ e.v ∈ G.boundary)
  boundary : ∀ b ∈ G.boundary, n ≤ b
  nonneg : ∀ e ∈ G.edges, 0 ≤ e.weight
  simple : G.edges.Pairwise fun e f => ¬ (e.u = f.u ∧ e.v = f.v) ∧ ¬ (e.u = f.v ∧ e.v = f.u)

/-- An odd number of the chosen edges ends at the nodes with a syndrome, and at no others that are not boundary nodes. -/
def PmGraph.Matches (n : Nat) (G : PmGraph) (syn : List Bool) (x : Nat → Bool) : Prop :=
  ∀ v < n, (Odd (Set.ncard {i : Nat | x i = true ∧ ∃ e, G.edges[i]? = some e ∧ (e.u = v ∨ e.v = v)}) ↔ syn[v]? = some true)

/-- The total weight of the chosen edges. -/
def PmGraph.cost (G : PmGraph) (x : Nat → Bool) : ℚ :=
  ∑ i ∈ Finset.range G.edges.length, if x i = true then ((G.edges[i]?).map MEdge.weight).getD 0 else 0

/-- `num_fault_ids`: one more than the largest. -/
def PmGraph.numFaults (G : PmGraph) : Nat := (G.edges.map fun e => e.fault + 1).foldl max 0

/-- `Matching.decode` returns for each fault whether an odd number of edges with this number is in a matching of minimal weight, and it
returns something if there is a matching at all. -/
def IsPyMatching (solve : PmGraph → List Bool → Except Err (List Bool)) : Prop :=
  ∀ (n : Nat) (G : PmGraph) (syn : List Bool), G.Wf n → syn.length = n →
    (∀ res, solve G syn = .ok res → ∃ x, G.Matches n syn x ∧ (∀ y, G.Matches n syn y → G.cost x ≤ G.cost y) ∧ res.length = G.numFaults ∧
      ∀ f < G.numFaults, (res[f]? = some true ↔ Odd (Set.ncard {i : Nat | x i = true ∧ ∃ e, G.edges[i]? = some e ∧ e.fault = f}))) ∧
    ((∃ y, G.Matches n syn y) → ∃ res, solve G syn = .ok res)

/-! ## Fusion Blossom -/

/-- The graphs of which something is assumed: no two edges between the same vertices, and even weights that are not negative. -/
structure FbGraph.Wf (G : FbGraph) : Prop where
  ends : ∀ e ∈ G.edges, e.1 < G.n ∧ e.2.1 < G.n ∧ e.1 ≠ e.2.1
  virt : ∀ v ∈ G.virt, v < G.n
  weight : ∀ e ∈ G.edges, 0 ≤ e.2.2 ∧ Even e.2.2
  simple : G.edges.Pairwise fun e f => ¬ (e.1 = f.1 ∧ e.2.1 = f.2.1) ∧ ¬ (e.1 = f.2.1 ∧ e.2.1 = f.1)

/-- An odd number of the chosen edges ends at the vertices with a syndrome, and at no others that are not virtual. -/
def FbGraph.Matches (G : FbGraph) (syn : List Nat) (x : Nat → Bool) : Prop :=
  ∀ v < G.n, v ∉ G.virt → (Odd (Set.ncard {i : Nat | x i = true ∧ ∃ e, G.edges[i]? = some e ∧ (e.1 = v ∨ e.2.1 = v)}) ↔ v ∈ syn)

/-- The total weight of the chosen edges; erased edges have no weight. -/
def FbGraph.cost (G : FbGraph) (er : List Nat) (x : Nat → Bool) : Int :=
  ∑ i ∈ Finset.range G.edges.length, if x i = true ∧ i ∉ er then ((G.edges[i]?).map fun e => e.2.2).getD 0 else 0

/-- `solve` and `subgraph(None)` give the edges of a matching of minimal weight, and do so if there is a matching at all. -/
def IsFusionBlossom (solve : FbGraph → List Nat → List Nat → Except Err (List Nat)) : Prop :=
  ∀ (G : FbGraph) (syn er : List Nat), G.Wf → (∀ v ∈ syn, v < G.n ∧ v ∉ G.virt) → (∀ i ∈ er, i < G.edges.length) →
    (∀ sel, solve G syn er = .ok sel → G.Matches syn (fun i => decide (i ∈ sel)) ∧
      ∀ y, G.Matches syn y → G.cost er (fun i => decide (i ∈ sel)) ≤ G.cost er y) ∧
    ((∃ y, G.Matches syn y) → ∃ sel, solve G syn er = .ok sel)

/-! ## What the decoders are for -/

/-- The total weight of the chosen edges. -/
def totalWeight (w : Nat → ℚ) (x : List Bool) : ℚ := ∑ i ∈ Finset.range x.length, if x[i]? = some true then w i else 0

/-- The chosen edges explain the syndrome, and no others that do have a smaller total weight. -/
def IsLightest (n : Nat) (edges : List (List Nat)) (w : Nat → ℚ) (corr syn : List Bool) : Prop :=
  Explains n edges corr syn ∧ ∀ y, Explains n edges y syn → totalWeight w corr ≤ totalWeight w y

/-- The weight of an edge in the graphs: 1 if there are no weights. -/
def FW.weight (x : Option FW) : ℚ := (x.bind FW.rat).getD 1

/-- The weights with which the decoders can be set up: none, or all, and then finite and not negative. -/
def SaneWeights (ws : List (Option FW)) : Prop :=
  (∀ x ∈ ws, x = none) ∨ ∀ x ∈ ws, ∃ q : ℚ, 0 ≤ q ∧ x = some ((q : WithTop ℚ) : FW)

/-- The chosen edges are enabled (and end somewhere) and explain the syndrome: an odd number of them ends at vertex `[t, s]` exactly if the bit is set. -/
def EdgesExplain {W : Type} (g : SynGraph W) (r m : Nat) (sel : Finset Nat) (syn : Option (List (List Bool))) : Prop :=
  (∀ i ∈ sel, ∃ e, g.edges[i]? = some e ∧ e.enabled = true ∧ e.vertices ≠ []) ∧ ∀ t < r, ∀ s < m,
    (Odd (Set.ncard {i | i ∈ sel ∧ ∃ e : SEdge W, g.edges[i]? = some e ∧ t * m + s ∈ e.vertices}) ↔ SynBit syn t s)

/-- The operator is the product of the errors of the chosen edges (up to its sign). -/
def EdgesProduct {W : Type} {n : Nat} (g : SynGraph W) (sel : Finset Nat) (p : Op n) : Prop :=
  ∀ q : Fin n, (p.x q = true ↔ Odd (Set.ncard {i | i ∈ sel ∧ ∃ (e : SEdge W) (t o : Nat), g.edges[i]? = some e ∧ e.kind = .qubit t o q true})) ∧
    (p.z q = true ↔ Odd (Set.ncard {i | i ∈ sel ∧ ∃ (e : SEdge W) (t o : Nat), g.edges[i]? = some e ∧ e.kind = .qubit t o q false}))

/-- The weight of an edge of the syndrome graph; 1 if it has none. -/
def edgeWeight (g : SynGraph FW) (i : Nat) : ℚ := FW.weight ((g.edges[i]?).bind SEdge.weight)

end Plaquette
