import Verif.Model.Decoder

/-!
# Model of the statistics of a syndrome graph
-/

namespace Plaquette
variable {W : Type}

/-- The dictionary returned by `get_statistics`. -/
structure GraphStats where
  nVertices : Nat
  nEdges : Nat
  n2Edges : Nat
  n1Edges : Nat
  n0Edges : Nat
  nEdgesQubit : Nat
  nEdgesStab : Nat
  nEdgesDisabled : Nat
  nVerticesInComp : List Nat
  nEdgesInComp : List Nat
  nComp : Nat
  nCompNontrivial : Nat
  nCompTrivial : Int
  deriving DecidableEq, Repr

/-- `isinstance(edge, QubitErrorEdge)` -/
def SEdge.isQubit (e : SEdge W) : Bool := match e.kind with
  | .qubit .. => true
  | .stab .. => false

/-- `get_statistics`, `syngraph/__init__.py:1012-1034`. -/
def SynGraph.statistics (g : SynGraph W) : GraphStats where
  nVertices := g.nRounds * g.nStab
  nEdges := g.edges.length
  n2Edges := g.edges.countP fun e => e.vertices.length == 2
  n1Edges := g.edges.countP fun e => e.vertices.length == 1
  n0Edges := g.edges.countP fun e => e.vertices.length == 0
  nEdgesQubit := g.edges.countP fun e => e.isQubit
  nEdgesStab := g.edges.countP fun e => !e.isQubit
  nEdgesDisabled := g.edges.countP fun e => !e.enabled
  nVerticesInComp := g.withEdges.map Component.nVertices
  nEdgesInComp := g.withEdges.map fun c => c.edges.length
  nComp := g.components.length
  nCompNontrivial := g.withEdges.length
  nCompTrivial := (g.components.length : Int) - g.withEdges.length

/-- The loop of `combine_decoding_results`, `syngraph/__init__.py:968-971`: the entries of the component are written in the array. -/
def combineStep (out : List Bool) (c : Component W × List Bool) : Except Err (List Bool) :=
  if c.2.length ≠ c.1.edgeIdx.length then .error .assertionError
  else loopE (fun out (p : Nat × Bool) => if p.1 < out.length then .ok (out.set p.1 p.2) else .error .indexError) out (c.1.edgeIdx.zip c.2)

/-- `combine_decoding_results`, `syngraph/__init__.py:954-972`, for boolean arrays. -/
def SynGraph.combine (g : SynGraph W) (results : List (List Bool)) : Except Err (List Bool) :=
  if results.length ≠ g.withEdges.length then .error .assertionError
  else loopE combineStep (List.replicate g.edges.length false) (g.withEdges.zip results)

end Plaquette
