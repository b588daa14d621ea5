import Verif.Model.UnionFind

/-!
# Model of the switches of union find, `src/plaquette/decoders/unionfind_decoder.py`

`UnionFindNoWeights` has two class attributes for subclasses, `split_edges` and `choose_growth_increment_enabled`, both false in the
classes of the project, and the property `normalization_coefficient`. `Verif/Model/UnionFind.lean` is the code for the values which
the classes of the project have; here is the code for all values.

Simplifications:
* The halves of edge `i` have the numbers `2 * i` and `2 * i + 1` here, which is the order in which they are added to the vertices; in
  the code they have the numbers `i` and `m + i` (`m` edges). The only loop that goes through the halves in the order of the code is
  the outer one in `init_erasure_clusters`; the second half of an edge is complete there if and only if the first one is, and
  the search from the first half visits it, whichever of the orders is taken.
* As in `Verif/Model/UnionFind.lean`, growth values are rational numbers and `while open_clusters` gets a bound.
-/

namespace Plaquette

/-- Half `j` of the edges: the first half of edge `j / 2` for even `j`, the second half for odd `j`; the additional vertex of edge `i` is
`n + i`. `Graph.set_vertices_split_edges`, `unionfind_decoder.py:316-330`. -/
def halfEdge (n : Nat) (edges : List (List Nat)) (j : Nat) : List Nat :=
  match edges[j / 2]? with
  | some (a :: rest) => if j % 2 = 0 then [a, n + j / 2] else if rest.length = 1 then (n + j / 2) :: rest else [n + j / 2]
  | _ => []

/-- The edges of the graph with split edges, `unionfind_decoder.py:305-331`. -/
def splitEdges (n : Nat) (edges : List (List Nat)) : List (List Nat) := (List.range (2 * edges.length)).map (halfEdge n edges)

/-- `choose_growth_increment` of a cluster with the given boundary, `unionfind_decoder.py:632-642`, once both attributes are true. -/
def UGraph.chooseIncrement (g : UGraph) (s : UState) (B : List Nat) : Option ℚ :=
  (((B.flatMap g.edgesAt).filter fun i => !g.complete s i).map fun i => g.maxGrowth i - s.growth i).min?

/-- The body of the innermost loop of `step` with a growth increment, `unionfind_decoder.py:668-673`, and `Edge.grow`,
`unionfind_decoder.py:255-267`. -/
def UGraph.growEdgeBy (g : UGraph) (inc : Option ℚ) (t : GrowthState) (i : Nat) : GrowthState :=
  if g.complete t.s i then t
  else
    let s := { t.s with growth := Function.update t.s.growth i (t.s.growth i + inc.getD (g.increment i)) }
    { s := s, grown := t.grown + 1, new := if g.complete s i then t.new ++ [i] else t.new }

/-- The body of the loop of `step` over the open clusters, `unionfind_decoder.py:663-673`. `on` is
`choose_growth_increment_enabled and weighted`. -/
def UGraph.growCluster (g : UGraph) (on : Bool) (t : GrowthState) (B : List Nat) : GrowthState :=
  (B.flatMap g.edgesAt).foldl (g.growEdgeBy (if on then g.chooseIncrement t.s B else none)) t

/-- `step`, `unionfind_decoder.py:655-679`. -/
def UGraph.stepWith (g : UGraph) (on : Bool) (s : UState) : Except Err UState :=
  match s.refresh with
  | .error x => .error x
  | .ok s =>
    if s.openList = [] then .ok s
    else
      match s.openBoundaries s.openList with
      | .error x => .error x
      | .ok Bs =>
        let minSize := ((Bs.map List.length).min?).getD 0
        let t := (Bs.filter fun B => decide (B.length ≤ minSize)).foldl (g.growCluster on) { s := s, grown := 0, new := [] }
        if t.grown = 0 then .error .assertionError
        else if t.new = [] then .ok t.s
        else
          match loopE g.handleEdge t.s t.new with
          | .error x => .error x
          | .ok s => loopE g.updateAfterGrowth s (List.range s.nClusters)

/-- The `while` loop of `union_find`, `unionfind_decoder.py:649-650`. -/
def UGraph.runWith (g : UGraph) (on : Bool) : Nat → UState → Except Err UState
  | 0, s => if s.openList = [] then .ok s else .error .unmodelled
  | k + 1, s =>
    if s.openList = [] then .ok s
    else
      match g.stepWith on s with
      | .error x => .error x
      | .ok s => UGraph.runWith g on k s

/-- The state at the end of `union_find`, `unionfind_decoder.py:644-650`. With chosen increments every step completes an edge. -/
def UGraph.finalWith (g : UGraph) (on : Bool) (erasure : List Nat) (syn : List Bool) : Except Err UState :=
  match g.init erasure syn with
  | .error x => .error x
  | .ok s => g.runWith on (if on then g.edges.length + 1 else g.budget) s

/-- The halves of the erased edges, `Graph.init`, `unionfind_decoder.py:407-417`. An index beyond the edges of the code is an
`IndexError` there, and an index beyond the halves is one in `UGraph.eraseStep`. -/
def splitErasure (m : Nat) (erasure : List Nat) : List Nat := erasure.flatMap fun i => if i < m then [2 * i, 2 * i + 1] else [2 * m]

/-- `union_find` with split edges, `unionfind_decoder.py:388-392, 401-419, 644-653` and `Graph.get_complete_edges`,
`unionfind_decoder.py:344-351`; the additional vertices have no syndrome. `maxGrowth` and `increment` are numbered as in the code. -/
def splitUnionFind (on : Bool) (n : Nat) (edges : List (List Nat)) (maxGrowth increment : Nat → ℚ) (erasure : List Nat)
    (syn : List Bool) : Except Err (List Nat) :=
  let m := edges.length
  let code : Nat → Nat := fun j => if j % 2 = 0 then j / 2 else m + j / 2
  let g : UGraph := ⟨n + m, splitEdges n edges, fun j => maxGrowth (code j), fun j => increment (code j)⟩
  if syn.length = n then
    match g.finalWith on (splitErasure m erasure) (syn ++ List.replicate m false) with
    | .error x => .error x
    | .ok s => .ok ((List.range m).filter fun i => g.complete s (2 * i) && g.complete s (2 * i + 1))
  else .error .assertionError

/-- `union_find` without split edges, `unionfind_decoder.py:644-653`. -/
def plainUnionFind (on : Bool) (n : Nat) (edges : List (List Nat)) (maxGrowth increment : Nat → ℚ) (erasure : List Nat)
    (syn : List Bool) : Except Err (List Nat) :=
  let g : UGraph := ⟨n, edges, maxGrowth, increment⟩
  match g.finalWith on erasure syn with
  | .error x => .error x
  | .ok s => .ok ((List.range edges.length).filter (g.complete s))

/-- `UnionFindDecoder.__init__`, `set_weights` and `decode` for a class with the attributes `split_edges` and
`choose_growth_increment_enabled`, `unionfind_decoder.py:560-582, 597-615, 728-763`. The weights are as many as the edges of the graph of
union find, `unionfind_decoder.py:714`. -/
def switchedDecode (split choose support : Bool) (n : Nat) (edges : List (List Nat)) (c : ℚ) (weights : Option (List ℚ))
    (erasure : List Nat) (syn : List Bool) : Except Err (List Bool) :=
  match loopE (fun (_ : Unit) e => checkUEdge n e) () edges with
  | .error x => .error x
  | .ok () =>
    match ufWeights support (if split then 2 * edges.length else edges.length) c weights with
    | .error x => .error x
    | .ok p =>
      match (if split then splitUnionFind else plainUnionFind) (choose && weights.isSome) n edges p.1 p.2 erasure syn with
      | .error x => .error x
      | .ok sel => erasureDecode n edges sel (fun v => syn.getD v false)

/-- A value for `normalization_coefficient`: numbers, infinity, not a number, or anything else. -/
inductive CoefficientValue
  | num (x : ℚ) | inf | negInf | nan | other

/-- A coefficient as it is kept, `unionfind_decoder.py:577, 595`. -/
inductive Coefficient
  | num (x : ℚ) | inf | nan
  deriving DecidableEq

/-- The setter of `normalization_coefficient`, `unionfind_decoder.py:588-595`. -/
def setCoefficient : CoefficientValue → Except Err Coefficient
  | .num x => if x < 0 then .error .valueError else .ok (.num x)
  | .inf => .ok .inf
  | .negInf => .error .valueError
  | .nan => .ok .nan
  | .other => .error .typeError

end Plaquette
