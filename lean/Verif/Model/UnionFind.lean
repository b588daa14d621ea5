import Verif.Model.Erasure
import Mathlib.Algebra.Order.Floor.Defs
import Mathlib.Data.Rat.Floor

/-!
# Model of union find, `src/plaquette/decoders/unionfind_decoder.py`

Vertices, edges and clusters are objects with references to each other in the code; here they are numbers (`idx` in the code) and
what belongs to an object is a function of its number.

Simplifications:
* Growth values are rational numbers, not floating-point numbers.  An infinite increment (weight zero) is not a rational
  number; see `ufIncrement`.
* `split_edges` and `choose_growth_increment_enabled` are false in every class of the project; the branches for `True` are
  in `Verif/Model/UnionFindSwitches.lean`.
* Recursion and loops without a bound get one. `findRoot` goes up at most as many steps as there are vertices, the search in
  `init_erasure_clusters` takes as many steps as there are vertices, and `while open_clusters` is run as often as the edges can be
  grown altogether; beyond that the model gives `unmodelled`. The theorems show that this does not happen.
-/

namespace Plaquette

/-- `VertexState`, `unionfind_decoder.py:66-77`. -/
inductive UVState
  | unused | boundary | interior
  deriving DecidableEq, Repr

/-- `Cluster`, `unionfind_decoder.py:455-475`. The boundary `none` marks a deleted cluster. -/
structure UCluster where
  root : Option Nat
  boundary : Option (List Nat)
  nVertices : Nat
  parity : Int
  opened : Bool
  deriving DecidableEq

/-- A graph with the parameters of its edges: `Graph`, `Edge`, `unionfind_decoder.py:212-331`. -/
structure UGraph where
  n : Nat
  edges : List (List Nat)
  maxGrowth : Nat → ℚ
  increment : Nat → ℚ

/-- What changes during a run: `Graph`, `Vertex`, `Edge`, `Cluster`, `unionfind_decoder.py:80-120, 212-230, 270-297, 455-475`. -/
structure UState where
  growth : Nat → ℚ
  syn : Nat → Bool
  state : Nat → UVState
  parent : Nat → Option Nat
  cluster : Nat → Option Nat
  nClusters : Nat
  clusters : Nat → UCluster
  openList : List Nat

/-- `Edge.is_complete`, `unionfind_decoder.py:246-248`. -/
def UGraph.complete (g : UGraph) (s : UState) (i : Nat) : Bool := decide (g.maxGrowth i ≤ s.growth i)

/-- The other end of an edge at a vertex (`some none` for a dangling edge), `none` if the edge does not end there:
`Vertex.add_edge`, `unionfind_decoder.py:134-146`. -/
def otherEnd (v : Nat) : List Nat → Option (Option Nat)
  | [a] => if a = v then some none else none
  | [a, b] => if a = v then some (some b) else if b = v then some (some a) else none
  | _ => none

/-- `Vertex.neigh_edges_vertices`: the edges of a vertex, in the order in which they were added, with their other ends,
`unionfind_decoder.py:129-131, 222-230, 302-303`. -/
def UGraph.nbrs (g : UGraph) (v : Nat) : List (Nat × Option Nat) :=
  (List.range g.edges.length).filterMap fun i => ((g.edges[i]?).bind (otherEnd v)).map fun o => (i, o)

/-- `Vertex.neigh_edges`, `unionfind_decoder.py:126-128`. -/
def UGraph.edgesAt (g : UGraph) (v : Nat) : List Nat := (g.nbrs v).map Prod.fst

/-- `Vertex.all_edges_complete`, `unionfind_decoder.py:152-154`. -/
def UGraph.allComplete (g : UGraph) (s : UState) (v : Nat) : Bool := (g.edgesAt v).all (g.complete s)

/-- Replace a cluster. -/
def UState.setCluster (s : UState) (c : Nat) (d : UCluster) : UState := { s with clusters := Function.update s.clusters c d }

/-- `Vertex.find_root`, `unionfind_decoder.py:168-179`. -/
def UState.findRoot : Nat → UState → Nat → Except Err (UState × Nat)
  | 0, _, _ => .error .unmodelled
  | k + 1, s, v =>
    match s.parent v with
    | none => if s.cluster v = none then .error .assertionError else .ok (s, v)
    | some p =>
      match UState.findRoot k s p with
      | .error x => .error x
      | .ok (s, r) => .ok ({ s with parent := Function.update s.parent v (some r) }, r)

/-- `Vertex.r_cluster`, `unionfind_decoder.py:180-185`. -/
def UGraph.rCluster (g : UGraph) (s : UState) (v : Nat) : Except Err (UState × Nat) :=
  match UState.findRoot g.n s v with
  | .error x => .error x
  | .ok (s, r) =>
    match s.cluster r with
    | none => .error .assertionError
    | some c => .ok (s, c)

/-- `Vertex.set_parent`, `unionfind_decoder.py:187-193`. -/
def UState.setParent (s : UState) (v root : Nat) : Except Err UState :=
  if (s.cluster v = none) = (s.parent v = none) then .error .assertionError
  else .ok { s with cluster := Function.update s.cluster v none, parent := Function.update s.parent v (some root) }

/-- `Vertex.to_boundary` with a cluster, `unionfind_decoder.py:195-203`. -/
def UState.toBoundaryRoot (s : UState) (v c : Nat) : Except Err UState :=
  if s.state v = .unused then
    .ok { s with cluster := Function.update s.cluster v (some c), state := Function.update s.state v .boundary }
  else .error .assertionError

/-- `Vertex.to_boundary` with a vertex, `unionfind_decoder.py:195-203`. -/
def UState.toBoundaryChild (s : UState) (v r : Nat) : Except Err UState :=
  if s.state v = .unused then
    .ok { s with parent := Function.update s.parent v (some r), state := Function.update s.state v .boundary }
  else .error .assertionError

/-- `Vertex.to_interior`, `unionfind_decoder.py:205-208`. -/
def UState.toInterior (s : UState) (v : Nat) : Except Err UState :=
  if s.state v = .boundary then .ok { s with state := Function.update s.state v .interior } else .error .assertionError

/-- `Graph.add_cluster`, `unionfind_decoder.py:394-399`, and `Cluster.__init__`. The new cluster has the number `s.nClusters`. -/
def UState.addCluster (s : UState) : UState :=
  { s with
    nClusters := s.nClusters + 1
    clusters := Function.update s.clusters s.nClusters
      { root := none, boundary := some [], nVertices := 0, parity := 0, opened := true }
    openList := s.openList ++ [s.nClusters] }

/-- `Cluster.add_dangling_edge`, `unionfind_decoder.py:499-501`. -/
def UState.addDangling (s : UState) (c : Nat) : UState := s.setCluster c { s.clusters c with parity := -1 }

/-- The new parity in `Cluster.add_vertex`, `unionfind_decoder.py:535-536`. -/
def parityWith (p : Int) (b : Bool) : Int := if 0 ≤ p then (p + b.toNat) % 2 else p

/-- The new parity in `Cluster.merge_with`, `unionfind_decoder.py:515-518`. -/
def parityMerge (p q : Int) : Int := if p = -1 ∨ q = -1 then -1 else (p + q) % 2

/-- `Cluster.add_vertex`, `unionfind_decoder.py:532-545`. -/
def UState.addVertex (s : UState) (c v : Nat) : Except Err UState :=
  match (s.clusters c).boundary with
  | none => .error .assertionError
  | some [] =>
    match s.toBoundaryRoot v c with
    | .error x => .error x
    | .ok s => .ok (s.setCluster c { s.clusters c with
        root := some v, boundary := some [v], nVertices := (s.clusters c).nVertices + 1
        parity := parityWith (s.clusters c).parity (s.syn v) })
  | some (b :: B) =>
    match (s.clusters c).root with
    | none => .error .assertionError
    | some r =>
      match s.toBoundaryChild v r with
      | .error x => .error x
      | .ok s => .ok (s.setCluster c { s.clusters c with
          boundary := some (b :: B ++ [v]), nVertices := (s.clusters c).nVertices + 1
          parity := parityWith (s.clusters c).parity (s.syn v) })

/-- `Cluster.reopen` and `Graph.reopen_cluster`, `unionfind_decoder.py:368-377, 485-493`. -/
def UState.reopen (s : UState) (c : Nat) : Except Err UState :=
  if (s.clusters c).opened then .error .assertionError
  else .ok { s.setCluster c { s.clusters c with opened := true } with openList := s.openList ++ [c] }

/-- The part of `Cluster.merge_with` which merges the cluster `b` into `a`, `unionfind_decoder.py:513-528`, with
`Cluster.delete`, `unionfind_decoder.py:492-497`. -/
def UState.mergeInto (s : UState) (a b : Nat) (A B : List Nat) : Except Err UState :=
  match (s.clusters a).root, (s.clusters b).root with
  | some ra, some rb =>
    match s.setParent rb ra with
    | .error x => .error x
    | .ok s =>
      let s := s.setCluster a { s.clusters a with
        boundary := some (A ++ B), nVertices := (s.clusters a).nVertices + (s.clusters b).nVertices
        parity := parityMerge (s.clusters a).parity (s.clusters b).parity }
      let s := s.setCluster b { s.clusters b with root := none, boundary := none, nVertices := 0, parity := 0 }
      if (s.clusters a).opened = false ∧ (s.clusters a).parity = 1 then s.reopen a else .ok s
  | _, _ => .error .assertionError

/-- `Cluster.merge_with`, `unionfind_decoder.py:503-530`. -/
def UState.merge (s : UState) (a b : Nat) : Except Err UState :=
  if a = b then .ok s
  else
    match (s.clusters a).boundary, (s.clusters b).boundary with
    | some A, some B => if A.length < B.length then s.mergeInto b a B A else s.mergeInto a b A B
    | _, _ => .error .assertionError

/-- The body of the loop of `Cluster.update_after_growth`, `unionfind_decoder.py:550-555`. -/
def UGraph.updateVertex (g : UGraph) (t : UState × List Nat) (v : Nat) : Except Err (UState × List Nat) :=
  if g.allComplete t.1 v then
    match t.1.toInterior v with
    | .error x => .error x
    | .ok s => .ok (s, t.2)
  else .ok (t.1, t.2 ++ [v])

/-- `Cluster.update_after_growth`, `unionfind_decoder.py:547-557`. -/
def UGraph.updateAfterGrowth (g : UGraph) (s : UState) (c : Nat) : Except Err UState :=
  match (s.clusters c).boundary with
  | none => .ok s
  | some B =>
    match loopE g.updateVertex (s, []) B with
    | .error x => .error x
    | .ok (s, B) => .ok (s.setCluster c { s.clusters c with boundary := some B })

/-- The body of the loop of `Graph.refresh_open_clusters`, `unionfind_decoder.py:359-363`, with `Cluster.close`. -/
def UState.refreshStep (t : UState × List Nat) (c : Nat) : Except Err (UState × List Nat) :=
  if (t.1.clusters c).parity = 1 then .ok (t.1, t.2 ++ [c])
  else if (t.1.clusters c).opened then .ok (t.1.setCluster c { t.1.clusters c with opened := false }, t.2)
  else .error .assertionError

/-- `Graph.refresh_open_clusters`, `unionfind_decoder.py:354-366`. -/
def UState.refresh (s : UState) : Except Err UState :=
  match loopE UState.refreshStep (s, []) s.openList with
  | .error x => .error x
  | .ok (s, L) => .ok { s with openList := L }

/-- `Graph.reset`, `unionfind_decoder.py:379-386`, and `Graph.set_syndrome`. -/
def UState.fresh (syn : Nat → Bool) : UState :=
  { growth := fun _ => 0, syn := syn, state := fun _ => .unused, parent := fun _ => none, cluster := fun _ => none
    nClusters := 0, clusters := fun _ => { root := none, boundary := none, nVertices := 0, parity := 0, opened := false }
    openList := [] }

/-- Mark an erased edge as complete, `unionfind_decoder.py:412-416`. -/
def UGraph.eraseStep (g : UGraph) (s : UState) (i : Nat) : Except Err UState :=
  if i < g.edges.length then
    .ok (if g.complete s i then s else { s with growth := Function.update s.growth i (g.maxGrowth i) })
  else .error .indexError

/-- What the search through the erased edges changes: the graph, `edge_visited` and `todo` (its end at the head of the list). -/
structure DfsState where
  s : UState
  visited : Nat → Bool
  todo : List Nat

/-- The body of the inner loop of `init_erasure_clusters`, `unionfind_decoder.py:433-444`. -/
def UGraph.dfsEdge (g : UGraph) (c : Nat) (t : DfsState) (p : Nat × Option Nat) : Except Err DfsState :=
  if t.visited p.1 then .ok t
  else
    let t := { t with visited := Function.update t.visited p.1 true }
    if g.complete t.s p.1 then
      match p.2 with
      | none => .ok { t with s := t.s.addDangling c }
      | some u =>
        if t.s.state u = .unused then
          match t.s.addVertex c u with
          | .error x => .error x
          | .ok s => .ok { t with s := s, todo := u :: t.todo }
        else .ok t
    else .ok t

/-- The `while` loop of `init_erasure_clusters`, `unionfind_decoder.py:431-444`. -/
def UGraph.dfs (g : UGraph) (c : Nat) : Nat → DfsState → Except Err DfsState
  | 0, t => if t.todo = [] then .ok t else .error .unmodelled
  | k + 1, t =>
    match t.todo with
    | [] => .ok t
    | v :: rest =>
      match loopE (g.dfsEdge c) { t with todo := rest } (g.nbrs v) with
      | .error x => .error x
      | .ok t => UGraph.dfs g c k t

/-- The body of the outer loop of `init_erasure_clusters`, `unionfind_decoder.py:425-444`. -/
def UGraph.erasureEdge (g : UGraph) (t : UState × (Nat → Bool)) (i : Nat) : Except Err (UState × (Nat → Bool)) :=
  if t.2 i = true ∨ g.complete t.1 i = false then .ok t
  else
    match g.edges[i]? with
    | some (v :: _) =>
      match t.1.addCluster.addVertex t.1.nClusters v with
      | .error x => .error x
      | .ok s =>
        match g.dfs t.1.nClusters g.n ⟨s, t.2, [v]⟩ with
        | .error x => .error x
        | .ok d =>
          match g.updateAfterGrowth d.s t.1.nClusters with
          | .error x => .error x
          | .ok s => .ok (s, d.visited)
    | _ => .error .indexError

/-- The body of the loop of `init_syndrome_clusters`, `unionfind_decoder.py:446-452`. -/
def UGraph.syndromeVertex (g : UGraph) (s : UState) (v : Nat) : Except Err UState :=
  if s.syn v = true ∧ s.state v = .unused then
    match s.addCluster.addVertex s.nClusters v with
    | .error x => .error x
    | .ok s' => g.updateAfterGrowth s' s.nClusters
  else .ok s

/-- `Graph.init`, `unionfind_decoder.py:401-452`. -/
def UGraph.init (g : UGraph) (erasure : List Nat) (syn : List Bool) : Except Err UState :=
  if syn.length = g.n then
    match loopE g.eraseStep (UState.fresh fun v => syn.getD v false) erasure with
    | .error x => .error x
    | .ok s =>
      match loopE g.erasureEdge (s, fun _ => false) (List.range g.edges.length) with
      | .error x => .error x
      | .ok t => loopE g.syndromeVertex t.1 (List.range g.n)
  else .error .assertionError

/-- What growing changes: the growth of the edges, the number of edges grown and the list of new complete edges. -/
structure GrowthState where
  s : UState
  grown : Nat
  new : List Nat

/-- The body of the innermost loop of `step`, `unionfind_decoder.py:668-673`, with `Edge.grow`. -/
def UGraph.growEdge (g : UGraph) (t : GrowthState) (i : Nat) : GrowthState :=
  if g.complete t.s i then t
  else
    let s := { t.s with growth := Function.update t.s.growth i (t.s.growth i + g.increment i) }
    { s := s, grown := t.grown + 1, new := if g.complete s i then t.new ++ [i] else t.new }

/-- `len(c.boundary)` for the open clusters, `unionfind_decoder.py:660`; `len(None)` is a `TypeError`. -/
def UState.openBoundaries (s : UState) : List Nat → Except Err (List (List Nat))
  | [] => .ok []
  | c :: cs =>
    match (s.clusters c).boundary with
    | none => .error .typeError
    | some B =>
      match s.openBoundaries cs with
      | .error x => .error x
      | .ok Bs => .ok (B :: Bs)

/-- The edges to grow, in order: those of the vertices in the boundaries of minimal size, `unionfind_decoder.py:660-667`. -/
def UGraph.toGrow (g : UGraph) (Bs : List (List Nat)) : List Nat :=
  let minSize := ((Bs.map List.length).min?).getD 0
  ((Bs.filter fun B => decide (B.length ≤ minSize)).flatten).flatMap g.edgesAt

/-- `handle_new_edges` for an edge with two vertices, the first of them in a boundary, `unionfind_decoder.py:694-706`. -/
def UGraph.joinEdge (g : UGraph) (s : UState) (v0 v1 : Nat) : Except Err UState :=
  if s.state v0 = .boundary then
    if s.state v1 = .boundary then
      match g.rCluster s v0 with
      | .error x => .error x
      | .ok (s, a) =>
        match g.rCluster s v1 with
        | .error x => .error x
        | .ok (s, b) => s.merge a b
    else if s.state v1 = .unused then
      match g.rCluster s v0 with
      | .error x => .error x
      | .ok (s, a) => s.addVertex a v1
    else .error .assertionError
  else .error .assertionError

/-- The body of the loop of `handle_new_edges`, `unionfind_decoder.py:683-706`. -/
def UGraph.handleEdge (g : UGraph) (s : UState) (i : Nat) : Except Err UState :=
  match g.edges[i]? with
  | some [v] =>
    if s.state v = .boundary then
      match g.rCluster s v with
      | .error x => .error x
      | .ok (s, c) => .ok (s.addDangling c)
    else .error .assertionError
  | some [a, b] => if s.state a = .boundary then g.joinEdge s a b else g.joinEdge s b a
  | _ => .error .indexError

/-- `step`, `unionfind_decoder.py:655-679`. -/
def UGraph.step (g : UGraph) (s : UState) : Except Err UState :=
  match s.refresh with
  | .error x => .error x
  | .ok s =>
    if s.openList = [] then .ok s
    else
      match s.openBoundaries s.openList with
      | .error x => .error x
      | .ok Bs =>
        let t := (g.toGrow Bs).foldl g.growEdge { s := s, grown := 0, new := [] }
        if t.grown = 0 then .error .assertionError
        else if t.new = [] then .ok t.s
        else
          match loopE g.handleEdge t.s t.new with
          | .error x => .error x
          | .ok s => loopE g.updateAfterGrowth s (List.range s.nClusters)

/-- The `while` loop of `union_find`, `unionfind_decoder.py:649-650`. -/
def UGraph.run (g : UGraph) : Nat → UState → Except Err UState
  | 0, s => if s.openList = [] then .ok s else .error .unmodelled
  | k + 1, s =>
    if s.openList = [] then .ok s
    else
      match g.step s with
      | .error x => .error x
      | .ok s => UGraph.run g k s

/-- How often the edges can be grown altogether, and one more. -/
def UGraph.budget (g : UGraph) : Nat :=
  ((List.range g.edges.length).map fun i => ⌈g.maxGrowth i / g.increment i⌉₊).sum + 1

/-- `union_find`, `unionfind_decoder.py:644-653`: the indices of the complete edges. -/
def UGraph.unionFind (g : UGraph) (erasure : List Nat) (syn : List Bool) : Except Err (List Nat) :=
  match g.init erasure syn with
  | .error x => .error x
  | .ok s =>
    match g.run g.budget s with
    | .error x => .error x
    | .ok s => .ok ((List.range g.edges.length).filter (g.complete s))

/-- The checks of `Graph.set_vertices_edges`, `Edge.__init__` and `Vertex.add_edge`, `unionfind_decoder.py:134-146, 222-234`. An
edge from a vertex to itself (which the code accepts) is left out. -/
def checkUEdge (n : Nat) (e : List Nat) : Except Err Unit :=
  if e.all (· < n) then
    match e with
    | [_] => .ok ()
    | [a, b] => if a = b then .error .unmodelled else .ok ()
    | _ => .error .assertionError
  else .error .indexError

/-- The growth increment of an edge from its normalised weight, `unionfind_decoder.py:715`. For weight zero the code has an infinite
increment, so that the edge is complete once it is grown; an increment of `max_growth` does the same. -/
def ufIncrement (w : ℚ) : ℚ := if w = 0 then 1 else 1 / (2 * w)

/-- `set_weights` of a new decoder, `unionfind_decoder.py:597-611, 712-717`: the maximal growth and the increments of the edges.
`support` tells `UnionFind` from `UnionFindNoWeights`; `c` is the normalisation coefficient. -/
def ufWeights (support : Bool) (m : Nat) (c : ℚ) : Option (List ℚ) → Except Err ((Nat → ℚ) × (Nat → ℚ))
  | none => .ok (fun _ => 2, fun _ => 1)
  | some ws =>
    match (ws.filter fun w => decide (w ≠ 0)).min? with
    | none => .error .valueError
    | some lo =>
      if support then
        if ws.length = m then .ok (fun _ => 1, fun i => ufIncrement (c * ws.getD i 0 / lo)) else .error .assertionError
      else .error .valueError

/-- `UnionFindDecoder.__init__`, `set_weights` and `decode`, `unionfind_decoder.py:728-763`. -/
def unionFindDecode (support : Bool) (n : Nat) (edges : List (List Nat)) (c : ℚ) (weights : Option (List ℚ)) (erasure : List Nat)
    (syn : List Bool) : Except Err (List Bool) :=
  match loopE (fun (_ : Unit) e => checkUEdge n e) () edges with
  | .error x => .error x
  | .ok () =>
    match ufWeights support edges.length c weights with
    | .error x => .error x
    | .ok p =>
      match UGraph.unionFind ⟨n, edges, p.1, p.2⟩ erasure syn with
      | .error x => .error x
      | .ok sel => erasureDecode n edges sel (fun v => syn.getD v false)

end Plaquette
