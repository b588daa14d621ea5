import Verif.Model.Decoder
import Mathlib.Algebra.Order.Floor.Ring
import Mathlib.Data.Rat.Floor

/-!
# Model of `src/plaquette/decoders/matching.py` and `src/plaquette/decoders/fusionblossom.py`

The graphs handed to the libraries PyMatching and Fusion Blossom, and what is made of their results. The libraries themselves are
arguments (`solve`); what is assumed of them is in `Verif/Spec/Matching.lean`.
-/

namespace Plaquette

/-! ## PyMatching -/

/-- An edge of a `pymatching.Matching`: its two nodes, its `fault_ids` and its weight. -/
structure MEdge where
  u : Nat
  v : Nat
  fault : Nat
  weight : ℚ
  deriving DecidableEq

/-- A `pymatching.Matching`: its edges in the order of their insertion, and its boundary nodes. -/
structure PmGraph where
  edges : List MEdge
  boundary : List Nat
  deriving DecidableEq

/-- `Matching.add_edge` with `merge_strategy="disallow"`: a second edge between the same nodes is refused. -/
def PmGraph.addEdge (G : PmGraph) (e : MEdge) : Except Err PmGraph :=
  if G.edges.any fun f => (f.u == e.u && f.v == e.v) || (f.u == e.v && f.v == e.u) then .error .valueError
  else .ok { G with edges := G.edges ++ [e] }

/-- The body of the loop over the edges, `matching.py:54-70`; the state is the graph and `boundary_edges`. `weight` is the weight of
the edge, or 1 (the default of `add_edge`) if there are no weights. -/
def pmStep (n : Nat) (weight : Nat → ℚ) (s : PmGraph × List Nat) (e : List Nat × Nat) : Except Err (PmGraph × List Nat) :=
  match e.1 with
  | [a, b] =>
    match s.1.addEdge ⟨a, b, e.2, weight e.2⟩ with
    | .error x => .error x
    | .ok G => .ok (G, s.2)
  | [a] =>
    match s.2[a]? with
    | none => .error .indexError
    | some k =>
      match s.1.addEdge ⟨a, n + k, e.2, weight e.2⟩ with
      | .error x => .error x
      | .ok G => .ok (G, s.2.set a (k + 1))
  | _ => .error .valueError

/-- The weights of the edges, `matching.py:48-50, 59-60`: `none` if there are none. -/
def pmWeights (ws : List (Option FW)) : Except Err (Option (List ℚ)) :=
  match isWeighted ws with
  | .error e => .error e
  | .ok false => .ok none
  | .ok true =>
    match checkWeightsSane ws with
    | .error e => .error e
    | .ok () =>
      match finiteWeights ws with
      | .error e => .error e
      | .ok l => .ok (some l)

/-- The argument `weight` of `add_edge`, `matching.py:59-60`; its default is 1. -/
def pmWeight (w : Option (List ℚ)) (i : Nat) : ℚ :=
  match w with
  | none => 1
  | some l => l.getD i 0

/-- `PyMatchingDecoder.set_syngraph`, `matching.py:37-73`. -/
def pmSetup (c : Component FW) : Except Err PmGraph :=
  match pmWeights c.weights with
  | .error e => .error e
  | .ok w =>
    match loopE (pmStep c.nVertices (pmWeight w)) (⟨[], []⟩, List.replicate c.nVertices 0) c.edges.zipIdx with
    | .error e => .error e
    | .ok (G, counts) =>
      if counts.any (· != 0) then .ok { G with boundary := (List.range (counts.foldl max 0)).map (c.nVertices + ·) } else .ok G

/-- `PyMatchingDecoder.decode`, `matching.py:91-98`. -/
def pmDecode (solve : PmGraph → List Bool → Except Err (List Bool)) (G : PmGraph) (er syn : List Bool) : Except Err (List Bool) :=
  if er.any id then .error .valueError else solve G syn

/-- The backend `matching.PyMatchingDecoder`. -/
def pmBackend (solve : PmGraph → List Bool → Except Err (List Bool)) : Backend FW PmGraph := ⟨pmSetup, pmDecode solve⟩

/-! ## Fusion Blossom -/

/-- The arguments of `fb.SolverInitializer`: the number of vertices, the edges with their weights, and the virtual vertices. -/
structure FbGraph where
  n : Nat
  edges : List (Nat × Nat × Int)
  virt : List Nat
  deriving DecidableEq

/-- The largest weight. -/
def maxWeight (l : List ℚ) : ℚ := l.foldl max (l.headD 0)

/-- The integer weights, `fusionblossom.py:44-50`: `astype(int)` is the integer part, of numbers that are not negative. If all weights are
zero, then this divides zero by zero, which is not modelled. -/
def fbWeights (m : Nat) (ws : List (Option FW)) : Except Err (List Int) :=
  match isWeighted ws with
  | .error e => .error e
  | .ok false => .ok (List.replicate m 1)
  | .ok true =>
    match checkWeightsSane ws with
    | .error e => .error e
    | .ok () =>
      match finiteWeights ws with
      | .error e => .error e
      | .ok l => if maxWeight l = 0 then .error .unmodelled else .ok (l.map fun w => ⌊100 * w / maxWeight l⌋)

/-- The body of the loop over the edges, `fusionblossom.py:54-59`; the state is `edges` and `open_vertices`. The third vertex of an edge with more
than two is dropped. -/
def fbStep (n : Nat) (weights : List Int) (s : List (Nat × Nat × Int) × List Nat) (e : List Nat × Nat) :
    Except Err (List (Nat × Nat × Int) × List Nat) :=
  match weights[e.2]? with
  | none => .error .indexError
  | some w =>
    match e.1 with
    | [] => .error .indexError
    | [a] => .ok (s.1 ++ [(a, n + s.2.length, 2 * w)], s.2 ++ [n + s.2.length])
    | a :: b :: _ => .ok (s.1 ++ [(a, b, 2 * w)], s.2)

/-- `FusionBlossomDecoder.set_syngraph`, `fusionblossom.py:34-62`. -/
def fbSetup (c : Component FW) : Except Err FbGraph :=
  match fbWeights c.edges.length c.weights with
  | .error e => .error e
  | .ok weights =>
    match loopE (fbStep c.nVertices weights) ([], []) c.edges.zipIdx with
    | .error e => .error e
    | .ok (edges, virt) => .ok ⟨c.nVertices + virt.length, edges, virt⟩

/-- `get_syndrome_pattern` and `decode`, `fusionblossom.py:80-101`: the library gets the numbers of the vertices with a syndrome and of the erased edges, and
returns numbers of edges. -/
def fbDecode (solve : FbGraph → List Nat → List Nat → Except Err (List Nat)) (G : FbGraph) (er syn : List Bool) : Except Err (List Bool) :=
  match solve G (whereTrue syn) (whereTrue er) with
  | .error e => .error e
  | .ok sel => .ok ((List.range G.edges.length).map fun i => decide (i ∈ sel))

/-- The backend `fusionblossom.FusionBlossomDecoder`. -/
def fbBackend (solve : FbGraph → List Nat → List Nat → Except Err (List Nat)) : Backend FW FbGraph := ⟨fbSetup, fbDecode solve⟩

end Plaquette
