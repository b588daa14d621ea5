import Verif.Model.Lattice
import Mathlib.Logic.Function.Basic

/-!
# Model of the erasure decoder, `src/plaquette/decoders/unionfind_erasure.py`

An edge is the tuple of its vertices.  The lists `vertex_enabled` and `edge_enabled` are functions here (the code only uses
indices inside the lists; where it could be given others the model raises the `IndexError`).  `-1` as neighbour (a dangling
edge) is `none`.  `edge_progress`, `vertex_in_cluster` and `missing_neighbours` are written but never read by this decoder and
are left out; the checks made while `missing_neighbours` is filled are kept.
-/

namespace Plaquette

/-- `Graph`, `unionfind_erasure.py:71-161`. The list of leaves has the end of the python list (from which leaves are taken) at its
head. -/
structure EGraph where
  n : Nat
  edges : List (List Nat)
  vOn : Nat → Bool
  eOn : Nat → Bool
  nbr : Option (Nat → List (Nat × Option Nat))
  leaves : Option (List Nat)

/-- `Graph.__init__` and `reset_subgraph(False, False)`, `unionfind_erasure.py:129-173`. -/
def EGraph.fresh (n : Nat) (edges : List (List Nat)) : EGraph :=
  { n := n, edges := edges, vOn := fun _ => false, eOn := fun _ => false, nbr := none, leaves := none }

/-- `enable_vertex`, `unionfind_erasure.py:175-183`. -/
def EGraph.enableVertex (g : EGraph) (v : Nat) (en : Bool) : Except Err EGraph :=
  if v < g.n then
    match en, g.nbr with
    | false, some N =>
      if (N v).length = 0 then .ok { g with vOn := Function.update g.vOn v en } else .error .assertionError
    | _, _ => .ok { g with vOn := Function.update g.vOn v en }
  else .error .indexError

/-- `for v in edge: assert self.vertex_enabled[v]` -/
def EGraph.assertOn (g : EGraph) : List Nat → Except Err Unit
  | [] => .ok ()
  | v :: vs => if v < g.n then if g.vOn v then g.assertOn vs else .error .assertionError else .error .indexError

/-- The pairs of a vertex and its neighbour, `unionfind_erasure.py:202, 267-276`. -/
def edgePairs : List Nat → Except Err (List (Nat × Option Nat))
  | [a] => .ok [(a, none)]
  | [a, b] => .ok [(a, some b), (b, some a)]
  | _ => .error .valueError

/-- The body of the loop over `pairs`, `unionfind_erasure.py:203-215`; the list of leaves and the neighbour lists are changed. -/
def EGraph.pairStep (i : Nat) (en : Bool) (s : (Nat → List (Nat × Option Nat)) × Option (List Nat)) (p : Nat × Option Nat) :
    Except Err ((Nat → List (Nat × Option Nat)) × Option (List Nat)) :=
  let old := s.1 p.1
  let entry := (i, p.2)
  if en ∧ entry ∈ old then .error .assertionError
  else if ¬ en ∧ entry ∉ old then .error .valueError
  else
    let new := if en then old ++ [entry] else old.erase entry
    match s.2 with
    | none => .ok (Function.update s.1 p.1 new, none)
    | some L =>
      if en then .error .assertionError
      else .ok (Function.update s.1 p.1 new, some (if new.length ≤ 1 ∧ ¬ old.length ≤ 1 then p.1 :: L else L))

/-- `enable_edge`, `unionfind_erasure.py:185-215`. -/
def EGraph.enableEdge (g : EGraph) (i : Nat) (en : Bool) : Except Err EGraph :=
  match g.edges[i]? with
  | none => .error .indexError
  | some e =>
    match g.assertOn e with
    | .error x => .error x
    | .ok () =>
      let g' := { g with eOn := Function.update g.eOn i en }
      match g.nbr with
      | none => .ok g'
      | some N =>
        if g.eOn i = en then .ok g'
        else
          match edgePairs e with
          | .error x => .error x
          | .ok ps =>
            match loopE (EGraph.pairStep i en) (N, g.leaves) ps with
            | .error x => .error x
            | .ok s => .ok { g' with nbr := some s.1, leaves := s.2 }

/-- `enable_edges(edges, True, select_vertices=True)`, `unionfind_erasure.py:217-223`. -/
def EGraph.enableEdges (g : EGraph) (sel : List Nat) : Except Err EGraph :=
  loopE (fun (g : EGraph) i =>
    match g.edges[i]? with
    | none => .error .indexError
    | some e =>
      match loopE (fun (g : EGraph) v => g.enableVertex v true) g e with
      | .error x => .error x
      | .ok g => g.enableEdge i true) g sel

/-- `_update_neighbours`, `unionfind_erasure.py:265-276`. -/
def addNeighbours (N : Nat → List (Nat × Option Nat)) (i : Nat) (e : List Nat) : Except Err (Nat → List (Nat × Option Nat)) :=
  match edgePairs e with
  | .error x => .error x
  | .ok ps => loopE (fun (N : Nat → List (Nat × Option Nat)) (p : Nat × Option Nat) =>
      if (i, p.2) ∈ N p.1 then .error .assertionError else .ok (Function.update N p.1 (N p.1 ++ [(i, p.2)]))) N ps

/-- The body of the loop of `update_neighbours`, `unionfind_erasure.py:257-263`. -/
def EGraph.nbrStep (g : EGraph) (s : (Nat → List (Nat × Option Nat)) × (Nat → List (Nat × Option Nat))) (p : List Nat × Nat) :
    Except Err ((Nat → List (Nat × Option Nat)) × (Nat → List (Nat × Option Nat))) :=
  if g.eOn p.2 then
    match g.assertOn p.1 with
    | .error x => .error x
    | .ok () => match addNeighbours s.1 p.2 p.1 with
      | .error x => .error x
      | .ok N => .ok (N, s.2)
  else
    match addNeighbours s.2 p.2 p.1 with
    | .error x => .error x
    | .ok M => .ok (s.1, M)

/-- `update_neighbours`, `unionfind_erasure.py:253-263`. -/
def EGraph.updateNeighbours (g : EGraph) : Except Err EGraph :=
  match loopE g.nbrStep (fun _ => [], fun _ => []) g.edges.zipIdx with
  | .error x => .error x
  | .ok s => .ok { g with nbr := some s.1 }

/-- `update_leaves`, `unionfind_erasure.py:282-292` (`TypeError` if there are no neighbour lists). -/
def EGraph.updateLeaves (g : EGraph) : Except Err EGraph :=
  match g.nbr with
  | none => .error .typeError
  | some N => .ok { g with leaves := some ((List.range g.n).filter fun v => g.vOn v && decide ((N v).length ≤ 1)).reverse }

/-- `get_neighbours`, `unionfind_erasure.py:245-251`. -/
def EGraph.getNeighbours (g : EGraph) (v : Nat) : Except Err (List (Nat × Option Nat)) :=
  if g.vOn v then
    match g.nbr with
    | none => .error .typeError
    | some N => .ok (N v)
  else .error .assertionError

/-- `pop_leaf` for the last leaf of the list, `unionfind_erasure.py:294-318`; the edge and the neighbour it returns. -/
def EGraph.popLeaf (g : EGraph) (leaf : Nat) (rest : List Nat) : Except Err (EGraph × Option (Nat × Option Nat)) :=
  let g := { g with leaves := some rest }
  match g.getNeighbours leaf with
  | .error x => .error x
  | .ok [] =>
    match g.enableVertex leaf false with
    | .error x => .error x
    | .ok g => .ok (g, none)
  | .ok (p :: _) =>
    match g.enableEdge p.1 false with
    | .error x => .error x
    | .ok g =>
      match g.enableVertex leaf false with
      | .error x => .error x
      | .ok g => .ok (g, some p)

/-! ### The decoder -/

/-- What `peel_forest` works on. -/
structure Peel where
  forest : EGraph
  endV : Nat → Bool
  corr : Nat → Bool
  syn : Nat → Bool

/-- The other end of the removed edge may have become an end vertex, `unionfind_erasure.py:437-443`. -/
def markEnd (f : EGraph) (endV : Nat → Bool) (other : Option Nat) : Except Err (Nat → Bool) :=
  match other with
  | none => .ok endV
  | some o =>
    match f.getNeighbours o with
    | .error x => .error x
    | .ok l => .ok (if l.length = 0 then Function.update endV o true else endV)

/-- `unionfind_erasure.py:447-452` -/
def moveSyndrome (syn : Nat → Bool) (leaf : Nat) (other : Option Nat) : Nat → Bool :=
  let syn := Function.update syn leaf false
  match other with
  | none => syn
  | some o => Function.update syn o (!syn o)

/-- After a leaf with an edge has been removed, `unionfind_erasure.py:437-452`. -/
def peelEdge (s : Peel) (leaf i : Nat) (other : Option Nat) : Except Err Peel :=
  match markEnd s.forest s.endV other with
  | .error x => .error x
  | .ok endV =>
    if s.syn leaf then
      if s.corr i then .error .assertionError
      else .ok { s with endV := endV, corr := Function.update s.corr i true, syn := moveSyndrome s.syn leaf other }
    else .ok { s with endV := endV }

/-- One iteration of the loop of `peel_forest`, `unionfind_erasure.py:427-452`. -/
def peelStep (s : Peel) (leaf : Nat) (rest : List Nat) : Except Err Peel :=
  match s.forest.popLeaf leaf rest with
  | .error x => .error x
  | .ok (f, p) =>
    let s := { s with forest := f }
    if s.endV leaf then
      match p with
      | none => .ok { s with endV := Function.update s.endV leaf false }
      | some _ => .error .assertionError
    else
      match p with
      | none => .error .assertionError
      | some (i, other) => peelEdge s leaf i other

/-- The loop of `peel_forest` and `pop_leaves`, `unionfind_erasure.py:320-323, 427-452`, with at most `fuel` iterations. -/
def peelLoop : Nat → Peel → Except Err Peel
  | k, s =>
    match s.forest.leaves with
    | none => .ok s
    | some [] => .ok s
    | some (leaf :: rest) =>
      match k with
      | 0 => .error .unmodelled
      | k + 1 =>
        match peelStep s leaf rest with
        | .error x => .error x
        | .ok s => peelLoop k s

/-- `peel_forest`, `unionfind_erasure.py:408-455`. Every iteration disables a vertex: `n` iterations suffice. -/
def peelForest (f : EGraph) (syn : Nat → Bool) : Except Err (List Bool) :=
  match f.updateNeighbours with
  | .error x => .error x
  | .ok f =>
    match f.updateLeaves with
    | .error x => .error x
    | .ok f =>
      match peelLoop f.n { forest := f, endV := fun _ => false, corr := fun _ => false, syn := syn } with
      | .error x => .error x
      | .ok s =>
        if (List.range f.n).any s.endV then .error .assertionError
        else .ok ((List.range f.edges.length).map s.corr)

/-- What `construct_forest` works on: the graph, the forest, the queue `new_vertices`. -/
structure Grow where
  g : EGraph
  f : EGraph
  new : List Nat

/-- The body of the loop over dangling edges, `unionfind_erasure.py:465-472`. -/
def danglingStep (s : Grow) (p : List Nat × Nat) : Except Err Grow :=
  if s.g.eOn p.2 then
    match p.1 with
    | [a] =>
      if s.f.vOn a then
        match s.g.enableEdge p.2 false with
        | .error x => .error x
        | .ok g => .ok { s with g := g }
      else
        match s.f.enableVertex a true with
        | .error x => .error x
        | .ok f => match f.enableEdge p.2 true with
          | .error x => .error x
          | .ok f => .ok { s with f := f, new := s.new ++ [a] }
    | _ => .ok s
  else .ok s

/-- The body of the loop over the neighbours of `cur`, `unionfind_erasure.py:491-501`. -/
def neighbourStep (s : Grow) (p : Nat × Option Nat) : Except Err Grow :=
  if s.f.eOn p.1 then .ok s
  else
    match p.2 with
    | none => .error .assertionError
    | some u =>
      if s.f.vOn u then .ok s
      else
        match s.f.enableVertex u true with
        | .error x => .error x
        | .ok f => match f.enableEdge p.1 true with
          | .error x => .error x
          | .ok f => .ok { s with f := f, new := s.new ++ [u] }

/-- The inner loop, `unionfind_erasure.py:475-481`: `rem` has the end of the python list at its head. -/
def startNew : List Nat → Grow → Except Err (List Nat × Grow)
  | [], s => .ok ([], s)
  | c :: rem, s =>
    if s.new = [] then
      if s.f.vOn c then startNew rem s
      else
        match s.f.enableVertex c true with
        | .error x => .error x
        | .ok f => startNew rem { s with f := f, new := s.new ++ [c] }
    else .ok (c :: rem, s)

/-- The loop of `construct_forest`, `unionfind_erasure.py:473-501`, with at most `fuel` iterations. -/
def growLoop : Nat → List Nat → Grow → Except Err Grow
  | k, rem, s =>
    match startNew rem s with
    | .error x => .error x
    | .ok (rem, s) =>
      match s.new with
      | [] => .ok s
      | cur :: new =>
        match k with
        | 0 => .error .unmodelled
        | k + 1 =>
          match s.g.getNeighbours cur with
          | .error x => .error x
          | .ok l =>
            match loopE neighbourStep { s with new := new } l with
            | .error x => .error x
            | .ok s => growLoop k rem s

/-- `construct_forest`, `unionfind_erasure.py:457-501`: the forest. Every vertex is in the queue at most once: `n` iterations
suffice. -/
def constructForest (g : EGraph) : Except Err EGraph :=
  let f := EGraph.fresh g.n g.edges
  match loopE danglingStep { g := g, f := f, new := [] } g.edges.zipIdx with
  | .error x => .error x
  | .ok s =>
    match growLoop g.n ((List.range g.n).filter g.vOn).reverse s with
    | .error x => .error x
    | .ok s => .ok s.f

/-- `ErasureDecoder.decode`, `unionfind_erasure.py:393-406`. -/
def erasureDecode (n : Nat) (edges : List (List Nat)) (sel : List Nat) (syn : Nat → Bool) : Except Err (List Bool) :=
  match (EGraph.fresh n edges).enableEdges sel with
  | .error x => .error x
  | .ok g =>
    match g.updateNeighbours with
    | .error x => .error x
    | .ok g =>
      match constructForest g with
      | .error x => .error x
      | .ok f => peelForest f syn

end Plaquette
