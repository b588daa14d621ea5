import Verif.Model.Codes

/-!
# Model of the syndrome graph, `src/plaquette/syngraph/__init__.py`

A vertex is its index `vertex_idx` and an edge its place in the list of edges (`edge_idx`).  A vertex keeps two lists,
`all_edges` and `all_neighbours`, which are only changed by `Vertex.add_edge`, called once for every vertex of an edge when
the edge is made; here they are computed from the list of edges.

Weights: any linear order `W`, with a predicate that says which weights are infinite; `none` is NaN.  (In the code the weight
of a qubit edge is a numpy array of length one; comparisons and assignments treat it as its entry.)
-/

namespace Plaquette

/-- What an edge stands for: `QubitErrorEdge` (`time_step`, `error_op_idx`, `qubit_idx`, `pauli_str`: X or Z) and
`StabilizerErrorEdge` (`time_step`, `stabgen_idx`), `syngraph/__init__.py:388-437`. -/
inductive EdgeKind
  | qubit (t : Nat) (opIdx : Nat) (q : Nat) (isX : Bool)
  | stab (t : Nat) (s : Nat)
  deriving DecidableEq, Repr

/-- `Edge`, `syngraph/__init__.py:327-392`, without the fields that are set for a decoding run. -/
structure SEdge (W : Type) where
  vertices : List Nat
  kind : EdgeKind
  weight : Option W := none
  enabled : Bool := true
  deriving DecidableEq, Repr

variable {W : Type}

/-- The vertex of a stabiliser at a time step, `_init_vertices`, `syngraph/__init__.py:667-680`: the vertices are numbered in
the order in which they are made. -/
def vertexIdx (nStab t s : Nat) : Nat := t * nStab + s

/-- `_init_error_ops`, `syngraph/__init__.py:656-665`: X on every qubit, then Z on every qubit. -/
def errorOps (n : Nat) : List (Letter × Fin n) :=
  (List.finRange n).map (fun q => (.X, q)) ++ (List.finRange n).map (fun q => (.Z, q))

/-- `np.where(stabilizers)[0]` for a row of the commutator table. (With a single stabiliser `commutator_sign` drops an axis and
the row is a scalar: `np.where` then treats it as a list with one entry before NumPy 2.1, and raises since. The model follows
the former.) -/
def flipped {n : Nat} (stabs : List (Op n)) (e : Op n) : List Nat :=
  (List.range stabs.length).filter fun s => match stabs[s]? with
    | some g => commSign e g ≠ 0
    | none => false

/-- The body of the loop of `_init_qubit_error_edges`, `syngraph/__init__.py:694-727`. -/
def qubitEdge {n : Nat} (stabs : List (Op n)) (t : Nat) (o : (Letter × Fin n) × Nat) : Except Err (SEdge W) :=
  let f := flipped stabs (singleOp false o.1.1 o.1.2)
  if f.length > 2 then .error .valueError
  else .ok { vertices := f.map (vertexIdx stabs.length t), kind := .qubit t o.2 o.1.2.val (o.1.1 == .X) }

/-- `_init_qubit_error_edges`, `syngraph/__init__.py:682-727`. -/
def qubitEdges {n : Nat} (nRounds : Nat) (stabs : List (Op n)) : Except Err (List (SEdge W)) :=
  match mapLoop (fun t => mapLoop (qubitEdge stabs t) (errorOps n).zipIdx) (List.range nRounds) with
  | .error e => .error e
  | .ok l => .ok l.flatten

/-- The body of the loop of `_init_measurement_error_edges`, `syngraph/__init__.py:732-744`. -/
def stabEdge (nStab t s : Nat) : SEdge W :=
  { vertices := [vertexIdx nStab (t - 1) s, vertexIdx nStab t s], kind := .stab t s }

/-- `_init_measurement_error_edges`, `syngraph/__init__.py:729-744`. -/
def stabEdges (nRounds nStab : Nat) : List (SEdge W) :=
  (List.range' 1 (nRounds - 1)).flatMap fun t => (List.range nStab).map fun s => stabEdge nStab t s

/-! ### Weights -/

/-- An argument of `set_edge_weights`: one number or an array. -/
inductive WArg (W : Type)
  | num (w : Option W)
  | arr (l : List (Option W))

/-- `np.ones([n]) * w`, `syngraph/__init__.py:874-876`. -/
def broadcastW (n : Nat) : WArg W → Except Err (List (Option W))
  | .num w => .ok (List.replicate n w)
  | .arr l =>
    if l.length = n then .ok l
    else match l with
      | [w] => .ok (List.replicate n w)
      | _ => if n = 1 then .ok l else .error .valueError

/-- The arguments of `set_edge_weights`. -/
structure Weights (W : Type) where
  pauliX : WArg W
  pauliZ : WArg W
  measurement : WArg W

/-- The body of the loop of `set_edge_weights`, `syngraph/__init__.py:877-889`. -/
def setWeight (px pz ms : List (Option W)) (e : SEdge W) : Except Err (SEdge W) :=
  let w := match e.kind with
    | .qubit _ _ q true => px[q]?
    | .qubit _ _ q false => pz[q]?
    | .stab _ s => ms[s]?
  match w with
  | none => .error .indexError
  | some w => .ok { e with weight := w }

/-- `set_edge_weights` as called by `__init__`, `syngraph/__init__.py:842-891`. -/
def setWeights (n nStab : Nat) (w : Weights W) (es : List (SEdge W)) : Except Err (List (SEdge W)) :=
  match broadcastW n w.pauliX with
  | .error e => .error e
  | .ok px =>
    match broadcastW n w.pauliZ with
    | .error e => .error e
    | .ok pz =>
      match broadcastW nStab w.measurement with
      | .error e => .error e
      | .ok ms => mapLoop (setWeight px pz ms) es

/-! ### Disabled edges -/

/-- `edge.disable()` for the edge with that index. -/
def disableEdge (es : List (SEdge W)) (i : Nat) : List (SEdge W) := es.modify i fun e => { e with enabled := false }

/-- `_check_edges_infweight`, `syngraph/__init__.py:746-755`. -/
def disableInf (isInf : W → Bool) (es : List (SEdge W)) : List (SEdge W) :=
  es.map fun e => match e.weight with
    | some w => if isInf w then { e with enabled := false } else e
    | none => e

/-- `edge.weight` for the edge with that index. -/
def weightAt (es : List (SEdge W)) (i : Nat) : Option W := (es[i]?).bind (·.weight)

/-- `min(weights)`: the first of the smallest. -/
def lightest [LinearOrder W] (es : List (SEdge W)) : Nat → List Nat → Nat
  | i, [] => i
  | i, j :: js =>
    match weightAt es i, weightAt es j with
    | some a, some b => lightest es (if b < a then j else i) js
    | _, _ => lightest es i js

/-- `_select_lightest_edge`, `syngraph/__init__.py:776-795`; edges are given by their indices. (The code computes `min(weights)`
and then takes the first edge of that weight: the first of the lightest edges.) -/
def selectLightest [LinearOrder W] (es : List (SEdge W)) (group : List Nat) : Except Err (List (SEdge W)) :=
  match group with
  | [] => .error .indexError
  | i :: rest =>
    if group.any fun j => (weightAt es j).isNone then
      if group.all fun j => (weightAt es j).isNone then
        .ok ((group.filter (· ≠ i)).foldl disableEdge es)
      else .error .valueError
    else .ok ((group.filter (· ≠ lightest es i rest)).foldl disableEdge es)

/-- The attribute `all_edges` of a vertex. -/
def edgesAt (es : List (SEdge W)) (v : Nat) : List Nat :=
  (List.range es.length).filter fun i => match es[i]? with
    | some e => v ∈ e.vertices
    | none => false

/-- The vertices of the edge with that index (the key of `edge_dict`). -/
def vertsAt (es : List (SEdge W)) (i : Nat) : List Nat := ((es[i]?).map (·.vertices)).getD []

/-- `edge_dict[key].append(edge)`, with a new list for a new key, `syngraph/__init__.py:768-771`. -/
def dictAppend (d : List (List Nat × List Nat)) (key : List Nat) (i : Nat) : List (List Nat × List Nat) :=
  if d.any fun g => g.1 = key then d.map fun g => if g.1 = key then (g.1, g.2 ++ [i]) else g
  else d ++ [(key, [i])]

/-- The inner loops of `_check_edges_duplicate` at one vertex, `syngraph/__init__.py:765-774`. -/
def dupStep [LinearOrder W] (st : List (SEdge W) × List (List Nat × List Nat)) (i : Nat) :
    Except Err (List (SEdge W) × List (List Nat × List Nat)) :=
  let d := dictAppend st.2 (vertsAt st.1 i) i
  match loopE (fun es (g : List Nat × List Nat) => if g.2.length > 1 then selectLightest es g.2 else .ok es) st.1 d with
  | .error e => .error e
  | .ok es => .ok (es, d)

/-- `_check_edges_duplicate`, `syngraph/__init__.py:757-774`. -/
def disableDuplicates [LinearOrder W] (nV : Nat) (es : List (SEdge W)) : Except Err (List (SEdge W)) :=
  loopE (fun es v =>
    match loopE dupStep (es, []) (edgesAt es v) with
    | .error e => .error e
    | .ok st => .ok st.1) es (List.range nV)

/-! ### Connected components -/

/-- The attributes `connected_component_idx` of vertices and edges. -/
structure Comps where
  v : Nat → Option Nat
  e : Nat → Option Nat

/-- Whether the edge with that index is enabled. -/
def enabledAt (es : List (SEdge W)) (i : Nat) : Bool := ((es[i]?).map (·.enabled)).getD false

/-- The property `neighbours` of a vertex, `syngraph/__init__.py:289-294`. -/
def neighboursOf (es : List (SEdge W)) (v : Nat) : List Nat :=
  ((edgesAt es v).filter (enabledAt es)).flatMap fun i => (vertsAt es i).filter (· ≠ v)

/-- `Vertex.set_connected_component`, `syngraph/__init__.py:308-316`. -/
def setComp (es : List (SEdge W)) (c : Nat) (st : Comps) (v : Nat) : Except Err Comps :=
  if st.v v ≠ none then .error .assertionError
  else
    loopE (fun (st : Comps) i => match st.e i with
      | none => .ok { st with e := Function.update st.e i (some c) }
      | some c' => if c' = c then .ok st else .error .assertionError)
      { st with v := Function.update st.v v (some c) } ((edgesAt es v).filter (enabledAt es))

/-- The loop over the neighbours of a vertex, `syngraph/__init__.py:835-840`; the list is the stack `todo`, last entry first. -/
def visit (es : List (SEdge W)) (c : Nat) (s : Comps × List Nat) (u : Nat) : Except Err (Comps × List Nat) :=
  match s.1.v u with
  | none => match setComp es c s.1 u with
    | .error e => .error e
    | .ok st => .ok (st, u :: s.2)
  | some c' => if c' = c then .ok s else .error .assertionError

/-- The loop `while todo` of `_find_connected_component`, `syngraph/__init__.py:833-840`, with at most `fuel` iterations. -/
def findLoop (es : List (SEdge W)) (c : Nat) : Nat → Comps → List Nat → Except Err Comps
  | _, st, [] => .ok st
  | 0, _, _ :: _ => .error .unmodelled
  | k + 1, st, v :: todo =>
    match loopE (visit es c) (st, todo) (neighboursOf es v) with
    | .error e => .error e
    | .ok s => findLoop es c k s.1 s.2

/-- `_find_connected_component`, `syngraph/__init__.py:828-840`. Every vertex is put on the stack at most once: `nV` iterations
suffice. -/
def findComp (nV : Nat) (es : List (SEdge W)) (c : Nat) (st : Comps) (v : Nat) : Except Err Comps :=
  match setComp es c st v with
  | .error e => .error e
  | .ok st => findLoop es c nV st [v]

/-- `_init_conn_components`, `syngraph/__init__.py:797-808`: the loop goes on to the next vertex once the present one has a
component. The second part of the result is the number of components. -/
def initComps (nV : Nat) (es : List (SEdge W)) : Except Err (Comps × Nat) :=
  loopE (fun (s : Comps × Nat) v => match s.1.v v with
    | some _ => .ok s
    | none => match findComp nV es s.2 s.1 v with
      | .error e => .error e
      | .ok st => .ok (st, s.2 + 1)) ({ v := fun _ => none, e := fun _ => none }, 0) (List.range nV)

/-- `SyndromeGraphComponent`, `syngraph/__init__.py:440-504`, without the fields that are set for a decoding run. -/
structure Component (W : Type) where
  vertexIdx : List Nat
  edgeIdx : List Nat
  edges : List (List Nat)
  weights : List (Option W)

/-- `n_vertices` -/
def Component.nVertices (c : Component W) : Nat := c.vertexIdx.length

/-- `has_dangling_edges`, `syngraph/__init__.py:500`. -/
def Component.hasDangling (c : Component W) : Bool := c.edges.any fun e => e.length = 1

/-- One component, `_init_components_objects` and `SyndromeGraphComponent.__init__`, `syngraph/__init__.py:489-501, 810-823`:
`rev_vertex_idx` gives the place of a vertex in the list of the component (the assertion fails if it is not there). -/
def mkComponent (nV : Nat) (es : List (SEdge W)) (st : Comps) (c : Nat) : Except Err (Component W) :=
  let vs := (List.range nV).filter fun v => st.v v = some c
  let is := (List.range es.length).filter fun i => st.e i = some c
  if is.all fun i => (vertsAt es i).all fun v => v ∈ vs then
    .ok { vertexIdx := vs, edgeIdx := is, edges := is.map fun i => (vertsAt es i).map vs.idxOf, weights := is.map (weightAt es) }
  else .error .assertionError

/-- `SyndromeGraph` -/
structure SynGraph (W : Type) where
  nRounds : Nat
  nQubits : Nat
  nStab : Nat
  edges : List (SEdge W)
  comps : Comps
  components : List (Component W)

/-- `if weights is not None: self.set_edge_weights(**weights)`, `syngraph/__init__.py:636-637`. -/
def optWeights (n nStab : Nat) (weights : Option (Weights W)) (es : List (SEdge W)) : Except Err (List (SEdge W)) :=
  match weights with
  | none => .ok es
  | some w => setWeights n nStab w es

/-- `SyndromeGraph.__init__`, `syngraph/__init__.py:608-644`. -/
def mkSynGraph [LinearOrder W] (isInf : W → Bool) {n : Nat} (nRounds : Nat) (stabs : List (Op n)) (weights : Option (Weights W)) :
    Except Err (SynGraph W) :=
  match stabs with
  | [] => .error .indexError
  | _ :: _ =>
    let nV := nRounds * stabs.length
    match qubitEdges nRounds stabs with
    | .error e => .error e
    | .ok qs =>
      let es := qs ++ stabEdges nRounds stabs.length
      match optWeights n stabs.length weights es with
      | .error e => .error e
      | .ok es =>
        match disableDuplicates nV (disableInf isInf es) with
        | .error e => .error e
        | .ok es =>
          match initComps nV es with
          | .error e => .error e
          | .ok (st, k) =>
            match mapLoop (mkComponent nV es st) (List.range k) with
            | .error e => .error e
            | .ok cs => .ok { nRounds := nRounds, nQubits := n, nStab := stabs.length, edges := es, comps := st, components := cs }

end Plaquette
