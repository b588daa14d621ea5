import Verif.Model.PauliText

/-!
# Model of `src/plaquette/codes/latticebase.py`

Objects: a vertex of a lattice is identified by its position.  (`==` on the vertex and edge dataclasses compares the
positions first, and no two vertices have the same position.)  An edge is identified by its operator and its data qubit.

The attributes `edges` and `neighbours` of a vertex are not stored: `add_edge` and `remove_edge`, the only functions that
change them, append to and remove from these lists exactly what they append to and remove from the list of all edges, so
the list of a vertex is the sublist of all edges with that vertex.  In the same way `lattice` and `vertices` hold the
vertices of the three lists `dataqubits`, `stabgens` and `logical_ops`.

Positions with a negative coordinate (which numpy counts from the end) are `unmodelled`.
-/

namespace Plaquette

/-- A `for` loop whose body changes a state or raises. -/
def loopE {σ α : Type} (f : σ → α → Except Err σ) : σ → List α → Except Err σ
  | s, [] => .ok s
  | s, a :: as =>
    match f s a with
    | .error e => .error e
    | .ok s' => loopE f s' as

/-- Python's `range(a, b, step)` for `step > 0`. -/
def pyRange (a b step : Int) : List Int :=
  (List.range ((b - a + step - 1) / step).toNat).map fun (k : Nat) => a + step * (k : Int)

/-- A lattice position, `latticebase.py:92`. -/
abbrev Pos := Int × Int

/-- `StabGroup`, `latticebase.py:54-69`. -/
inductive StabGroup
  | U | A | B
  deriving DecidableEq, Repr

/-- `Edge`, `latticebase.py:232-251`. -/
structure LEdge where
  op : Pos
  data : Pos
  factor : Letter
  step : Option Nat
  deriving DecidableEq, Repr

/-- `CodeLattice`, `latticebase.py:276-353`.  `indexed` is the list of all vertices when indices were last assigned: the
index `equbit_idx` of a vertex is its place in this list (and also `dataqubit_idx` for data qubits, which come first). -/
structure Lattice where
  rows : Nat
  cols : Nat
  dataqubits : List Pos
  stabgens : List (Pos × StabGroup)
  logicals : List (Pos × List Char)
  edges : List LEdge
  timeSteps : Option Nat
  equbits : List Pos
  indexed : List Pos
  keepGauge : List Char
  boundaryJoin : Bool
  deriving DecidableEq

/-- `CodeLattice.__init__`, `latticebase.py:340-354`. -/
def Lattice.empty (rows cols : Nat) : Lattice :=
  { rows := rows, cols := cols, dataqubits := [], stabgens := [], logicals := [], edges := [], timeSteps := none,
    equbits := [], indexed := [], keepGauge := "none".toList, boundaryJoin := false }

/-- All occupied positions. -/
def Lattice.occupied (L : Lattice) : List Pos := L.dataqubits ++ L.stabgens.map Prod.fst ++ L.logicals.map Prod.fst

/-- The access `self.lattice[pos]`: raises if the position is outside of the array. -/
def Lattice.access (L : Lattice) (p : Pos) : Except Err Unit :=
  if p.1 < 0 ∨ p.2 < 0 then .error .unmodelled
  else if p.1 ≥ L.rows ∨ p.2 ≥ L.cols then .error .indexError
  else .ok ()

/-- `assert self.lattice[pos] is None`. -/
def Lattice.assertFree (L : Lattice) (p : Pos) : Except Err Unit :=
  match L.access p with
  | .error e => .error e
  | .ok () => if p ∈ L.occupied then .error .assertionError else .ok ()

/-- `add_data`, `latticebase.py:429-435`. -/
def Lattice.addData (L : Lattice) (p : Pos) : Except Err Lattice :=
  match L.assertFree p with
  | .error e => .error e
  | .ok () => .ok { L with dataqubits := L.dataqubits ++ [p] }

/-- `add_stabgen`, `latticebase.py:437-443`. -/
def Lattice.addStabgen (L : Lattice) (p : Pos) (g : StabGroup) : Except Err Lattice :=
  match L.assertFree p with
  | .error e => .error e
  | .ok () => .ok { L with stabgens := L.stabgens ++ [(p, g)] }

/-- `add_logical`, `latticebase.py:445-452`. -/
def Lattice.addLogical (L : Lattice) (p : Pos) (name : List Char) : Except Err Lattice :=
  match L.assertFree p with
  | .error e => .error e
  | .ok () => .ok { L with logicals := L.logicals ++ [(p, name)] }

/-- The edge with this operator and data qubit exists (`data in op.neighbours`). -/
def Lattice.hasEdge (L : Lattice) (op data : Pos) : Bool := L.edges.any fun e => e.op = op ∧ e.data = data

/-- `add_edge`, `latticebase.py:454-463`. -/
def Lattice.addEdge (L : Lattice) (data op : Pos) (factor : Letter) : Except Err Lattice :=
  if L.hasEdge op data then .error .assertionError
  else .ok { L with edges := L.edges ++ [{ op := op, data := data, factor := factor, step := none }] }

/-- `self.add_edge(self.lattice[p], op, factor)`: the position must hold a vertex (else `None` has no attribute
`neighbours`); a position that holds an operator instead of a data qubit is outside of the model. -/
def Lattice.addEdgeAt (L : Lattice) (p op : Pos) (factor : Letter) : Except Err Lattice :=
  match L.access p with
  | .error e => .error e
  | .ok () =>
    if p ∈ L.dataqubits then L.addEdge p op factor
    else if p ∈ L.occupied then .error .unmodelled
    else .error .attributeError

/-- The attribute `edges` of an operator vertex. -/
def Lattice.opEdges (L : Lattice) (op : Pos) : List LEdge := L.edges.filter fun e => e.op = op

/-- The attribute `edges` of a data qubit. -/
def Lattice.dataEdges (L : Lattice) (data : Pos) : List LEdge := L.edges.filter fun e => e.data = data

/-- `remove_edge`, `latticebase.py:465-475`. -/
def Lattice.removeEdge (L : Lattice) (e : LEdge) : Except Err Lattice :=
  if L.hasEdge e.op e.data then
    .ok { L with edges := L.edges.eraseP fun e' => e'.op = e.op ∧ e'.data = e.data }
  else .error .assertionError

/-- `remove_vertex`, `latticebase.py:477-499`. (A vertex is in `equbits` once indices have been assigned.) -/
def Lattice.removeVertex (L : Lattice) (p : Pos) : Except Err Lattice :=
  if p ∉ L.occupied then .error .assertionError
  else if L.edges.any fun e => e.op = p ∨ e.data = p then .error .valueError
  else .ok { L with
    dataqubits := L.dataqubits.filter (· ≠ p)
    stabgens := L.stabgens.filter (·.1 ≠ p)
    logicals := L.logicals.filter (·.1 ≠ p)
    equbits := L.equbits.filter (· ≠ p) }

/-- `assign_indices`, `latticebase.py:356-386`. -/
def Lattice.assignIndices (L : Lattice) : Lattice := { L with equbits := L.occupied, indexed := L.occupied }

/-- The attribute `equbit_idx` (or `dataqubit_idx` of a data qubit). -/
def Lattice.idx (L : Lattice) (p : Pos) : Nat := L.indexed.idxOf p

/-- `_periodic_boundary_time_step`, `latticebase.py:414-427`. -/
def periodicStep (d : Int) : Int := if d > 0 then -1 else 1

/-- `isinstance(edge.op, StabGenVertex)`. -/
def Lattice.isStab (L : Lattice) (p : Pos) : Bool := L.stabgens.any fun s => s.1 = p

/-- One coordinate of the direction of an edge, `latticebase.py:404-409`. -/
def stepDir (d : Int) : Int := if d.natAbs > 1 then periodicStep d else d

/-- The loop body of `assign_stab_edge_order`, `latticebase.py:401-410`. (`order.index` raises `ValueError` if the
direction is not in the list.) -/
def Lattice.orderEdge (L : Lattice) (order : List (Int × Int)) (e : LEdge) : Except Err LEdge :=
  if L.isStab e.op then
    let d := (stepDir (e.data.1 - e.op.1), stepDir (e.data.2 - e.op.2))
    if d ∈ order then .ok { e with step := some (order.idxOf d) } else .error .valueError
  else .ok e

/-- A loop that replaces every entry of a list. -/
def mapLoop {α β : Type} (f : α → Except Err β) : List α → Except Err (List β)
  | [] => .ok []
  | a :: as =>
    match f a with
    | .error e => .error e
    | .ok b => match mapLoop f as with
      | .error e => .error e
      | .ok bs => .ok (b :: bs)

/-- `assign_stab_edge_order`, `latticebase.py:388-410`. -/
def Lattice.assignOrder (L : Lattice) (order : List (Int × Int)) : Except Err Lattice :=
  match mapLoop (L.orderEdge order) L.edges with
  | .error e => .error e
  | .ok es => .ok { L with timeSteps := some order.length, edges := es }

/-! ### Operators of the lattice -/

/-- `edge.factor.name` -/
def Letter.char : Letter → Char
  | .X => 'X'
  | .Y => 'Y'
  | .Z => 'Z'

/-- The loop of `_vertices_to_operators` over the sorted indices, `latticebase.py:524-534`: fill up with `I`, then add the
letter. -/
def fillString : List Char → List (Nat × Letter) → List Char
  | s, [] => s
  | s, (q, l) :: rest => fillString (s ++ List.replicate (q - s.length) 'I' ++ [l.char]) rest

/-- The dictionary `operators` of an operator (its keys are distinct), sorted by key, `latticebase.py:521-524`. -/
def Lattice.opDict (L : Lattice) (op : Pos) : List (Nat × Letter) :=
  ((L.opEdges op).map fun e => (L.idx e.data, e.factor)).mergeSort fun a b => a.1 ≤ b.1

/-- One operator of `_vertices_to_operators`, `latticebase.py:502-536`. -/
def Lattice.operator (L : Lattice) (op : Pos) : Except Err AnyOp :=
  stringToPauli (fillString [] (L.opDict op)) (some L.dataqubits.length)

/-- The property `stabilisers`, `latticebase.py:538-541`. -/
def Lattice.stabilisers (L : Lattice) : Except Err (List AnyOp) := mapLoop (fun s => L.operator s.1) L.stabgens

/-- The property `logical_operators`, `latticebase.py:543-546`. -/
def Lattice.logicalOperators (L : Lattice) : Except Err (List AnyOp) := mapLoop (fun s => L.operator s.1) L.logicals

/-! ### Fabrication errors -/

/-- The loop body of `create_superstab`, `latticebase.py:631-638`. -/
def Lattice.mergeEdge (keep : Pos) (L : Lattice) (e : LEdge) : Except Err Lattice :=
  match L.removeEdge e with
  | .error x => .error x
  | .ok L =>
    match (L.opEdges keep).find? (fun e2 => e2.data = e.data) with
    | some e2 => if e2.factor = e.factor then L.removeEdge e2 else .error .assertionError
    | none => L.addEdge e.data keep e.factor

/-- `create_superstab`, `latticebase.py:619-639`. -/
def Lattice.createSuperstab (L : Lattice) (keep remove : Pos) : Except Err Lattice :=
  if L.isStab keep ∧ L.isStab remove then
    match loopE (Lattice.mergeEdge keep) L (L.opEdges remove) with
    | .error x => .error x
    | .ok L => L.removeVertex remove
  else .error .assertionError

/-- The loop body of `multiply_logical_with_stab`, `latticebase.py:660-666`. -/
def Lattice.mulEdge (log : Pos) (L : Lattice) (e : LEdge) : Except Err Lattice :=
  match (L.opEdges log).find? (fun e2 => e2.data = e.data) with
  | some e2 => if e2.factor = e.factor then L.removeEdge e2 else .error .assertionError
  | none => L.addEdge e.data log e.factor

/-- `multiply_logical_with_stab`, `latticebase.py:656-666`. (The list of edges of the stabiliser does not change in the
loop.) -/
def Lattice.multiplyLogical (L : Lattice) (log stab : Pos) : Except Err Lattice :=
  loopE (Lattice.mulEdge log) L (L.opEdges stab)

/-- `remove_stabilizer`, `latticebase.py:668-672`. -/
def Lattice.removeStabilizer (L : Lattice) (stab : Pos) : Except Err Lattice :=
  match loopE Lattice.removeEdge L (L.opEdges stab) with
  | .error x => .error x
  | .ok L => L.removeVertex stab

/-- `stab_edges[edge.factor].append(edge)` with a new list for a new key. -/
def groupAdd (groups : List (Letter × List LEdge)) (e : LEdge) : List (Letter × List LEdge) :=
  if groups.any fun g => g.1 = e.factor then
    groups.map fun g => if g.1 = e.factor then (g.1, g.2 ++ [e]) else g
  else groups ++ [(e.factor, [e])]

/-- The edges of the stabilisers at a data qubit, by factor, `latticebase.py:703-713`. -/
def Lattice.stabGroups (L : Lattice) (q : Pos) : List (Letter × List LEdge) :=
  ((L.dataEdges q).filter fun e => L.isStab e.op).foldl groupAdd []

/-- The loop body of `remove_dataqubit` over the edges of the logical operators, `latticebase.py:715-721`.
(`NoLogicalOperatorError` is a `ValueError`.) -/
def Lattice.clearLogical (groups : List (Letter × List LEdge)) (L : Lattice) (e : LEdge) : Except Err Lattice :=
  match groups.find? (fun g => g.1 = e.factor) with
  | none => .error .valueError
  | some (_, []) => .error .indexError
  | some (_, s :: _) => L.multiplyLogical e.op s.op

/-- `remove_edge(edges[0]); remove_edge(edges[1])` -/
def Lattice.removePair (L : Lattice) (edges : List LEdge) : Except Err Lattice :=
  match edges with
  | a :: b :: _ =>
    match L.removeEdge a with
    | .error x => .error x
    | .ok L => L.removeEdge b
  | _ => .error .indexError

/-- `create_superstab_from_edges`, `latticebase.py:641-654`. -/
def Lattice.superstabFromEdges (L : Lattice) (edges : List LEdge) : Except Err Lattice :=
  match edges with
  | [a, b] => L.createSuperstab a.op b.op
  | _ => .error .assertionError

/-- The loop body of `_boundary_qubit_remove_stabilizer`, `latticebase.py:751-766`. -/
def Lattice.boundaryRemove (L : Lattice) (edges : List LEdge) : Except Err Lattice :=
  match edges with
  | [a] => L.removeStabilizer a.op
  | [_, _] => L.removePair edges
  | _ => .error .valueError

/-- The loop body of `_boundary_qubit_join_stabilizers`, `latticebase.py:768-779`. -/
def Lattice.boundaryJoinStep (L : Lattice) (edges : List LEdge) : Except Err Lattice :=
  match edges with
  | [a] => L.removeEdge a
  | [_, _] => L.superstabFromEdges edges
  | _ => .error .valueError

/-- `_handle_dataqubit_edgegroups`, `latticebase.py:725-749`. -/
def Lattice.handleGroups (L : Lattice) (groups : List (List LEdge)) : Except Err Lattice :=
  if groups.all fun es => es.length = 2 then
    if L.keepGauge = "none".toList then loopE Lattice.superstabFromEdges L groups
    else if L.keepGauge = "half".toList then
      match groups with
      | [] => .error .indexError
      | g :: gs =>
        match L.superstabFromEdges g with
        | .error x => .error x
        | .ok L => loopE Lattice.removePair L gs
    else if L.keepGauge = "all".toList then loopE Lattice.removePair L groups
    else .error .valueError
  else if L.boundaryJoin then loopE Lattice.boundaryJoinStep L groups
  else loopE Lattice.boundaryRemove L groups

/-- `remove_dataqubit`, `latticebase.py:683-723`. (The warning of `_fabrication_error_warning` has no effect on the
lattice.) -/
def Lattice.removeDataqubit (L : Lattice) (q : Pos) : Except Err Lattice :=
  let groups := L.stabGroups q
  let logical := (L.dataEdges q).filter fun e => !L.isStab e.op
  match loopE (Lattice.clearLogical groups) L logical with
  | .error x => .error x
  | .ok L =>
    match L.handleGroups (groups.map Prod.snd) with
    | .error x => .error x
    | .ok L => L.removeVertex q

/-- A data qubit or stabiliser named by position (`tuple`) or extended index (`int`). -/
inductive VertexRef
  | pos (p : Pos)
  | idx (i : Nat)

/-- `self.lattice[pos] if isinstance(pos, tuple) else self.equbits[pos]`: the position of the vertex; an empty place of
the lattice is `none`. -/
def Lattice.resolve (L : Lattice) : VertexRef → Except Err (Option Pos)
  | .pos p =>
    match L.access p with
    | .error e => .error e
    | .ok () => .ok (if p ∈ L.occupied then some p else none)
  | .idx i =>
    match L.equbits[i]? with
    | some p => .ok (some p)
    | none => .error .indexError

/-- A reference that must name a data qubit. -/
def Lattice.resolveData (L : Lattice) (r : VertexRef) : Except Err Pos :=
  match L.resolve r with
  | .error e => .error e
  | .ok (some p) => if p ∈ L.dataqubits then .ok p else .error .valueError
  | .ok none => .error .valueError

/-- A reference that must name a stabiliser generator. -/
def Lattice.resolveStab (L : Lattice) (r : VertexRef) : Except Err Pos :=
  match L.resolve r with
  | .error e => .error e
  | .ok (some p) => if L.isStab p then .ok p else .error .valueError
  | .ok none => .error .valueError

/-- The faulty gates, `latticebase.py:852-872`. (The two positions are looked up before the two checks; which of several
errors is raised first is not modelled: all but an index outside of the lattice are `ValueError`s.) -/
def Lattice.gateQubit (L : Lattice) (g : VertexRef × VertexRef) : Except Err Pos :=
  match L.resolveStab g.1 with
  | .error e => .error e
  | .ok s =>
    match L.resolveData g.2 with
    | .error e => .error e
    | .ok q => if L.hasEdge s q then .ok q else .error .valueError

/-- The data qubits of a faulty stabiliser, `latticebase.py:873-879`. -/
def Lattice.stabQubits (L : Lattice) (r : VertexRef) : Except Err (List Pos) :=
  match L.resolveStab r with
  | .error e => .error e
  | .ok s => .ok ((L.opEdges s).map (·.data))

/-- Comparison of positions (tuples). -/
def posLe (a b : Pos) : Bool := a.1 < b.1 || (a.1 == b.1 && a.2 ≤ b.2)

/-- `_fabrication_errors_get_remove_qubits` and the sorting of its result, `latticebase.py:824-831, 833-880`: the
positions of the data qubits that are removed, without repetition, in ascending order. -/
def Lattice.toRemove (L : Lattice) (qubits : List VertexRef) (gates : List (VertexRef × VertexRef))
    (stabs : List VertexRef) : Except Err (List Pos) :=
  match mapLoop L.resolveData qubits with
  | .error e => .error e
  | .ok a =>
    match mapLoop L.gateQubit gates with
    | .error e => .error e
    | .ok b =>
      match mapLoop L.stabQubits stabs with
      | .error e => .error e
      | .ok c => .ok ((a ++ b ++ c.flatten).dedup.mergeSort posLe)

/-- `apply_fabrication_errors`, `latticebase.py:781-831`. -/
def Lattice.applyFabrication (L : Lattice) (qubits : List VertexRef) (gates : List (VertexRef × VertexRef))
    (stabs : List VertexRef) (keepGauge : Option (List Char)) (boundaryJoin : Option Bool) : Except Err Lattice :=
  let L := { L with keepGauge := keepGauge.getD L.keepGauge, boundaryJoin := boundaryJoin.getD L.boundaryJoin }
  match L.toRemove qubits gates stabs with
  | .error e => .error e
  | .ok qs =>
    match loopE Lattice.removeDataqubit L qs with
    | .error e => .error e
    | .ok L => .ok L.assignIndices

end Plaquette
