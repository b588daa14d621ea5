import Verif.Model.Syngraph
import Verif.Model.UnionFind
import Verif.Model.Codes
import Mathlib.Order.WithBot

/-!
# Model of `src/plaquette/decoders/decoderbase.py`, `unionfind_interfaces.py` and of the part of `syngraph` used by a decoding run

A backend (a class derived from `DecoderBackendInterface`) is what `set_syngraph` makes of a component, and what `decode` makes of
that and of the erasure and the syndrome of the component. Decoding sets fields of the syndrome graph (`erased`, `syndrome`,
`decoder_result`); all those that are read are set before, in the same call of `decode`, so that they are values here.
-/

namespace Plaquette

/-- Weights: floats, as rationals with both infinities. -/
abbrev FW := WithBot (WithTop ℚ)

/-- `np.isinf` -/
def FW.isInf (w : FW) : Bool := decide (w = ⊥) || decide (w = ((⊤ : WithTop ℚ) : FW))

/-- The value of a finite weight. -/
def FW.rat : FW → Option ℚ
  | some (some q) => some q
  | _ => none

/-- `SyndromeGraphComponent.is_weighted(support_mixed=False)`, `syngraph/__init__.py:549-564`. -/
def isWeighted {W : Type} (ws : List (Option W)) : Except Err Bool :=
  if ws.all (·.isNone) then .ok false
  else if ws.any (·.isNone) then .error .valueError
  else .ok true

/-- `check_weights_sane`, `decoderbase.py:28-75` (warnings left out). -/
def checkWeightsSane (ws : List (Option FW)) : Except Err Unit :=
  if ws.any (·.isNone) then .error .valueError
  else if ws.any fun w => match w with | some w => decide (w < ((0 : ℚ) : FW)) | none => false then .error .valueError
  else .ok ()

/-- A backend: `set_syngraph` and `decode`. -/
structure Backend (W σ : Type) where
  setup : Component W → Except Err σ
  decode : σ → List Bool → List Bool → Except Err (List Bool)

/-- The weights handed to union find: an infinite weight is not modelled (edges with infinite weights are not in a component). -/
def finiteWeights (ws : List (Option FW)) : Except Err (List ℚ) :=
  mapLoop (fun w => match w.bind FW.rat with | some q => .ok q | none => .error .unmodelled) ws

/-- `UnionFindBase.set_syngraph`, the choice of the weights, `unionfind_interfaces.py:53-57`. -/
def ufBackendWeights (ws : List (Option FW)) : Except Err (Option (List ℚ)) :=
  match isWeighted ws with
  | .error e => .error e
  | .ok false => .ok none
  | .ok true =>
    match checkWeightsSane ws with
    | .error e => .error e
    | .ok () =>
      match finiteWeights ws with
      | .error e => .error e
      | .ok l => .ok (some l)

/-- `UnionFindBase.set_syngraph`, `unionfind_interfaces.py:41-55`; the normalisation coefficient of a new decoder is 2,
`unionfind_decoder.py:577`. -/
def ufSetup (support : Bool) (c : Component FW) : Except Err UGraph :=
  match loopE (fun (_ : Unit) e => checkUEdge c.nVertices e) () c.edges with
  | .error x => .error x
  | .ok () =>
    match ufBackendWeights c.weights with
    | .error x => .error x
    | .ok w =>
      match ufWeights support c.edges.length 2 w with
      | .error x => .error x
      | .ok p => .ok ⟨c.nVertices, c.edges, p.1, p.2⟩

/-- `np.where(l)[0]` -/
def whereTrue (l : List Bool) : List Nat := (List.range l.length).filter fun i => l.getD i false

/-- `UnionFindDecoder.decode`, `unionfind_decoder.py:740-755`. -/
def ufDecode (g : UGraph) (erased syn : List Bool) : Except Err (List Bool) :=
  match g.unionFind (whereTrue erased) syn with
  | .error x => .error x
  | .ok sel => erasureDecode g.n g.edges sel (fun v => syn.getD v false)

/-- The backends `UnionFindDecoder` (`support`) and `UnionFindNoWeights`, `unionfind_interfaces.py:79-110`. -/
def ufBackend (support : Bool) : Backend FW UGraph := ⟨ufSetup support, ufDecode⟩

variable {W σ : Type}

/-- `components_with_edges`, `syngraph/__init__.py:824-826`. -/
def SynGraph.withEdges (g : SynGraph W) : List (Component W) := g.components.filter fun c => !c.edges.isEmpty

/-- `ComponentDecoder.set_syngraph`, `decoderbase.py:212-223`: the decoders of the components with edges. -/
def setupAll (b : Backend W σ) (g : SynGraph W) : Except Err (List σ) := mapLoop b.setup g.withEdges

/-- An array of the given shape. -/
def hasShape (r m : Nat) (a : List (List Bool)) : Bool := a.length == r && a.all fun l => l.length == m

/-- An array, or zeros for `None`; the assertion on the shape, `syngraph/__init__.py:909-914, 932-937`. -/
def arrayOr (r m : Nat) : Option (List (List Bool)) → Except Err (List (List Bool))
  | none => .ok (List.replicate r (List.replicate m false))
  | some a => if hasShape r m a then .ok a else .error .assertionError

/-- Entry `[t, i]` of an array. -/
def at2 (a : List (List Bool)) (t i : Nat) : Bool := (a.getD t []).getD i false

/-- `SyndromeGraph.set_erasure`, `syngraph/__init__.py:915-919`: whether an edge is erased. -/
def edgeErased (g : SynGraph W) (a : List (List Bool)) (i : Nat) : Bool :=
  match (g.edges[i]?).map SEdge.kind with
  | some (EdgeKind.qubit t _ q _) => at2 a t q
  | _ => false

/-- `SyndromeGraph.set_syndrome`, `syngraph/__init__.py:938-949`: the syndrome bit of a vertex. -/
def vertexSyndrome (g : SynGraph W) (a : List (List Bool)) (v : Nat) : Bool := at2 a (v / g.nStab) (v % g.nStab)

/-- The body of the loop of `ComponentDecoder._check_decodable`, `decoderbase.py:239-255`. -/
def checkDecodable (syn : Nat → Bool) (c : Component W) : Except Err Unit :=
  let s := c.vertexIdx.map syn
  match c.edges with
  | [] =>
    match s with
    | [true] => .error .valueError
    | [false] => .ok ()
    | _ => .error .assertionError
  | _ :: _ => if !c.hasDangling && (s.countP id) % 2 == 1 then .error .valueError else .ok ()

/-- `decoder.decode()` of one component: `unionfind_interfaces.py:72-78` and `set_edge_decoder_results`,
`syngraph/__init__.py:526-545`. -/
def decodeOne (b : Backend W σ) (g : SynGraph W) (er : List (List Bool)) (syn : List (List Bool)) (c : Component W × σ) :
    Except Err (List Nat × List Bool) :=
  match b.decode c.2 (c.1.edgeIdx.map (edgeErased g er)) (c.1.vertexIdx.map (vertexSyndrome g syn)) with
  | .error e => .error e
  | .ok corr => if corr.length = c.1.edges.length then .ok (c.1.edgeIdx, corr) else .error .assertionError

/-- `ComponentDecoder.decode`, `decoderbase.py:257-270`: for each component with edges its edges and the result for them. -/
def decodeAll (b : Backend W σ) (g : SynGraph W) (states : List σ) (erased syn : Option (List (List Bool))) :
    Except Err (List (List Nat × List Bool)) :=
  match arrayOr g.nRounds g.nQubits erased with
  | .error e => .error e
  | .ok er =>
    match arrayOr g.nRounds g.nStab syn with
    | .error e => .error e
    | .ok sy =>
      match loopE (fun (_ : Unit) c => checkDecodable (vertexSyndrome g sy) c) () g.components with
      | .error e => .error e
      | .ok () => mapLoop (decodeOne b g er sy) (g.withEdges.zip states)

/-- `edges[idx].set_decoder_result(result)` -/
def setResult (res : Nat → Bool) (p : Nat × Bool) : Nat → Bool := Function.update res p.1 p.2

/-- `SyndromeGraph.update_decoder_results`, `syngraph/__init__.py:974-979`. An edge that is not in a component keeps the value
`False` for ever. -/
def updateResults (rs : List (List Nat × List Bool)) : Nat → Bool :=
  rs.foldl (fun res p => (p.1.zip p.2).foldl setResult res) fun _ => false

/-- The body of the loop of `result_as_error_op_selection`, `syngraph/__init__.py:995-997`. -/
def selectOp (res : Nat → Bool) (sel : List Bool) (e : SEdge W × Nat) : List Bool :=
  match e.1.kind with
  | .qubit _ o _ _ => sel.modify o fun b => b ^^ res e.2
  | .stab _ _ => sel

/-- `result_as_error_op_selection`, `syngraph/__init__.py:981-998`. -/
def opSelection (g : SynGraph W) (n : Nat) (res : Nat → Bool) : List Bool :=
  g.edges.zipIdx.foldl (selectOp res) (List.replicate (errorOps n).length false)

/-- `result_as_pauli_frame`, `syngraph/__init__.py:1000-1010`. -/
def pauliFrame (g : SynGraph W) (n : Nat) (res : Nat → Bool) : Except Err (Op n) :=
  let ops := (whereTrue (opSelection g n res)).filterMap fun i => ((errorOps n)[i]?).map fun o => singleOp false o.1 o.2
  match ops with
  | [] => .ok (idOp n)
  | _ :: _ =>
    match multiply ops with
    | .error e => .error e
    | .ok p => .ok p.1

/-- `DecoderInterface.decode`, `decoderbase.py:405-425`. (`_update_syngraph` does nothing: `SyndromeGraphManager.update_for_decoding`
returns `Nothing`, `syngraph/__init__.py:1123-1135`.) -/
def decode (b : Backend W σ) (g : SynGraph W) (n : Nat) (states : List σ) (erased syn : Option (List (List Bool))) : Except Err (Op n) :=
  match decodeAll b g states erased syn with
  | .error e => .error e
  | .ok rs => pauliFrame g n (updateResults rs)

/-- The logical operators that were measured, `decoderbase.py:133-135`. -/
def measuredOps {n : Nat} (code : StabCode n) : Option LogicalSel → Except Err (List (Op n))
  | none => .ok code.logicalOps
  | some sel =>
    match logicalOpsToIndices code.logicalOps.length sel with
    | .error e => .error e
    | .ok idx => mapLoop (fun i => match code.logicalOps[i.toNat]? with | some o => .ok o | none => .error .indexError) idx

/-- `check_success`, `decoderbase.py:78-139`; `count_qubits` of a single operator is the number of its columns divided by two.
(`commutator_sign` raises an `IndexError` for an empty list of operators.) -/
def checkSuccess {n m : Nat} (code : StabCode n) (correction : Op m) (toggle : List Bool) (sel : Option LogicalSel) : Except Err Bool :=
  match measuredOps code sel with
  | .error e => .error e
  | .ok ops =>
    if ops.length ≠ toggle.length then .error .assertionError
    else if h : m = n then
      if ops = [] then .error .indexError
      else .ok ((ops.zip toggle).all fun p => commSign p.1 (h ▸ correction) == (if p.2 then 1 else 0))
    else .error .assertionError

end Plaquette
