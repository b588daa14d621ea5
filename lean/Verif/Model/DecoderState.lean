import Verif.Model.Decoder

/-!
# Model of the fields that a decoder keeps between two calls of `decode`

`src/plaquette/decoders/decoderbase.py`, `unionfind_interfaces.py`, `unionfind_decoder.py`, `unionfind_erasure.py` and the fields of
`SyndromeGraph` and `SyndromeGraphComponent` in `src/plaquette/syngraph/__init__.py`. In `Model.Decoder`, `Model.UnionFind` and
`Model.Erasure` every call of `decode` works on new values; here it works on what earlier calls have left behind, also if they ended
with an exception.
-/

namespace Plaquette

/-! ### Union find -/

/-- `Vertex.reset`, `unionfind_decoder.py:116-120`. -/
def UState.resetVertex (s : UState) (v : Nat) : UState :=
  { s with
    state := Function.update s.state v .unused
    parent := Function.update s.parent v none
    cluster := Function.update s.cluster v none }

/-- `Edge.reset`, `unionfind_decoder.py:242-244`. -/
def UState.resetEdge (s : UState) (i : Nat) : UState := { s with growth := Function.update s.growth i 0 }

/-- `Graph.reset`, `unionfind_decoder.py:379-386`, of a graph with `n` vertices and `m` edges. -/
def UState.reset (n m : Nat) (s : UState) : UState :=
  (List.range m).foldl UState.resetEdge ((List.range n).foldl UState.resetVertex
    { s with
      nClusters := 0, clusters := fun _ => { root := none, boundary := none, nVertices := 0, parity := 0, opened := false }
      openList := [] })

/-- `Vertex.set_syndrome`, `unionfind_decoder.py:122-124`. -/
def UState.setSyn (s : UState) (p : Nat × Bool) : UState := { s with syn := Function.update s.syn p.1 p.2 }

/-- `Graph.set_syndrome`, `unionfind_decoder.py:388-392`. -/
def UState.setSyndrome (n : Nat) (s : UState) (syn : List Bool) : Except Err UState :=
  if syn.length = n then .ok (((List.range n).zip syn).foldl UState.setSyn s) else .error .assertionError

/-- `Graph.init`, `unionfind_decoder.py:401-452`, on the fields left behind by the run before. -/
def UGraph.initFrom (g : UGraph) (s : UState) (erasure : List Nat) (syn : List Bool) : Except Err UState :=
  match (s.reset g.n g.edges.length).setSyndrome g.n syn with
  | .error x => .error x
  | .ok s =>
    match loopE g.eraseStep s erasure with
    | .error x => .error x
    | .ok s =>
      match loopE g.erasureEdge (s, fun _ => false) (List.range g.edges.length) with
      | .error x => .error x
      | .ok t => loopE g.syndromeVertex t.1 (List.range g.n)

/-- `union_find`, `unionfind_decoder.py:644-653`. -/
def UGraph.unionFindFrom (g : UGraph) (s : UState) (erasure : List Nat) (syn : List Bool) : Except Err (List Nat) :=
  match g.initFrom s erasure syn with
  | .error x => .error x
  | .ok s =>
    match g.run g.budget s with
    | .error x => .error x
    | .ok s => .ok ((List.range g.edges.length).filter (g.complete s))

/-- `clear_neighbours`, `unionfind_erasure.py:278-280`. -/
def EGraph.clearNeighbours (g : EGraph) : EGraph := { g with nbr := none }

/-- `reset_subgraph(False, False)`, `unionfind_erasure.py:164-173`. -/
def EGraph.resetSubgraph (g : EGraph) : EGraph := { g with vOn := fun _ => false, eOn := fun _ => false }

/-- `ErasureDecoder.decode`, `unionfind_erasure.py:393-406`, on the graph left behind by the run before. -/
def erasureDecodeFrom (g : EGraph) (sel : List Nat) (syn : Nat → Bool) : Except Err (List Bool) :=
  match g.clearNeighbours.resetSubgraph.enableEdges sel with
  | .error x => .error x
  | .ok g =>
    match g.updateNeighbours with
    | .error x => .error x
    | .ok g =>
      match constructForest g with
      | .error x => .error x
      | .ok f => peelForest f syn

/-- The union find decoder of a component: its graph with the weights, and the fields that change (`uf.graph`, `elib.graph`). -/
structure UfObj where
  graph : UGraph
  uf : UState
  er : EGraph

/-- `UnionFindDecoder.decode`, `unionfind_decoder.py:740-755`. -/
def UfObj.decode (o : UfObj) (erased syn : List Bool) : Except Err (List Bool) :=
  match o.graph.unionFindFrom o.uf (whereTrue erased) syn with
  | .error x => .error x
  | .ok sel => erasureDecodeFrom o.er sel (fun v => syn.getD v false)

/-! ### Decoders with fields -/

/-- A backend whose `decode` changes its fields. -/
structure ObjBackend (τ : Type) where
  decode : τ → List Bool → List Bool → τ × Except Err (List Bool)

/-- The union find decoders. What a run leaves behind in the fields `uf` and `er` is `left`: the theorems hold for all values. -/
def ufObjBackend (left : UfObj → List Bool → List Bool → UState × EGraph) : ObjBackend UfObj :=
  ⟨fun o er sy => ({ o with uf := (left o er sy).1, er := (left o er sy).2 }, o.decode er sy)⟩

/-- The fields of a `SyndromeGraphComponent` that change, `syngraph/__init__.py:462-475`, and its decoder (components with edges). -/
structure CompState (τ : Type) where
  syn : List Bool
  erased : List Bool
  result : List Bool
  new : Bool
  obj : Option τ

/-- The fields of a decoder and of its syndrome graph that change: those of the components and `decoder_result` of the edges. -/
structure DecState (τ : Type) where
  comps : List (CompState τ)
  edgeResult : Nat → Bool

variable {W σ τ : Type}

/-- `SyndromeGraph.set_erasure` after the checks, `syngraph/__init__.py:915-921`, for one component. -/
def CompState.setErasure (g : SynGraph W) (er : List (List Bool)) (c : Component W) (s : CompState τ) : CompState τ :=
  if c.edges.isEmpty then s else { s with erased := c.edgeIdx.map (edgeErased g er) }

/-- `SyndromeGraph.set_syndrome` after the checks, `syngraph/__init__.py:938-949`, for one component. -/
def CompState.setSyndrome (g : SynGraph W) (sy : List (List Bool)) (c : Component W) (s : CompState τ) : CompState τ :=
  { s with syn := c.vertexIdx.map (vertexSyndrome g sy) }

/-- The body of the loop of `ComponentDecoder._check_decodable`, `decoderbase.py:239-255`. -/
def CompState.check (c : Component W) (s : CompState τ) : Except Err Unit :=
  match c.edges with
  | [] =>
    match s.syn with
    | [true] => .error .valueError
    | [false] => .ok ()
    | _ => .error .assertionError
  | _ :: _ => if !c.hasDangling && (s.syn.countP id) % 2 == 1 then .error .valueError else .ok ()

/-- `for decoder in self.decoders: decoder.decode()`, `decoderbase.py:269-270`, with `set_edge_decoder_results`,
`syngraph/__init__.py:526-545`: the fields afterwards, and the exception. -/
def decodeComps (b : ObjBackend τ) : List (Component W) → List (CompState τ) → List (CompState τ) × Except Err Unit
  | c :: cs, s :: ss =>
    match s.obj with
    | none => (s :: (decodeComps b cs ss).1, (decodeComps b cs ss).2)
    | some o =>
      match (b.decode o s.erased s.syn).2 with
      | .error x => ({ s with obj := some (b.decode o s.erased s.syn).1 } :: ss, .error x)
      | .ok corr =>
        if corr.length = c.edges.length then
          ({ s with obj := some (b.decode o s.erased s.syn).1, result := corr, new := true } :: (decodeComps b cs ss).1,
            (decodeComps b cs ss).2)
        else ({ s with obj := some (b.decode o s.erased s.syn).1 } :: ss, .error .assertionError)
  | _, ss => (ss, .ok ())

/-- `ComponentDecoder.decode`, `decoderbase.py:257-270`. -/
def DecState.decodeAll (b : ObjBackend τ) (g : SynGraph W) (d : DecState τ) (erased syn : Option (List (List Bool))) :
    DecState τ × Except Err Unit :=
  match arrayOr g.nRounds g.nQubits erased with
  | .error e => (d, .error e)
  | .ok er =>
    let comps := List.zipWith (CompState.setErasure g er) g.components d.comps
    match arrayOr g.nRounds g.nStab syn with
    | .error e => ({ d with comps := comps }, .error e)
    | .ok sy =>
      let comps := List.zipWith (CompState.setSyndrome g sy) g.components comps
      match loopE (fun (_ : Unit) (p : Component W × CompState τ) => CompState.check p.1 p.2) () (g.components.zip comps) with
      | .error e => ({ d with comps := comps }, .error e)
      | .ok () => ({ d with comps := (decodeComps b g.components comps).1 }, (decodeComps b g.components comps).2)

/-- The body of the loop of `update_decoder_results`, `syngraph/__init__.py:976-979`. -/
def updateComp (res : Nat → Bool) (p : Component W × CompState τ) : Nat → Bool :=
  if p.1.edges.isEmpty then res else (p.1.edgeIdx.zip p.2.result).foldl setResult res

/-- `comp.decoder_results_new = False` -/
def CompState.seen (c : Component W) (s : CompState τ) : CompState τ := if c.edges.isEmpty then s else { s with new := false }

/-- `SyndromeGraph.update_decoder_results`, `syngraph/__init__.py:974-979`. -/
def DecState.update (g : SynGraph W) (d : DecState τ) : DecState τ :=
  { comps := List.zipWith CompState.seen g.components d.comps
    edgeResult := (g.components.zip d.comps).foldl updateComp d.edgeResult }

/-- `result_as_pauli_frame`, `syngraph/__init__.py:981-1010`. -/
def DecState.frame (g : SynGraph W) (n : Nat) (d : DecState τ) : Except Err (Op n) :=
  if (g.components.zip d.comps).any fun p => !p.1.edges.isEmpty && p.2.new then .error .valueError
  else pauliFrame g n d.edgeResult

/-- `DecoderInterface.decode`, `decoderbase.py:405-425`: the fields afterwards, and the result. -/
def DecState.decode (b : ObjBackend τ) (g : SynGraph W) (n : Nat) (d : DecState τ) (erased syn : Option (List (List Bool))) :
    DecState τ × Except Err (Op n) :=
  match d.decodeAll b g erased syn with
  | (d, .error e) => (d, .error e)
  | (d, .ok ()) => (d.update g, (d.update g).frame g n)

/-- The fields of new components and of their decoders: `SyndromeGraphComponent.__init__`, `syngraph/__init__.py:477-504`, and
`ComponentDecoder.set_syngraph`, `decoderbase.py:212-223`. (`edge_erased` is not set; it is not read before it is.) -/
def newComps : List (Component W) → List τ → List (CompState τ)
  | [], _ => []
  | c :: cs, os =>
    if c.edges.isEmpty then
      { syn := List.replicate c.nVertices false, erased := [], result := [], new := true, obj := none } :: newComps cs os
    else
      { syn := List.replicate c.nVertices false, erased := [], result := List.replicate c.edges.length false, new := true
        obj := os.head? } :: newComps cs os.tail

/-- A new decoder. -/
def DecState.start (g : SynGraph W) (os : List τ) : DecState τ := { comps := newComps g.components os, edgeResult := fun _ => false }

/-- One call of `decode` after the other; exceptions are caught. -/
def DecState.decodeMany (b : ObjBackend τ) (g : SynGraph W) (n : Nat) :
    DecState τ → List (Option (List (List Bool)) × Option (List (List Bool))) → List (Except Err (Op n))
  | _, [] => []
  | d, p :: ps => (d.decode b g n p.1 p.2).2 :: DecState.decodeMany b g n (d.decode b g n p.1 p.2).1 ps

/-! ### New weights -/

/-- The increments of the edges: a float, `none` is NaN. -/
abbrev Incr := Option ℚ

/-- `set_weights`, `unionfind_decoder.py:597-611, 712-717`, called by `UnionFindBase.update_weights`, `unionfind_interfaces.py:57-67`,
for weights that are all NaN (`some` otherwise not modelled here): `np.min` is NaN, and so are the increments. -/
def ufUpdateNaN (support : Bool) (m : Nat) : Except Err (List Incr) :=
  if support then .ok (List.replicate m none) else .error .valueError

/-- `UnionFindBase.update_weights`, `unionfind_interfaces.py:57-67`: the increments afterwards (weights all NaN, or all rational
numbers). -/
def ufUpdateWeights (support : Bool) (ws : List (Option FW)) : Except Err (List Incr) :=
  if ws.all (·.isNone) then ufUpdateNaN support ws.length
  else
    match finiteWeights ws with
    | .error x => .error x
    | .ok l =>
      match ufWeights support ws.length 2 (some l) with
      | .error x => .error x
      | .ok p => .ok ((List.range ws.length).map fun i => some (p.2 i))

end Plaquette
