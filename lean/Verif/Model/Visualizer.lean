import Verif.Model.Weights

/-!
# Model of `LatticeVisualizer`, `src/plaquette/visualizer/__init__.py`

A figure is modelled by what is given to Plotly: for each group of markers their positions, hover texts and colours, and for each kind
of edge its points. Sizes, symbols and the names of the colours are not modelled. Positions are rational numbers (floats in the code).

The indices of the lattice are up to date, as in `Verif.Model.Weights`. `order` is the list `vertices` of the lattice, which
`Verif.Model.Lattice` does not have.
-/

namespace Plaquette

/-- The column `type_group`: data qubits, logical operators, `p_err_X` ... `p_corr_Z`, and `stab_A`, `stab_A_toggled` etc. -/
inductive VGroup
  | data
  | log
  | frame (corr isX : Bool)
  | stab (group : StabGroup) (toggled : Bool)
  deriving DecidableEq, Repr

/-- A row of the data frame of the vertices. -/
structure VRow where
  x : ℚ
  y : ℚ
  group : VGroup
  hover : List Char
  deriving DecidableEq

/-- A row of the data frame of the edges; `none` is a row of `nan`. -/
abbrev ERow := Letter × Option (ℚ × ℚ)

variable {P : Type}

/-- The texts of one data qubit, `visualizer/__init__.py:104-113`; `text` is the text of a number. -/
def dataHover (text : P → List Char) (L : Lattice) (p : Pos) : Option P → List Char
  | none => "Data qubit ".toList ++ Nat.toDigits 10 (L.idx p) ++ "<br />Ext. qubit ".toList ++ Nat.toDigits 10 (L.idx p)
  | some v => "Data qubit ".toList ++ Nat.toDigits 10 (L.idx p) ++ "<br />Ext. qubit ".toList ++ Nat.toDigits 10 (L.idx p) ++
      "<br />p = ".toList ++ text v

/-- The text of a stabiliser generator, `visualizer/__init__.py:118-123`. -/
def stabHover (L : Lattice) (p : Pos) (toggled : Bool) : List Char :=
  "Stabgen ".toList ++ Nat.toDigits 10 (L.stabIdx p) ++ "<br />Ext. qubit ".toList ++ Nat.toDigits 10 (L.idx p) ++
    if toggled then "<br /><b>Syndrome set</b>".toList else []

/-- The text of a logical operator, `visualizer/__init__.py:127-130`. -/
def logHover (L : Lattice) (p : Pos) (name : List Char) : List Char :=
  name ++ "<br />Logical ".toList ++ Nat.toDigits 10 (L.idx p - L.dataqubits.length - L.stabgens.length) ++
    "<br />Ext. qubit ".toList ++ Nat.toDigits 10 (L.idx p)

/-- The body of the loop over the vertices in `_mk_df`, `visualizer/__init__.py:99-133`; the state is `i` and the rows. -/
def vertStep (text : P → List Char) (L : Lattice) (probs : Option (List P)) (syndrome : Option (List Bool)) (s : Nat × List VRow)
    (p : Pos) : Except Err (Nat × List VRow) :=
  if p ∈ L.dataqubits then
    match probs with
    | none => .ok (s.1 + 1, s.2 ++ [⟨p.1, p.2, .data, dataHover text L p none⟩])
    | some ps =>
      match ps[s.1]? with
      | none => .error .indexError
      | some v => .ok (s.1 + 1, s.2 ++ [⟨p.1, p.2, .data, dataHover text L p (some v)⟩])
  else
    match L.stabgens.find? fun g => g.1 = p with
    | some g =>
      match syndrome with
      | none => .ok (s.1, s.2 ++ [⟨p.1, p.2, .stab g.2 false, stabHover L p false⟩])
      | some bits =>
        match bits[L.stabIdx p]? with
        | none => .error .indexError
        | some b => .ok (s.1, s.2 ++ [⟨p.1, p.2, .stab g.2 b, stabHover L p b⟩])
    | none =>
      match L.logicals.find? fun g => g.1 = p with
      | some g => .ok (s.1, s.2 ++ [⟨p.1, p.2, .log, logHover L p g.2⟩])
      | none => .error .typeError

/-- The rows of the edges in `_mk_df`, `visualizer/__init__.py:134-138`. -/
def edgeRows (L : Lattice) : List ERow :=
  L.edges.flatMap fun e => [(e.factor, some ((e.op.1 : ℚ), (e.op.2 : ℚ))), (e.factor, some ((e.data.1 : ℚ), (e.data.2 : ℚ))), (e.factor, none)]

/-- `_mk_df`, `visualizer/__init__.py:91-145`. -/
def mkDf (text : P → List Char) (L : Lattice) (order : List Pos) (probs : Option (List P)) (syndrome : Option (List Bool)) :
    Except Err (List VRow × List ERow) :=
  match syndrome with
  | some bits =>
    if bits.length ≠ L.stabgens.length then .error .assertionError
    else do
      let s ← loopE (vertStep text L probs (some bits)) (0, []) order
      .ok (s.2, edgeRows L)
  | none => do
    let s ← loopE (vertStep text L probs none) (0, []) order
    .ok (s.2, edgeRows L)

/-- A Pauli frame as given to the visualizer: the bits of one operator (the sign is not looked at). -/
structure FrameBits where
  x : List Bool
  z : List Bool

/-- The argument `error` or `correction`: an operator, or a list of operators. -/
inductive FrameArg
  | bare (f : FrameBits)
  | list (fs : List FrameBits)

/-- `_frame_offsets`, `visualizer/__init__.py:147-153`. -/
def frameOffset : Bool → Bool → ℚ × ℚ
  | false, true => (15 / 100, -15 / 100)
  | false, false => (-15 / 100, -15 / 100)
  | true, true => (15 / 100, 15 / 100)
  | true, false => (-15 / 100, 15 / 100)

/-- `ops[0]` of one frame, `visualizer/__init__.py:169-178`: the factors of the operator (`true` is `X`). -/
def frameOps (f : FrameBits) : List (Nat × Bool) :=
  ((List.zip f.x f.z).zipIdx).flatMap fun e =>
    (if e.1.1 then [(e.2, true)] else []) ++ if e.1.2 then [(e.2, false)] else []

/-- The body of the loop over the factors, `visualizer/__init__.py:180-191`. -/
def frameStep (L : Lattice) (corr : Bool) (only : Option Bool) (rows : List VRow) (e : Nat × Bool) : Except Err (List VRow) :=
  if only.isSome ∧ only ≠ some e.2 then .ok rows
  else
    match L.dataqubits[e.1]? with
    | none => .error .indexError
    | some p =>
      .ok (rows ++ [⟨p.1 + (frameOffset corr e.2).1, p.2 + (frameOffset corr e.2).2, .frame corr e.2,
        "Data qubit ".toList ++ Nat.toDigits 10 e.1⟩])

/-- `len(frame) == 1`, `visualizer/__init__.py:162-163`: the length of an operator on `k` qubits is `2 k + 1`. (An operator on no
qubits passes the assertion; what happens then is not modelled.) -/
def FrameArg.check : Option FrameArg → Except Err (List FrameBits)
  | none => .ok []
  | some (.bare f) => if f.x.length + f.z.length + 1 = 1 then .error .unmodelled else .error .assertionError
  | some (.list fs) => if fs.length = 1 then .ok fs else .error .assertionError

/-- `assert only_pauli in (None, "X", "Z")`, `visualizer/__init__.py:164`. -/
def onlyPauli : Option (List Char) → Except Err (Option Bool)
  | none => .ok none
  | some c => if c = ['X'] then .ok (some true) else if c = ['Z'] then .ok (some false) else .error .assertionError

/-- `_mk_pauliframe_df`, `visualizer/__init__.py:155-192`. -/
def mkFrameDf (L : Lattice) (err corr : Option FrameArg) (only : Option (List Char)) : Except Err (List VRow) := do
  let e ← FrameArg.check err
  let c ← FrameArg.check corr
  let o ← onlyPauli only
  let rows ← loopE (frameStep L false o) [] (e.flatMap frameOps)
  loopE (frameStep L true o) rows (c.flatMap frameOps)

/-- What is given to Plotly: lines, and groups of markers; `colours` are the colours of the markers if they are probabilities.
`grey` says whether the grey options are used. -/
structure Fig (P : Type) where
  lines : List (Letter × List (Option (ℚ × ℚ)))
  marks : List (VGroup × Option (List P) × List VRow)
  grey : Bool

/-- The values of `type_group` in the order of the texts, which is the order of `groupby`. -/
def allGroups : List VGroup :=
  [.data, .log, .frame true true, .frame true false, .frame false true, .frame false false,
    .stab .A false, .stab .A true, .stab .B false, .stab .B true, .stab .U false, .stab .U true]

/-- `_draw`, `visualizer/__init__.py:283-325`. There are no options for edges `Y`. -/
def drawFig (probs : Option (List P)) (grey : Bool) (vs : List VRow) (es : List ERow) : Except Err (Fig P) :=
  if es.any fun e => e.1 = .Y then .error .keyError
  else .ok
    { lines := [Letter.X, .Z].filterMap fun a =>
        if es.any fun e => e.1 = a then some (a, (es.filter fun e => e.1 = a).map Prod.snd) else none
      marks := allGroups.filterMap fun g =>
        if vs.any fun r => r.group = g then some (g, if g = .data then probs else none, vs.filter fun r => r.group = g) else none
      grey := grey }

/-- The visualizer: its lattice, the probabilities, and whether the options are stored in `_vertex_kw` (they are grey now). -/
structure Viz (P : Type) where
  lattice : Lattice
  order : List Pos
  probs : Option (List P)
  stored : Bool

/-- `LatticeVisualizer.__init__`, `visualizer/__init__.py:69-89`, for a lattice with two dimensions (all lattices of the model). -/
def mkViz (L : Lattice) (order : List Pos) (probs : Option (List P)) : Except Err (Viz P) :=
  match probs with
  | some ps => if ps.length ≠ L.dataqubits.length then .error .valueError else .ok ⟨L, order, probs, false⟩
  | none => .ok ⟨L, order, probs, false⟩

/-- `draw_lattice`, `visualizer/__init__.py:327-338`. -/
def Viz.drawLattice (text : P → List Char) (v : Viz P) : Except Err (Fig P) := do
  let df ← mkDf text v.lattice v.order v.probs none
  drawFig v.probs v.stored df.1 df.2

/-- The rows that `draw_latticedata` draws, `visualizer/__init__.py:369-374`. -/
def Viz.rows (text : P → List Char) (v : Viz P) (syndrome : Option (List Bool)) (err corr : Option FrameArg)
    (only : Option (List Char)) (drawStabs drawEdges : Bool) : Except Err (List VRow × List ERow) := do
  let df ← mkDf text v.lattice v.order v.probs syndrome
  if !drawStabs && df.1.isEmpty then .error .attributeError
  else do
    let fs ← mkFrameDf v.lattice err corr only
    .ok ((if drawStabs then df.1 else df.1.filter fun r => r.group = .data) ++ fs, if drawEdges then df.2 else [])

/-- `draw_latticedata`, `visualizer/__init__.py:340-380`, with `_set_grey` and `_reset_grey`: the figure, and the visualizer afterwards. -/
def Viz.drawData (text : P → List Char) (v : Viz P) (syndrome : Option (List Bool)) (err corr : Option FrameArg)
    (only : Option (List Char)) (grey drawStabs drawEdges : Bool) : Except Err (Fig P) × Viz P :=
  match v.rows text syndrome err corr only drawStabs drawEdges with
  | .error e => (.error e, v)
  | .ok df =>
    if grey then
      if v.stored then (.error .assertionError, v)
      else
        match drawFig v.probs true df.1 df.2 with
        | .error e => (.error e, { v with stored := true })
        | .ok f => (.ok f, v)
    else (drawFig v.probs v.stored df.1 df.2, v)

/-! ### The list of vertices -/

/-- The lists of a lattice that have vertices: `vertices`, `dataqubits`, `stabgens`, `logical_ops`; `latticebase.py:348-351`. -/
structure VLists where
  vertices : List Pos
  data : List Pos
  stabs : List Pos
  logs : List Pos

/-- `add_data`, `add_stabgen`, `add_logical` and `remove_vertex` on these lists, `latticebase.py:429-452, 476-499`. -/
inductive VLists.Step : VLists → VLists → Prop
  | addData {l : VLists} {p : Pos} (h : p ∉ l.vertices) : Step l { l with vertices := l.vertices ++ [p], data := l.data ++ [p] }
  | addStab {l : VLists} {p : Pos} (h : p ∉ l.vertices) : Step l { l with vertices := l.vertices ++ [p], stabs := l.stabs ++ [p] }
  | addLog {l : VLists} {p : Pos} (h : p ∉ l.vertices) : Step l { l with vertices := l.vertices ++ [p], logs := l.logs ++ [p] }
  | removeData {l : VLists} {p : Pos} (h : p ∈ l.data) : Step l { l with vertices := l.vertices.erase p, data := l.data.erase p }
  | removeStab {l : VLists} {p : Pos} (h : p ∈ l.stabs) : Step l { l with vertices := l.vertices.erase p, stabs := l.stabs.erase p }
  | removeLog {l : VLists} {p : Pos} (h : p ∈ l.logs) : Step l { l with vertices := l.vertices.erase p, logs := l.logs.erase p }

/-- The lists of a lattice that was made with these functions. -/
inductive VLists.Made : VLists → Prop
  | empty : Made ⟨[], [], [], []⟩
  | step {l l' : VLists} : Made l → Step l l' → Made l'

end Plaquette
