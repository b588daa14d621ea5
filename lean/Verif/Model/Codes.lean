import Verif.Model.Lattice

/-!
# Model of `src/plaquette/codes/latticeinstances.py`, `CodeLatticeFromStab` and `src/plaquette/codes/__init__.py`

Sizes and numbers of rounds are natural numbers (a negative size raises `ValueError` in `np.zeros`).
-/

namespace Plaquette

/-- Loop over all pairs `for i in is: for j in js`. -/
def loop2 {σ : Type} (f : σ → Int → Int → Except Err σ) (s : σ) (is js : List Int) : Except Err σ :=
  loopE (fun s i => loopE (fun s j => f s i j) s js) s is

/-- `RepetitionCodeLattice.__init__`, `latticeinstances.py:60-79`. -/
def repetitionLattice (size : Nat) : Except Err Lattice :=
  if size % 2 ≠ 1 then .error .valueError
  else do
    let s : Int := size
    let L := Lattice.empty (2 * size) 2
    let L ← loopE (fun L i => L.addData (i, 0)) L (pyRange 0 (2 * s) 2)
    let L ← loopE (fun L i => do
        let L ← L.addStabgen (i, 0) .A
        loopE (fun L di => L.addEdgeAt (i + di, 0) (i, 0) .Z) L [-1, 1]) L (pyRange 1 (2 * s - 2) 2)
    let L ← L.addLogical (s - 1, 1) ['X']
    let L ← loopE (fun L i => L.addEdgeAt (i, 0) (s - 1, 1) .X) L (pyRange 0 (2 * s) 2)
    let L ← L.addLogical (2 * s - 1, 0) ['Z']
    let L ← L.addEdgeAt (2 * s - 2, 0) (2 * s - 1, 0) .Z
    .ok L.assignIndices

/-- `ops[int(stab.group) - 1]` for `ops = (X, Z)` (also for the longer tuple of the toric code). Group `U` does not occur
in the lattice families. -/
def groupLetter : StabGroup → Letter
  | .A => .X
  | .B => .Z
  | .U => .Z

/-- The wrapped coordinate, `latticeinstances.py:126-133`. -/
def wrapCoord (m q : Int) : Int :=
  let q := if q = 0 then m else q
  if q > m then 1 else q

/-- The directions of the edges of a stabiliser (toric and planar code), `latticeinstances.py:124, 185`. -/
def crossDirs : List (Int × Int) := [(0, 1), (0, -1), (1, 0), (-1, 0)]

/-- The default edge order of the toric and planar code. -/
def crossOrder : List (Int × Int) := [(0, 1), (-1, 0), (1, 0), (0, -1)]

/-- `ToricCodeLattice.__init__`, `latticeinstances.py:88-145`. -/
def toricLattice (size : Nat) (order : List (Int × Int)) : Except Err Lattice := do
  let s : Int := size
  let L := Lattice.empty (2 * size + 2) (2 * size + 2)
  let L ← loop2 (fun L i j =>
      let i_ := i + 1
      let j_ := j + 1
      if i_ % 2 ≠ j_ % 2 then L.addData (i_, j_)
      else if j_ % 2 = 0 then L.addStabgen (i_, j_) .A
      else L.addStabgen (i_, j_) .B) L (pyRange 0 (2 * s) 1) (pyRange 0 (2 * s) 1)
  let m := 2 * s
  let L ← loopE (fun L st => loopE (fun L d =>
      L.addEdgeAt (wrapCoord m (st.1.1 + d.1), wrapCoord m (st.1.2 + d.2)) st.1 (groupLetter st.2)) L crossDirs)
    L L.stabgens
  let L ← L.addLogical (0, s) ['X']
  let L ← L.addLogical (s, m + 1) ['Z']
  let L ← L.addLogical (s, 0) ['X']
  let L ← L.addLogical (m + 1, s) ['Z']
  let L ← loopE (fun L i => do
      let L ← L.addEdgeAt (1, 2 * i + 2) (0, s) .X
      let L ← L.addEdgeAt (2 * i + 1, m) (s, m + 1) .Z
      let L ← L.addEdgeAt (2 * i + 2, 1) (s, 0) .X
      L.addEdgeAt (m, 2 * i + 1) (m + 1, s) .Z) L (pyRange 0 s 1)
  let L ← L.assignOrder order
  .ok L.assignIndices

/-- `PlanarCodeLattice.__init__`, `latticeinstances.py:156-197`. -/
def planarLattice (size : Nat) (order : List (Int × Int)) : Except Err Lattice := do
  let s : Int := size
  let L := Lattice.empty (2 * size) (2 * size)
  let L ← loop2 (fun L i j =>
      if i % 2 = j % 2 then L.addData (i, j)
      else if j % 2 = 0 then L.addStabgen (i, j) .A
      else L.addStabgen (i, j) .B) L (pyRange 0 (2 * s - 1) 1) (pyRange 0 (2 * s - 1) 1)
  let m := 2 * s - 2
  let L ← loopE (fun L st => loopE (fun L d =>
      let qi := st.1.1 + d.1
      let qj := st.1.2 + d.2
      if qi < 0 ∨ qj < 0 ∨ qi > m ∨ qj > m then .ok L
      else L.addEdgeAt (qi, qj) st.1 (groupLetter st.2)) L crossDirs) L L.stabgens
  let L ← L.addLogical (m + 1, s - 1) ['X']
  let L ← L.addLogical (s - 1, m + 1) ['Z']
  let L ← loopE (fun L i => do
      let L ← L.addEdgeAt (m, 2 * i) (m + 1, s - 1) .X
      L.addEdgeAt (2 * i, m) (s - 1, m + 1) .Z) L (pyRange 0 s 1)
  let L ← L.assignOrder order
  .ok L.assignIndices

/-- The directions and XZZX factors of the rotated code, `latticeinstances.py:246`. -/
def diagDirs : List (Letter × Int × Int) := [(.X, 1, 1), (.Z, 1, -1), (.Z, -1, 1), (.X, -1, -1)]

/-- The default edge order of the rotated code. -/
def diagOrder : List (Int × Int) := [(1, 1), (-1, 1), (1, -1), (-1, -1)]

/-- The loop body of `inverted_order`, `latticeinstances.py:273-284`. -/
def Lattice.invertEdge (L : Lattice) (e : LEdge) : LEdge :=
  if !L.isStab e.op then e
  else if (e.op.1 + e.op.2) % 4 ≠ 0 then e
  else if e.step = some 1 then { e with step := some 2 }
  else if e.step = some 2 then { e with step := some 1 }
  else e

/-- `inverted_order`, `latticeinstances.py:266-284`. -/
def Lattice.invertedOrder (L : Lattice) : Lattice := { L with edges := L.edges.map L.invertEdge }

/-- `RotatedPlanarCodeLattice.__init__`, `latticeinstances.py:208-264`. -/
def rotatedLattice (size : Nat) (xzzx : Bool) (order : List (Int × Int)) : Except Err Lattice := do
  let s : Int := size
  let L := Lattice.empty (2 * size + 1) (2 * size + 1)
  let L ← loop2 (fun L i j => L.addData (i, j)) L (pyRange 1 (2 * s) 2) (pyRange 1 (2 * s) 2)
  let L ← loop2 (fun L i j =>
      if i / 2 % 2 = j / 2 % 2 then L.addStabgen (i, j) .A else L.addStabgen (i, j) .B) L
    (pyRange 2 (2 * s) 2) (pyRange 2 (2 * s) 2)
  let odd := s % 2
  let L ← loopE (fun L i => do
      let L ← L.addStabgen (0, i) .A
      L.addStabgen (2 * s, i - odd * 2) .A) L (pyRange 4 (2 * s) 4)
  let L ← loopE (fun L i => do
      let L ← L.addStabgen (i, 0) .B
      L.addStabgen (i + odd * 2, 2 * s) .B) L (pyRange 2 (2 * s) 4)
  let L ← loopE (fun L st => loopE (fun L d =>
      let qi := st.1.1 + d.2.1
      let qj := st.1.2 + d.2.2
      let p := if xzzx then d.1 else groupLetter st.2
      if 1 ≤ qi ∧ qi ≤ 2 * s - 1 ∧ 1 ≤ qj ∧ qj ≤ 2 * s - 1 then L.addEdgeAt (qi, qj) st.1 p else .ok L) L diagDirs)
    L L.stabgens
  let mid := s + odd - 1
  let L ← L.addLogical (mid, 0) ['X']
  let L ← L.addLogical (0, mid) ['Z']
  let L ← loopE (fun L i => do
      let plain : Bool := !xzzx || i / 2 % 2 == 0
      let L ← L.addEdgeAt (i, 1) (mid, 0) (if plain then .X else .Z)
      L.addEdgeAt (1, i) (0, mid) (if plain then .Z else .X)) L (pyRange 1 (2 * s) 2)
  let L ← L.assignOrder order
  .ok L.invertedOrder.assignIndices

/-! ### Codes from strings -/

/-- `getattr(Pauli, pauli)` -/
def letterOf : Char → Except Err Letter
  | 'X' => .ok .X
  | 'Y' => .ok .Y
  | 'Z' => .ok .Z
  | _ => .error .attributeError

/-- `_add_edges_from_str`, `latticebase.py:945-953`. -/
def Lattice.addEdgesFromStr (L : Lattice) (nData : Nat) (op : Pos) (str : List Char) : Except Err Lattice :=
  match str with
  | [] => .error .indexError
  | c :: rest =>
    let body := if c = '+' ∨ c = '-' then rest else c :: rest
    if body.length ≠ nData then .error .assertionError
    else loopE (fun (L : Lattice) (e : Char × Nat) =>
      if e.1 ≠ 'I' then
        match letterOf e.1 with
        | .error x => .error x
        | .ok l => L.addEdgeAt ((e.2 : Int), 1) op l
      else .ok L) L body.zipIdx

/-- `CodeLatticeFromStab.__init__`, `latticebase.py:899-943`. -/
def fromStabLattice (nData : Nat) (stabs logs : List (List Char)) : Except Err Lattice := do
  let L := Lattice.empty nData 3
  let L ← loopE (fun L (i : Nat) => L.addData ((i : Int), 1)) L (List.range nData)
  let L ← loopE (fun L (e : List Char × Nat) => do
      let L ← L.addStabgen ((e.2 : Int), 0) .U
      L.addEdgesFromStr nData ((e.2 : Int), 0) e.1) L stabs.zipIdx
  let L ← loopE (fun L (e : List Char × Nat) => do
      let L ← L.addLogical ((e.2 : Int), 2) ((if e.2 % 2 = 0 then 'X' else 'Z') :: Nat.toDigits 10 (e.2 / 2))
      L.addEdgesFromStr nData ((e.2 : Int), 2) e.1) L logs.zipIdx
  .ok L.assignIndices

/-- `FiveQubitCodeLattice`, `latticeinstances.py:12-24`. -/
def fiveQubitLattice : Except Err Lattice :=
  fromStabLattice 5 ["XZZXI".toList, "IXZZX".toList, "XIXZZ".toList, "ZXIXZ".toList] ["XXXXX".toList, "ZZZZZ".toList]

/-- `ShorCodeLattice`, `latticeinstances.py:27-46`. -/
def shorLattice : Except Err Lattice :=
  fromStabLattice 9 ["ZZIIIIIII".toList, "IZZIIIIII".toList, "XXXXXXIII".toList, "IIIZZIIII".toList, "IIIIZZIII".toList,
    "IIIXXXXXX".toList, "IIIIIIZZI".toList, "IIIIIIIZZ".toList] ["ZZZZZZZZZ".toList, "XXXXXXXXX".toList]

/-! ### `StabilizerCode` and `LatticeCode` -/

/-- `StabilizerCode`, `codes/__init__.py:65-100`. All operators act on the same number of qubits. -/
structure StabCode (n : Nat) where
  stabilisers : List (Op n)
  logicalOps : List (Op n)

variable {n : Nat}

/-- `self.logical_ops[::2]` -/
def StabCode.logicalX (c : StabCode n) : List (Op n) := evensOf c.logicalOps
where
  evensOf : List (Op n) → List (Op n)
    | [] => []
    | [a] => [a]
    | a :: _ :: l => a :: evensOf l

/-- `self.logical_ops[1::2]` -/
def StabCode.logicalZ (c : StabCode n) : List (Op n) := oddsOf c.logicalOps
where
  oddsOf : List (Op n) → List (Op n)
    | [] => []
    | [_] => []
    | _ :: b :: l => b :: oddsOf l

/-- `StabilizerCode.__init__`, `codes/__init__.py:78-102`: the number of qubits is that of the first stabiliser.
Stabilisers or logical operators on another number of qubits (not checked here, except for the first logical operator)
raise in `np.array` when they are used. -/
def mkStabCode (stabs logs : List AnyOp) : Except Err ((n : Nat) × StabCode n) :=
  match stabs with
  | [] => .error .indexError
  | ⟨n, _⟩ :: _ =>
    if logs.length % 2 ≠ 0 then .error .assertionError
    else match logs with
      | [] => .error .indexError
      | ⟨m, _⟩ :: _ =>
        if n ≠ m then .error .assertionError
        else match sameSize n stabs, sameSize n logs with
          | .ok ss, .ok ls => .ok ⟨n, { stabilisers := ss, logicalOps := ls }⟩
          | .error e, _ => .error e
          | _, .error e => .error e

/-- `n_logical_qubits`, `codes/__init__.py:146-149`. -/
def StabCode.nLogicalQubits (c : StabCode n) : Nat := c.logicalOps.length / 2

/-- `commutator_sign(as, bs)` of two lists of operators: the matrix of all pairs, row by row. -/
def commTable (as bs : List (Op n)) : List (List Nat) := as.map fun a => bs.map fun b => commSign a b

/-- `StabilizerCode.check`, `codes/__init__.py:173-202`: an `AssertionError` if a comparison fails. (Comparing the tables
with `np.eye` and `0` entry by entry; `squeeze` only removes axes of length one and does not change the comparison. An
empty list of operators raises in `commutator_sign` (`IndexError`).) -/
def StabCode.check (c : StabCode n) : Except Err Unit :=
  if c.stabilisers = [] ∨ c.logicalX = [] ∨ c.logicalZ = [] then .error .indexError
  else if commTable c.logicalX c.logicalZ ≠
      (List.range c.nLogicalQubits).map (fun i => (List.range c.nLogicalQubits).map fun j => if i = j then 1 else 0) then
    .error .assertionError
  else if (commTable c.logicalX c.logicalX).any (fun r => r.any (· ≠ 0)) then .error .assertionError
  else if (commTable c.logicalZ c.logicalZ).any (fun r => r.any (· ≠ 0)) then .error .assertionError
  else if (commTable c.stabilisers c.logicalOps).any (fun r => r.any (· ≠ 0)) then .error .assertionError
  else if (commTable c.stabilisers c.stabilisers).any (fun r => r.any (· ≠ 0)) then .error .assertionError
  else .ok ()

/-- The argument of `logical_ops_to_indices`: a string or a sequence of integers. -/
inductive LogicalSel
  | str (s : List Char)
  | ints (l : List Int)

/-- The dictionary lookup in `logical_ops_to_indices`. -/
def selIndex (e : Char × Nat) : Except Err Int :=
  if e.1 = 'X' then .ok (2 * e.2)
  else if e.1 = 'Z' then .ok (2 * e.2 + 1)
  else .error .valueError

/-- `logical_ops_to_indices`, `codes/__init__.py:209-249`. -/
def logicalOpsToIndices (nOps : Nat) (sel : LogicalSel) : Except Err (List Int) :=
  let idx : Except Err (List Int) :=
    match sel with
    | .str s => mapLoop selIndex s.zipIdx
    | .ints l => .ok l
  match idx with
  | .error e => .error e
  | .ok l =>
    if l.length ≠ nOps / 2 then .error .valueError
    else if l.any fun i => i < 0 ∨ i ≥ nOps then .error .valueError
    else .ok l

/-- `StabilizerCode.__eq__`, `codes/__init__.py:105-129`: entry by entry over `zip`. -/
def StabCode.eqv (a b : StabCode n) : Bool :=
  ((a.stabilisers.zip b.stabilisers).all fun p => p.1 = p.2) && ((a.logicalOps.zip b.logicalOps).all fun p => p.1 = p.2)

/-- `LatticeCode`, `codes/__init__.py:258-290`: the operators are computed once, from the lattice it was made of. -/
structure LatCode where
  lattice : Lattice
  nRounds : Nat
  n : Nat
  code : StabCode n

/-- `LatticeCode.__init__`. -/
def mkLatCode (L : Lattice) (nRounds : Nat) : Except Err LatCode :=
  match L.stabilisers with
  | .error e => .error e
  | .ok ss =>
    match L.logicalOperators with
    | .error e => .error e
    | .ok ls =>
      match mkStabCode ss ls with
      | .error e => .error e
      | .ok ⟨n, c⟩ => .ok { lattice := L, nRounds := nRounds, n := n, code := c }

/-- `LatticeCode.apply_fabrication_errors`, `codes/__init__.py:285-292`: only the lattice is changed. -/
def LatCode.applyFabrication (c : LatCode) (qubits : List VertexRef) (gates : List (VertexRef × VertexRef))
    (stabs : List VertexRef) (keepGauge : Option (List Char)) (boundaryJoin : Option Bool) : Except Err LatCode :=
  match c.lattice.applyFabrication qubits gates stabs keepGauge boundaryJoin with
  | .error e => .error e
  | .ok L => .ok { c with lattice := L }

/-- `LatticeCode.make_planar` etc., `codes/__init__.py:327-395`. -/
def makePlanar (nRounds size : Nat) : Except Err LatCode := do mkLatCode (← planarLattice size crossOrder) nRounds
def makeToric (nRounds size : Nat) : Except Err LatCode := do mkLatCode (← toricLattice size crossOrder) nRounds
def makeRepetition (nRounds size : Nat) : Except Err LatCode := do mkLatCode (← repetitionLattice size) nRounds
def makeRotated (nRounds size : Nat) (xzzx : Bool) : Except Err LatCode := do
  mkLatCode (← rotatedLattice size xzzx diagOrder) nRounds
def makeFiveQubit (nRounds : Nat) : Except Err LatCode := do mkLatCode (← fiveQubitLattice) nRounds
def makeShor (nRounds : Nat) : Except Err LatCode := do mkLatCode (← shorLattice) nRounds

end Plaquette
