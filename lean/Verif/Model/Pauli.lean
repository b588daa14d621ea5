import Mathlib.Data.ZMod.Basic
import Mathlib.Algebra.BigOperators.Fin
import Mathlib.Data.Fintype.Pi

/-!
# Model of `src/plaquette/pauli.py`

Bits (`uint8` entries that the library keeps in `{0, 1}`) are `Bool`.  A one-dimensional array of
length `2 n + 1` is an `Op n`; a two-dimensional array with `2 n` rows is a `Tab n` (the first `n`
rows are the destabilisers, the last `n` rows the stabilisers).  The shape checks of the python
code (`unpack_tableau`, "Operators must have the same shape") are therefore carried by the type.
Exceptions are values of type `Err`.
-/

namespace Plaquette

/-- The python exceptions that the modelled functions can raise. -/
inductive Err
  | indexError
  | valueError
  | typeError
  | keyError
  | assertionError
  | notImplementedError
  | runtimeError
  | attributeError
  /-- `NotADirectoryError` and `FileNotFoundError` -/
  | osError
  /-- not a python exception: the model does not say what happens (used for negative qubit indices only) -/
  | unmodelled
  deriving DecidableEq, Repr

/-- A Pauli operator in tableau form, `pauli.py:1361-1387` (`unpack_tableau`): the X bits, the Z bits and
the sign bit of a one-dimensional `uint8` array of length `2 n + 1`. -/
@[ext] structure Op (n : Nat) where
  x : Fin n → Bool
  z : Fin n → Bool
  r : Bool
  deriving DecidableEq

/-- A state: a two-dimensional array of shape `(2 n, 2 n + 1)`, `pauli.py:1-40`.  Row `i < n` is `d i`,
row `n + i` is `s i`. -/
@[ext] structure Tab (n : Nat) where
  d : Fin n → Op n
  s : Fin n → Op n
  deriving DecidableEq

variable {n : Nat}

/-- `int(bit)` -/
def bit (b : Bool) : Nat := if b then 1 else 0

/-- `zero_state`, `pauli.py:1487-1496`: `np.eye(2 n + 1)[:-1]`; row `i` has a one in column `i`. -/
def zeroState (n : Nat) : Tab n where
  d i := { x := fun q => decide (i = q), z := fun _ => false, r := false }
  s i := { x := fun _ => false, z := fun q => decide (i = q), r := false }

/-- The all-zero row, `append_scratch`, `pauli.py:99-108`. -/
def idOp (n : Nat) : Op n := { x := fun _ => false, z := fun _ => false, r := false }

/-- `commutator_sign` of two operators, `pauli.py:167-243`:
`((ax @ bz.T + az @ bx.T) % 2)`.  The operands are `uint8` arrays, so the two matrix products and their sum
are computed modulo 256. -/
def commSign (a b : Op n) : Nat :=
  (((∑ q, bit (a.x q) * bit (b.z q)) % 256 + (∑ q, bit (a.z q) * bit (b.x q)) % 256) % 256) % 2

/-- `_g`, `pauli.py:57-91`: exponent of `i` of the product of two single-qubit Pauli matrices. -/
def g (x1 z1 x2 z2 : Bool) : Int :=
  let X2 : Int := bit x2
  let Z2 : Int := bit z2
  match x1, z1 with
  | false, false => 0
  | true, true => Z2 - X2
  | true, false => Z2 * (2 * X2 - 1)
  | false, true => X2 * (1 - 2 * Z2)

/-- `phase.real` of the phase `i ^ k`. -/
def phaseRe : ZMod 4 → Int
  | 0 => 1
  | 1 => 0
  | 2 => -1
  | 3 => 0

/-- `phase.imag` of the phase `i ^ k`. -/
def phaseIm : ZMod 4 → Int
  | 0 => 0
  | 1 => 1
  | 2 => 0
  | 3 => -1

/-- The sign bit computed from the phase, `pauli.py:1453-1458`. (The `RuntimeError` branch is not reachable
for a phase that is a power of `i`.) -/
def signBit (k : ZMod 4) : Bool :=
  if phaseIm k ≠ 0 then decide (phaseIm k < 0) else decide (phaseRe k < 0)

/-- `multiply` of two operators, `pauli.py:1436-1460`.  The complex phase `initial_phase * 1j**e * (1 - 2 r)`
is represented by its exponent in `ZMod 4` (phases are powers of `i`; `1j**e` is taken to be exact). -/
def mul2 (init : ZMod 4) (a b : Op n) : Op n × ZMod 4 :=
  let r := a.r ^^ b.r
  let e : Int := (List.finRange n).foldl (fun prev q => prev + g (a.x q) (a.z q) (b.x q) (b.z q)) 0
  let phase : ZMod 4 := init + (e : ZMod 4) + (if r then 2 else 0)
  ({ x := fun q => a.x q ^^ b.x q, z := fun q => a.z q ^^ b.z q, r := signBit phase }, phase)

/-- The operator part of `multiply(a, b)` with the default initial phase `1`. -/
def mulOp (a b : Op n) : Op n := (mul2 0 a b).1

/-- `multiply(*operators, initial_phase=...)`, `pauli.py:1422-1431`.  With more than two operators the last
two are multiplied first and the call recurses on `operators[:-2]` and the product with
`initial_phase=phase`; the argument list is therefore represented in reversed order (`opsRev`). -/
def multiplyRev : List (Op n) → ZMod 4 → Except Err (Op n × ZMod 4)
  | [], _ => .error .valueError
  | [a], _ => .ok (a, if a.r then 2 else 0)
  | [b, a], init => .ok (mul2 init a b)
  | b :: a :: c :: rest, init =>
    let (prod, phase) := mul2 init a b
    multiplyRev (prod :: c :: rest) phase
  termination_by l => l.length

/-- `multiply(*operators)`, `pauli.py:1390-1460`, operators in the order of the call. -/
def multiply (ops : List (Op n)) : Except Err (Op n × ZMod 4) := multiplyRev ops.reverse 0

/-! ### Gates (row maps; the python code works on whole columns, entry by entry) -/

/-- `x` gate on one qubit, `pauli.py:1342-1344`: `r ^= z_q`. -/
def xRow (q : Fin n) (p : Op n) : Op n := { p with r := p.r ^^ p.z q }

/-- `z` gate on one qubit, `pauli.py:1481-1483`: `r ^= x_q`. -/
def zRow (q : Fin n) (p : Op n) : Op n := { p with r := p.r ^^ p.x q }

/-- `y` gate on one qubit, `pauli.py:1358`: `z(x(state, q), q)`. -/
def yRow (q : Fin n) (p : Op n) : Op n := zRow q (xRow q p)

/-- `hadamard` on one qubit, `pauli.py:379-385`: `r ^= x_q * z_q`, swap the columns `q` and `q + n`. -/
def hRow (q : Fin n) (p : Op n) : Op n :=
  { x := Function.update p.x q (p.z q), z := Function.update p.z q (p.x q),
    r := p.r ^^ (p.x q && p.z q) }

/-- `phase_gate` on one qubit, `pauli.py:890-894`. -/
def sRow (q : Fin n) (p : Op n) : Op n :=
  { p with r := p.r ^^ (p.x q && p.z q), z := Function.update p.z q (p.z q ^^ p.x q) }

/-- `control_not_gate` on one pair, `pauli.py:275-281`; the three in-place updates in order. -/
def cxRow (c t : Fin n) (p : Op n) : Op n :=
  let r := p.r ^^ (p.x c && p.z t && (p.x t ^^ p.z c ^^ true))
  let x := Function.update p.x t (p.x t ^^ p.x c)
  let z := Function.update p.z c (p.z c ^^ p.z t)
  { x := x, z := z, r := r }

/-- `control_phase_gate` on one pair, `pauli.py:314-320`; the three in-place updates in order (the last one
reads the `x` bits, which do not change). -/
def czRow (c t : Fin n) (p : Op n) : Op n :=
  let r := p.r ^^ (p.x c && p.x t && (p.z t ^^ p.z c))
  let z := Function.update p.z t (p.z t ^^ p.x c)
  let z' := Function.update z c (z c ^^ p.x t)
  { x := p.x, z := z', r := r }

/-- Apply a row map to every row of the state (the gates act on whole columns). -/
def Tab.map (f : Op n → Op n) (T : Tab n) : Tab n := { d := fun i => f (T.d i), s := fun i => f (T.s i) }

/-- The Clifford gates of `pauli.py` on one target (or one control/target pair). -/
inductive CGate (n : Nat)
  | x (q : Fin n)
  | y (q : Fin n)
  | z (q : Fin n)
  | h (q : Fin n)
  | s (q : Fin n)
  | cx (c t : Fin n)
  | cz (c t : Fin n)
  deriving DecidableEq

/-- The row map of a gate. -/
def CGate.row : CGate n → Op n → Op n
  | .x q => xRow q
  | .y q => yRow q
  | .z q => zRow q
  | .h q => hRow q
  | .s q => sRow q
  | .cx c t => cxRow c t
  | .cz c t => czRow c t

/-- One gate applied to a state. -/
def CGate.app (G : CGate n) (T : Tab n) : Tab n := T.map G.row

/-- A gate with a list of targets: the `for target in target_qubits` loops of the gate functions. -/
def appAll (Gs : List (CGate n)) (T : Tab n) : Tab n := Gs.foldl (fun T G => G.app T) T

/-! ### Measurement -/

/-- Indices of the rows of `rows` that do not commute with `m` (the part of `nonzero` in one half of the
tableau), `pauli.py:695-698`. -/
def nonzero (rows : Fin n → Op n) (m : Op n) : List (Fin n) :=
  (List.finRange n).filter (fun i => commSign (rows i) m ≠ 0)

/-- `measure` with a binary operator on the right number of qubits, `pauli.py:656-747`.

`forced` is `forced_outcome`; `draw` is the value `plaquette.rng.choice([0, 1])` returns if it is called.
`nonzero` (row numbers below `2 n`, ascending) is split in its destabiliser part `nzD` and its stabiliser part
`nzS`; `nonzero[-1] >= n` holds iff `nzS` is not empty, and `nonzero[-1]` raises `IndexError` if both are
empty.  The loop over `other_rows` (707-711) writes rows that are different from each other and from row
`first_nc_stab`, hence is a map. -/
def measure (T : Tab n) (m : Op n) (forced : Option Int) (draw : Bool) : Except Err (Tab n × Bool) :=
  let nzD := nonzero T.d m
  let nzS := nonzero T.s m
  match nzS with
  | k :: others =>
    let d1 : Fin n → Op n := fun i => if i ∈ nzD then mulOp (T.s k) (T.d i) else T.d i
    let s1 : Fin n → Op n := fun i => if i ∈ others then mulOp (T.s k) (T.s i) else T.s i
    let d2 := Function.update d1 k (s1 k)
    let outcome : Except Err Bool :=
      match forced with
      | some v => if v = 0 then .ok false else if v = 1 then .ok true else .error .valueError
      | none => .ok draw
    match outcome with
    | .error e => .error e
    | .ok out =>
      let mOp : Op n := { m with r := m.r ^^ out }
      .ok ({ d := d2, s := Function.update s1 k mOp }, out)
  | [] =>
    match nzD with
    | [] => .error .indexError
    | _ :: _ =>
      let scratch := nzD.foldl (fun acc i => mulOp acc (T.s i)) (idOp n)
      .ok (T, decide (scratch.r ≠ m.r))

/-- The Pauli letters accepted by `single_qubit_pauli_operator`. -/
inductive Letter
  | X | Y | Z
  deriving DecidableEq, Repr

/-- `single_qubit_pauli_operator`, `pauli.py:1279-1320`, for a letter, a sign and a qubit below `n`
(the three `ValueError`s at the top are excluded by the type `Fin n`). -/
def singleOp (neg : Bool) (l : Letter) (q : Fin n) : Op n where
  x i := decide (i = q) && (l == .X || l == .Y)
  z i := decide (i = q) && (l == .Z || l == .Y)
  r := neg

/-- One iteration of the loop of `reset_qubits_to_eigenstate`, `pauli.py:1267-1275`. -/
def resetOne (neg : Bool) (l : Letter) (T : Tab n) (q : Fin n) (draw : Bool) : Except Err (Tab n) :=
  match measure T (singleOp neg l q) none draw with
  | .error e => .error e
  | .ok (T', out) =>
    if out then
      match l with
      | .Z => .ok ((CGate.x q).app T')
      | .X => .ok ((CGate.z q).app T')
      | .Y => .ok T'
    else .ok T'

/-- `reset_qubits_to_eigenstate`, `pauli.py:1248-1276`; `draws` supplies the random bit of each target. -/
def resetAll (neg : Bool) (l : Letter) (T : Tab n) : List (Fin n × Bool) → Except Err (Tab n)
  | [] => .ok T
  | (q, draw) :: rest =>
    match resetOne neg l T q draw with
    | .error e => .error e
    | .ok T' => resetAll neg l T' rest

end Plaquette
