import Verif.Model.Pauli
import Mathlib.Data.Fin.SuccPred
import Mathlib.Data.Fin.Tuple.Basic

/-!
# Model of `pauli.py`: measurements in a base, partial trace, tensor products, padding, inserting qubits
-/

namespace Plaquette
variable {n : Nat}

/-- A state with some number of qubits. -/
abbrev AnyTab := (n : Nat) × Tab n

/-- Deleting the columns of qubit `t`, `pauli.py:591` (`np.delete(a, [target, target + n], axis=1)`). -/
def dropCol {k : Nat} (t : Fin (k + 1)) (p : Op (k + 1)) : Op k where
  x q := p.x (t.succAbove q)
  z q := p.z (t.succAbove q)
  r := p.r

/-- The rows `ones` of `_ptrace`, `pauli.py:573-580`: stabilisers with a one in the X (base X) or Z (base Z) column of the
target. `none` for the unsupported base Y (`ValueError`). -/
def traceRows (base : Letter) (T : Tab n) (t : Fin n) : Option (List (Fin n)) :=
  match base with
  | .X => some ((List.finRange n).filter fun i => (T.s i).x t)
  | .Z => some ((List.finRange n).filter fun i => (T.s i).z t)
  | .Y => none

/-- `_ptrace`, `pauli.py:548-595`.  The loop over `ones[1:]` changes stabiliser row `i` (different rows, each multiplied by
the unchanged row `first_stab`) and accumulates destabiliser row `first_stab` (which is deleted at the end). -/
def ptrace {k : Nat} (base : Letter) (T : Tab (k + 1)) (t : Fin (k + 1)) : Except Err (Tab k) :=
  match traceRows base T t with
  | none => .error .valueError
  | some [] => .error .indexError
  | some (f :: others) =>
    let s1 : Fin (k + 1) → Op (k + 1) := fun i => if i ∈ others then mulOp (T.s i) (T.s f) else T.s i
    let d1 : Fin (k + 1) → Op (k + 1) :=
      Function.update T.d f (others.foldl (fun acc i => mulOp (T.d i) acc) (T.d f))
    .ok { d := fun i => dropCol t (d1 (f.succAbove i)), s := fun i => dropCol t (s1 (f.succAbove i)) }

/-- `_ptrace` for a state of any size. -/
def ptraceAny (base : Letter) (T : AnyTab) (t : Nat) : Except Err AnyTab :=
  match T with
  | ⟨0, _⟩ => .error .indexError
  | ⟨k + 1, T⟩ =>
    if h : t < k + 1 then
      match ptrace base T ⟨t, h⟩ with
      | .error e => .error e
      | .ok T' => .ok ⟨k, T'⟩
    else .error .indexError

/-- The padding of `forced_outcomes`, `pauli.py:507-521`. -/
def padForced (fo : List (Option Int)) (len : Nat) : Except Err (List (Option Int)) :=
  match fo with
  | [v] => .ok (List.replicate len v)
  | fo => if fo.length = len then .ok fo else .error .valueError

/-- One measurement of the loop: target, forced outcome, random draw, position in the argument list. -/
structure MeasItem where
  target : Nat
  forced : Option Int
  draw : Bool
  idx : Nat

/-- The loop of `_measure_base`, `pauli.py:536-544`. `nq` is the number of qubits counted at the start of the call. -/
def measureLoop (nq : Nat) (base : Letter) (destructive : Bool) :
    List MeasItem → AnyTab → List Bool → Except Err (AnyTab × List Bool)
  | [], T, res => .ok (T, res)
  | it :: rest, ⟨n, T⟩, res =>
    if nq ≤ it.target then .error .valueError
    else if h : it.target < n ∧ n = nq then
      match measure T (singleOp false base ⟨it.target, h.1⟩) it.forced it.draw with
      | .error e => .error e
      | .ok (T', m) =>
        let res' := res.set it.idx m
        if destructive then
          match ptraceAny base ⟨n, T'⟩ it.target with
          | .error e => .error e
          | .ok T'' => measureLoop nq base destructive rest T'' res'
        else measureLoop nq base destructive rest ⟨n, T'⟩ res'
    else .error .valueError

/-- `_measure_base`, `pauli.py:459-545`, for the bases X and Z.  `draws` supplies the random bits by position in the
argument list. `reversed(np.argsort(targets))` is a sort by descending target (the order among equal targets is not
specified by numpy's default sort; here it is stable). -/
def measureBase (base : Letter) (destructive : Bool) (T : Tab n) (targets : List Nat) (fo : List (Option Int))
    (draws : List Bool) : Except Err (AnyTab × List Bool) :=
  match padForced fo targets.length with
  | .error e => .error e
  | .ok fo' =>
    let items := (List.range targets.length).map fun i =>
      ({ target := targets.getD i 0, forced := fo'.getD i none, draw := draws.getD i false, idx := i } : MeasItem)
    let sorted := items.mergeSort fun a b => decide (b.target ≤ a.target)
    measureLoop n base destructive sorted ⟨n, T⟩ (List.replicate targets.length false)

/-! ### Tensor products and padding -/

/-- `tensor_product` of two operators, `pauli.py:1239-1245`. -/
def tensorOp {m : Nat} (a : Op m) (b : Op n) : Op (m + n) where
  x := Fin.append a.x b.x
  z := Fin.append a.z b.z
  r := a.r ^^ b.r

/-- `tensor_product` of two states, `pauli.py:1208-1238`: the block matrix of the two tableaus, padded with zeros. The
sign of each row is the sign of the row it comes from. -/
def tensorTab {m : Nat} (A : Tab m) (B : Tab n) : Tab (m + n) where
  d := Fin.append (fun i => tensorOp (A.d i) (idOp n)) (fun j => tensorOp (idOp m) (B.d j))
  s := Fin.append (fun i => tensorOp (A.s i) (idOp n)) (fun j => tensorOp (idOp m) (B.s j))

/-- `tensor_product(*operators)` for operators, `pauli.py:1198-1205`: the last two operators are multiplied first and the
product replaces them. -/
def tensorMany : List ((k : Nat) × Op k) → Except Err ((k : Nat) × Op k)
  | [] => .error .valueError
  | [a] => .ok a
  | a :: b :: rest =>
    match h : (a :: b :: rest).reverse with
    | l :: l' :: front => tensorMany (front.reverse ++ [⟨l'.1 + l.1, tensorOp l'.2 l.2⟩])
    | _ => .error .valueError
termination_by l => l.length
decreasing_by
  have := congrArg List.length h
  simp at this
  simp
  omega

/-- `pad_operator`, `pauli.py:784-806`: the array `x ++ 0 ++ z ++ 0 ++ [r]`; with `total ≤ n` the operator is returned
unchanged. -/
def padOperator (op : Op n) (total : Nat) : (k : Nat) × Op k :=
  if total ≤ n then ⟨n, op⟩ else ⟨n + (total - n), { x := Fin.append op.x fun _ => false, z := Fin.append op.z fun _ => false, r := op.r }⟩

/-! ### Inserting a qubit (raw arrays) -/

/-- A two-dimensional array as a list of rows. -/
abbrev Rows := List (List Bool)

/-- `np.insert(l, idx, v)` for one axis: `idx` are positions in the old list; new entries for position `p` come just
before the old entry `p` (numpy semantics for a list of indices, equal indices in order). -/
def npInsert {α : Type} (l : List α) (idx : List Nat) (v : α) : List α :=
  (List.range (l.length + 1)).flatMap fun p =>
    List.replicate (idx.count p) v ++ (match l[p]? with | some a => [a] | none => [])

/-- `state[rows, cols] = 1` with two index arrays, which numpy broadcasts: equal lengths, or one of length one; otherwise
`IndexError`. (Indices out of range raise `IndexError` too.) -/
def fancySet (A : Rows) (rows cols : List Nat) : Except Err Rows :=
  let pairs : Except Err (List (Nat × Nat)) :=
    if rows.length = cols.length then .ok (rows.zip cols)
    else match rows, cols with
      | [r], cs => .ok (cs.map fun c => (r, c))
      | rs, [c] => .ok (rs.map fun r => (r, c))
      | _, _ => .error .indexError
  match pairs with
  | .error e => .error e
  | .ok ps =>
    if ps.any fun p => decide (A.length ≤ p.1 ∨ (A.getD p.1 []).length ≤ p.2) then .error .indexError
    else .ok (ps.foldl (fun A p => A.modify p.1 fun row => row.set p.2 true) A)

/-- `insert_qubit_at(state, pos)` with one position, `pauli.py:393-432`, on raw rows with `2 n + 1` columns. -/
def insertQubitAt (A : Rows) (n pos : Nat) : Except Err Rows :=
  if n < pos then .error .indexError
  -- for `pos = 0` the array `v_pos` is empty and of type float, which `np.insert` refuses
  else if pos = 0 then .error .indexError
  else
    let hPos := [pos, pos + n]
    -- `np.max(h_pos) - number_of_qubits`
    let missing := pos + n - n
    let vPos := List.replicate missing n ++ List.replicate missing (2 * n)
    let A1 := A.map fun row => npInsert row hPos false
    let width := (A1.headD []).length
    let A2 := npInsert A1 vPos (List.replicate width false)
    let n' := n + missing
    match fancySet A2 (vPos.take n') (hPos.take n') with
    | .error e => .error e
    | .ok A3 => fancySet A3 (vPos.drop n') ((hPos.drop n').dropLast)

/-- `append_qubit`, `pauli.py:94-96`. -/
def appendQubit (A : Rows) (n : Nat) : Except Err Rows := insertQubitAt A n n

/-- The rows of a tableau as a raw array. -/
def Op.raw (p : Op n) : List Bool := (List.finRange n).map p.x ++ (List.finRange n).map p.z ++ [p.r]

def Tab.raw (T : Tab n) : Rows := (List.finRange n).map (fun i => (T.d i).raw) ++ (List.finRange n).map fun i => (T.s i).raw

end Plaquette
