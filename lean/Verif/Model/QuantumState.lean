import Verif.Model.Pauli

/-!
# Model of `QuantumState` and of qubit indices of gates

The gate functions of `pauli.py` take python indices: negative numbers count from the end of the array that is indexed, which is the `X` part of the tableau, the `Z` part, or
the whole tableau with its column of signs.
-/

namespace Plaquette
variable {n : Nat}

/-- The column `x[:, q]` or `z[:, q]` of the parts of the tableau (`unpack_tableau`, `pauli.py:1376-1381`), which have `n` columns; `none` is an `IndexError`. -/
def pyQubit (n : Nat) (q : Int) : Option (Fin n) :=
  if h : 0 ≤ q ∧ q < n then some ⟨q.toNat, by omega⟩
  else if h : -n ≤ q ∧ q < 0 then some ⟨(q + n).toNat, by omega⟩
  else none

/-- The column `state[:, q]` of the tableau, which has `2 n + 1` columns; `none` is an `IndexError`. -/
def pyColumn (n : Nat) (q : Int) : Option Nat :=
  if 0 ≤ q ∧ q < 2 * n + 1 then some q.toNat
  else if -(2 * n + 1) ≤ q ∧ q < 0 then some (q + (2 * n + 1)).toNat
  else none

/-- The entry of a row of the tableau in a column: `X` bits, `Z` bits, sign. -/
def Op.col (p : Op n) (j : Nat) : Bool :=
  if h : j < n then p.x ⟨j, h⟩ else if h : j - n < n then p.z ⟨j - n, h⟩ else p.r

/-- Assignment to an entry of a row of the tableau. -/
def Op.setCol (p : Op n) (j : Nat) (b : Bool) : Op n :=
  if h : j < n then { p with x := Function.update p.x ⟨j, h⟩ b }
  else if h : j - n < n then { p with z := Function.update p.z ⟨j - n, h⟩ b }
  else { p with r := b }

/-- The body of the loop of `x`, `pauli.py:1344`; `none` is an `IndexError`. -/
def xStep (q : Int) : Option (Op n → Op n) := (pyQubit n q).map xRow

/-- The body of the loop of `z`, `pauli.py:1483`: here the whole tableau is indexed. -/
def zStep (q : Int) : Option (Op n → Op n) := (pyColumn n q).map fun j p => p.setCol (2 * n) (p.col (2 * n) ^^ p.col j)

/-- The body of the loop of `hadamard`, `pauli.py:380-385`: the signs with indices of the parts, the swap with indices of the whole tableau. -/
def hStep (q : Int) : Option (Op n → Op n) :=
  match pyQubit n q, pyColumn n q, pyColumn n (q + n) with
  | some i, some a, some b => some fun p =>
    let p1 : Op n := { p with r := p.r ^^ (p.x i && p.z i) }
    (p1.setCol a (p1.col b)).setCol b (p1.col a)
  | _, _, _ => none

/-- The body of the loop of `control_not_gate` (`pauli.py:274-280`) or `control_phase_gate` (`pauli.py:313-319`). -/
def pairStep (row : Fin n → Fin n → Op n → Op n) (ct : Int × Int) : Option (Op n → Op n) :=
  match pyQubit n ct.1, pyQubit n ct.2 with
  | some c, some t => some (row c t)
  | _, _ => none

/-- A loop over targets. The array is changed in place: what was done before an exception stays. -/
def applyEach (T : Tab n) : List (Option (Op n → Op n)) → Tab n × Except Err Unit
  | [] => (T, .ok ())
  | none :: _ => (T, .error .indexError)
  | some f :: fs => applyEach (T.map f) fs

/-- Qubits as arguments: an integer, a sequence, or an iterator, which can be gone through once. -/
inductive QArg
  | one (q : Int)
  | seq (qs : List Int)
  | once (qs : List Int)
  deriving DecidableEq

/-- What the first loop over the argument sees. -/
def QArg.items : QArg → List Int
  | .one q => [q]
  | .seq qs => qs
  | .once qs => qs

/-- The argument after a loop over it has been completed. -/
def QArg.after : QArg → QArg
  | .once _ => .once []
  | a => a

/-- `x`, `pauli.py:1333-1345`: the check of the indices goes through the argument first. -/
def stateX (T : Tab n) (a : QArg) : Tab n × Except Err Unit :=
  if a.items.any fun q => decide ((n : Int) ≤ q) then (T, .error .indexError) else applyEach T (a.after.items.map xStep)

/-- `z`, `pauli.py:1473-1484`. -/
def stateZ (T : Tab n) (a : QArg) : Tab n × Except Err Unit :=
  if a.items.any fun q => decide ((n : Int) ≤ q) then (T, .error .indexError) else applyEach T (a.after.items.map zStep)

/-- `y`, `pauli.py:1358`. -/
def stateY (T : Tab n) (a : QArg) : Tab n × Except Err Unit :=
  match stateX T a with
  | (T', .error e) => (T', .error e)
  | (T', .ok ()) => stateZ T' a.after

/-- `hadamard`, `pauli.py:375-386`. -/
def stateH (T : Tab n) (a : QArg) : Tab n × Except Err Unit := applyEach T (a.items.map hStep)

/-- `len` of an argument that is not an integer. -/
def QArg.len : QArg → Except Err Nat
  | .once _ => .error .typeError
  | a => .ok a.items.length

/-- `control_not_gate` and `control_phase_gate`, `pauli.py:263-281`, `302-320`. -/
def statePair (row : Fin n → Fin n → Op n → Op n) (T : Tab n) (cs ts : QArg) : Tab n × Except Err Unit :=
  match ts.len, cs.len with
  | .error e, _ => (T, .error e)
  | .ok _, .error e => (T, .error e)
  | .ok k, .ok l => if k ≠ l then (T, .error .valueError) else applyEach T ((cs.items.zip ts.items).map (pairStep row))

/-- Calls of the methods of a `QuantumState` that apply gates, `device/__init__.py:85-141`. -/
inductive GateCall
  | cx (cs ts : QArg)
  | cz (cs ts : QArg)
  | hadamard (a : QArg)
  | x (a : QArg)
  | y (a : QArg)
  | z (a : QArg)

/-- The tableau of the state after a call, and the exception. -/
def GateCall.exec (T : Tab n) : GateCall → Tab n × Except Err Unit
  | .cx cs ts => statePair cxRow T cs ts
  | .cz cs ts => statePair czRow T cs ts
  | .hadamard a => stateH T a
  | .x a => stateX T a
  | .y a => stateY T a
  | .z a => stateZ T a

/-- Calls one after the other on a new state of `n` qubits, `device/__init__.py:65-73`, until one raises. -/
def execCalls (T : Tab n) : List GateCall → Tab n × Except Err Unit
  | [] => (T, .ok ())
  | c :: cs =>
    match c.exec T with
    | (T', .error e) => (T', .error e)
    | (T', .ok ()) => execCalls T' cs

end Plaquette
