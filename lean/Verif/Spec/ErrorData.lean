import Verif.Model.ErrorData

/-!
# What the tables of errors say
-/

namespace Plaquette
variable {F : Type}

/-- A table all of whose rows are qubits, with different labels, which are the numbers of the qubits, and full columns with different
names. -/
structure ErrTable.Proper (d : ErrTable F) : Prop where
  info : ∀ r ∈ d.rows, ∃ t, r.info = some (r.label, t)
  labels : (d.rows.map EdRow.label).Nodup
  full : ∀ c ∈ d.cols, c.2.length = d.rows.length
  names : (d.cols.map Prod.fst).Nodup

/-- The table has the value `v` for the error `e` of the qubit `q`. -/
def ErrTable.At (d : ErrTable F) (e : List Char) (q : Nat) (v : F) : Prop :=
  ∃ col, (e, col) ∈ d.cols ∧ ∃ (i : Nat) (r : EdRow), d.rows[i]? = some r ∧ r.label = q ∧ col[i]? = some v

/-- The qubit is in the table and is a data qubit or not. -/
def ErrTable.IsQubit (d : ErrTable F) (q : Nat) (data : Bool) : Prop := ∃ r ∈ d.rows, r.label = q ∧ r.info = some (q, data)

/-- The names of the five errors, with their places in the dictionary: kind, parameter, and whether they belong to data qubits. -/
def ErrorPlace (e kind par : List Char) (data : Bool) : Prop :=
  (e, kind, par, data) ∈ ([("X", "pauli", "x", true), ("Y", "pauli", "y", true), ("Z", "pauli", "z", true), ("erasure", "erasure", "p", true),
    ("measurement", "measurement", "p", false)].map fun x => (x.1.toList, x.2.1.toList, x.2.2.1.toList, x.2.2.2) :
      List (List Char × List Char × List Char × Bool))

/-- The dictionary of errors has the value. -/
def DictHas (D : List (List Char × ErrDict F)) (kind : List Char) (k : QKey) (par : List Char) (v : F) : Prop :=
  ((dictGet D kind).bind (dictGet · k)).bind (dictGet · par) = some (.flt v)

/-- The last value given for the key in a list of assignments. -/
def LastGives {K : Type} (l : List (K × F)) (q : K) (p : F) : Prop := ∃ a b, l = a ++ (q, p) :: b ∧ q ∉ b.map Prod.fst

/-- The gates with one qubit, and those with two, that can have errors. -/
def oneGates : List (List Char) := ["H".toList, "M".toList, "R".toList]
def twoGates : List (List Char) := ["CX".toList, "CZ".toList]

/-- The row of the table of gate errors is about the qubit or the pair of qubits. -/
def GateRow.Acts (r : GateRow F) (k : QKey) : Prop :=
  (r.gate ∈ oneGates ∧ ∃ q ∈ r.onQubits, k = .int (q : Nat)) ∨
  (r.gate ∈ twoGates ∧ ∃ (i a b : Nat), r.onQubits[2 * i]? = some a ∧ r.onQubits[2 * i + 1]? = some b ∧ k = .tup [(a : Int), (b : Int)])

/-- A row for two-qubit gates has pairs of qubits and does not use channels of one letter. -/
def GateRow.Fits (r : GateRow F) : Prop :=
  r.gate ∈ twoGates → (∃ m, r.onQubits.length = 2 * m) ∧ ∀ s ∈ r.induced, s ≠ "X".toList ∧ s ≠ "Y".toList ∧ s ≠ "Z".toList

/-- The row has the probability for the channel (in small letters); of several of the same name the last one counts. -/
def GateRow.Gives (r : GateRow F) (par : List Char) (v : F) : Prop :=
  LastGives ((r.induced.zip r.probs).map fun x => (x.1.map Char.toLower, x.2)) par v

/-- The table of gate errors has the probability: the bottom-most row about the gate and the qubits counts. -/
def RowsGive (rows : List (GateRow F)) (g : List Char) (k : QKey) (par : List Char) (v : F) : Prop :=
  ∃ a r b, rows = a ++ r :: b ∧ r.gate = g ∧ r.Acts k ∧ r.Gives par v ∧ ∀ r' ∈ b, r'.gate = g → ¬ r'.Acts k

/-- The tables can be turned into dictionaries: every enabled error has a column, every enabled row fits its gate. -/
structure ErrTable.Usable (d : ErrTable F) : Prop where
  proper : d.Proper
  cols : ∀ e ∈ d.enabledQ, (∃ kind par data, ErrorPlace e kind par data) → e ∈ d.cols.map Prod.fst
  rows : ∀ r ∈ d.gates, r.gate ∈ d.enabledG → r.Fits

end Plaquette
