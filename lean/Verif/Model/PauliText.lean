import Verif.Model.Pauli
import Init.Data.Nat.ToString

/-!
# Model of the string and dictionary forms of operators in `pauli.py`

Strings are lists of characters.  Digits are the ASCII digits (python's `str.isdigit` and `\d` also accept other
unicode digits; strings with such characters are outside the model).  Dictionaries are association lists in
insertion order; a later entry for the same key replaces the earlier one.
-/

namespace Plaquette
variable {n : Nat}

/-- An operator on some number of qubits (a one-dimensional array whose length is not fixed). -/
abbrev AnyOp := (n : Nat) × Op n

/-- The letter of one qubit, `pauli.py:855-859`: `"IXZY"[x + 2 z]`. -/
def letterChar (x z : Bool) : Char :=
  match x, z with
  | false, false => 'I'
  | true, false => 'X'
  | false, true => 'Z'
  | true, true => 'Y'

/-- The letters of all qubits in order (`pauli_op_main`), `pauli.py:855-859`. -/
def mainChars (op : Op n) : List Char := (List.finRange n).map fun q => letterChar (op.x q) (op.z q)

/-- `pauli_to_string`, `pauli.py:830-871`, for a one-dimensional operator. -/
def pauliToString (op : Op n) (showIdentities : Bool) : List Char :=
  let sign := if op.r then '-' else '+'
  if showIdentities then sign :: mainChars op
  else
    sign :: (List.finRange n).flatMap fun q =>
      let c := letterChar (op.x q) (op.z q)
      if c ≠ 'I' then ' ' :: c :: Nat.toDigits 10 q.val else []

/-- `pauli_to_dict`, `pauli.py:809-827`. -/
def pauliToDict (op : Op n) : List (Nat × Char) :=
  (List.finRange n).filterMap fun q =>
    let c := letterChar (op.x q) (op.z q)
    if c ≠ 'I' then some (q.val, c) else none

/-- The largest key, `max(ops.keys())`, of a non-empty dictionary. -/
def maxKey (ops : List (Nat × Char)) : Nat := ops.foldl (fun m e => max m e.1) 0

/-- Writing one dictionary entry in the bit array, `pauli.py:358-360`. -/
def writeEntry (op : Op n) (e : Nat × Char) : Op n :=
  { op with
    x := fun q => if q.val = e.1 then (e.2 = 'X' ∨ e.2 = 'Y' : Bool) else op.x q
    z := fun q => if q.val = e.1 then (e.2 = 'Z' ∨ e.2 = 'Y' : Bool) else op.z q }

/-- `dict_to_pauli`, `pauli.py:330-361`, for natural-number keys. (`max` of no keys raises `ValueError`.) -/
def dictToPauli (ops : List (Nat × Char)) (qubits : Option Nat) : Except Err AnyOp :=
  match ops with
  | [] => .error .valueError
  | _ :: _ =>
    let mx := maxKey ops
    let n := qubits.getD (mx + 1)
    if n ≤ mx then .error .valueError
    else .ok ⟨n, ops.foldl writeEntry (idOp n)⟩

/-- The letters of the short form regular expression. -/
def isPauliChar (c : Char) : Bool := c = 'X' ∨ c = 'Y' ∨ c = 'Z' ∨ c = 'I'

/-- One match of `([XYZI])(\d+)` at the beginning of `s`: the letter, the digits and the rest. -/
def matchTerm (s : List Char) : Option (Char × List Char × List Char) :=
  match s with
  | [] => none
  | c :: rest =>
    if isPauliChar c then
      let ds := rest.takeWhile Char.isDigit
      if ds = [] then none else some (c, ds, rest.dropWhile Char.isDigit)
    else none

/-- One match of `([-+])?(([XYZI])(\d+))` at the beginning of `s`: the sign (if any), letter, digits, rest. -/
def matchSigned (s : List Char) : Option (Option Char × Char × List Char × List Char) :=
  match s with
  | [] => none
  | c :: rest =>
    if c = '-' ∨ c = '+' then (matchTerm rest).map fun t => (some c, t)
    else (matchTerm (c :: rest)).map fun t => (none, t)

theorem matchTerm_lt {s : List Char} {t} (h : matchTerm s = some t) : t.2.2.length < s.length := by
  unfold matchTerm at h
  cases s with
  | nil => simp at h
  | cons c rest =>
    simp only at h
    split_ifs at h
    simp only [Option.some.injEq] at h
    subst h
    simpa using Nat.lt_succ_of_le (List.dropWhile_sublist _).length_le

theorem matchSigned_lt {s : List Char} {t} (h : matchSigned s = some t) : t.2.2.2.length < s.length := by
  unfold matchSigned at h
  cases s with
  | nil => simp at h
  | cons c rest =>
    simp only at h
    split_ifs at h
    · rw [Option.map_eq_some_iff] at h
      obtain ⟨t', h1, rfl⟩ := h
      exact Nat.lt_succ_of_lt (matchTerm_lt h1)
    · rw [Option.map_eq_some_iff] at h
      obtain ⟨t', h1, rfl⟩ := h
      exact matchTerm_lt h1

/-- `short_string_re.findall(op_str)`, `pauli.py:1024-1034`: scan from the left; after a match continue behind it, else
skip one character. -/
def findAll (s : List Char) : List (Option Char × Char × List Char) :=
  match s with
  | [] => []
  | c :: rest =>
    match _h : matchSigned (c :: rest) with
    | some (sg, l, ds, rest') => (sg, l, ds) :: findAll rest'
    | none => findAll rest
  termination_by s.length
  decreasing_by
    · exact matchSigned_lt _h
    · simp

/-- `string_to_pauli`, `pauli.py:963-1056`. -/
def stringToPauli (s : List Char) (qubits : Option Nat) : Except Err AnyOp :=
  let s := s.filter fun c => c ≠ ' ' ∧ c ≠ '_'
  if s.any Char.isDigit then
    match findAll s with
    | [] => .error .indexError
    | (sg, l, ds) :: rest =>
      let dict := ((sg, l, ds) :: rest).map fun t => (Nat.ofDigitChars 10 t.2.2 0, t.2.1)
      match dictToPauli dict qubits with
      | .error e => .error e
      | .ok ⟨n, op⟩ => .ok ⟨n, { op with r := sg = some '-' }⟩
  else
    match s with
    | [] => .error .indexError
    | c :: rest =>
      let (neg, body) := if c = '+' ∨ c = '-' then ((c = '-' : Bool), rest) else (false, c :: rest)
      let dict := body.zipIdx.filterMap fun e => if e.1 ≠ 'I' then some (e.2, e.1) else none
      match dictToPauli dict (some (max (qubits.getD 0) body.length)) with
      | .error e => .error e
      | .ok ⟨n, op⟩ => .ok ⟨n, { op with r := neg }⟩

/-- The consistency checks of `string_to_state` with given destabilisers, `pauli.py:1107-1160`, on operators that all
act on `n` qubits (rows of an array). The loops run over `i` (stabilisers) and `j` (destabilisers) and skip `i < j`;
every failure raises `ValueError`. Returns the rows (destabilisers, stabilisers). -/
def stateCheck (stabs destabs : List (Op n)) : Except Err (List (Op n) × List (Op n)) :=
  if h : destabs.length = stabs.length then
    let S : Fin stabs.length → Op n := fun i => stabs.get i
    let D : Fin stabs.length → Op n := fun j => destabs.get (j.cast h.symm)
    let bad := (List.finRange stabs.length).any fun i => (List.finRange stabs.length).any fun j =>
      if i < j then false
      else if commSign (S i) (S j) ≠ 0 then true
      else if commSign (D i) (D j) ≠ 0 then true
      else if i = j ∧ commSign (S i) (D j) = 0 then true
      else if j > i ∧ commSign (S i) (D j) ≠ 0 then true
      else false
    if bad then .error .valueError else .ok (destabs, stabs)
  else .error .valueError

/-- All strings parsed, stopping at the first exception. -/
def parseAll (qubits : Option Nat) : List (List Char) → Except Err (List AnyOp)
  | [] => .ok []
  | s :: rest =>
    match stringToPauli s qubits with
    | .error e => .error e
    | .ok op =>
      match parseAll qubits rest with
      | .error e => .error e
      | .ok ops => .ok (op :: ops)

/-- The rows of operators that all act on `n` qubits (`np.array` of rows of different lengths raises `ValueError`). -/
def sameSize (n : Nat) : List AnyOp → Except Err (List (Op n))
  | [] => .ok []
  | ⟨m, op⟩ :: rest =>
    if h : m = n then
      match sameSize n rest with
      | .error e => .error e
      | .ok ops => .ok (h ▸ op :: ops)
    else .error .valueError

/-- `string_to_state(stabilisers, destabilisers, qubits)`, `pauli.py:1059-1160`, with given destabilisers and with
all operators on `n` qubits. (The branch `destabilisers=None` uses a floating point pseudo-inverse:
`stringToState'` in `Model/StringState.lean`.) -/
def stringToState (n : Nat) (stabs destabs : List (List Char)) (qubits : Option Nat) :
    Except Err (List (Op n) × List (Op n)) :=
  match parseAll qubits stabs with
  | .error e => .error e
  | .ok ss =>
    match parseAll qubits destabs with
    | .error e => .error e
    | .ok ds =>
      match sameSize n ss, sameSize n ds with
      | .ok ss, .ok ds => stateCheck ss ds
      | .error e, _ => .error e
      | _, .error e => .error e

end Plaquette
