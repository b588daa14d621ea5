import Init.Data.Nat.ToString
import Verif.Model.Pauli

/-!
# Model of `src/plaquette/circuit/__init__.py` and `src/plaquette/circuit/openqasm.py`

Text is a list of characters.  Python floats are values of an arbitrary type `F` with the operations of `FloatApi`
(`float(..)`, `str(..)`, `int(..)`, comparison with 0 and 1); what is assumed about them is stated separately in
`FloatApi.Lawful` and is a hypothesis of the theorems that need it.
-/

namespace Plaquette

/-- The instruction names, `circuit/__init__.py:88-111` (`error_gates`, `deterministic_gates`, `allowed_gates`). -/
inductive Name
  | X | Y | Z | H | CX | CZ | M | R | DEPOLARIZE
  | E_ERASE | E_PAULI | E_PAULI2 | ERROR | ERROR_ELSE | ERROR_CONTINUE
  deriving DecidableEq, Repr

/-- The spelling of a name. -/
def Name.text : Name → List Char
  | .X => "X".toList
  | .Y => "Y".toList
  | .Z => "Z".toList
  | .H => "H".toList
  | .CX => "CX".toList
  | .CZ => "CZ".toList
  | .M => "M".toList
  | .R => "R".toList
  | .DEPOLARIZE => "DEPOLARIZE".toList
  | .E_ERASE => "E_ERASE".toList
  | .E_PAULI => "E_PAULI".toList
  | .E_PAULI2 => "E_PAULI2".toList
  | .ERROR => "ERROR".toList
  | .ERROR_ELSE => "ERROR_ELSE".toList
  | .ERROR_CONTINUE => "ERROR_CONTINUE".toList

def Name.all : List Name :=
  [.X, .Y, .Z, .H, .CX, .CZ, .M, .R, .DEPOLARIZE, .E_ERASE, .E_PAULI, .E_PAULI2, .ERROR, .ERROR_ELSE, .ERROR_CONTINUE]

/-- Membership test in `allowed_gates`. -/
def Name.ofText (s : List Char) : Option Name := Name.all.find? fun n => n.text == s

/-- Operations on python floats used by the circuit code. -/
structure FloatApi (F : Type) where
  /-- `str(f)` -/
  repr : F → List Char
  /-- `float(s)`; `none`: `ValueError` -/
  parse : List Char → Option F
  /-- `float(i)` -/
  ofInt : Int → F
  /-- `int(f)` (truncation; raises for nan and infinities) -/
  trunc : F → Except Err Int
  /-- `0.0 <= f <= 1.0` -/
  inUnit : F → Bool

/-- An argument handed to `Circuit.append`. -/
inductive Raw (F : Type)
  | int (i : Int)
  | flt (f : F)
  | str (s : List Char)

/-- A stored argument (`Circuit.gates`). -/
inductive Val (F : Type)
  | int (i : Int)
  | flt (f : F)
  | name (n : Name)
  deriving DecidableEq

/-- A stored gate. -/
structure Gate (F : Type) where
  name : Name
  args : List (Val F)
  deriving DecidableEq

variable {F : Type}

/-- `int(text)` for texts of ASCII digits with an optional sign (underscores and surrounding blanks, which python also
accepts, are not modelled). -/
def parseInt (s : List Char) : Option Int :=
  let digits (t : List Char) : Option Nat := if t ≠ [] ∧ t.all Char.isDigit then some (Nat.ofDigitChars 10 t 0) else none
  match s with
  | '-' :: t => (digits t).map fun k => -(k : Int)
  | '+' :: t => (digits t).map fun k => (k : Int)
  | t => (digits t).map fun k => (k : Int)

/-- `str(i)` -/
def reprInt (i : Int) : List Char :=
  if i < 0 then '-' :: Nat.toDigits 10 i.natAbs else Nat.toDigits 10 i.natAbs

/-- `float(arg)` -/
def toFloat (api : FloatApi F) : Raw F → Except Err F
  | .int i => .ok (api.ofInt i)
  | .flt f => .ok f
  | .str s => match api.parse s with
    | some f => .ok f
    | none => .error .valueError

/-- `int(arg)` -/
def toInt (api : FloatApi F) : Raw F → Except Err Int
  | .int i => .ok i
  | .flt f => api.trunc f
  | .str s => match parseInt s with
    | some i => .ok i
    | none => .error .valueError

/-- `map(int, args)` -/
def toInts (api : FloatApi F) : List (Raw F) → Except Err (List (Val F))
  | [] => .ok []
  | a :: as =>
    match toInt api a with
    | .error e => .error e
    | .ok i => match toInts api as with
      | .error e => .error e
      | .ok is => .ok (.int i :: is)

/-- `map(float, args)` -/
def toFloats (api : FloatApi F) : List (Raw F) → Except Err (List (Val F))
  | [] => .ok []
  | a :: as =>
    match toFloat api a with
    | .error e => .error e
    | .ok i => match toFloats api as with
      | .error e => .error e
      | .ok is => .ok (.flt i :: is)

/-- `assert args[k] in self.allowed_gates` -/
def allowedName : Option (Raw F) → Except Err Name
  | none => .error .indexError
  | some (.str s) => match Name.ofText s with
    | some n => .ok n
    | none => .error .assertionError
  | some _ => .error .assertionError

/-- `args = tuple(map(int, args))` with `ValueError` turned into `TypeError`, `circuit/__init__.py:222-226`. -/
def qubitArgs (api : FloatApi F) (args : List (Raw F)) : Except Err (List (Val F)) :=
  match toInts api args with
  | .error .valueError => .error .typeError
  | r => r

/-- The arguments stored by `Circuit.append`, `circuit/__init__.py:201-228`, for a known name. -/
def appendArgs (api : FloatApi F) (name : Name) (args : List (Raw F)) : Except Err (List (Val F)) :=
  match name with
  | .ERROR | .ERROR_ELSE =>
    match args with
    | [] => .error .indexError
    | a :: rest =>
      match toFloat api a with
      | .error e => .error e
      | .ok p =>
        if api.inUnit p then
          match allowedName rest.head? with
          | .error e => .error e
          | .ok n => match toInts api rest.tail with
            | .error e => .error e
            | .ok is => .ok (.flt p :: .name n :: is)
        else .error .valueError
  | .ERROR_CONTINUE =>
    match allowedName args.head? with
    | .error e => .error e
    | .ok n => match toInts api args.tail with
      | .error e => .error e
      | .ok is => .ok (.name n :: is)
  | .E_ERASE =>
    if args.length = 2 then
      match toFloats api (args.take 1) with
      | .error e => .error e
      | .ok fs => match toInts api (args.drop 1) with
        | .error e => .error e
        | .ok is => .ok (fs ++ is)
    else .error .assertionError
  | .E_PAULI =>
    if args.length = 4 then
      match toFloats api (args.take 3) with
      | .error e => .error e
      | .ok fs => match toInts api (args.drop 3) with
        | .error e => .error e
        | .ok is => .ok (fs ++ is)
    else .error .assertionError
  | .E_PAULI2 =>
    if args.length = 17 then
      match toFloats api (args.take 15) with
      | .error e => .error e
      | .ok fs => match toInts api (args.drop 15) with
        | .error e => .error e
        | .ok is => .ok (fs ++ is)
    else .error .assertionError
  | _ => qubitArgs api args

/-- `Circuit.append(name, *args)`, `circuit/__init__.py:188-229`: the gate that is appended. -/
def appendGate (api : FloatApi F) (name : List Char) (args : List (Raw F)) : Except Err (Gate F) :=
  match Name.ofText name with
  | none => .error .valueError
  | some n => match appendArgs api n args with
    | .error e => .error e
    | .ok vs => .ok { name := n, args := vs }

/-- A sequence of `append` calls, stopping at the first exception. -/
def appendAll (api : FloatApi F) (c : List (Gate F)) : List (List Char × List (Raw F)) → Except Err (List (Gate F))
  | [] => .ok c
  | (name, args) :: rest =>
    match appendGate api name args with
    | .error e => .error e
    | .ok g => appendAll api (c ++ [g]) rest

/-! ### Text -/

/-- `str(arg)` -/
def Val.text (api : FloatApi F) : Val F → List Char
  | .int i => reprInt i
  | .flt f => api.repr f
  | .name n => n.text

/-- `sep.join(parts)` -/
def joinWith (sep : Char) : List (List Char) → List Char
  | [] => []
  | [a] => a
  | a :: rest => a ++ sep :: joinWith sep rest

/-- One line of `Circuit.__str__`, `circuit/__init__.py:83-87`. -/
def Gate.line (api : FloatApi F) (g : Gate F) : List Char :=
  g.name.text ++ ' ' :: joinWith ' ' (g.args.map (Val.text api))

/-- `Circuit.__str__`, `circuit/__init__.py:83-87`. -/
def circuitText (api : FloatApi F) (c : List (Gate F)) : List Char := joinWith '\n' (c.map (Gate.line api))

/-- ASCII white space, as used by `str.strip` and `str.split` (other Unicode blanks are not modelled). -/
def isWs (c : Char) : Bool := c = ' ' || c = '\t' || c = '\n' || c = '\r' || c = '\x0b' || c = '\x0c'

/-- `s.strip()` -/
def strip (s : List Char) : List Char := ((s.dropWhile isWs).reverse.dropWhile isWs).reverse

/-- `s.split(sep)` for a one-character separator. -/
def splitOn (sep : Char) : List Char → List (List Char)
  | [] => [[]]
  | c :: cs =>
    if c = sep then [] :: splitOn sep cs
    else match splitOn sep cs with
      | [] => [[c]]
      | l :: ls => (c :: l) :: ls

/-- `s.split()`: the maximal runs without white space. -/
def words : List Char → List (List Char)
  | [] => []
  | c :: cs =>
    if isWs c then words cs
    else match cs with
      | [] => [[c]]
      | d :: _ => if isWs d then [c] :: words cs
        else match words cs with
          | [] => [[c]]
          | w :: ws => (c :: w) :: ws

/-- `Circuit.append_from_str(s)`, `circuit/__init__.py:170-186`. -/
def appendLines (api : FloatApi F) (c : List (Gate F)) : List (List Char) → Except Err (List (Gate F))
  | [] => .ok c
  | l :: ls =>
    let line := strip ((splitOn '#' l).headD [])
    match words line with
    | [] => appendLines api c ls
    | w :: ws =>
      match appendGate api w (ws.map Raw.str) with
      | .error e => .error e
      | .ok g => appendLines api (c ++ [g]) ls

def appendFromStr (api : FloatApi F) (c : List (Gate F)) (s : List Char) : Except Err (List (Gate F)) :=
  appendLines api c (splitOn '\n' (strip s))

/-- `Circuit.from_str(s)`, `circuit/__init__.py:153-168`. -/
def fromStr (api : FloatApi F) (s : List Char) : Except Err (List (Gate F)) := appendFromStr api [] s

/-! ### Counting -/

/-- `Circuit.number_measured_qubits`, `circuit/__init__.py:113-127`. -/
def numberMeasured (c : List (Gate F)) : Nat :=
  c.foldl (fun t g => if g.name = .M then t + g.args.length else t) 0

/-- The inner loop body of `number_of_qubits`. -/
def maxArg (n : Int) : Val F → Int
  | .int i => if n < i then i else n
  | _ => n

/-- `Circuit.number_of_qubits`, `circuit/__init__.py:130-145`. -/
def numberOfQubits (c : List (Gate F)) : Nat :=
  (c.foldl (fun n g => g.args.foldl maxArg n) (0 : Int) + 1).toNat

/-! ### OpenQASM export, `circuit/openqasm.py:33-111` -/

/-- A line of the exported program after the header. -/
inductive QasmLine
  /-- `<name> q[<q>];` -/
  | gate1 (name : Name) (q : Int)
  /-- `<name> q[<c>],q[<t>];` -/
  | gate2 (name : Name) (c t : Int)
  /-- `measure q[<q>] -> c[<bit>];` -/
  | measure (q : Int) (bit : Nat)
  /-- `reset q[<q>];` -- never produced by the code -/
  | reset (q : Int)
  deriving DecidableEq, Repr

/-- The exported program: `qreg` size, `creg` size, and the lines. -/
structure Qasm where
  qreg : Nat
  creg : Nat
  lines : List QasmLine
  deriving DecidableEq

/-- The integer of a stored argument (the gates exported by this code only store integers; anything else would be
formatted as is). -/
def Val.toInt : Val F → Int
  | .int i => i
  | _ => 0

/-- `for i in range(0, len(qubits), 2): qubits[i], qubits[i + 1]` -/
def qasmPairs (name : Name) : List (Val F) → Except Err (List QasmLine)
  | [] => .ok []
  | [_] => .error .indexError
  | a :: b :: rest => match qasmPairs name rest with
    | .error e => .error e
    | .ok ls => .ok (.gate2 name a.toInt b.toInt :: ls)

/-- The names in `gate_mapping`. -/
def Name.inQasm : Name → Bool
  | .R | .H | .X | .Y | .Z | .CX | .CZ | .M => true
  | _ => false

/-- The loop over the gates; `k` is `meas_idx`. `GateNotSupportedError` is `runtimeError`. -/
def qasmLoop (ignoreUnsupported : Bool) (k : Nat) : List (Gate F) → Except Err (List QasmLine)
  | [] => .ok []
  | g :: gs =>
    if !g.name.inQasm then
      if ignoreUnsupported then qasmLoop ignoreUnsupported k gs else .error .runtimeError
    else
      match g.name with
      | .M => match qasmLoop ignoreUnsupported (k + g.args.length) gs with
        | .error e => .error e
        | .ok ls => .ok (g.args.mapIdx (fun j a => .measure a.toInt (k + j)) ++ ls)
      | .H | .X | .Y | .Z => match qasmLoop ignoreUnsupported k gs with
        | .error e => .error e
        | .ok ls => .ok (g.args.map (fun a => .gate1 g.name a.toInt) ++ ls)
      | .CX | .CZ => match qasmPairs g.name g.args with
        | .error e => .error e
        | .ok ps => match qasmLoop ignoreUnsupported k gs with
          | .error e => .error e
          | .ok ls => .ok (ps ++ ls)
      | _ => qasmLoop ignoreUnsupported k gs

/-- `convert_to_openqasm(circuit, ignore_unsupported)`. -/
def convertToQasm (c : List (Gate F)) (ignoreUnsupported : Bool) : Except Err Qasm :=
  match qasmLoop ignoreUnsupported 0 c with
  | .error e => .error e
  | .ok ls => .ok { qreg := numberOfQubits c, creg := numberMeasured c, lines := ls }

end Plaquette
