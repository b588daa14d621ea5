import Verif.Model.Circuit
import Verif.Model.Codes

/-!
# Model of the error dictionaries and their check, `src/plaquette/errors/__init__.py`

A python dictionary is a list of pairs with different keys.
-/

namespace Plaquette
variable {F : Type}

/-- The key of an error dictionary: one qubit index or a tuple of qubit indices. (Keys of other types are not modelled.) -/
inductive QKey
  | int (i : Int)
  | tup (l : List Int)
  deriving DecidableEq

/-- The parameters of one error (`ErrorValueDict`, `SinglePauliChannelErrorValueDict`, `TwoPauliChannelErrorValueDict`),
`errors/__init__.py:44-89`. -/
abbrev Params (F : Type) := List (List Char × Raw F)

/-- The errors of one kind, by qubit(s). -/
abbrev ErrDict (F : Type) := List (QKey × Params F)

/-- `d.get(key)` -/
def dictGet {K V : Type} [DecidableEq K] (d : List (K × V)) (k : K) : Option V := (d.find? fun e => e.1 = k).map Prod.snd

/-- The optional keys of `QubitErrorsDict`, `errors/__init__.py:91-106`. -/
def qubitErrorNames : List (List Char) := ["pauli".toList, "erasure".toList, "measurement".toList]

/-- The optional keys of `GateErrorsDict`, `errors/__init__.py:109-136`. -/
def gateErrorNames : List (List Char) := ["CX".toList, "CZ".toList, "H".toList, "R".toList, "M".toList]

/-- The optional keys of `TwoPauliChannelErrorValueDict`, `errors/__init__.py:58-88`. -/
def twoPauliNames : List (List Char) :=
  ["ix".toList, "iy".toList, "iz".toList, "xi".toList, "xx".toList, "xy".toList, "xz".toList, "yi".toList, "yx".toList,
   "yy".toList, "yz".toList, "zi".toList, "zx".toList, "zy".toList, "zz".toList]

/-- The optional keys of `SinglePauliChannelErrorValueDict`, `errors/__init__.py:49-55`. -/
def onePauliNames : List (List Char) := ["x".toList, "y".toList, "z".toList]

/-- `check_equbit_is_data`, `latticebase.py:578-595`. -/
def Lattice.checkData (L : Lattice) : QKey → Except Err Unit
  | .tup _ => .error .valueError
  | .int i =>
    if i < 0 ∨ i ≥ L.equbits.length then .error .valueError
    else match L.equbits[i.toNat]? with
      | none => .error .indexError
      | some p => if p ∈ L.dataqubits then .ok () else .error .valueError

/-- `check_equbit_is_stabgen`, `latticebase.py:597-617`. -/
def Lattice.checkStab (L : Lattice) : QKey → Except Err Unit
  | .tup _ => .error .valueError
  | .int i =>
    if i < 0 ∨ i ≥ L.equbits.length then .error .valueError
    else match L.equbits[i.toNat]? with
      | none => .error .indexError
      | some p => if L.isStab p then .ok () else .error .valueError

/-- `if set(params) - allowed: raise ValueError` -/
def checkKeys (allowed : List (List Char)) (ps : Params F) : Except Err Unit :=
  if ps.all fun e => e.1 ∈ allowed then .ok () else .error .valueError

/-- A loop that only checks. -/
def checkLoop {α : Type} (f : α → Except Err Unit) : List α → Except Err Unit
  | [] => .ok ()
  | a :: as => match f a with
    | .error e => .error e
    | .ok () => checkLoop f as

/-- `_check_single_phys_qubit_error`, `errors/__init__.py:998-1026`. -/
def checkPhysQubit (L : Lattice) (allowed : List (List Char)) (d : ErrDict F) : Except Err Unit :=
  checkLoop (fun e => do L.checkData e.1; checkKeys allowed e.2) d

/-- `_check_single_stab_qubit_error`, `errors/__init__.py:1028-1057`. -/
def checkStabQubit (L : Lattice) (allowed : List (List Char)) (d : ErrDict F) : Except Err Unit :=
  checkLoop (fun e => do L.checkStab e.1; checkKeys allowed e.2) d

/-- `_check_twoqubit_gate_error`, `errors/__init__.py:1059-1089`. (`len` of an integer raises `TypeError`.) -/
def checkTwoQubit (L : Lattice) (d : ErrDict F) : Except Err Unit :=
  checkLoop (fun e => match e.1 with
    | .int _ => .error .typeError
    | .tup [a, b] => do L.checkStab (.int a); L.checkData (.int b); checkKeys twoPauliNames e.2
    | .tup _ => .error .valueError) d

/-- `_check_onequbit_gate_error`, `errors/__init__.py:1091-1118`. -/
def checkOneQubit (L : Lattice) (d : ErrDict F) : Except Err Unit :=
  checkLoop (fun e => do L.checkStab e.1; checkKeys onePauliNames e.2) d

/-- `if name in errordata: check(errordata[name])` -/
def checkIf (errs : List (List Char × ErrDict F)) (name : List Char) (f : ErrDict F → Except Err Unit) : Except Err Unit :=
  match dictGet errs name with
  | none => .ok ()
  | some d => f d

/-- `check_against_code`, `errors/__init__.py:954-996`, for a given dictionary. -/
def checkAgainstCode (L : Lattice) (errs : List (List Char × ErrDict F)) : Except Err Unit :=
  if errs.any fun e => e.1 ∉ qubitErrorNames ∧ e.1 ∉ gateErrorNames then .error .valueError
  else do
    checkIf errs "pauli".toList (checkPhysQubit L onePauliNames)
    checkIf errs "erasure".toList (checkPhysQubit L ["p".toList])
    checkIf errs "measurement".toList (checkStabQubit L ["p".toList])
    checkLoop (fun g => checkIf errs g (checkTwoQubit L)) ["CX".toList, "CZ".toList]
    checkLoop (fun g => checkIf errs g (checkOneQubit L)) ["H".toList, "M".toList, "R".toList]

end Plaquette
