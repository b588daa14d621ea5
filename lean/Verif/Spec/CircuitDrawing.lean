import Verif.Spec.Qasm

/-!
# Specification of the meaning of OpenQASM 3 programs

The part of the language that is shared with OpenQASM 2.0 (`Spec/Qasm.lean`): the older forms `qreg`, `creg` and `measure a -> c` are kept in the third version, and the gates come from
`stdgates.inc`. Written from the description of the language (Cross et al., OpenQASM 3, 2022).
-/

namespace Plaquette.OpenQasm3
open OpenQasm

/-- One statement behind the version. -/
def statement (ts : List Tok) : Option Stmt :=
  if ts = [.word "include".toList, .sym '"', .word "stdgates.inc".toList, .sym '"'] then some .include
  else match OpenQasm.statement ts with
    | some .version => none
    | some .include => none
    | r => r

/-- The statements of a program behind the version. -/
def parse (s : List Char) : Option (List Stmt) :=
  match statements (tokens s) with
  | some (v :: ss) => if v = [.word "OPENQASM".toList, .word "3.0".toList] then ss.mapM statement else none
  | _ => none

/-- The meaning of a text as a program on `N` qubits. -/
noncomputable def program (N : Nat) (s : List Char) : Option (Program N) := (parse s).bind (meaning N ⟨false, [], []⟩)

end Plaquette.OpenQasm3
