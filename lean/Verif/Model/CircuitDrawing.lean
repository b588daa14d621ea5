import Verif.Model.QasmText
import Verif.Model.StateText

/-!
# Model of the text from which circuits are drawn
-/

namespace Plaquette
variable {F : Type}

/-- `text.split("\n")` -/
def pySplitLines : List Char → List (List Char)
  | [] => [[]]
  | c :: cs =>
    let ls := pySplitLines cs
    if c = '\n' then [] :: ls else (c :: ls.headD []) :: ls.tail

/-- `lines[i] = line`; an exception if there is no such line. -/
def setLine (ls : List (List Char)) (i : Nat) (l : List Char) : Except Err (List (List Char)) := if i < ls.length then .ok (ls.set i l) else .error .indexError

/-- The text that `CircuitVisualizer.__init__` gives to Qiskit, `visualizer/__init__.py:459-474`. The parser of Qiskit and the drawing are left out. -/
def drawnText (c : List (Gate F)) : Except Err (List Char) :=
  match openqasm c false with
  | .error e => .error e
  | .ok text => match setLine (pySplitLines text) 0 "OPENQASM 3.0;".toList with
    | .error e => .error e
    | .ok ls => match setLine ls 1 "include \"stdgates.inc\";".toList with
      | .error e => .error e
      | .ok ls => .ok (joinLines ls)

end Plaquette
