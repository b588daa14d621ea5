import Verif.Model.Circuit

/-!
# Model of the text made by `convert_to_openqasm`
-/

namespace Plaquette
variable {F : Type}

/-- `gate_mapping`, `circuit/openqasm.py:69-78`, for the gates that are written with it. -/
def Name.qasm : Name → List Char
  | .H => "h".toList
  | .X => "x".toList
  | .Y => "y".toList
  | .Z => "z".toList
  | .CX => "cx".toList
  | .CZ => "cz".toList
  | n => n.text

/-- `q[{qubit}]` -/
def qasmRef (reg : Char) (i : Int) : List Char := reg :: '[' :: reprInt i ++ [']']

/-- `{qasm_gate} q[{qubit}];` -/
def gateLine1 (name : Name) (q : Int) : List Char := name.qasm ++ ' ' :: (qasmRef 'q' q ++ [';'])

/-- `{qasm_gate} q[{control_qubit}],q[{target_qubit}];` -/
def gateLine2 (name : Name) (c t : Int) : List Char := name.qasm ++ ' ' :: (qasmRef 'q' c ++ ',' :: (qasmRef 'q' t ++ [';']))

/-- `measure q[{qubit}] -> c[{meas_idx}];` -/
def measureLine (q : Int) (b : Nat) : List Char := "measure".toList ++ ' ' :: (qasmRef 'q' q ++ ' ' :: '-' :: '>' :: ' ' :: (qasmRef 'c' b ++ [';']))

/-- `reset q[{qubit}];` -/
def resetLine (q : Int) : List Char := "reset".toList ++ ' ' :: (qasmRef 'q' q ++ [';'])

/-- The lines appended by the loop, `circuit/openqasm.py:100-111`. (`reset` lines are never made.) -/
def QasmLine.text : QasmLine → List Char
  | .gate1 name q => gateLine1 name q
  | .gate2 name c t => gateLine2 name c t
  | .measure q b => measureLine q b
  | .reset q => resetLine q

/-- The text of the program, `circuit/openqasm.py:80-85` (header) and 113. -/
def Qasm.text (q : Qasm) : List Char :=
  joinWith '\n' (["OPENQASM 2.0;".toList, "include \"qelib1.inc\";".toList, "qreg ".toList ++ qasmRef 'q' q.qreg ++ [';'],
    "creg ".toList ++ qasmRef 'c' q.creg ++ [';']] ++ q.lines.map QasmLine.text)

/-- `convert_to_openqasm`, `circuit/openqasm.py:34-111`, for a circuit. -/
def openqasm (c : List (Gate F)) (ignoreUnsupported : Bool) : Except Err (List Char) := (convertToQasm c ignoreUnsupported).map Qasm.text

end Plaquette
