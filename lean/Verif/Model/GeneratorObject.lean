import Verif.Model.Generator

/-!
# A circuit generator that is used more than once
-/

namespace Plaquette
variable {F : Type}

/-- A `QECCircuitGenerator` with its circuit builder, `generator.py:40-124`. -/
structure GenObj (F : Type) where
  gen : Gen F
  circ : List (Gate F)

/-- `QECCircuitGenerator.__init__`, `generator.py:82-124`: the builder has an empty circuit. -/
def GenObj.make (code : LatCode) (qubitErrors gateErrors : List (List Char × ErrDict F)) (logicalAncilla : Bool) : Except Err (GenObj F) :=
  match Gen.make code qubitErrors gateErrors logicalAncilla with
  | .error e => .error e
  | .ok G => .ok { gen := G, circ := [] }

/-- `get_circuit`, `generator.py:326-372`: the gates are appended to the circuit of the builder, and this very circuit is returned, so that
all circuits that have been returned are the circuit of the object. (What has been appended before an exception is not followed up.) -/
def GenObj.getCircuit (api : FloatApi F) (O : GenObj F) (sel : LogicalSel) : Except Err (GenObj F) :=
  match O.gen.getCircuit api sel with
  | .error e => .error e
  | .ok gs => .ok { O with circ := O.circ ++ gs }

/-- Several calls of `get_circuit`. -/
def GenObj.calls (api : FloatApi F) : GenObj F → List LogicalSel → Except Err (GenObj F)
  | O, [] => .ok O
  | O, sel :: sels =>
    match O.getCircuit api sel with
    | .error e => .error e
    | .ok O' => O'.calls api sels

end Plaquette
