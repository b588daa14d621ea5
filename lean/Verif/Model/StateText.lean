import Verif.Model.ResetText

/-!
# Model of the printed text of states
-/

namespace Plaquette
variable {n : Nat}

/-- `"\n".join(lines)` -/
def joinLines : List (List Char) → List Char
  | [] => []
  | [l] => l
  | l :: ls => l ++ '\n' :: joinLines ls

/-- `QuantumState.__str__`, `device/__init__.py:79-83`. -/
def stateText (T : Tab n) : List Char :=
  let ds := (stateToStrings T true).1
  joinLines ds ++ '\n' :: (List.replicate (ds.length + 1) '-' ++ '\n' :: joinLines (stateToStrings T true).2)

/-- What `pprint_state` prints, `pauli.py:930-960`. -/
def printedText (T : Tab n) (showIdentities showDestabilisers : Bool) : List Char :=
  let p := stateToStrings T showIdentities
  if showDestabilisers then "Destabilisers:".toList ++ '\n' :: (joinLines p.1 ++ '\n' :: ("Stabilisers:".toList ++ '\n' :: joinLines p.2))
  else "Stabilisers:".toList ++ '\n' :: joinLines p.2

end Plaquette
