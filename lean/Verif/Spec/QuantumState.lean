import Verif.Model.QuantumState
import Verif.Spec.Quantum

/-!
# What calls of the methods of a `QuantumState` mean
-/

namespace Plaquette
variable {n : Nat}

/-- The integer `q` is an index of qubit `i` of `n`: as always in python, negative numbers count from the end. -/
def Names (q : Int) (i : Fin n) : Prop := q = (i.val : Int) ∨ q = (i.val : Int) - n

/-- The integers are indices of the qubits. -/
def AllName (qs : List Int) (is : List (Fin n)) : Prop := List.Forall₂ Names qs is

/-- The gates that a call asks for, in order. -/
inductive GateCall.Means : GateCall → List (CGate n) → Prop
  | cx {cs ts : QArg} {c t : List (Fin n)} : AllName cs.items c → AllName ts.items t → c.length = t.length → Means (.cx cs ts) (List.zipWith CGate.cx c t)
  | cz {cs ts : QArg} {c t : List (Fin n)} : AllName cs.items c → AllName ts.items t → c.length = t.length → Means (.cz cs ts) (List.zipWith CGate.cz c t)
  | hadamard {a : QArg} {is : List (Fin n)} : AllName a.items is → Means (.hadamard a) (is.map CGate.h)
  | x {a : QArg} {is : List (Fin n)} : AllName a.items is → Means (.x a) (is.map CGate.x)
  | y {a : QArg} {is : List (Fin n)} : AllName a.items is → Means (.y a) (is.map CGate.y)
  | z {a : QArg} {is : List (Fin n)} : AllName a.items is → Means (.z a) (is.map CGate.z)

/-- The argument is not an iterator. -/
def QArg.IsSeq : QArg → Prop
  | .once _ => False
  | _ => True

/-- Calls that the annotations of the methods allow: iterators only for `x`, `y` and `z`. -/
def GateCall.Typed : GateCall → Prop
  | .cx cs ts => cs.IsSeq ∧ ts.IsSeq
  | .cz cs ts => cs.IsSeq ∧ ts.IsSeq
  | .hadamard a => a.IsSeq
  | _ => True

/-- Calls without iterators; only `x`, `cx` and `cz` have negative indices. -/
def GateCall.Plain : GateCall → Prop
  | .cx cs ts => cs.IsSeq ∧ ts.IsSeq
  | .cz cs ts => cs.IsSeq ∧ ts.IsSeq
  | .x a => a.IsSeq
  | .hadamard a => a.IsSeq ∧ ∀ q ∈ a.items, 0 ≤ q
  | .y a => a.IsSeq ∧ ∀ q ∈ a.items, 0 ≤ q
  | .z a => a.IsSeq ∧ ∀ q ∈ a.items, 0 ≤ q

end Plaquette
