import Verif.Model.PauliText

/-!
# Model of `apply_operator`
-/

namespace Plaquette
variable {n : Nat}

/-- The arguments of `apply_operator`: arrays of one, two or another number of dimensions, or something else than an array. -/
inductive ArrayArg
  | vec (op : AnyOp)
  | rows (n : Nat) (l : List (Op n))
  | otherArray
  | other

/-- `isinstance(a, np.ndarray)` -/
def ArrayArg.isArray : ArrayArg → Bool
  | .other => false
  | _ => true

/-- The part of `apply_operator` behind the checks, `pauli.py:158-164`, for operators of the same size: `zip_longest` fills the
shorter of the two lists with the first operator. -/
def applyRows (ops rows : List (Op n)) : Except Err (List (Op n)) :=
  match ops with
  | [] => .error .indexError
  | o :: _ => .ok ((List.range (max ops.length rows.length)).map fun i => mulOp ((ops[i]?).getD o) ((rows[i]?).getD o))

/-- `apply_operator`, `pauli.py:111-164`. What has no `ndim` raises `AttributeError` where `op.ndim` is read (138); arguments with
`ndim` that are not arrays are not modelled. -/
def applyOperator (op state : ArrayArg) : Except Err ArrayArg :=
  match state with
  | .other => .error .typeError
  | .vec _ => .error .valueError
  | .otherArray => .error .valueError
  | .rows n l =>
    if op.isArray then .error .typeError
    else
      match op with
      | .vec ⟨m, o⟩ => if h : m = n then (applyRows [h ▸ o] l).map (.rows n) else .error .valueError
      | .rows m os =>
        if os.length ≠ l.length then .error .valueError
        else if h : m = n then (applyRows (h ▸ os) l).map (.rows n) else .error .valueError
      | .otherArray => .error .unmodelled
      | .other => .error .attributeError

end Plaquette
