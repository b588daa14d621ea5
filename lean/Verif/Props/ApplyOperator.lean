import Verif.Model.ApplyOperator

/-!
# C103: applying operators to a state
-/

namespace Plaquette
variable {n : Nat}

/-- **C103 (full statement)**: an operator is multiplied to all rows of a state, a list of operators row by row. -/
def C103_statement : Prop := ∀ (n : Nat) (rows : List (Op n)), rows ≠ [] →
  (∀ o : Op n, applyOperator (.vec ⟨n, o⟩) (.rows n rows) = .ok (.rows n (rows.map (mulOp o)))) ∧
  ∀ ops : List (Op n), ops.length = rows.length → applyOperator (.rows n ops) (.rows n rows) = .ok (.rows n (List.zipWith mulOp ops rows))

/-- `apply_operator` never returns: the check of the type of `op` is the wrong way round, so that arrays raise `TypeError`, and what is
not an array has no `ndim`. -/
theorem C103_never (op state r : ArrayArg) : applyOperator op state ≠ .ok r := by
  cases state <;> cases op <;> simp [applyOperator, ArrayArg.isArray]

theorem C103_counterexample : ¬ C103_statement := fun h => C103_never _ _ _ ((h 1 [idOp 1] (by simp)).1 (idOp 1))

/-- **C103 (partial)**: the code behind the checks does what is documented. Missing: that it is reached. -/
theorem C103_rows_partial {rows : List (Op n)} (hr : rows ≠ []) :
    (∀ o : Op n, applyRows [o] rows = .ok (rows.map (mulOp o))) ∧
    ∀ ops : List (Op n), ops.length = rows.length → applyRows ops rows = .ok (List.zipWith mulOp ops rows) := by
  have hl : 1 ≤ rows.length := List.length_pos_iff.2 hr
  constructor
  · intro o
    rw [applyRows]
    simp only [Except.ok.injEq, List.length_cons, List.length_nil]
    refine List.ext_getElem (by simp; omega) fun i h1 h2 => ?_
    simp only [List.length_map, List.length_range] at h1 h2
    simp only [List.getElem_map, List.getElem_range, List.getElem?_eq_getElem h2, Option.getD_some]
    cases i with
    | zero => rfl
    | succ i => simp
  · intro ops ho
    cases ops with
    | nil => simp at ho; omega
    | cons o ops =>
      rw [applyRows]
      simp only [Except.ok.injEq]
      refine List.ext_getElem (by simp [← ho]) fun i h1 h2 => ?_
      simp only [List.length_zipWith, ho, min_self] at h2
      rw [List.getElem_map, List.getElem_range, List.getElem?_eq_getElem h2, List.getElem?_eq_getElem (ho ▸ h2), List.getElem_zipWith]
      rfl

/-- Non-vacuity. -/
example : applyOperator (.vec ⟨1, idOp 1⟩) (.rows 1 [idOp 1, idOp 1]) = .error .typeError ∧
    (applyRows [singleOp false .X (0 : Fin 1)] [singleOp false .Z 0, idOp 1]).map (·.map fun o => (o.x 0, o.z 0, o.r)) =
      .ok [(true, true, true), (true, false, false)] := ⟨rfl, rfl⟩

end Plaquette
