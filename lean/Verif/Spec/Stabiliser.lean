import Verif.Spec.Quantum

/-!
# Specification of a valid stabiliser tableau

Stated with the matrices of the rows only.
-/

namespace Plaquette
variable {n : Nat}

/-- A valid stabiliser tableau: the stabilisers commute with each other, the destabilisers commute with each
other, and destabiliser `i` anticommutes with stabiliser `i` and commutes with all the others. -/
structure Tab.Valid (T : Tab n) : Prop where
  stab_stab : ∀ i j, Commutes (opMat (T.s i)) (opMat (T.s j))
  destab_destab : ∀ i j, Commutes (opMat (T.d i)) (opMat (T.d j))
  destab_stab_same : ∀ i, Anticommutes (opMat (T.d i)) (opMat (T.s i))
  destab_stab_ne : ∀ i j, i ≠ j → Commutes (opMat (T.d i)) (opMat (T.s j))

/-- The part of validity that matters for measurement outcomes (nothing is required of the destabilisers
among themselves). -/
structure Tab.SemiValid (T : Tab n) : Prop where
  stab_stab : ∀ i j, Commutes (opMat (T.s i)) (opMat (T.s j))
  destab_stab_same : ∀ i, Anticommutes (opMat (T.d i)) (opMat (T.s i))
  destab_stab_ne : ∀ i j, i ≠ j → Commutes (opMat (T.d i)) (opMat (T.s j))

theorem Tab.Valid.semi {T : Tab n} (h : T.Valid) : T.SemiValid :=
  ⟨h.stab_stab, h.destab_stab_same, h.destab_stab_ne⟩

/-- The operator is `+I` or `-I`. -/
def Op.IsScalar (m : Op n) : Prop := (∀ q, m.x q = false) ∧ (∀ q, m.z q = false)

instance (m : Op n) : Decidable m.IsScalar := by unfold Op.IsScalar; infer_instance

end Plaquette
