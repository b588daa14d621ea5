import Verif.Spec.StimSemantics
import Verif.Lemmas.DistributionRun

/-!
# Adding one qubit to vectors, matrices and instruments
-/

open Matrix
open scoped ENNReal

namespace Plaquette
variable {n : Nat}

/-- The state `ψ` with one more qubit, in the state `b`. -/
def lift (b : Bool) (ψ : Vec n) : Vec (n + 1) := fun a => if a (Fin.last n) = b then ψ (fun q => a q.castSucc) else 0

/-- The operator that does nothing to the last qubit. -/
def liftMat (A : Mat n) : Mat (n + 1) := fun a a' => if a (Fin.last n) = a' (Fin.last n) then A (fun q => a q.castSucc) (fun q => a' q.castSucc) else 0

/-- Sums over the basis. -/
theorem sum_snoc {M : Type} [AddCommMonoid M] (f : Basis (n + 1) → M) : ∑ a, f a = ∑ b : Bool, ∑ a : Basis n, f (Fin.snoc a b) := by
  rw [← Fintype.sum_prod_type']
  refine (Fintype.sum_equiv (Fin.snocEquiv fun _ : Fin (n + 1) => Bool) _ _ fun x => ?_).symm
  rfl

theorem snoc_castSucc (a : Basis n) (b : Bool) : (fun q : Fin n => (Fin.snoc a b : Basis (n + 1)) q.castSucc) = a := by
  funext q
  exact Fin.snoc_castSucc (α := fun _ => Bool) b a q

theorem snoc_last (a : Basis n) (b : Bool) : (Fin.snoc a b : Basis (n + 1)) (Fin.last n) = b := Fin.snoc_last (α := fun _ => Bool) b a

theorem liftMat_lift (A : Mat n) (b : Bool) (ψ : Vec n) : liftMat A *ᵥ lift b ψ = lift b (A *ᵥ ψ) := by
  funext a
  simp only [mulVec, dotProduct, sum_snoc, lift, liftMat, snoc_castSucc, snoc_last]
  rcases h : a (Fin.last n) <;> cases b <;> simp

theorem liftMat_mul (A B : Mat n) : liftMat (A * B) = liftMat A * liftMat B := by
  funext a a'
  simp only [mul_apply, sum_snoc, liftMat, snoc_castSucc, snoc_last]
  rcases h : a (Fin.last n) <;> rcases h' : a' (Fin.last n) <;> simp

theorem basis_ext {a a' : Basis (n + 1)} : a = a' ↔ a (Fin.last n) = a' (Fin.last n) ∧ (fun q : Fin n => a q.castSucc) = fun q => a' q.castSucc := by
  constructor
  · rintro rfl; exact ⟨rfl, rfl⟩
  · rintro ⟨h1, h2⟩
    funext q
    refine Fin.lastCases h1 (fun q => congrFun h2 q) q

theorem liftMat_one : liftMat (1 : Mat n) = 1 := by
  funext a a'
  simp only [liftMat, one_apply, basis_ext (a := a) (a' := a')]
  by_cases h : a (Fin.last n) = a' (Fin.last n) <;> simp [h]

theorem liftMat_tensor (A : Fin (n + 1) → Matrix Bool Bool ℂ) (h : A (Fin.last n) = 1) : tensor A = liftMat (tensor fun q => A q.castSucc) := by
  funext a a'
  simp only [tensor, liftMat, Fin.prod_univ_castSucc, h, one_apply]
  by_cases h : a (Fin.last n) = a' (Fin.last n) <;> simp [h]

theorem liftMat_onQubit (q : Fin n) (A : Matrix Bool Bool ℂ) : onQubit q.castSucc A = liftMat (onQubit q A) := by
  unfold onQubit
  rw [liftMat_tensor _ (if_neg (Fin.castSucc_lt_last q).ne')]
  simp

/-- The same gate on one more qubit. -/
def CGate.lift : CGate n → CGate (n + 1)
  | .x q => .x q.castSucc
  | .y q => .y q.castSucc
  | .z q => .z q.castSucc
  | .h q => .h q.castSucc
  | .s q => .s q.castSucc
  | .cx c t => .cx c.castSucc t.castSucc
  | .cz c t => .cz c.castSucc t.castSucc

theorem liftMat_unitary (G : CGate n) : G.lift.unitary = liftMat G.unitary := by
  cases G with
  | x q => exact liftMat_onQubit _ _
  | y q => exact liftMat_onQubit _ _
  | z q => exact liftMat_onQubit _ _
  | h q => exact liftMat_onQubit _ _
  | s q => exact liftMat_onQubit _ _
  | cx c t =>
    funext a a'
    simp only [CGate.lift, CGate.unitary, cnotMat, liftMat]
    have h : (a = Function.update a' t.castSucc (a' t.castSucc ^^ a' c.castSucc)) ↔
        a (Fin.last n) = a' (Fin.last n) ∧ (fun q : Fin n => a q.castSucc) = Function.update (fun q : Fin n => a' q.castSucc) t (a' t.castSucc ^^ a' c.castSucc) := by
      rw [basis_ext, Function.update_of_ne (Fin.castSucc_lt_last t).ne']
      refine and_congr_right fun _ => ?_
      have : (fun q : Fin n => Function.update a' t.castSucc (a' t.castSucc ^^ a' c.castSucc) q.castSucc) =
          Function.update (fun q : Fin n => a' q.castSucc) t (a' t.castSucc ^^ a' c.castSucc) := by
        funext q
        by_cases hq : q = t
        · subst hq; simp
        · rw [Function.update_of_ne hq, Function.update_of_ne (by simpa using hq)]
      rw [this]
    simp only [h]
    by_cases h' : a (Fin.last n) = a' (Fin.last n) <;> simp [h']
  | cz c t =>
    funext a a'
    simp only [CGate.lift, CGate.unitary, czMat, liftMat, basis_ext (a := a) (a' := a')]
    by_cases h' : a (Fin.last n) = a' (Fin.last n) <;> simp [h']

theorem liftMat_projZ (q : Fin n) (o : Bool) : projZ q.castSucc o = liftMat (projZ q o) := by
  funext a a'
  simp only [projZ, liftMat, basis_ext (a := a) (a' := a')]
  by_cases h' : a (Fin.last n) = a' (Fin.last n) <;> simp [h']

theorem liftMat_pauliNo (q : Fin n) (k : Fin 4) : pauliNo q.castSucc k = liftMat (pauliNo q k) := by
  match k with
  | 0 => exact liftMat_one.symm
  | 1 => exact liftMat_onQubit _ _
  | 2 => exact liftMat_onQubit _ _
  | 3 => exact liftMat_onQubit _ _

theorem lift_zero (b : Bool) : lift b (0 : Vec n) = 0 := by
  funext a
  simp [lift]

/-- Flipping the last qubit. -/
theorem flip_lift (b : Bool) (ψ : Vec n) : onQubit (Fin.last n) (sigma true false) *ᵥ lift b ψ = lift (!b) ψ := by
  funext a
  simp only [mulVec, dotProduct, sum_snoc, lift, snoc_castSucc, snoc_last, onQubit, tensor, Fin.prod_univ_castSucc]
  have h1 : ∀ (c : Bool) (x : Basis n), (∏ i : Fin n, (if i.castSucc = Fin.last n then sigma true false else (1 : Matrix Bool Bool ℂ)) (a i.castSucc)
      ((Fin.snoc x c : Basis (n + 1)) i.castSucc)) = if (fun q : Fin n => a q.castSucc) = x then 1 else 0 := by
    intro c x
    simp only [if_neg (Fin.castSucc_lt_last _).ne, one_apply]
    rw [Finset.prod_congr rfl fun i _ => by rw [show (Fin.snoc x c : Basis (n + 1)) i.castSucc = x i from congrFun (snoc_castSucc x c) i]]
    by_cases h : (fun q : Fin n => a q.castSucc) = x
    · rw [if_pos h]
      exact Finset.prod_eq_one fun i _ => if_pos (congrFun h i)
    · rw [if_neg h]
      obtain ⟨i, hi⟩ := Function.ne_iff.1 h
      exact Finset.prod_eq_zero (Finset.mem_univ i) (if_neg hi)
  simp only [h1]
  rcases h : a (Fin.last n) <;> cases b <;> simp [sigma]

/-- Projecting the last qubit. -/
theorem projZ_lift (b o : Bool) (ψ : Vec n) : projZ (Fin.last n) o *ᵥ lift b ψ = if b = o then lift b ψ else 0 := by
  funext a
  have : (projZ (Fin.last n) o *ᵥ lift b ψ) a = if a (Fin.last n) = o then lift b ψ a else 0 := by
    simp only [mulVec, dotProduct, projZ]
    rw [Finset.sum_eq_single a]
    · by_cases h : a (Fin.last n) = o <;> simp [h]
    · intro x _ hx; simp [Ne.symm hx]
    · simp
  rw [this]
  unfold lift
  rcases h : a (Fin.last n) <;> cases b <;> cases o <;> simp [h]

theorem normW_lift (b : Bool) (ψ : Vec n) : normW (lift b ψ) = normW ψ := by
  have : normSq (lift b ψ) = normSq ψ := by
    unfold normSq
    simp only [sum_snoc, lift, snoc_castSucc, snoc_last]
    cases b <;> simp
  rw [normW, normW, this]

/-- The same instrument on one more qubit. -/
def Instrument.lift (I : Instrument n) : Instrument (n + 1) := I.map fun b => ⟨b.weight, liftMat b.op, b.meas, b.erasure⟩

theorem Instrument.lift_nothing : (Instrument.nothing : Instrument n).lift = Instrument.nothing := by
  simp [Instrument.lift, Instrument.nothing, liftMat_one]

theorem Instrument.lift_andThen (I J : Instrument n) : (I.andThen J).lift = I.lift.andThen J.lift := by
  simp only [Instrument.lift, Instrument.andThen, List.map_flatMap, List.flatMap_map, List.map_map]
  congr 1
  funext a
  refine List.map_congr_left fun b _ => ?_
  simp only [Function.comp, liftMat_mul]

theorem Instrument.lift_inOrder (Is : List (Instrument n)) : (Instrument.inOrder Is).lift = Instrument.inOrder (Is.map Instrument.lift) := by
  induction Is with
  | nil => exact lift_nothing
  | cons I Is ih => rw [inOrder, lift_andThen, ih]; rfl

theorem Instrument.lift_gate (G : CGate n) : (Instrument.gate G).lift = Instrument.gate G.lift := by
  simp [Instrument.lift, Instrument.gate, liftMat_unitary]

theorem Instrument.lift_measure (q : Fin n) : (Instrument.measure q).lift = Instrument.measure q.castSucc := by
  simp [Instrument.lift, Instrument.measure, liftMat_projZ]

theorem Instrument.lift_reset (q : Fin n) : (Instrument.reset q).lift = Instrument.reset q.castSucc := by
  simp only [Instrument.lift, Instrument.reset, liftMat_projZ, List.map_cons, List.map_nil, liftMat_mul]
  rw [← liftMat_unitary]
  rfl

theorem Instrument.lift_pauli (ps : List ℝ≥0∞) (q : Fin n) : (Instrument.pauli ps q).lift = Instrument.pauli ps q.castSucc := by
  simp only [Instrument.lift, Instrument.pauli, List.map_map]
  refine List.map_congr_left fun k _ => ?_
  simp only [Function.comp, liftMat_pauliNo]

theorem Instrument.lift_pauli2 (ps : List ℝ≥0∞) (q1 q2 : Fin n) : (Instrument.pauli2 ps q1 q2).lift = Instrument.pauli2 ps q1.castSucc q2.castSucc := by
  simp only [Instrument.lift, Instrument.pauli2, List.map_map]
  refine List.map_congr_left fun k _ => ?_
  simp only [Function.comp, liftMat_pauliNo, liftMat_mul]

theorem Instrument.lift_maybe (p : ℝ) (A : Mat n) : (Instrument.maybe p A).lift = Instrument.maybe p (liftMat A) := by
  simp [Instrument.lift, Instrument.maybe, liftMat_one]

end Plaquette
