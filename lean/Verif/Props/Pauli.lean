import Verif.Lemmas.Multiply
import Verif.Lemmas.Measure

/-!
# Properties C01-C04: operators, products and gates of `pauli.py`

The specification is `Verif/Spec/Quantum.lean`: matrices over the computational basis.
-/

namespace Plaquette
open Matrix Complex

variable {n : Nat}

/-- **C01** `commutator_sign(a, b)` is `0` exactly when the matrices commute. -/
theorem C01_commutator_sign_zero (a b : Op n) : commSign a b = 0 ↔ Commutes (opMat a) (opMat b) := by
  rw [commutes_iff, commSign_eq]
  cases anti a b <;> simp [bit]

/-- **C01** `commutator_sign(a, b)` is `1` exactly when the matrices anticommute. -/
theorem C01_commutator_sign_one (a b : Op n) : commSign a b = 1 ↔ Anticommutes (opMat a) (opMat b) := by
  rw [anticommutes_iff, commSign_eq]
  cases anti a b <;> simp [bit]

/-- **C01** there is no third value. -/
theorem C01_commutator_sign_binary (a b : Op n) : commSign a b = 0 ∨ commSign a b = 1 := by
  rw [commSign_eq]
  cases anti a b <;> simp [bit]

/-- Non-vacuity: an anticommuting and a commuting pair. -/
example : commSign (singleOp false .X (0 : Fin 3)) (singleOp true .Z (0 : Fin 3)) = 1 ∧
    commSign (singleOp false .X (0 : Fin 3)) (singleOp false .Z (2 : Fin 3)) = 0 := by decide

/-- **C02** `multiply(a, b)` returns bits and a phase `i^k` whose product is the matrix product. -/
theorem C02_multiply_two (a b : Op n) :
    ∃ c k, multiply [a, b] = .ok (c, k) ∧ opMat a * opMat b = (I ^ k.val) • pauliMat c.x c.z := by
  refine ⟨(mul2 0 a b).1, (mul2 0 a b).2, by simp [multiply, multiplyRev], ?_⟩
  have h := opMat_mul_phase a b 0
  rw [iPow_zero, one_smul] at h
  exact h

/-- **C02** for commuting operators the returned operator (with its sign bit) is the matrix product. -/
theorem C02_multiply_two_commuting (a b : Op n) (h : Commutes (opMat a) (opMat b)) :
    ∃ c k, multiply [a, b] = .ok (c, k) ∧ opMat c = opMat a * opMat b := by
  exact ⟨(mul2 0 a b).1, (mul2 0 a b).2, by simp [multiply, multiplyRev], opMat_mulOp ((commutes_iff a b).mp h)⟩

/-- Non-vacuity: `XX` and `ZZ` commute and their product is `-YY`. -/
example : Commutes (opMat (mulOp (singleOp false .X (0 : Fin 2)) (singleOp false .X 1)))
      (opMat (mulOp (singleOp false .Z (0 : Fin 2)) (singleOp false .Z 1))) ∧
    (mulOp (mulOp (singleOp false .X (0 : Fin 2)) (singleOp false .X 1))
      (mulOp (singleOp false .Z (0 : Fin 2)) (singleOp false .Z 1))).r = true :=
  ⟨(C01_commutator_sign_zero _ _).mp (by decide), by decide⟩

/-- **C03 (full statement)** every product of at least two operators has the bits and the phase of the matrix
product. -/
def C03_statement : Prop :=
  ∀ (n : Nat) (ops : List (Op n)), 2 ≤ ops.length →
    ∃ p k, multiply ops = .ok (p, k) ∧ (ops.map opMat).prod = (I ^ k.val) • pauliMat p.x p.z

/-- **C03 fails**: `multiply(I, I, -I)` returns phase `+1` although the product is `-I`
(the sign is counted in `initial_phase` and again in the sign bit of the intermediate product). -/
theorem C03_multiply_counterexample : ¬ C03_statement := by
  intro h
  let neg : Op 1 := { idOp 1 with r := true }
  obtain ⟨p, k, hp, hm⟩ := h 1 [idOp 1, idOp 1, neg] (by simp)
  have hval : multiply [idOp 1, idOp 1, neg] = .ok (idOp 1, 0) := by
    simp only [multiply, List.reverse_cons, List.reverse_nil, List.nil_append, List.cons_append, multiplyRev]
    decide
  rw [hval] at hp
  simp only [Except.ok.injEq, Prod.mk.injEq] at hp
  obtain ⟨rfl, rfl⟩ := hp
  have hneg : opMat neg = -1 := by
    have : opMat neg = sgn true • opMat (idOp 1) := by simp [opMat, neg, idOp]
    rw [this, opMat_idOp]; simp
  have hid : pauliMat (idOp 1).x (idOp 1).z = (1 : Mat 1) := by
    have := opMat_idOp (n := 1)
    simpa [opMat, idOp] using this
  rw [hid] at hm
  simp only [List.map_cons, List.map_nil, List.prod_cons, List.prod_nil, opMat_idOp, hneg, one_mul, mul_one] at hm
  have := congrFun (congrFun hm (fun _ => false)) (fun _ => false)
  simp at this
  norm_num [neg_eq_iff_add_eq_zero] at this

/-- **C03, part that holds (bits)**: for every list of at least two operators `multiply` succeeds and the X and
Z bits are the XOR of the inputs. Missing from the full statement: the phase for three or more operators. -/
theorem C03_multiply_bits_partial (ops : List (Op n)) (h : 2 ≤ ops.length) :
    ∃ p k, multiply ops = .ok (p, k) ∧ ∀ q,
      p.x q = ops.foldr (fun o acc => o.x q ^^ acc) false ∧ p.z q = ops.foldr (fun o acc => o.z q ^^ acc) false := by
  obtain ⟨p, k, hp⟩ := multiply_total ops h
  exact ⟨p, k, hp, multiply_bits_aux ops p k hp⟩

/-- **C03, part that holds (phase)**: the phase is right if no proper suffix product carries a minus sign. -/
theorem C03_multiply_phase_partial (ops : List (Op n)) (h : 2 ≤ ops.length)
    (hs : ∀ l, l <:+ ops → l ≠ ops → 2 ≤ l.length → ∀ p k, multiply l = .ok (p, k) → p.r = false) :
    ∃ p k, multiply ops = .ok (p, k) ∧ (ops.map opMat).prod = (I ^ k.val) • pauliMat p.x p.z := by
  obtain ⟨p, k, hp⟩ := multiply_total ops h
  exact ⟨p, k, hp, multiply_phase_aux ops h hs p k hp⟩

/-- Non-vacuity: `multiply(Z, X, X)` meets the hypothesis. -/
example : ∀ l, l <:+ [singleOp false .Z (0 : Fin 1), singleOp false .X 0, singleOp false .X 0] →
    l ≠ [singleOp false .Z (0 : Fin 1), singleOp false .X 0, singleOp false .X 0] → 2 ≤ l.length →
    ∀ p k, multiply l = .ok (p, k) → p.r = false := by
  intro l hl hne hlen p k hp
  rw [List.suffix_cons_iff] at hl
  rcases hl with rfl | hl
  · exact absurd rfl hne
  · rw [List.suffix_cons_iff] at hl
    rcases hl with rfl | hl
    · simp only [multiply, List.reverse_cons, List.reverse_nil, List.nil_append, List.cons_append, multiplyRev,
        Except.ok.injEq] at hp
      rw [show p = _ from (congrArg Prod.fst hp).symm]; decide
    · have := hl.length_le
      simp at this; omega

/-- **C03** one operator is returned as it is, and the phase is its sign. -/
theorem C03_multiply_one (a : Op n) : ∃ k, multiply [a] = .ok (a, k) ∧ opMat a = (I ^ k.val) • pauliMat a.x a.z := by
  refine ⟨if a.r then 2 else 0, by simp [multiply, multiplyRev], ?_⟩
  cases h : a.r
  · simp [opMat, sgn, h]
  · simp [opMat, sgn, h, show (2 : ZMod 4).val = 2 from rfl]

/-- No operators: `ValueError`. -/
theorem C03_multiply_nil : multiply ([] : List (Op n)) = .error .valueError := by simp [multiply, multiplyRev]

/-- **C04** each gate's unitary is unitary (control and target different). -/
theorem C04_gate_unitary (G : CGate n) (hG : G.Ok) : G.unitaryᴴ * G.unitary = 1 := unitary_unitary G hG

/-- **C04** every row `P` of the tableau becomes `U P U†`. -/
theorem C04_gate_conjugates (G : CGate n) (hG : G.Ok) (p : Op n) :
    opMat (G.row p) = G.unitary * opMat p * G.unitaryᴴ := by
  rw [gate_conj G hG, Matrix.mul_assoc, mul_eq_one_comm.mp (unitary_unitary G hG), Matrix.mul_one]

/-- **C04** a gate function applied to a list of targets (or of control/target pairs) maps a tableau that represents
`ψ` to one that represents `U_k ⋯ U_1 ψ`. -/
theorem C04_gates_represent (Gs : List (CGate n)) (hG : ∀ G ∈ Gs, G.Ok) (T : Tab n) (ψ : Vec n) (h : T.Represents ψ) :
    (appAll Gs T).Represents (Gs.foldl (fun φ G => G.unitary *ᵥ φ) ψ) := by
  unfold appAll
  induction Gs generalizing T ψ with
  | nil => exact h
  | cons G Gs ih =>
    exact ih (fun G' h' => hG G' (List.mem_cons_of_mem _ h')) _ _ (app_represents G (hG G (by simp)) h)

/-- Non-vacuity: the zero state is represented and the gates of a Bell circuit are legal. -/
example : (∃ ψ, (zeroState 2).Represents ψ) ∧ ∀ G ∈ [CGate.h (0 : Fin 2), CGate.cx 0 1], G.Ok :=
  ⟨exists_represents (zeroState_valid 2).semi, by decide⟩

/-- The restriction to different control and target is needed: `cx(state, q, q)` turns the zero state into a tableau
that represents no vector (the library does not reject this call). -/
theorem C04_cx_same_qubit_breaks : ¬ ((CGate.cx (0 : Fin 1) 0).app (zeroState 1)).Valid := by
  intro h
  have := ((valid_iff _).mp h).2.1 0 0
  revert this
  decide

end Plaquette
