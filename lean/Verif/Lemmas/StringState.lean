import Verif.Spec.StringState
import Verif.Lemmas.Stab
import Mathlib.LinearAlgebra.Matrix.ToLinearEquiv
import Mathlib.LinearAlgebra.Matrix.DotProduct
import Mathlib.Data.ZMod.Basic
import Mathlib.Algebra.Order.Floor.Ring

/-!
# Lemmas on `string_to_state` without destabilisers
-/

namespace Plaquette
variable {n m : Nat}

/-- The exact inverse satisfies the equations of Moore and Penrose. -/
theorem exactPinv_penrose {A : Matrix (Fin n ⊕ Fin n) (Fin m) ℚ} (h : IsUnit (A.transpose * A).det) :
    A * exactPinv n m A * A = A ∧ exactPinv n m A * A * exactPinv n m A = exactPinv n m A ∧
    (A * exactPinv n m A).transpose = A * exactPinv n m A ∧ (exactPinv n m A * A).transpose = exactPinv n m A * A := by
  have h1 : exactPinv n m A * A = 1 := by
    unfold exactPinv
    rw [Matrix.mul_assoc, Matrix.nonsing_inv_mul _ h]
  refine ⟨by rw [Matrix.mul_assoc, h1, Matrix.mul_one], by rw [h1, Matrix.one_mul], ?_, by rw [h1, Matrix.transpose_one]⟩
  unfold exactPinv
  simp only [Matrix.transpose_mul, Matrix.transpose_transpose, Matrix.transpose_nonsing_inv, Matrix.mul_assoc]

theorem bitMatrix_inl (S : Fin m → Op n) (i : Fin m) (q : Fin n) : bitMatrix S i (.inl q) = if (S i).x q then 1 else 0 := rfl
theorem bitMatrix_inr (S : Fin m → Op n) (i : Fin m) (q : Fin n) : bitMatrix S i (.inr q) = if (S i).z q then 1 else 0 := rfl

theorem gram (S : Fin m → Op n) (i j : Fin m) : (bitMatrix S * (bitMatrix S).transpose) i j = overlap (S i) (S j) := by
  rw [Matrix.mul_apply, Fintype.sum_sum_type, overlap]
  simp only [Matrix.transpose_apply, bitMatrix_inl, bitMatrix_inr, Nat.cast_add, Finset.card_filter, Nat.cast_sum, Nat.cast_ite, Nat.cast_one, Nat.cast_zero]
  congr 1 <;> refine Finset.sum_congr rfl fun q _ => ?_
  · cases (S i).x q <;> cases (S j).x q <;> simp
  · cases (S i).z q <;> cases (S j).z q <;> simp

/-- The symplectic products of two lists of operators. -/
def sympl (S D : Fin m → Op n) : Matrix (Fin m) (Fin m) ℤ :=
  Matrix.of fun i j => ∑ q, ((bit ((S i).x q) * bit ((D j).z q) + bit ((S i).z q) * bit ((D j).x q) : Nat) : ℤ)

theorem sympl_eq (S D : Fin m → Op n) : (sympl S D).map (Int.castRingHom ℚ) = bitMatrix S * omega n * (bitMatrix D).transpose := by
  ext i j
  rw [Matrix.mul_assoc, Matrix.mul_apply, Fintype.sum_sum_type, ← Finset.sum_add_distrib]
  simp only [sympl, Matrix.map_apply, Matrix.of_apply, eq_intCast, Int.cast_sum]
  refine Finset.sum_congr rfl fun q _ => ?_
  have h1 : (omega n * (bitMatrix D).transpose) (.inl q) j = bitMatrix D j (.inr q) := by
    rw [omega, Matrix.mul_apply, Fintype.sum_sum_type]
    simp [Matrix.one_apply]
  have h2 : (omega n * (bitMatrix D).transpose) (.inr q) j = bitMatrix D j (.inl q) := by
    rw [omega, Matrix.mul_apply, Fintype.sum_sum_type]
    simp [Matrix.one_apply]
  rw [h1, h2]
  simp only [bitMatrix_inl, bitMatrix_inr]
  cases (S i).x q <;> cases (S i).z q <;> cases (D j).x q <;> cases (D j).z q <;> norm_num [bit]

theorem sympl_two (S D : Fin m → Op n) (i j : Fin m) :
    ((sympl S D i j : ℤ) : ZMod 2) = if anti (S i) (D j) then 1 else 0 := by
  have h : sympl S D i j = ((∑ q, (bit ((S i).x q) * bit ((D j).z q) + bit ((S i).z q) * bit ((D j).x q)) : Nat) : ℤ) := by
    simp [sympl]
  rw [h, Int.cast_natCast]
  unfold anti
  set N := ∑ q, (bit ((S i).x q) * bit ((D j).z q) + bit ((S i).z q) * bit ((D j).x q))
  rw [← Nat.mod_add_div N 2]
  rcases Nat.mod_two_eq_zero_or_one N with h | h <;> rw [h] <;> simp
  all_goals (have : (2 : ZMod 2) = 0 := by decide)
  all_goals simp [this]

theorem sympl_det {S D : Fin m → Op n} (h3 : ∀ i, anti (D i) (S i) = true) (h4 : ∀ i j, i ≠ j → anti (D i) (S j) = false) :
    (sympl S D).det ≠ 0 := by
  intro h
  have h1 := congrArg (Int.castRingHom (ZMod 2)) h
  rw [RingHom.map_det, map_zero] at h1
  have h2 : (Int.castRingHom (ZMod 2)).mapMatrix (sympl S D) = 1 := by
    ext i j
    rw [RingHom.mapMatrix_apply, Matrix.map_apply, eq_intCast, sympl_two, Matrix.one_apply, anti_symm]
    by_cases hij : i = j
    · subst hij
      rw [h3 i]; simp
    · rw [h4 j i (Ne.symm hij), if_neg hij]; simp
  rw [h2, Matrix.det_one] at h1
  exact one_ne_zero h1

/-- The rows of the stabilisers of a valid tableau are independent over the rationals. -/
theorem gram_unit {S D : Fin m → Op n} (h3 : ∀ i, anti (D i) (S i) = true) (h4 : ∀ i j, i ≠ j → anti (D i) (S j) = false) :
    IsUnit (bitMatrix S * (bitMatrix S).transpose).det := by
  rw [isUnit_iff_ne_zero]
  intro h
  obtain ⟨v, hv, h0⟩ := Matrix.exists_vecMul_eq_zero_iff.2 h
  have h1 : Matrix.vecMul v (bitMatrix S) = 0 := by
    have := congrArg (fun w => w ⬝ᵥ v) h0
    simp only [zero_dotProduct] at this
    rw [← Matrix.vecMul_vecMul, ← Matrix.dotProduct_mulVec, Matrix.mulVec_transpose] at this
    exact dotProduct_self_eq_zero.1 this
  have h2 : (bitMatrix S * omega n * (bitMatrix D).transpose).det ≠ 0 := by
    rw [← sympl_eq]
    have := sympl_det h3 h4
    rw [show ((sympl S D).map (Int.castRingHom ℚ)) = (Int.castRingHom ℚ).mapMatrix (sympl S D) from rfl, ← RingHom.map_det]
    simpa using this
  apply h2
  refine Matrix.exists_vecMul_eq_zero_iff.1 ⟨v, hv, ?_⟩
  rw [Matrix.mul_assoc, ← Matrix.vecMul_vecMul, h1, Matrix.zero_vecMul]

theorem mul_omega_inl (P : Matrix (Fin m) (Fin n ⊕ Fin n) ℚ) (i : Fin m) (q : Fin n) : (P * omega n) i (.inl q) = P i (.inr q) := by
  rw [omega, Matrix.mul_apply, Fintype.sum_sum_type]
  simp [Matrix.one_apply]

theorem mul_omega_inr (P : Matrix (Fin m) (Fin n ⊕ Fin n) ℚ) (i : Fin m) (q : Fin n) : (P * omega n) i (.inr q) = P i (.inl q) := by
  rw [omega, Matrix.mul_apply, Fintype.sum_sum_type]
  simp [Matrix.one_apply]

/-- A row that shares no bits with the other rows is divided by its number of bits. -/
theorem exactPinv_row {S : Fin m → Op n} (h : IsUnit (bitMatrix S * (bitMatrix S).transpose).det) (i : Fin m)
    (ho : ∀ j, j ≠ i → overlap (S i) (S j) = 0) (hw : overlap (S i) (S i) ≠ 0) (c : Fin n ⊕ Fin n) :
    exactPinv n m (bitMatrix S).transpose i c = bitMatrix S i c / overlap (S i) (S i) := by
  have hw' : (overlap (S i) (S i) : ℚ) ≠ 0 := by exact_mod_cast hw
  have h1 : exactPinv n m (bitMatrix S).transpose = (bitMatrix S * (bitMatrix S).transpose)⁻¹ * bitMatrix S := by
    rw [exactPinv, Matrix.transpose_transpose]
  set G := bitMatrix S * (bitMatrix S).transpose with hG
  have h2 : ∀ k, G⁻¹ i k = if k = i then 1 / (overlap (S i) (S i) : ℚ) else 0 := by
    have h3 : Matrix.vecMul (Pi.single i (1 / (overlap (S i) (S i) : ℚ))) G = Pi.single i 1 := by
      ext k
      rw [Matrix.single_vecMul, hG]
      simp only [Pi.smul_apply, Matrix.row_apply, gram]
      by_cases hk : k = i
      · subst hk
        rw [Pi.single_eq_same]
        simp [hw']
      · rw [ho k hk, Pi.single_eq_of_ne hk]; simp
    intro k
    have h4 : Matrix.vecMul (Pi.single i (1 : ℚ)) G⁻¹ = Pi.single i (1 / (overlap (S i) (S i) : ℚ)) := by
      rw [← h3, Matrix.vecMul_vecMul, Matrix.mul_nonsing_inv _ h, Matrix.vecMul_one]
    have h5 := congrFun h4 k
    rw [Matrix.single_vecMul] at h5
    simp only [one_smul, Matrix.row_apply] at h5
    rw [h5, Pi.single_apply]
  rw [h1, Matrix.mul_apply, Finset.sum_eq_single i]
  · rw [h2, if_pos rfl]; ring
  · intro k _ hk
    rw [h2, if_neg hk, zero_mul]
  · simp

theorem findDestabs_length (pinv : Pinv) (cast : ℚ → Nat) (S : Fin m → Op n) : (findDestabs pinv cast S).length = m := by
  simp [findDestabs]

theorem findDestabs_x (pinv : Pinv) (cast : ℚ → Nat) (S : Fin m → Op n) (i : Nat) (hi : i < (findDestabs pinv cast S).length) (q : Fin n) :
    ((findDestabs pinv cast S)[i]).x q = cast (pinv n m (bitMatrix S).transpose ⟨i, by simpa [findDestabs] using hi⟩ (.inr q)) := by
  simp only [findDestabs, List.getElem_map, List.getElem_finRange, mul_omega_inl]
  rfl

theorem findDestabs_z (pinv : Pinv) (cast : ℚ → Nat) (S : Fin m → Op n) (i : Nat) (hi : i < (findDestabs pinv cast S).length) (q : Fin n) :
    ((findDestabs pinv cast S)[i]).z q = cast (pinv n m (bitMatrix S).transpose ⟨i, by simpa [findDestabs] using hi⟩ (.inl q)) := by
  simp only [findDestabs, List.getElem_map, List.getElem_finRange, mul_omega_inr]
  rfl

/-- A destabiliser that commutes with its stabiliser is refused. -/
theorem stateCheck_refuse {S D : List (Op n)} (h : D.length = S.length) (i : Nat) (hi : i < S.length)
    (hc : anti S[i] (D[i]'(h ▸ hi)) = false) : stateCheck S D = .error .valueError := by
  cases hr : stateCheck S D with
  | error e =>
    unfold stateCheck at hr
    rw [dif_pos h] at hr
    simp only at hr
    split at hr
    · exact hr.symm
    · cases hr
  | ok r =>
    exfalso
    unfold stateCheck at hr
    rw [dif_pos h] at hr
    simp only at hr
    split at hr
    · cases hr
    rename_i hb
    apply hb
    rw [List.any_eq_true]
    refine ⟨⟨i, hi⟩, List.mem_finRange _, ?_⟩
    rw [List.any_eq_true]
    refine ⟨⟨i, hi⟩, List.mem_finRange _, ?_⟩
    rw [if_neg (lt_irrefl _)]
    split_ifs with a b c
    · rfl
    · rfl
    · rfl
    all_goals
      exfalso
      apply c
      refine ⟨rfl, ?_⟩
      rw [commSign_eq]
      simp only [List.get_eq_getElem, Fin.val_cast, hc, bit]
      rfl

/-- Rows that satisfy all relations are accepted. -/
theorem stateCheck_accept {S D : List (Op n)} (h : D.length = S.length)
    (h1 : ∀ i j (hi : i < S.length) (hj : j < S.length), anti S[i] S[j] = false)
    (h2 : ∀ i j (hi : i < D.length) (hj : j < D.length), anti D[i] D[j] = false)
    (h3 : ∀ i (hi : i < S.length) (hj : i < D.length), anti S[i] D[i] = true) : stateCheck S D = .ok (D, S) := by
  unfold stateCheck
  rw [dif_pos h]
  simp only
  rw [if_neg]
  rw [List.any_eq_true]
  rintro ⟨i, -, hi⟩
  rw [List.any_eq_true] at hi
  obtain ⟨j, -, hj⟩ := hi
  split_ifs at hj with a b c d e
  · rw [commSign_eq] at b
    simp [h1, bit] at b
  · rw [commSign_eq] at c
    simp only [List.get_eq_getElem, Fin.val_cast] at c
    rw [h2] at c
    simp [bit] at c
  · obtain ⟨d1, d2⟩ := d
    subst d1
    rw [commSign_eq] at d2
    simp only [List.get_eq_getElem, Fin.val_cast] at d2
    rw [h3 i.1 i.2 (lt_of_lt_of_eq i.2 h.symm)] at d2
    simp [bit] at d2
  · exact a (by have := e.1; exact this)

end Plaquette
