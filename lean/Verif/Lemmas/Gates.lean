import Verif.Lemmas.Quantum
import Mathlib.Tactic.LinearCombination
import Mathlib.Tactic.FieldSimp

/-! Helper lemmas: every gate's row map is conjugation by the gate's unitary. -/

namespace Plaquette
open Matrix Complex

variable {n : Nat}

theorem prod_two {c t : Fin n} (h : c ≠ t) (F G : Fin n → ℂ) (s : ℂ)
    (hoff : ∀ i, i ≠ c → i ≠ t → F i = G i) (h2 : F c * F t = s * (G c * G t)) :
    ∏ i, F i = s * ∏ i, G i := by
  rw [← Finset.mul_prod_erase _ F (Finset.mem_univ c), ← Finset.mul_prod_erase _ G (Finset.mem_univ c),
    ← Finset.mul_prod_erase _ F (Finset.mem_erase.mpr ⟨h.symm, Finset.mem_univ t⟩),
    ← Finset.mul_prod_erase _ G (Finset.mem_erase.mpr ⟨h.symm, Finset.mem_univ t⟩),
    ← mul_assoc, h2]
  rw [Finset.prod_congr rfl (g := G)]
  · ring
  · intro i hi
    simp only [Finset.mem_erase, Finset.mem_univ, and_true] at hi
    exact hoff i hi.2 hi.1

theorem onQubit_conj (q : Fin n) (A : Matrix Bool Bool ℂ) (p p' : Op n) (s : Bool)
    (hoff : ∀ i, i ≠ q → p'.x i = p.x i ∧ p'.z i = p.z i) (hr : p'.r = (p.r ^^ s))
    (hq : A * sigma (p.x q) (p.z q) = sgn s • (sigma (p'.x q) (p'.z q) * A)) :
    onQubit q A * opMat p = opMat p' * onQubit q A := by
  unfold onQubit opMat pauliMat
  rw [Matrix.mul_smul, Matrix.smul_mul, tensor_mul, tensor_mul, hr, sgn_xor]
  have h1 : (fun i => (if i = q then A else 1) * sigma (p.x i) (p.z i)) =
      fun i => (if i = q then sgn s else 1) • (sigma (p'.x i) (p'.z i) * (if i = q then A else 1)) := by
    funext i
    by_cases hi : i = q
    · subst hi; simp [hq]
    · simp [hi, hoff i hi]
  rw [h1, tensor_smul, smul_smul]
  simp

theorem hadamard_conj (x z : Bool) :
    hadamardMat * sigma x z = sgn (x && z) • (sigma z x * hadamardMat) := by
  ext a b
  cases x <;> cases z <;> cases a <;> cases b <;>
    simp [sigma, hadamardMat, Matrix.mul_apply] <;> ring

theorem phase_conj (x z : Bool) :
    phaseMat * sigma x z = sgn (x && z) • (sigma x (z ^^ x) * phaseMat) := by
  ext a b
  cases x <;> cases z <;> cases a <;> cases b <;>
    simp [sigma, phaseMat, Matrix.mul_apply]

theorem cnot_flip_flip {c t : Fin n} (h : c ≠ t) (b : Basis n) :
    Function.update (Function.update b t (b t ^^ b c)) t
      ((Function.update b t (b t ^^ b c)) t ^^ (Function.update b t (b t ^^ b c)) c) = b := by
  funext i
  by_cases hi : i = t
  · subst hi; simp [h]
  · simp [hi]

theorem cnotMat_mul {c t : Fin n} (h : c ≠ t) (P : Mat n) (a b : Basis n) :
    (cnotMat c t * P) a b = P (Function.update a t (a t ^^ a c)) b := by
  rw [Matrix.mul_apply, Finset.sum_eq_single (Function.update a t (a t ^^ a c))]
  · simp [cnotMat, h]
  · intro d _ hd
    have : a ≠ Function.update d t (d t ^^ d c) := by
      rintro rfl
      exact hd (cnot_flip_flip h d).symm
    simp [cnotMat, this]
  · simp

theorem mul_cnotMat {c t : Fin n} (P : Mat n) (a b : Basis n) :
    (P * cnotMat c t) a b = P a (Function.update b t (b t ^^ b c)) := by
  rw [Matrix.mul_apply, Finset.sum_eq_single (Function.update b t (b t ^^ b c))]
  · simp [cnotMat]
  · intro d _ hd
    simp [cnotMat, hd]
  · simp

theorem czMat_mul {c t : Fin n} (P : Mat n) (a b : Basis n) :
    (czMat c t * P) a b = sgn (a c && a t) * P a b := by
  rw [Matrix.mul_apply, Finset.sum_eq_single a]
  · simp [czMat, sgn]
  · intro d _ hd
    simp [czMat, hd.symm]
  · simp

theorem mul_czMat {c t : Fin n} (P : Mat n) (a b : Basis n) :
    (P * czMat c t) a b = P a b * sgn (b c && b t) := by
  rw [Matrix.mul_apply, Finset.sum_eq_single b]
  · simp [czMat, sgn]
  · intro d _ hd
    simp [czMat, hd]
  · simp

theorem cx_two (xc zc xt zt ac at' bc bt : Bool) :
    sigma xc zc ac bc * sigma xt zt (at' ^^ ac) bt =
      sgn (xc && zt && (xt ^^ zc ^^ true)) *
        (sigma xc (zc ^^ zt) ac bc * sigma (xt ^^ xc) zt at' (bt ^^ bc)) := by
  cases xc <;> cases zc <;> cases xt <;> cases zt <;> cases ac <;> cases at' <;> cases bc <;> cases bt <;>
    simp [sigma]

theorem cz_two (xc zc xt zt ac at' bc bt : Bool) :
    sgn (ac && at') * (sigma xc zc ac bc * sigma xt zt at' bt) =
      sgn (xc && xt && (zt ^^ zc)) *
        (sigma xc (zc ^^ xt) ac bc * sigma xt (zt ^^ xc) at' bt) * sgn (bc && bt) := by
  cases xc <;> cases zc <;> cases xt <;> cases zt <;> cases ac <;> cases at' <;> cases bc <;> cases bt <;>
    simp [sigma]

theorem cx_conj {c t : Fin n} (h : c ≠ t) (p : Op n) :
    cnotMat c t * opMat p = opMat (cxRow c t p) * cnotMat c t := by
  ext a b
  rw [cnotMat_mul h, mul_cnotMat]
  simp only [opMat, pauliMat, tensor, Matrix.smul_apply, smul_eq_mul, cxRow, sgn_xor p.r]
  rw [mul_assoc]
  congr 1
  refine prod_two h _ _ _ ?_ ?_
  · intro i hc ht
    simp [hc, ht]
  · simp only [Function.update_self, Function.update_of_ne h, Function.update_of_ne h.symm]
    exact cx_two _ _ _ _ _ _ _ _

theorem cz_conj {c t : Fin n} (h : c ≠ t) (p : Op n) :
    czMat c t * opMat p = opMat (czRow c t p) * czMat c t := by
  ext a b
  rw [czMat_mul, mul_czMat]
  simp only [opMat, pauliMat, tensor, Matrix.smul_apply, smul_eq_mul, czRow, sgn_xor p.r]
  have key : ∏ q, sigma (p.x q) (p.z q) (a q) (b q) =
      (sgn (a c && a t) * sgn (p.x c && p.x t && (p.z t ^^ p.z c)) * sgn (b c && b t)) *
      ∏ q, sigma (p.x q) (Function.update (Function.update p.z t (p.z t ^^ p.x c)) c
        (Function.update p.z t (p.z t ^^ p.x c) c ^^ p.x t) q) (a q) (b q) := by
    refine prod_two h _ _ _ ?_ ?_
    · intro i hc ht
      simp [hc, ht]
    · simp only [Function.update_self, Function.update_of_ne h, Function.update_of_ne h.symm]
      have := cz_two (p.x c) (p.z c) (p.x t) (p.z t) (a c) (a t) (b c) (b t)
      calc _ = sgn (a c && a t) * (sgn (a c && a t) * (sigma (p.x c) (p.z c) (a c) (b c) *
                sigma (p.x t) (p.z t) (a t) (b t))) := by
              rw [← mul_assoc, sgn_mul_self, one_mul]
        _ = _ := by rw [this]; ring
  rw [key]
  have h1 := sgn_mul_self (a c && a t)
  linear_combination (sgn p.r * sgn (p.x c && p.x t && (p.z t ^^ p.z c)) * sgn (b c && b t) *
      ∏ q, sigma (p.x q) (Function.update (Function.update p.z t (p.z t ^^ p.x c)) c
        (Function.update p.z t (p.z t ^^ p.x c) c ^^ p.x t) q) (a q) (b q)) * h1

/-- Every gate's row map is conjugation by the unitary of the gate. -/
theorem gate_conj (G : CGate n) (hG : G.Ok) (p : Op n) :
    G.unitary * opMat p = opMat (G.row p) * G.unitary := by
  cases G with
  | x q =>
    refine onQubit_conj q _ p _ (p.z q) (fun i _ => ⟨rfl, rfl⟩) rfl ?_
    show sigma true false * sigma (p.x q) (p.z q) = sgn (p.z q) • (sigma (p.x q) (p.z q) * sigma true false)
    rw [sigma_comm]; simp [antiBit]
  | y q =>
    refine onQubit_conj q _ p _ (p.z q ^^ p.x q) (fun i _ => ⟨rfl, rfl⟩) ?_ ?_
    · simp [CGate.row, yRow, zRow, xRow]
    · show sigma true true * sigma (p.x q) (p.z q) =
        sgn (p.z q ^^ p.x q) • (sigma (p.x q) (p.z q) * sigma true true)
      rw [sigma_comm]; simp [antiBit]
  | z q =>
    refine onQubit_conj q _ p _ (p.x q) (fun i _ => ⟨rfl, rfl⟩) rfl ?_
    show sigma false true * sigma (p.x q) (p.z q) = sgn (p.x q) • (sigma (p.x q) (p.z q) * sigma false true)
    rw [sigma_comm]; simp [antiBit]
  | h q =>
    refine onQubit_conj q _ p _ (p.x q && p.z q) (fun i hi => ?_) rfl ?_
    · simp [CGate.row, hRow, hi]
    · simp only [CGate.row, hRow, Function.update_self]
      exact hadamard_conj _ _
  | s q =>
    refine onQubit_conj q _ p _ (p.x q && p.z q) (fun i hi => ?_) rfl ?_
    · simp [CGate.row, sRow, hi]
    · simp only [CGate.row, sRow, Function.update_self]
      exact phase_conj _ _
  | cx c t => exact cx_conj hG p
  | cz c t => exact cz_conj hG p

theorem onQubit_unitary (q : Fin n) (A : Matrix Bool Bool ℂ) (hA : Aᴴ * A = 1) :
    (onQubit q A)ᴴ * onQubit q A = 1 := by
  unfold onQubit
  rw [tensor_conjTranspose, tensor_mul, ← tensor_one]
  congr 1
  funext i
  by_cases hi : i = q <;> simp [hi, hA]

theorem hadamardMat_unitary : hadamardMatᴴ * hadamardMat = 1 := by
  have h2 : (Real.sqrt 2 : ℂ) * (Real.sqrt 2 : ℂ) = 2 := by
    rw [← Complex.ofReal_mul, Real.mul_self_sqrt (by norm_num)]; norm_num
  have h0 : (Real.sqrt 2 : ℂ) ≠ 0 := by
    intro h; rw [h] at h2; norm_num at h2
  ext a b
  cases a <;> cases b <;>
    simp [hadamardMat, Matrix.mul_apply, Matrix.conjTranspose_apply] <;> field_simp <;>
    simp [pow_two, h2] <;> norm_num

/-- The matrices of the gates are unitary. -/
theorem unitary_unitary (G : CGate n) (hG : G.Ok) : G.unitaryᴴ * G.unitary = 1 := by
  cases G with
  | x q => exact onQubit_unitary q _ (by rw [sigma_conjTranspose, sigma_mul]; simp [g, sigma_zero, bit])
  | y q => exact onQubit_unitary q _ (by rw [sigma_conjTranspose, sigma_mul]; simp [g, sigma_zero, bit])
  | z q => exact onQubit_unitary q _ (by rw [sigma_conjTranspose, sigma_mul]; simp [g, sigma_zero, bit])
  | h q => exact onQubit_unitary q _ hadamardMat_unitary
  | s q =>
    refine onQubit_unitary q _ ?_
    ext a b
    cases a <;> cases b <;> simp [phaseMat, Matrix.mul_apply, Matrix.conjTranspose_apply]
  | cx c t =>
    ext a b
    show ((cnotMat c t)ᴴ * cnotMat c t) a b = _
    rw [mul_cnotMat, Matrix.conjTranspose_apply, Matrix.one_apply]
    by_cases hab : a = b
    · subst hab; simp [cnotMat]
    · rw [if_neg hab]
      have : Function.update b t (b t ^^ b c) ≠ Function.update a t (a t ^^ a c) := by
        intro he
        apply hab
        rw [← cnot_flip_flip hG a, ← cnot_flip_flip hG b, he]
      simp [cnotMat, this]
  | cz c t =>
    ext a b
    show ((czMat c t)ᴴ * czMat c t) a b = _
    rw [mul_czMat, Matrix.conjTranspose_apply, Matrix.one_apply]
    by_cases hab : a = b
    · subst hab
      have : sgn (a c && a t) * sgn (a c && a t) = 1 := sgn_mul_self _
      cases h : (a c && a t) <;> simp [czMat, h]
    · have hba : ¬ b = a := fun h => hab h.symm
      simp [czMat, hab, hba]

end Plaquette
