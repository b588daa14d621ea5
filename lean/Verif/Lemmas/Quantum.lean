import Verif.Spec.Quantum
import Mathlib.Tactic.Ring
import Mathlib.Tactic.FinCases
import Mathlib.Algebra.BigOperators.Ring.Finset
import Mathlib.Algebra.BigOperators.Pi

/-! Helper lemmas about tensor products and Pauli matrices. -/

namespace Plaquette
open Matrix Complex

variable {n : Nat}

theorem tensor_mul (A B : Fin n → Matrix Bool Bool ℂ) :
    tensor A * tensor B = tensor (fun q => A q * B q) := by
  ext a b
  simp only [Matrix.mul_apply, tensor, ← Finset.prod_mul_distrib]
  rw [Finset.prod_univ_sum, Fintype.piFinset_univ]

theorem tensor_one : tensor (fun _ : Fin n => (1 : Matrix Bool Bool ℂ)) = 1 := by
  ext a b
  simp only [tensor, Matrix.one_apply]
  by_cases h : a = b
  · simp [h]
  · rw [if_neg h]
    obtain ⟨q, hq⟩ := Function.ne_iff.mp h
    exact Finset.prod_eq_zero (Finset.mem_univ q) (by simp [hq])

theorem tensor_smul (c : Fin n → ℂ) (A : Fin n → Matrix Bool Bool ℂ) :
    tensor (fun q => c q • A q) = (∏ q, c q) • tensor A := by
  ext a b
  simp [tensor, Finset.prod_mul_distrib]

theorem tensor_conjTranspose (A : Fin n → Matrix Bool Bool ℂ) :
    (tensor A)ᴴ = tensor (fun q => (A q)ᴴ) := by
  ext a b
  simp [tensor, Matrix.conjTranspose_apply]

/-- `i ^ k` for an exponent modulo 4. -/
noncomputable def iPow (k : ZMod 4) : ℂ := I ^ k.val

theorem I_pow_mod (m : ℕ) : I ^ m = I ^ (m % 4) := by
  conv_lhs => rw [← Nat.div_add_mod m 4, pow_add, pow_mul, I_pow_four, one_pow, one_mul]

theorem iPow_add (j k : ZMod 4) : iPow (j + k) = iPow j * iPow k := by
  unfold iPow
  rw [ZMod.val_add, ← I_pow_mod, pow_add]

@[simp] theorem iPow_zero : iPow 0 = 1 := by simp [iPow]
@[simp] theorem iPow_one : iPow 1 = I := by
  have : (1 : ZMod 4).val = 1 := rfl
  simp [iPow, this]
@[simp] theorem iPow_two : iPow 2 = -1 := by
  have : (2 : ZMod 4).val = 2 := rfl
  simp [iPow, this]
@[simp] theorem iPow_three : iPow 3 = -I := by
  have : (3 : ZMod 4).val = 3 := rfl
  simp [iPow, this, I_pow_three]
@[simp] theorem iPow_neg_one : iPow (-1) = -I := iPow_three

theorem iPow_ne_zero (k : ZMod 4) : iPow k ≠ 0 := pow_ne_zero _ I_ne_zero

theorem iPow_sum {ι : Type*} (s : Finset ι) (f : ι → ZMod 4) :
    iPow (∑ i ∈ s, f i) = ∏ i ∈ s, iPow (f i) := by
  classical
  induction s using Finset.induction_on with
  | empty => simp
  | insert a s ha ih => rw [Finset.sum_insert ha, Finset.prod_insert ha, iPow_add, ih]

theorem sgn_eq_iPow (b : Bool) : sgn b = iPow (if b then 2 else 0) := by cases b <;> simp [sgn]

@[simp] theorem sgn_false : sgn false = 1 := rfl
@[simp] theorem sgn_true : sgn true = -1 := rfl
theorem sgn_xor (a b : Bool) : sgn (a ^^ b) = sgn a * sgn b := by cases a <;> cases b <;> simp
theorem sgn_mul_self (a : Bool) : sgn a * sgn a = 1 := by cases a <;> simp
theorem sgn_ne_zero (a : Bool) : sgn a ≠ 0 := by cases a <;> simp

theorem sigma_mul (x1 z1 x2 z2 : Bool) :
    sigma x1 z1 * sigma x2 z2 = iPow (g x1 z1 x2 z2 : ZMod 4) • sigma (x1 ^^ x2) (z1 ^^ z2) := by
  ext a b
  cases x1 <;> cases z1 <;> cases x2 <;> cases z2 <;> cases a <;> cases b <;>
    simp [sigma, g, bit, Matrix.mul_apply]

theorem sigma_zero : sigma false false = 1 := by
  ext a b; simp [sigma, Matrix.one_apply]

theorem sigma_conjTranspose (x z : Bool) : (sigma x z)ᴴ = sigma x z := by
  ext a b
  cases x <;> cases z <;> cases a <;> cases b <;> simp [sigma, Matrix.conjTranspose_apply]

theorem foldl_add_eq_sum (f : Fin n → Int) :
    (List.finRange n).foldl (fun prev q => prev + f q) 0 = ∑ q, f q := by
  have key : ∀ (l : List (Fin n)) (a : Int), l.foldl (fun prev q => prev + f q) a = a + (l.map f).sum := by
    intro l
    induction l with
    | nil => simp
    | cons q l ih => intro a; simp [ih, add_assoc]
  rw [key, zero_add, ← List.ofFn_eq_map, List.sum_ofFn]

/-- The phase exponent contributed by the bits of a product. -/
def gSum (a b : Op n) : ZMod 4 := ∑ q, (g (a.x q) (a.z q) (b.x q) (b.z q) : ZMod 4)

theorem mul2_phase (init : ZMod 4) (a b : Op n) :
    (mul2 init a b).2 = init + gSum a b + (if a.r ^^ b.r then 2 else 0) := by
  simp only [mul2, gSum, foldl_add_eq_sum]
  push_cast
  rfl

theorem pauliMat_mul (a b : Op n) :
    pauliMat a.x a.z * pauliMat b.x b.z =
      iPow (gSum a b) • pauliMat (fun q => a.x q ^^ b.x q) (fun q => a.z q ^^ b.z q) := by
  unfold pauliMat gSum
  rw [tensor_mul, iPow_sum, ← tensor_smul]
  congr 1
  funext q
  exact sigma_mul _ _ _ _

theorem opMat_mul_phase (a b : Op n) (init : ZMod 4) :
    iPow init • (opMat a * opMat b) =
      iPow (mul2 init a b).2 • pauliMat (fun q => a.x q ^^ b.x q) (fun q => a.z q ^^ b.z q) := by
  rw [mul2_phase, iPow_add, iPow_add, ← sgn_eq_iPow, sgn_xor]
  unfold opMat
  rw [Matrix.smul_mul, Matrix.mul_smul, pauliMat_mul]
  simp only [smul_smul]
  congr 1
  ring

/-- parity of the overlap: `true` iff the operators anticommute -/
def anti (a b : Op n) : Bool :=
  decide ((∑ q, (bit (a.x q) * bit (b.z q) + bit (a.z q) * bit (b.x q))) % 2 = 1)

theorem commSign_eq (a b : Op n) : commSign a b = bit (anti a b) := by
  unfold commSign anti
  rw [← Finset.sum_add_distrib.symm]
  generalize (∑ q, bit (a.x q) * bit (b.z q)) = u
  generalize (∑ q, bit (a.z q) * bit (b.x q)) = v
  unfold bit
  split <;> rename_i h <;> simp at h <;> omega

theorem commSign_ne_zero (a b : Op n) : commSign a b ≠ 0 ↔ anti a b = true := by
  rw [commSign_eq]; cases anti a b <;> simp [bit]

/-- per-qubit anticommutation -/
def antiBit (x1 z1 x2 z2 : Bool) : Bool := (x1 && z2) ^^ (z1 && x2)

theorem sigma_comm (x1 z1 x2 z2 : Bool) :
    sigma x1 z1 * sigma x2 z2 = sgn (antiBit x1 z1 x2 z2) • (sigma x2 z2 * sigma x1 z1) := by
  ext a b
  cases x1 <;> cases z1 <;> cases x2 <;> cases z2 <;> cases a <;> cases b <;>
    simp [sigma, antiBit, Matrix.mul_apply]

/-- `(-1)^k` for a natural number only depends on parity. -/
theorem sgn_parity (k : ℕ) : sgn (decide (k % 2 = 1)) = (-1 : ℂ) ^ k := by
  rcases Nat.mod_two_eq_zero_or_one k with h | h
  · simp [h, sgn, (Nat.even_iff.mpr h).neg_one_pow]
  · simp [h, sgn, (Nat.odd_iff.mpr h).neg_one_pow]

theorem sgn_antiBit (x1 z1 x2 z2 : Bool) :
    sgn (antiBit x1 z1 x2 z2) = (-1 : ℂ) ^ (bit x1 * bit z2 + bit z1 * bit x2) := by
  cases x1 <;> cases z1 <;> cases x2 <;> cases z2 <;> simp [antiBit, bit]

theorem sgn_anti (a b : Op n) :
    sgn (anti a b) = ∏ q, sgn (antiBit (a.x q) (a.z q) (b.x q) (b.z q)) := by
  unfold anti
  rw [sgn_parity, Finset.prod_congr rfl (fun q _ => sgn_antiBit _ _ _ _), Finset.prod_pow_eq_pow_sum]

theorem opMat_comm (a b : Op n) : opMat a * opMat b = sgn (anti a b) • (opMat b * opMat a) := by
  unfold opMat
  simp only [Matrix.smul_mul, Matrix.mul_smul]
  have h : pauliMat a.x a.z * pauliMat b.x b.z =
      sgn (anti a b) • (pauliMat b.x b.z * pauliMat a.x a.z) := by
    unfold pauliMat
    rw [tensor_mul, tensor_mul, sgn_anti, ← tensor_smul]
    congr 1
    funext q
    exact sigma_comm _ _ _ _
  rw [h]
  simp only [smul_smul]
  congr 1
  ring

theorem pauliMat_sq (x z : Fin n → Bool) : pauliMat x z * pauliMat x z = 1 := by
  unfold pauliMat
  rw [tensor_mul, ← tensor_one]
  congr 1
  funext q
  rw [sigma_mul]
  cases x q <;> cases z q <;> simp [g, bit, sigma_zero]

theorem opMat_sq (a : Op n) : opMat a * opMat a = 1 := by
  unfold opMat
  rw [Matrix.smul_mul, Matrix.mul_smul, pauliMat_sq, smul_smul, sgn_mul_self, one_smul]

theorem opMat_conjTranspose (a : Op n) : (opMat a)ᴴ = opMat a := by
  unfold opMat pauliMat
  rw [Matrix.conjTranspose_smul, tensor_conjTranspose]
  congr 1
  · cases a.r <;> simp
  · simp [sigma_conjTranspose]

theorem opMat_ne_zero (a : Op n) : opMat a ≠ 0 := by
  intro h
  have := opMat_sq a
  rw [h, Matrix.zero_mul] at this
  exact one_ne_zero this.symm

end Plaquette
