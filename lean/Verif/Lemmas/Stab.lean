import Verif.Spec.Stabiliser
import Verif.Lemmas.Gates
import Mathlib.LinearAlgebra.Matrix.NonsingularInverse
import Mathlib.Data.Matrix.Block
import Mathlib.Algebra.Field.ZMod
import Mathlib.Tactic.Module

/-! Helper lemmas: commutation algebra, symplectic nondegeneracy, exactness of products. -/

namespace Plaquette
open Matrix Complex

variable {n : Nat}

theorem sgn_inj {a b : Bool} (h : sgn a = sgn b) : a = b := by
  cases a <;> cases b <;> simp [sgn] at h ⊢ <;> norm_num [eq_neg_iff_add_eq_zero, neg_eq_iff_add_eq_zero] at h

theorem opMat_mul_ne_zero (a b : Op n) : opMat a * opMat b ≠ 0 := by
  intro h
  have h2 : opMat a * (opMat a * opMat b) * opMat b = 1 := by
    rw [← Matrix.mul_assoc, opMat_sq, Matrix.one_mul, opMat_sq]
  rw [h] at h2
  simp at h2

theorem anti_of_comm {a b : Op n} {s : Bool} (h : opMat a * opMat b = sgn s • (opMat b * opMat a)) :
    anti a b = s := by
  rw [opMat_comm a b] at h
  apply sgn_inj
  have h3 : (sgn (anti a b) - sgn s) • (opMat b * opMat a) = 0 := by
    rw [sub_smul, h, sub_self]
  rcases smul_eq_zero.mp h3 with h4 | h4
  · exact sub_eq_zero.mp h4
  · exact absurd h4 (opMat_mul_ne_zero _ _)

theorem commutes_iff (a b : Op n) : Commutes (opMat a) (opMat b) ↔ anti a b = false := by
  constructor
  · intro h; exact anti_of_comm (by simpa [Commutes] using h)
  · intro h; have := opMat_comm a b; rw [h] at this; simpa [Commutes] using this

theorem anticommutes_iff (a b : Op n) : Anticommutes (opMat a) (opMat b) ↔ anti a b = true := by
  constructor
  · intro h; exact anti_of_comm (by simpa [Anticommutes] using h)
  · intro h; have := opMat_comm a b; rw [h] at this; simpa [Anticommutes] using this

theorem anti_symm (a b : Op n) : anti a b = anti b a := by
  unfold anti
  congr 1
  congr 1
  congr 1
  apply Finset.sum_congr rfl
  intro q _
  ring

@[simp] theorem anti_self (a : Op n) : anti a a = false := anti_of_comm (by simp)

theorem anti_congr {a a' b b' : Op n} (hx : a.x = a'.x) (hz : a.z = a'.z) (hx' : b.x = b'.x) (hz' : b.z = b'.z) :
    anti a b = anti a' b' := by
  unfold anti; rw [hx, hz, hx', hz']

theorem mul2_x (k : ZMod 4) (a b : Op n) : (mul2 k a b).1.x = fun q => a.x q ^^ b.x q := rfl
theorem mul2_z (k : ZMod 4) (a b : Op n) : (mul2 k a b).1.z = fun q => a.z q ^^ b.z q := rfl
@[simp] theorem mulOp_x (a b : Op n) (q : Fin n) : (mulOp a b).x q = (a.x q ^^ b.x q) := rfl
@[simp] theorem mulOp_z (a b : Op n) (q : Fin n) : (mulOp a b).z q = (a.z q ^^ b.z q) := rfl

theorem antiBit_xor (x1 z1 x1' z1' x2 z2 : Bool) :
    antiBit (x1 ^^ x1') (z1 ^^ z1') x2 z2 = (antiBit x1 z1 x2 z2 ^^ antiBit x1' z1' x2 z2) := by
  cases x1 <;> cases z1 <;> cases x1' <;> cases z1' <;> cases x2 <;> cases z2 <;> rfl

theorem anti_mul_left (a b c : Op n) : anti (mulOp a b) c = (anti a c ^^ anti b c) := by
  apply sgn_inj
  rw [sgn_xor, sgn_anti, sgn_anti, sgn_anti, ← Finset.prod_mul_distrib]
  apply Finset.prod_congr rfl
  intro q _
  rw [← sgn_xor, mulOp_x, mulOp_z, antiBit_xor]

theorem anti_mul_right (a b c : Op n) : anti c (mulOp a b) = (anti c a ^^ anti c b) := by
  rw [anti_symm, anti_mul_left, anti_symm a, anti_symm b]

@[simp] theorem anti_idOp (a : Op n) : anti (idOp n) a = false := by
  simp [anti, idOp, bit]

theorem signBit_of_even {k : ZMod 4} (h : 2 * k = 0) : sgn (signBit k) = iPow k := by
  have : k = 0 ∨ k = 2 := by revert h; revert k; decide
  rcases this with rfl | rfl <;> simp [signBit, phaseIm, phaseRe]

theorem mul2_two_phase {a b : Op n} (h : anti a b = false) : 2 * (mul2 0 a b).2 = 0 := by
  have h1 : (opMat a * opMat b) * (opMat a * opMat b) = 1 := by
    have hc : opMat a * opMat b = opMat b * opMat a := by simpa [h] using opMat_comm a b
    calc _ = opMat a * (opMat b * opMat a) * opMat b := by simp only [Matrix.mul_assoc]
      _ = opMat a * (opMat a * opMat b) * opMat b := by rw [hc]
      _ = 1 := by rw [← Matrix.mul_assoc, opMat_sq, Matrix.one_mul, opMat_sq]
  have h2 := opMat_mul_phase a b 0
  rw [iPow_zero, one_smul] at h2
  rw [h2, Matrix.smul_mul, Matrix.mul_smul, pauliMat_sq, smul_smul, ← iPow_add, ← two_mul] at h1
  generalize 2 * (mul2 0 a b).2 = k at h1
  have h3 : iPow k = 1 := by
    have := congrFun (congrFun h1 (fun _ => false)) (fun _ => false)
    simpa using this
  have hk : ∀ k : ZMod 4, k = 0 ∨ k = 1 ∨ k = 2 ∨ k = 3 := by decide
  rcases hk k with rfl | rfl | rfl | rfl
  · rfl
  · rw [iPow_one] at h3; exact absurd (congrArg Complex.re h3) (by simp)
  · rw [iPow_two] at h3; exact absurd (congrArg Complex.re h3) (by norm_num)
  · rw [iPow_three] at h3; exact absurd (congrArg Complex.re h3) (by simp)

/-- For commuting operators the sign bit of the product is exact. -/
theorem opMat_mulOp {a b : Op n} (h : anti a b = false) : opMat (mulOp a b) = opMat a * opMat b := by
  have h2 := opMat_mul_phase a b 0
  rw [iPow_zero, one_smul] at h2
  rw [h2, ← signBit_of_even (mul2_two_phase h)]
  rfl

theorem opMat_idOp : opMat (idOp n) = 1 := by
  simp [opMat, idOp, pauliMat, sigma_zero, tensor_one]

theorem anti_row (G : CGate n) (hG : G.Ok) (a b : Op n) : anti (G.row a) (G.row b) = anti a b := by
  apply anti_of_comm
  have hU := unitary_unitary G hG
  have hU' : G.unitary * G.unitaryᴴ = 1 := mul_eq_one_comm.mp hU
  have ha : opMat (G.row a) = G.unitary * opMat a * G.unitaryᴴ := by
    rw [gate_conj G hG, Matrix.mul_assoc, hU', Matrix.mul_one]
  have hb : opMat (G.row b) = G.unitary * opMat b * G.unitaryᴴ := by
    rw [gate_conj G hG, Matrix.mul_assoc, hU', Matrix.mul_one]
  have key : ∀ A B : Mat n, (G.unitary * A * G.unitaryᴴ) * (G.unitary * B * G.unitaryᴴ) =
      G.unitary * (A * B) * G.unitaryᴴ := by
    intro A B
    calc _ = G.unitary * A * (G.unitaryᴴ * G.unitary) * B * G.unitaryᴴ := by simp only [Matrix.mul_assoc]
      _ = _ := by rw [hU, Matrix.mul_one]; simp only [Matrix.mul_assoc]
  rw [ha, hb, key, key, opMat_comm a b, Matrix.mul_smul, Matrix.smul_mul]

/-! ### Validity in terms of `anti` -/

theorem semiValid_iff (T : Tab n) : T.SemiValid ↔
    (∀ i j, anti (T.s i) (T.s j) = false) ∧ (∀ i j, anti (T.d i) (T.s j) = decide (i = j)) := by
  constructor
  · rintro ⟨h1, h2, h3⟩
    refine ⟨fun i j => (commutes_iff _ _).mp (h1 i j), fun i j => ?_⟩
    by_cases h : i = j
    · subst h; simpa using (anticommutes_iff _ _).mp (h2 i)
    · simpa [h] using (commutes_iff _ _).mp (h3 i j h)
  · rintro ⟨h1, h2⟩
    refine ⟨fun i j => (commutes_iff _ _).mpr (h1 i j), fun i => (anticommutes_iff _ _).mpr (by simp [h2]),
      fun i j h => (commutes_iff _ _).mpr (by simp [h2, h])⟩

theorem valid_iff (T : Tab n) : T.Valid ↔
    (∀ i j, anti (T.s i) (T.s j) = false) ∧ (∀ i j, anti (T.d i) (T.s j) = decide (i = j)) ∧
    (∀ i j, anti (T.d i) (T.d j) = false) := by
  constructor
  · intro h
    obtain ⟨h1, h2⟩ := (semiValid_iff T).mp h.semi
    exact ⟨h1, h2, fun i j => (commutes_iff _ _).mp (h.destab_destab i j)⟩
  · rintro ⟨h1, h2, h3⟩
    have h := (semiValid_iff T).mpr ⟨h1, h2⟩
    exact ⟨h.stab_stab, fun i j => (commutes_iff _ _).mpr (h3 i j), h.destab_stab_same, h.destab_stab_ne⟩

/-! ### Symplectic nondegeneracy -/

/-- a Boolean as an element of `ZMod 2` -/
def z2 (b : Bool) : ZMod 2 := if b then 1 else 0

theorem z2_xor (a b : Bool) : z2 (a ^^ b) = z2 a + z2 b := by cases a <;> cases b <;> decide
theorem z2_inj {a b : Bool} (h : z2 a = z2 b) : a = b := by revert h; cases a <;> cases b <;> decide

theorem z2_decide_parity (k : ℕ) : z2 (decide (k % 2 = 1)) = (k : ZMod 2) := by
  rcases Nat.mod_two_eq_zero_or_one k with h | h
  · have : (k : ZMod 2) = 0 := (ZMod.natCast_eq_zero_iff k 2).mpr (Nat.dvd_of_mod_eq_zero h)
    simp [h, this, z2]
  · have : (k : ZMod 2) = 1 := by
      have := (ZMod.natCast_eq_natCast_iff k 1 2).mpr h
      simpa using this
    simp [h, this, z2]

theorem z2_anti (a b : Op n) :
    z2 (anti a b) = ∑ q, (z2 (a.x q) * z2 (b.z q) + z2 (a.z q) * z2 (b.x q)) := by
  unfold anti
  rw [z2_decide_parity]
  push_cast
  apply Finset.sum_congr rfl
  intro q _
  cases a.x q <;> cases a.z q <;> cases b.x q <;> cases b.z q <;> simp [z2, bit]

/-- If an operator commutes with all rows of a (semi-)valid tableau, it is `±I`. -/
theorem scalar_of_commutes {T : Tab n} (hT : T.SemiValid) (m : Op n)
    (hs : ∀ i, anti (T.s i) m = false) (hd : ∀ i, anti (T.d i) m = false) : m.IsScalar := by
  obtain ⟨h1, h2⟩ := (semiValid_iff T).mp hT
  -- rows of the tableau and the symplectic dual of a row, as vectors
  let row : Fin n ⊕ Fin n → Op n := Sum.elim T.d T.s
  let vec : Op n → Fin n ⊕ Fin n → ZMod 2 := fun p => Sum.elim (fun q => z2 (p.x q)) (fun q => z2 (p.z q))
  let dual : Op n → Fin n ⊕ Fin n → ZMod 2 := fun p => Sum.elim (fun q => z2 (p.z q)) (fun q => z2 (p.x q))
  let R : Matrix (Fin n ⊕ Fin n) (Fin n ⊕ Fin n) (ZMod 2) := fun i j => vec (row i) j
  let Q : Matrix (Fin n ⊕ Fin n) (Fin n ⊕ Fin n) (ZMod 2) := fun j i => dual (row i) j
  have hform : ∀ a b : Op n, ∑ j, vec a j * dual b j = z2 (anti a b) := by
    intro a b
    rw [z2_anti, Fintype.sum_sum_type, Finset.sum_add_distrib]
    rfl
  let A : Matrix (Fin n) (Fin n) (ZMod 2) := fun i j => z2 (anti (T.d i) (T.d j))
  have hRQ : R * Q = Matrix.fromBlocks A 1 1 0 := by
    ext i j
    rw [Matrix.mul_apply]
    show ∑ k, vec (row i) k * dual (row j) k = _
    rw [hform]
    rcases i with i | i <;> rcases j with j | j
    · rfl
    · show z2 (anti (T.d i) (T.s j)) = (1 : Matrix (Fin n) (Fin n) (ZMod 2)) i j
      rw [h2, Matrix.one_apply]
      by_cases h : i = j <;> simp [h, z2]
    · show z2 (anti (T.s i) (T.d j)) = (1 : Matrix (Fin n) (Fin n) (ZMod 2)) i j
      rw [anti_symm, h2, Matrix.one_apply]
      by_cases h : i = j <;> simp [h, z2, eq_comm]
    · show z2 (anti (T.s i) (T.s j)) = 0
      rw [h1]; rfl
  have hinv : R * (Q * Matrix.fromBlocks 0 1 1 (-A)) = 1 := by
    rw [← Matrix.mul_assoc, hRQ, Matrix.fromBlocks_multiply]
    simp
  have hinv' : (Q * Matrix.fromBlocks 0 1 1 (-A)) * R = 1 := mul_eq_one_comm.mp hinv
  have hzero : R *ᵥ dual m = 0 := by
    funext i
    show ∑ j, vec (row i) j * dual m j = 0
    rw [hform]
    rcases i with i | i
    · show z2 (anti (T.d i) m) = 0
      rw [hd]; rfl
    · show z2 (anti (T.s i) m) = 0
      rw [hs]; rfl
  have hm : dual m = 0 := by
    calc dual m = (1 : Matrix _ _ (ZMod 2)) *ᵥ dual m := (Matrix.one_mulVec _).symm
      _ = (Q * Matrix.fromBlocks 0 1 1 (-A)) *ᵥ (R *ᵥ dual m) := by rw [Matrix.mulVec_mulVec, hinv']
      _ = 0 := by rw [hzero, Matrix.mulVec_zero]
  constructor
  · intro q
    have := congrFun hm (Sum.inr q)
    exact z2_inj this
  · intro q
    have := congrFun hm (Sum.inl q)
    exact z2_inj this

/-- Two operators with the same commutation relations with all rows have the same bits. -/
theorem bits_eq_of_anti {T : Tab n} (hT : T.SemiValid) (a b : Op n)
    (hs : ∀ i, anti (T.s i) a = anti (T.s i) b) (hd : ∀ i, anti (T.d i) a = anti (T.d i) b) :
    a.x = b.x ∧ a.z = b.z := by
  have h := scalar_of_commutes hT (mulOp a b)
    (fun i => by rw [anti_mul_right, hs]; simp) (fun i => by rw [anti_mul_right, hd]; simp)
  constructor
  · funext q; simpa using h.1 q
  · funext q; simpa using h.2 q

/-! ### Vectors -/

theorem stabilises_mul {a b : Op n} (h : anti a b = false) {ψ : Vec n} (ha : Stabilises a ψ)
    (hb : Stabilises b ψ) : Stabilises (mulOp a b) ψ := by
  unfold Stabilises at *
  rw [opMat_mulOp h, ← Matrix.mulVec_mulVec, hb, ha]

theorem stabilises_id (ψ : Vec n) : Stabilises (idOp n) ψ := by
  unfold Stabilises; rw [opMat_idOp, Matrix.one_mulVec]

theorem opMat_mulVec_ne_zero (a : Op n) {ψ : Vec n} (h : ψ ≠ 0) : opMat a *ᵥ ψ ≠ 0 := by
  intro h0
  apply h
  calc ψ = (opMat a * opMat a) *ᵥ ψ := by rw [opMat_sq, Matrix.one_mulVec]
    _ = 0 := by rw [← Matrix.mulVec_mulVec, h0, Matrix.mulVec_zero]

/-- Every (semi-)valid tableau represents some vector. -/
theorem exists_represents {T : Tab n} (hT : T.SemiValid) : ∃ ψ, T.Represents ψ := by
  obtain ⟨h1, h2⟩ := (semiValid_iff T).mp hT
  have key : ∀ l : List (Fin n), ∃ ψ : Vec n, ψ ≠ 0 ∧ ∀ i ∈ l, Stabilises (T.s i) ψ := by
    intro l
    induction l with
    | nil => exact ⟨fun _ => 1, fun h => one_ne_zero (congrFun h (fun _ => false)), by simp⟩
    | cons i l ih =>
      obtain ⟨ψ, h0, hl⟩ := ih
      by_cases hi : i ∈ l
      · exact ⟨ψ, h0, fun j hj => by
          rcases List.mem_cons.mp hj with rfl | hj
          · exact hl _ hi
          · exact hl _ hj⟩
      by_cases hz : ψ + opMat (T.s i) *ᵥ ψ = 0
      · -- the other eigenspace: use the destabiliser
        refine ⟨opMat (T.d i) *ᵥ ψ, opMat_mulVec_ne_zero _ h0, ?_⟩
        intro j hj
        unfold Stabilises
        rw [Matrix.mulVec_mulVec, opMat_comm, anti_symm, h2, Matrix.smul_mulVec, ← Matrix.mulVec_mulVec]
        rcases List.mem_cons.mp hj with rfl | hj
        · have : opMat (T.s j) *ᵥ ψ = -ψ := by
            rw [eq_neg_iff_add_eq_zero, add_comm]; exact hz
          simp [this, Matrix.mulVec_neg]
        · have hne : i ≠ j := fun h => hi (h ▸ hj)
          have := hl j hj
          unfold Stabilises at this
          simp [hne, this]
      · refine ⟨ψ + opMat (T.s i) *ᵥ ψ, hz, ?_⟩
        intro j hj
        unfold Stabilises
        rcases List.mem_cons.mp hj with rfl | hj
        · rw [Matrix.mulVec_add, Matrix.mulVec_mulVec, opMat_sq, Matrix.one_mulVec, add_comm]
        · have := hl j hj
          unfold Stabilises at this
          rw [Matrix.mulVec_add, this, Matrix.mulVec_mulVec, opMat_comm, h1, sgn_false, one_smul,
            ← Matrix.mulVec_mulVec, this]
  obtain ⟨ψ, h0, h⟩ := key (List.finRange n)
  exact ⟨ψ, h0, fun i => h i (List.mem_finRange i)⟩

end Plaquette
