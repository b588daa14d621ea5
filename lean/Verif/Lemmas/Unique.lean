import Verif.Lemmas.Measure

/-! The vector represented by a valid tableau is unique up to a scalar. -/

namespace Plaquette
open Matrix Complex

variable {n : Nat}

/-- `∑ P ⊗ P` over all Pauli strings is `2^n` times the swap. -/
theorem pauli_swap (a b c d : Basis n) :
    ∑ p : Fin n → Bool × Bool, pauliMat (fun q => (p q).1) (fun q => (p q).2) a b *
        pauliMat (fun q => (p q).1) (fun q => (p q).2) c d =
      if a = d ∧ b = c then (2 : ℂ) ^ n else 0 := by
  have h1 : ∀ p : Fin n → Bool × Bool, pauliMat (fun q => (p q).1) (fun q => (p q).2) a b *
        pauliMat (fun q => (p q).1) (fun q => (p q).2) c d =
      ∏ q, (sigma (p q).1 (p q).2 (a q) (b q) * sigma (p q).1 (p q).2 (c q) (d q)) := by
    intro p; simp only [pauliMat, tensor, Finset.prod_mul_distrib]
  simp only [h1]
  rw [← Fintype.piFinset_univ, ← Finset.prod_univ_sum (fun _ => Finset.univ)
    (fun q (p : Bool × Bool) => sigma p.1 p.2 (a q) (b q) * sigma p.1 p.2 (c q) (d q))]
  have h2 : ∀ q, ∑ p : Bool × Bool, sigma p.1 p.2 (a q) (b q) * sigma p.1 p.2 (c q) (d q) =
      if a q = d q ∧ b q = c q then (2 : ℂ) else 0 := by
    intro q
    rw [Fintype.sum_prod_type]
    simp only [Fintype.sum_bool]
    cases a q <;> cases b q <;> cases c q <;> cases d q <;> simp [sigma] <;> norm_num
  simp only [h2]
  by_cases h : a = d ∧ b = c
  · obtain ⟨rfl, rfl⟩ := h; simp
  · rw [if_neg h]
    have : ∃ q, ¬ (a q = d q ∧ b q = c q) := by
      by_contra hc
      push Not at hc
      exact h ⟨funext fun q => (hc q).1, funext fun q => (hc q).2⟩
    obtain ⟨q, hq⟩ := this
    exact Finset.prod_eq_zero (Finset.mem_univ q) (by rw [if_neg hq])

/-- The inner product. -/
noncomputable def inner' (ψ φ : Vec n) : ℂ := star ψ ⬝ᵥ φ

theorem inner'_expand (M : Mat n) (ψ : Vec n) : inner' ψ (M *ᵥ ψ) = ∑ a, ∑ b, star (ψ a) * (M a b * ψ b) := by
  simp only [inner', dotProduct, mulVec, Pi.star_apply, Finset.mul_sum]

theorem sum4 {ι : Type*} [Fintype ι] (f g : ι → ι → ℂ) : (∑ a, ∑ b, f a b) * (∑ c, ∑ d, g c d) =
    ∑ a, ∑ b, ∑ c, ∑ d, f a b * g c d := by
  rw [Finset.sum_mul]
  refine Finset.sum_congr rfl fun a _ => ?_
  rw [Finset.sum_mul]
  refine Finset.sum_congr rfl fun b _ => ?_
  rw [Finset.mul_sum]
  refine Finset.sum_congr rfl fun c _ => ?_
  rw [Finset.mul_sum]

theorem swap_expect (ψ φ : Vec n) :
    ∑ p : Fin n → Bool × Bool, inner' ψ (pauliMat (fun q => (p q).1) (fun q => (p q).2) *ᵥ ψ) *
        inner' φ (pauliMat (fun q => (p q).1) (fun q => (p q).2) *ᵥ φ) = (2 : ℂ) ^ n * (inner' ψ φ * inner' φ ψ) := by
  simp only [inner'_expand, sum4]
  rw [Finset.sum_comm]
  conv_lhs => enter [2, a]; rw [Finset.sum_comm]
  conv_lhs => enter [2, a, 2, b]; rw [Finset.sum_comm]
  conv_lhs => enter [2, a, 2, b, 2, c]; rw [Finset.sum_comm]
  have h1 : ∀ a b c d : Basis n, (∑ p : Fin n → Bool × Bool,
      star (ψ a) * (pauliMat (fun q => (p q).1) (fun q => (p q).2) a b * ψ b) *
        (star (φ c) * (pauliMat (fun q => (p q).1) (fun q => (p q).2) c d * φ d))) =
      (star (ψ a) * ψ b * star (φ c) * φ d) * (if a = d ∧ b = c then (2 : ℂ) ^ n else 0) := by
    intro a b c d
    rw [← pauli_swap, Finset.mul_sum]
    refine Finset.sum_congr rfl fun p _ => by ring
  simp only [h1]
  have h2 : ∀ a b : Basis n, (∑ c, ∑ d, (star (ψ a) * ψ b * star (φ c) * φ d) *
      (if a = d ∧ b = c then (2 : ℂ) ^ n else 0)) = (2 : ℂ) ^ n * ((star (ψ a) * φ a) * (star (φ b) * ψ b)) := by
    intro a b
    rw [Finset.sum_eq_single b, Finset.sum_eq_single a]
    · simp; ring
    · intro d _ hd; rw [if_neg (fun h => hd h.1.symm)]; ring
    · simp
    · intro c _ hc
      apply Finset.sum_eq_zero
      intro d _
      rw [if_neg (fun h => hc h.2.symm)]; ring
    · simp
  simp only [h2]
  simp only [inner', dotProduct, Pi.star_apply]
  rw [Finset.sum_mul_sum, Finset.mul_sum]
  refine Finset.sum_congr rfl fun a _ => ?_
  rw [Finset.mul_sum]

/-- The expectation value of a Pauli string is fixed by the tableau. -/
theorem expect_eq {T : Tab n} (hT : T.SemiValid) (m : Op n) :
    ∃ e : ℂ, ∀ ψ, T.Represents ψ → inner' ψ (opMat m *ᵥ ψ) = e * inner' ψ ψ := by
  cases hn : nonzero T.s m with
  | nil =>
    refine ⟨sgn (decide (((nonzero T.d m).foldl (fun acc i => mulOp acc (T.s i)) (idOp n)).r ≠ m.r)),
      fun ψ hψ => ?_⟩
    rw [measure_det_sem hT hn hψ]
    simp only [inner', dotProduct_smul, smul_eq_mul]
  | cons k o =>
    refine ⟨0, fun ψ hψ => ?_⟩
    have hk := pivot_anti hn
    have hs := hψ.2 k
    have : inner' ψ (opMat m *ᵥ ψ) = - inner' ψ (opMat m *ᵥ ψ) := by
      calc inner' ψ (opMat m *ᵥ ψ) = inner' (opMat (T.s k) *ᵥ ψ) (opMat m *ᵥ (opMat (T.s k) *ᵥ ψ)) := by rw [hs]
        _ = inner' ψ ((opMat (T.s k) * opMat m * opMat (T.s k)) *ᵥ ψ) := by
            unfold inner'
            rw [Matrix.star_mulVec, opMat_conjTranspose, ← Matrix.dotProduct_mulVec, Matrix.mulVec_mulVec,
              Matrix.mulVec_mulVec, Matrix.mul_assoc]
        _ = inner' ψ ((-(opMat m)) *ᵥ ψ) := by
            rw [opMat_comm, hk, Matrix.smul_mul, Matrix.mul_assoc, opMat_sq]; simp
        _ = _ := by rw [Matrix.neg_mulVec]; simp [inner']
    rw [zero_mul]
    exact self_eq_neg.mp this

/-- Uniqueness of the represented vector. -/
theorem represents_unique {T : Tab n} (hT : T.SemiValid) {ψ φ : Vec n} (hψ : T.Represents ψ) (hφ : T.Represents φ) :
    ∃ c : ℂ, c ≠ 0 ∧ φ = c • ψ := by
  choose e he using fun p : Fin n → Bool × Bool => expect_eq hT
    { x := fun q => (p q).1, z := fun q => (p q).2, r := false }
  have hop : ∀ p : Fin n → Bool × Bool, opMat ({ x := fun q => (p q).1, z := fun q => (p q).2, r := false } : Op n) =
      pauliMat (fun q => (p q).1) (fun q => (p q).2) := by intro p; simp [opMat]
  simp only [hop] at he
  have hA := swap_expect ψ ψ
  have hB := swap_expect ψ φ
  simp only [he _ ψ hψ, he _ φ hφ] at hA hB
  have fac : ∀ u v : ℂ, ∑ p, e p * u * (e p * v) = (∑ p, e p * e p) * (u * v) := by
    intro u v
    rw [Finset.sum_mul]
    refine Finset.sum_congr rfl fun p _ => by ring
  rw [fac] at hA hB
  have hψ0 : inner' ψ ψ ≠ 0 := by
    unfold inner'; rw [← normSq_eq]
    exact_mod_cast (normSq_pos hψ.1).ne'
  have hE : ∑ p, e p * e p = (2 : ℂ) ^ n := mul_right_cancel₀ (mul_ne_zero hψ0 hψ0) hA
  rw [hE] at hB
  have hCS : inner' ψ ψ * inner' φ φ = inner' ψ φ * inner' φ ψ :=
    mul_left_cancel₀ (pow_ne_zero n two_ne_zero) hB
  -- equality in Cauchy-Schwarz
  have hstar : star (inner' ψ φ) = inner' φ ψ := by
    simp [inner', dotProduct, mul_comm]
  have hreal : star (inner' ψ ψ) = inner' ψ ψ := by
    simp [inner', dotProduct, mul_comm]
  have hzero : inner' ψ ψ • φ - inner' ψ φ • ψ = 0 := by
    by_contra hne
    have hpos := (normSq_pos hne).ne'
    apply hpos
    have : (normSq (inner' ψ ψ • φ - inner' ψ φ • ψ) : ℂ) = 0 := by
      have hs : star (inner' ψ ψ • φ - inner' ψ φ • ψ) =
          star (inner' ψ ψ) • star φ - star (inner' ψ φ) • star ψ := by funext i; simp
      rw [normSq_eq, hs, hstar, hreal, sub_dotProduct, dotProduct_sub, dotProduct_sub]
      simp only [smul_dotProduct, dotProduct_smul, smul_eq_mul]
      change inner' ψ ψ * (inner' ψ ψ * inner' φ φ) - inner' ψ φ * (inner' ψ ψ * inner' φ ψ) -
        (inner' ψ ψ * (inner' φ ψ * inner' ψ φ) - inner' ψ φ * (inner' φ ψ * inner' ψ ψ)) = 0
      rw [hCS]; ring
    exact_mod_cast this
  have hφe : φ = (inner' ψ φ / inner' ψ ψ) • ψ := by
    have h1 : inner' ψ ψ • φ = inner' ψ φ • ψ := sub_eq_zero.mp hzero
    rw [div_eq_inv_mul, ← smul_smul, ← h1, smul_smul, inv_mul_cancel₀ hψ0, one_smul]
  refine ⟨_, ?_, hφe⟩
  intro h0
  rw [h0, zero_smul] at hφe
  exact hφ.1 hφe

end Plaquette
