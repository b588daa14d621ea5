import Verif.Lemmas.Trail
import Mathlib.MeasureTheory.Measure.MeasureSpace
import Mathlib.Analysis.SpecificLimits.Basic
import Mathlib.Data.Finset.Powerset
import Mathlib.Data.Nat.Choose.Bounds

/-!
# Long trails with many faulty edges are rare

If a set of `k` edges is all faulty with a probability of at most `p ^ k`, then the probability that at least one half of the edges of a
closed trail with at least `d` edges is faulty decreases exponentially with `d`, for small `p`.
-/

open MeasureTheory
open scoped ENNReal

namespace Plaquette

variable {E : Nat → List Nat} {Ω : Type*} [MeasurableSpace Ω]

theorem part_le {m c A : Nat} (hc0 : 0 < c) (h : m ≤ c * A) : (m + (c - 1)) / c ≤ A := by
  refine Nat.le_of_lt_succ ((Nat.div_lt_iff_lt_mul hc0).2 ?_)
  rw [Nat.succ_mul, Nat.mul_comm A c]; omega

theorem le_part {m c : Nat} (hc0 : 0 < c) : m ≤ c * ((m + (c - 1)) / c) := by
  have h1 := Nat.div_add_mod (m + (c - 1)) c
  have h2 := Nat.mod_lt (m + (c - 1)) hc0
  omega

/-- The event that one in `c` of the elements of some of finitely many sets of size `m` are faulty. -/
theorem part_rare (μ : Measure Ω) {c : Nat} (hc0 : 0 < c) {p : ℝ≥0∞} {R : Finset Nat} {bad : Ω → Nat → Prop}
    (hb : ∀ A ⊆ R, μ {ω | ∀ i ∈ A, bad ω i} ≤ p ^ A.card) {S : Finset Nat} (hS : S ⊆ R) :
    μ {ω | ∃ A ⊆ S, S.card ≤ c * A.card ∧ ∀ i ∈ A, bad ω i} ≤ 2 ^ S.card * p ^ ((S.card + (c - 1)) / c) := by
  have hsub : {ω | ∃ A ⊆ S, S.card ≤ c * A.card ∧ ∀ i ∈ A, bad ω i} ⊆
      ⋃ A ∈ S.powersetCard ((S.card + (c - 1)) / c), {ω | ∀ i ∈ A, bad ω i} := by
    rintro ω ⟨A, hA, hc, hbad⟩
    obtain ⟨B, hB, hBc⟩ := Finset.exists_subset_card_eq (part_le hc0 hc)
    simp only [Set.mem_iUnion]
    exact ⟨B, Finset.mem_powersetCard.2 ⟨hB.trans hA, hBc⟩, fun i hi => hbad i (hB hi)⟩
  refine (measure_mono hsub).trans ((measure_biUnion_finset_le _ _).trans ((Finset.sum_le_card_nsmul _ _ (p ^ ((S.card + (c - 1)) / c)) fun A hA => ?_).trans ?_))
  · obtain ⟨h1, h2⟩ := Finset.mem_powersetCard.1 hA
    rw [← h2]
    exact hb A (h1.trans hS)
  · rw [Finset.card_powersetCard, nsmul_eq_mul]
    gcongr
    exact_mod_cast Nat.choose_le_two_pow _ _

theorem trails_rare_part (μ : Measure Ω) {c : Nat} (hc0 : 0 < c) {p q : ℝ≥0∞} {R : Finset Nat} {bad : Ω → Nat → Prop} (hE : ∀ i ∈ R, Sound2 E i) {Δ : Nat} (hΔ1 : 1 ≤ Δ)
    (hΔ : ∀ v, (R.filter fun i => v ∈ E i).card ≤ Δ + 1) (hb : ∀ A ⊆ R, μ {ω | ∀ i ∈ A, bad ω i} ≤ p ^ A.card) (hq : q ≤ 1)
    (hpq : (2 * (Δ : ℝ≥0∞)) ^ c * p ≤ q ^ c) {d : Nat} (hd : 1 ≤ d) :
    μ {ω | ∃ o L A, Trail E o L o ∧ (∀ i ∈ L, i ∈ R) ∧ d ≤ L.length ∧ A ⊆ L.toFinset ∧ L.length ≤ c * A.card ∧ ∀ i ∈ A, bad ω i}
      ≤ 2 * R.card * q ^ d * (1 - q)⁻¹ := by
  have hsub : {ω | ∃ o L A, Trail E o L o ∧ (∀ i ∈ L, i ∈ R) ∧ d ≤ L.length ∧ A ⊆ L.toFinset ∧ L.length ≤ c * A.card ∧ ∀ i ∈ A, bad ω i} ⊆
      ⋃ k : Nat, ⋃ t ∈ trails E R (d - 1 + k), {ω | ∃ A ⊆ t.1.toFinset, t.1.toFinset.card ≤ c * A.card ∧ ∀ i ∈ A, bad ω i} := by
    rintro ω ⟨o, L, A, hL, hR, hl, hA, hc, hbad⟩
    simp only [Set.mem_iUnion]
    refine ⟨L.length - d, (L, o), ?_, A, hA, ?_, hbad⟩
    · have := hL.mem_trails hE hR
      rwa [show d - 1 + (L.length - d) = L.length - 1 by omega]
    · rw [List.toFinset_card_of_nodup hL.nodup]; exact hc
  have hk : ∀ k : Nat, μ (⋃ t ∈ trails E R (d - 1 + k), {ω | ∃ A ⊆ t.1.toFinset, t.1.toFinset.card ≤ c * A.card ∧ ∀ i ∈ A, bad ω i}) ≤
      2 * R.card * q ^ d * q ^ k := by
    intro k
    refine (measure_biUnion_finset_le _ _).trans ((Finset.sum_le_card_nsmul _ _ (2 ^ (d + k) * p ^ ((d + k + (c - 1)) / c)) fun t ht => ?_).trans ?_)
    · obtain ⟨h1, h2, h3, -⟩ := trails_spec ht hE
      have hc : t.1.toFinset.card = d + k := by rw [List.toFinset_card_of_nodup h2, h1]; omega
      have := part_rare μ hc0 hb (S := t.1.toFinset) fun i hi => h3 i (List.mem_toFinset.1 hi)
      rwa [hc] at this ⊢
    · rw [nsmul_eq_mul]
      have h1 : ((trails E R (d - 1 + k)).card : ℝ≥0∞) ≤ 2 * R.card * (Δ : ℝ≥0∞) ^ (d - 1 + k) := by
        exact_mod_cast card_trails hE hΔ (d - 1 + k)
      have hΔ1' : (1 : ℝ≥0∞) ≤ Δ := by exact_mod_cast hΔ1
      have h2 : (Δ : ℝ≥0∞) ^ (d - 1 + k) ≤ (Δ : ℝ≥0∞) ^ (c * ((d + k + (c - 1)) / c)) := pow_le_pow_right₀ hΔ1' ((show d - 1 + k ≤ d + k by omega).trans (le_part hc0))
      have h3 : (2 : ℝ≥0∞) ^ (d + k) ≤ 2 ^ (c * ((d + k + (c - 1)) / c)) := pow_le_pow_right₀ (by norm_num) (le_part hc0)
      calc ((trails E R (d - 1 + k)).card : ℝ≥0∞) * (2 ^ (d + k) * p ^ ((d + k + (c - 1)) / c))
          ≤ (2 * R.card * (Δ : ℝ≥0∞) ^ (c * ((d + k + (c - 1)) / c))) * (2 ^ (c * ((d + k + (c - 1)) / c)) * p ^ ((d + k + (c - 1)) / c)) := by
            gcongr
            exact h1.trans (by gcongr)
        _ = 2 * R.card * ((2 * (Δ : ℝ≥0∞)) ^ c * p) ^ ((d + k + (c - 1)) / c) := by
            rw [pow_mul, pow_mul, mul_pow, mul_pow, mul_pow]
            ring
        _ ≤ 2 * R.card * (q ^ c) ^ ((d + k + (c - 1)) / c) := by gcongr
        _ = 2 * R.card * q ^ (c * ((d + k + (c - 1)) / c)) := by rw [pow_mul]
        _ ≤ 2 * R.card * q ^ (d + k) := by
            gcongr 2 * R.card * ?_
            exact pow_le_pow_right_of_le_one' hq (le_part hc0)
        _ = 2 * R.card * q ^ d * q ^ k := by rw [pow_add]; ring
  calc _ ≤ _ := measure_mono hsub
    _ ≤ _ := measure_iUnion_le _
    _ ≤ ∑' k : Nat, 2 * R.card * q ^ d * q ^ k := ENNReal.tsum_le_tsum hk
    _ = _ := by rw [ENNReal.tsum_mul_left, ENNReal.tsum_geometric]

theorem trails_rare (μ : Measure Ω) {p q : ℝ≥0∞} {R : Finset Nat} {bad : Ω → Nat → Prop} (hE : ∀ i ∈ R, Sound2 E i) {Δ : Nat} (hΔ1 : 1 ≤ Δ)
    (hΔ : ∀ v, (R.filter fun i => v ∈ E i).card ≤ Δ + 1) (hb : ∀ A ⊆ R, μ {ω | ∀ i ∈ A, bad ω i} ≤ p ^ A.card) (hq : q ≤ 1)
    (hpq : 4 * (Δ : ℝ≥0∞) ^ 2 * p ≤ q ^ 2) {d : Nat} (hd : 1 ≤ d) :
    μ {ω | ∃ o L A, Trail E o L o ∧ (∀ i ∈ L, i ∈ R) ∧ d ≤ L.length ∧ A ⊆ L.toFinset ∧ L.length ≤ 2 * A.card ∧ ∀ i ∈ A, bad ω i}
      ≤ 2 * R.card * q ^ d * (1 - q)⁻¹ :=
  trails_rare_part μ two_pos hE hΔ1 hΔ hb hq (by rw [mul_pow]; norm_num; exact hpq) hd

end Plaquette
