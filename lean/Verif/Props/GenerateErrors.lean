import Verif.Model.GenerateErrors
import Mathlib.Tactic.Linarith
import Mathlib.Tactic.FieldSimp

/-!
# C102: generated error rates
-/

namespace Plaquette

/-- The draws lie between the bounds of the distribution. -/
def Cutoff (rvs : ℚ → ℚ → Nat → ℚ) : Prop := ∀ a b i, a ≤ b → a ≤ rvs a b i ∧ rvs a b i ≤ b

/-- **C102 (full statement)**: for every mean and deviation between 0 and 1 there is one rate between 0 and 1 for each qubit, and
other means and deviations raise `ValueError`. -/
def C102_statement : Prop := ∀ (rvs : ℚ → ℚ → Nat → ℚ), Cutoff rvs → ∀ (mean sd : ℚ) (k : Nat),
  if 0 ≤ mean ∧ mean ≤ 1 ∧ 0 ≤ sd ∧ sd ≤ 1 then ∃ l, gaussianErrors rvs mean sd k = .ok l ∧ l.length = k ∧ ∀ p ∈ l, 0 ≤ p ∧ p ≤ 1
  else gaussianErrors rvs mean sd k = .error .value

/-- The deviation 0 passes the check and raises `ZeroDivisionError`. -/
theorem C102_zero (rvs : ℚ → ℚ → Nat → ℚ) {mean : ℚ} (h0 : 0 ≤ mean) (h1 : mean ≤ 1) (k : Nat) :
    gaussianErrors rvs mean 0 k = .error .zeroDivision := by
  rw [gaussianErrors, if_neg (not_not.2 ⟨h0, h1⟩), if_neg (by norm_num), if_pos rfl]

theorem C102_counterexample : ¬ C102_statement := by
  intro h
  have := h (fun a _ _ => a) (fun a b _ hab => ⟨le_rfl, hab⟩) 0 0 1
  rw [if_pos (by norm_num), C102_zero _ (le_refl _) (by norm_num)] at this
  obtain ⟨l, hl, _⟩ := this
  cases hl

/-- **C102 (partial)**: the full statement except for the deviation 0. -/
theorem C102_gaussian_partial {rvs : ℚ → ℚ → Nat → ℚ} (hr : Cutoff rvs) (mean : ℚ) {sd : ℚ} (hs : sd ≠ 0) (k : Nat) :
    if 0 ≤ mean ∧ mean ≤ 1 ∧ 0 ≤ sd ∧ sd ≤ 1 then ∃ l, gaussianErrors rvs mean sd k = .ok l ∧ l.length = k ∧ ∀ p ∈ l, 0 ≤ p ∧ p ≤ 1
    else gaussianErrors rvs mean sd k = .error .value := by
  split_ifs with h
  · obtain ⟨h1, h2, h3, h4⟩ := h
    refine ⟨_, by rw [gaussianErrors, if_neg (not_not.2 ⟨h1, h2⟩), if_neg (not_not.2 ⟨h3, h4⟩), if_neg hs], by simp, ?_⟩
    intro p hp
    obtain ⟨i, -, rfl⟩ := List.mem_map.1 hp
    have hpos : 0 < sd := lt_of_le_of_ne h3 (Ne.symm hs)
    obtain ⟨k1, k2⟩ := hr ((0 - mean) / sd) ((1 - mean) / sd) i (by
      rw [div_le_div_iff_of_pos_right hpos]; linarith)
    rw [div_le_iff₀ hpos] at k1
    rw [le_div_iff₀ hpos] at k2
    constructor <;> nlinarith
  · rw [gaussianErrors]
    by_cases a : 0 ≤ mean ∧ mean ≤ 1
    · rw [if_neg (not_not.2 a), if_pos]
      exact fun b => h ⟨a.1, a.2, b.1, b.2⟩
    · rw [if_pos a]

/-- Constant rates. -/
theorem C102_constant (val : ℚ) (k : Nat) : if 0 ≤ val ∧ val ≤ 1 then constantErrors val k = .ok (List.replicate k val)
    else constantErrors val k = .error .value := by
  rw [constantErrors]
  split_ifs <;> simp_all

/-- Non-vacuity: draws in the middle. -/
example : Cutoff (fun a b _ => (a + b) / 2) ∧ gaussianErrors (fun a b _ => (a + b) / 2) (1 / 10) (1 / 2) 2 = .ok [1 / 2, 1 / 2] := by
  refine ⟨fun a b _ h => ⟨by linarith, by linarith⟩, ?_⟩
  rw [gaussianErrors, if_neg (by norm_num), if_neg (by norm_num), if_neg (by norm_num)]
  norm_num [List.range_succ]

end Plaquette
